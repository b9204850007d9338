import Verif.Mem.ByteStringFind

/-
C52: concrete histories, and what goes wrong outside the interface.
-/

set_option linter.unusedVariables false
set_option maxRecDepth 4000

namespace Cel.Mem

/-- A string too long to be stored inline. -/
def twenty : Bytes := [0,1,2,3,4,5,6,7,8,9,10,11,12,13,14,15,16,17,18,19]

/-- A string sharing memory with a substring of it and with a cord made from
it; the original dies first, the substring shrinks to the inline form. -/
def tour : List Op :=
  [.ofString 0 none twenty, .substring 1 0 2 19, .viaCord 2 0 none, .destroy 0,
   .removeSuffix 1 10, .concat 0 1 2 7, .clone 3 2 5, .assign 2 3, .swap 1 3]

example : ∃ s l, Hist 4 tour s l
    ∧ l = [.val ([2,3,4,5,6,7,8] ++ twenty), .val twenty, .val twenty,
        .val [2,3,4,5,6,7,8]] := by
  refine ⟨_, _,
      Hist.step (op := .swap 1 3)
      (Hist.step (op := .assign 2 3)
      (Hist.step (op := .clone 3 2 5)
      (Hist.step (op := .concat 0 1 2 7)
      (Hist.step (op := .removeSuffix 1 10)
      (Hist.step (op := .destroy 0)
      (Hist.step (op := .viaCord 2 0 none)
      (Hist.step (op := .substring 1 0 2 19)
      (Hist.step (op := .ofString 0 none twenty) (Hist.nil (n := 4)) rfl trivial rfl)
        ⟨rfl, ⟨_, rfl⟩, by decide, by decide⟩ trivial rfl)
        ⟨rfl, ⟨_, rfl⟩⟩ trivial rfl)
        (Or.inl ⟨_, rfl⟩) trivial rfl)
        ⟨⟨_, rfl⟩, by decide⟩ trivial rfl)
        ⟨rfl, ⟨_, rfl⟩, ⟨_, rfl⟩⟩ trivial rfl)
        ⟨rfl, ⟨_, rfl⟩⟩ trivial rfl)
        ⟨Or.inl ⟨_, rfl⟩, ⟨_, rfl⟩⟩ trivial rfl)
        ⟨Or.inl ⟨_, rfl⟩, Or.inl ⟨_, rfl⟩⟩ trivial rfl, rfl⟩

/-- Outside the interface: a string that has been moved from keeps its pointer
(byte_string.cc:714-718).  Reading it, or copying it with an allocator, after
the string it was moved to has died is a use after free – a moved-from string is
not "valid but unspecified". -/
theorem C52_moved_from_dangles :
    ∃ s l, Hist 3 [.ofString 0 none twenty, .move 1 0 none, .destroy 1] s l
      ∧ (∃ r, s.var 0 = .moved r ∧ r.size = 20 ∧ r.toBytes s.heap = none)
      ∧ step s (.copy 2 0 (some (some 0))) = none := by
  refine ⟨_, _,
    Hist.step (op := .destroy 1)
      (Hist.step (op := .move 1 0 none)
        (Hist.step (op := .ofString 0 none twenty) (Hist.nil (n := 3)) rfl trivial rfl)
        ⟨rfl, ⟨_, rfl⟩⟩ trivial rfl)
      (Or.inl ⟨_, rfl⟩) trivial rfl, ⟨_, rfl, rfl, rfl⟩, rfl⟩

/-- The arena of a byte string is not fixed at construction: `a = b` takes `b`'s
(byte_string.cc:733-737), although the class comment says "once constructed, the
allocator will not and cannot change" (byte_string.h). -/
theorem C52_assign_changes_arena :
    ∃ s l, Hist 2 [.ofString 0 (some 1) twenty, .ofString 1 (some 2) [7], .assign 0 1] s l
      ∧ ∃ r, s.var 0 = .live r ∧ r.getArena = some 2 := by
  refine ⟨_, _,
    Hist.step (op := .assign 0 1)
      (Hist.step (op := .ofString 1 (some 2) [7])
        (Hist.step (op := .ofString 0 (some 1) twenty) (Hist.nil (n := 2)) rfl trivial rfl)
        rfl trivial rfl)
      ⟨Or.inl ⟨_, rfl⟩, ⟨_, rfl⟩⟩ trivial rfl, _, rfl, rfl⟩

/-- The same for the hypothesis on arenas: a substring of a string on an arena
still says which arena it is on, and destroying that arena under it is what the
interface forbids. -/
theorem C52_arena_reset_needed :
    ∃ s l, Hist 2 [.ofString 0 (some 1) twenty, .substring 1 0 0 3, .destroy 0] s l
      ∧ ¬ AllowedHere s (.resetArena 1)
      ∧ ∃ s', step s (.resetArena 1) = some s' ∧ ¬ Reads s' l := by
  refine ⟨_, _,
    Hist.step (op := .destroy 0)
      (Hist.step (op := .substring 1 0 0 3)
        (Hist.step (op := .ofString 0 (some 1) twenty) (Hist.nil (n := 2)) rfl trivial rfl)
        ⟨rfl, ⟨_, rfl⟩, by decide, by decide⟩ trivial rfl)
      (Or.inl ⟨_, rfl⟩) trivial rfl, ?_, _, rfl, ?_⟩
  · intro h
    exact h _ (List.mem_cons_of_mem _ (List.mem_cons_self ..)) rfl
  · intro h
    have := congrArg (fun x => x[1]?) h
    exact absurd this (by intro e; cases e)

/-- In a debug build: copying a short substring of a long string to an arena
goes through `SetMedium(allocator, string)`, which asserts that the string is
longer than the inline form (byte_string.cc:962, `ABSL_DCHECK_GT`). -/
theorem C52_short_medium :
    ∃ s l, Hist 3 [.ofString 0 none twenty, .substring 1 0 0 3, .copy 2 1 (some (some 0))] s l
      ∧ ∃ p o, s.var 2 = .live (.medium p 3 o) := by
  refine ⟨_, _,
    Hist.step (op := .copy 2 1 (some (some 0)))
      (Hist.step (op := .substring 1 0 0 3)
        (Hist.step (op := .ofString 0 none twenty) (Hist.nil (n := 3)) rfl trivial rfl)
        ⟨rfl, ⟨_, rfl⟩, by decide, by decide⟩ trivial rfl)
      ⟨rfl, ⟨_, rfl⟩⟩ trivial rfl, _, _, rfl⟩

theorem scanFrom_eq (s first rest : Bytes) (size cur : Nat) :
    scanFrom s first rest size cur =
      match svFind s first cur with
      | none => none
      | some f =>
        if f > s.length - size then none
        else if ((s.drop (f + first.length)).take rest.length) = rest then some f
        else scanFrom s first rest size (f + 1) := by
  rw [scanFrom]; split <;> rename_i h <;> rw [h]

/-- The needle in two pieces: found where it is, past a false start. -/
example : flatFindCord [1,1,2,1,2,3] [[1,2],[3]] 0 = some 3
    ∧ FirstFrom [1,1,2,1,2,3] [1,2,3] 0 3 := by
  have e : flatFindCord [1,1,2,1,2,3] [[1,2],[3]] 0 = some 3 := by
    show scanFrom [1,1,2,1,2,3] [1,2] [3] 3 0 = some 3
    rw [scanFrom_eq, show svFind [1,1,2,1,2,3] [1,2] 0 = some 1 from rfl]
    show scanFrom [1,1,2,1,2,3] [1,2] [3] 3 2 = some 3
    rw [scanFrom_eq, show svFind [1,1,2,1,2,3] [1,2] 2 = some 3 from rfl]
    rfl
  have h := flatFind_answer [1,1,2,1,2,3] [[1,2],[3]] 0 (by decide)
  rw [e] at h
  exact ⟨e, h⟩

end Cel.Mem
