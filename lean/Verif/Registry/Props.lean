import Verif.Registry.Model

set_option linter.unusedSimpArgs false
set_option linter.unusedVariables false

/-!
# C94
-/

namespace Cel.Registry

/-! ### Specification -/

/-- One call of a registry. -/
structure Call where
  name : String
  alias : String
  version : Int
  lib : Nat
  deriving DecidableEq, Repr

/-- After these calls. -/
def after (calls : List Call) : List Entry :=
  calls.foldl (fun regs c => register regs c.name c.alias c.version c.lib) []

/-- The call is for this name: it is its name, or the alias that is given. -/
def Call.isFor (c : Call) (name : String) : Prop := c.name = name ∨ (c.alias ≠ "" ∧ c.alias = name)

/-- `c` is the first call for the name and the version. -/
def First (calls : List Call) (name : String) (version : Int) (c : Call) : Prop :=
  ∃ before behind, calls = before ++ c :: behind ∧ c.isFor name ∧ c.version = version ∧
    ∀ d ∈ before, ¬ (d.isFor name ∧ d.version = version)

/-! ### Proofs -/

def entry (c : Call) : Entry := ⟨c.name, if c.alias = "" then c.name else c.alias, c.version, c.lib⟩

theorem after_eq (calls : List Call) : after calls = calls.map entry := by
  have h : ∀ (calls : List Call) (regs : List Entry),
      calls.foldl (fun regs c => register regs c.name c.alias c.version c.lib) regs = regs ++ calls.map entry := by
    intro calls
    induction calls with
    | nil => simp
    | cons c calls ih => intro regs; rw [List.foldl_cons, ih]; simp [register, entry]
  simpa [after] using h calls []

theorem called_iff (c : Call) (name : String) : called name (entry c) = true ↔ c.isFor name := by
  simp only [called, entry, Call.isFor, Bool.or_eq_true, beq_iff_eq]
  by_cases h : c.alias = "" <;> simp [h]

theorem search_iff (name : String) (v : Int) : ∀ (calls : List Call) (l : Nat),
    search name v (calls.map entry) = some l ↔ ∃ c, First calls name v c ∧ c.lib = l
  | [], l => by simp [search, First]
  | c :: cs, l => by
    by_cases h : c.isFor name ∧ c.version = v
    · have e : search name v ((c :: cs).map entry) = some c.lib := by
        simp only [List.map_cons, search, (called_iff c name).2 h.1, Bool.true_and]
        simp [entry, h.2]
      rw [e]
      constructor
      · intro x
        exact ⟨c, ⟨[], cs, rfl, h.1, h.2, by simp⟩, Option.some.inj x⟩
      · rintro ⟨d, ⟨before, behind, e, hd, hv, hb⟩, rfl⟩
        cases before with
        | nil => simp only [List.nil_append, List.cons.injEq] at e; rw [e.1]
        | cons x before =>
          simp only [List.cons_append, List.cons.injEq] at e
          exact absurd (by rw [← e.1]; exact h) (hb x (by simp))
    · have e : search name v ((c :: cs).map entry) = search name v (cs.map entry) := by
        simp only [List.map_cons, search]
        rw [if_neg]
        simp only [Bool.and_eq_true, beq_iff_eq, called_iff]
        exact h
      rw [e, search_iff name v cs l]
      constructor
      · rintro ⟨d, ⟨before, behind, e, hd, hv, hb⟩, hl⟩
        refine ⟨d, ⟨c :: before, behind, by rw [e]; rfl, hd, hv, fun x hx => ?_⟩, hl⟩
        rcases List.mem_cons.1 hx with rfl | hx
        · exact h
        · exact hb x hx
      · rintro ⟨d, ⟨before, behind, e, hd, hv, hb⟩, hl⟩
        cases before with
        | nil =>
          simp only [List.nil_append, List.cons.injEq] at e
          exact absurd (by rw [e.1]; exact ⟨hd, hv⟩) h
        | cons x before =>
          simp only [List.cons_append, List.cons.injEq] at e
          exact ⟨d, ⟨before, behind, e.2, hd, hv, fun y hy => hb y (by simp [hy])⟩, hl⟩

theorem max_spec (name : String) : ∀ (calls : List Call) (m : Int),
    m ≤ maxVersion name m (calls.map entry) ∧
    (∀ c ∈ calls, c.isFor name → c.version ≤ maxVersion name m (calls.map entry)) ∧
    (maxVersion name m (calls.map entry) = m ∨ ∃ c ∈ calls, c.isFor name ∧ c.version = maxVersion name m (calls.map entry))
  | [], m => by simp [maxVersion]
  | c :: cs, m => by
    simp only [List.map_cons, maxVersion]
    by_cases h : c.isFor name ∧ c.version > m
    · have e : (called name (entry c) && decide ((entry c).version > m)) = true := by
        simp only [Bool.and_eq_true, called_iff, decide_eq_true_eq]; exact h
      rw [if_pos e]
      obtain ⟨h1, h2, h3⟩ := max_spec name cs c.version
      have e' : (entry c).version = c.version := rfl
      rw [e']
      refine ⟨by omega, fun d hd hf => ?_, ?_⟩
      · rcases List.mem_cons.1 hd with rfl | hd
        · exact h1
        · exact h2 d hd hf
      · rcases h3 with h3 | ⟨d, hd, hf, hv⟩
        · exact Or.inr ⟨c, by simp, h.1, h3.symm⟩
        · exact Or.inr ⟨d, by simp [hd], hf, hv⟩
    · have e : ¬ (called name (entry c) && decide ((entry c).version > m)) = true := by
        simp only [Bool.and_eq_true, called_iff, decide_eq_true_eq]; exact h
      rw [if_neg e]
      obtain ⟨h1, h2, h3⟩ := max_spec name cs m
      refine ⟨h1, fun d hd hf => ?_, ?_⟩
      · rcases List.mem_cons.1 hd with rfl | hd
        · have : ¬ d.version > m := fun x => h ⟨hf, x⟩
          omega
        · exact h2 d hd hf
      · rcases h3 with h3 | ⟨d, hd, hf, hv⟩
        · exact Or.inl h3
        · exact Or.inr ⟨d, by simp [hd], hf, hv⟩

theorem first_ex {name : String} {v : Int} : ∀ {calls : List Call} {c : Call}, c ∈ calls → c.isFor name → c.version = v →
    ∃ d, First calls name v d
  | x :: calls, c, h, hf, hv => by
    by_cases hx : x.isFor name ∧ x.version = v
    · exact ⟨x, [], calls, rfl, hx.1, hx.2, by simp⟩
    · rcases List.mem_cons.1 h with rfl | h
      · exact absurd ⟨hf, hv⟩ hx
      · obtain ⟨d, before, behind, e, h1, h2, h3⟩ := first_ex h hf hv
        refine ⟨d, x :: before, behind, by rw [e]; rfl, h1, h2, fun y hy => ?_⟩
        rcases List.mem_cons.1 hy with rfl | hy
        · exact hx
        · exact h3 y hy

theorem first_mem {name : String} {v : Int} {calls : List Call} {c : Call} (h : First calls name v c) :
    c ∈ calls ∧ c.isFor name ∧ c.version = v := by
  obtain ⟨before, behind, e, h1, h2, _⟩ := h
  exact ⟨by rw [e]; simp, h1, h2⟩

/-! ### The theorems -/

/-- **C94 (a version).** A version gives what was first registered for the name and it. -/
theorem C94_version (calls : List Call) (name : String) (v : Int) (hv : v ≠ latest) (l : Nat) :
    get (after calls) name v = some l ↔ ∃ c, First calls name v c ∧ c.lib = l := by
  rw [get, if_neg hv, after_eq, search_iff]

/-- **C94 (the latest).** "Latest" gives what was first registered for the name and the greatest of its versions,
negative versions left out. -/
theorem C94_latest (calls : List Call) (name : String) (l : Nat) :
    get (after calls) name latest = some l ↔
      ∃ c, First calls name c.version c ∧ 0 ≤ c.version ∧ (∀ d ∈ calls, d.isFor name → d.version ≤ c.version) ∧ c.lib = l := by
  obtain ⟨h1, h2, h3⟩ := max_spec name calls (-1)
  rw [get, if_pos rfl, after_eq]
  simp only
  constructor
  · intro h
    split at h
    · exact absurd h (by simp)
    · rename_i hm
      obtain ⟨c, hc, hl⟩ := (search_iff name _ calls l).1 h
      have hv := (first_mem hc).2.2
      rw [← hv] at hc
      exact ⟨c, hc, by omega, fun d hd hf => by rw [hv]; exact h2 d hd hf, hl⟩
  · rintro ⟨c, hc, h0, hm, hl⟩
    have hmem := first_mem hc
    have e : maxVersion name (-1) (calls.map entry) = c.version := by
      have := h2 c hmem.1 hmem.2.1
      rcases h3 with h3 | ⟨d, hd, hf, hv⟩
      · omega
      · have := hm d hd hf
        omega
    rw [e, if_neg (by omega)]
    exact (search_iff name _ calls l).2 ⟨c, hc, hl⟩

/-- **C94 (found).** A version is found if and only if it was registered for the name, "latest" if and only if some
version that is not negative was. -/
theorem C94_found (calls : List Call) (name : String) (v : Int) :
    (get (after calls) name v).isSome = true ↔ ∃ c ∈ calls, c.isFor name ∧ (if v = latest then 0 ≤ c.version else c.version = v) := by
  by_cases hv : v = latest
  · subst hv
    simp only [if_true]
    constructor
    · intro h
      obtain ⟨l, hl⟩ := Option.isSome_iff_exists.1 h
      obtain ⟨c, hc, h0, _, _⟩ := (C94_latest calls name l).1 hl
      exact ⟨c, (first_mem hc).1, (first_mem hc).2.1, h0⟩
    · rintro ⟨c, hc, hf, h0⟩
      obtain ⟨h1, h2, h3⟩ := max_spec name calls (-1)
      have := h2 c hc hf
      rcases h3 with h3 | ⟨d, hd, hdf, hdv⟩
      · omega
      · obtain ⟨x, hx⟩ := first_ex hd hdf rfl
        have hxv := (first_mem hx).2.2
        refine Option.isSome_iff_exists.2 ⟨x.lib, (C94_latest calls name _).2 ⟨x, by rw [hxv]; exact hx, by omega, fun y hy hyf => ?_, rfl⟩⟩
        have := h2 y hy hyf
        omega
  · simp only [if_neg hv]
    constructor
    · intro h
      obtain ⟨l, hl⟩ := Option.isSome_iff_exists.1 h
      obtain ⟨c, hc, _⟩ := (C94_version calls name v hv l).1 hl
      exact ⟨c, (first_mem hc).1, (first_mem hc).2.1, (first_mem hc).2.2⟩
    · rintro ⟨c, hc, hf, hcv⟩
      obtain ⟨x, hx⟩ := first_ex hc hf hcv
      exact Option.isSome_iff_exists.2 ⟨x.lib, (C94_version calls name v hv _).2 ⟨x, hx, rfl⟩⟩

/-- **C94 (stable).** What a version gives does not change by further registrations. -/
theorem C94_stable (calls more : List Call) (name : String) (v : Int) (hv : v ≠ latest) (l : Nat)
    (h : get (after calls) name v = some l) : get (after (calls ++ more)) name v = some l := by
  obtain ⟨c, ⟨before, behind, e, h1, h2, h3⟩, hl⟩ := (C94_version calls name v hv l).1 h
  exact (C94_version _ name v hv l).2 ⟨c, ⟨before, behind ++ more, by rw [e]; simp, h1, h2, h3⟩, hl⟩

/-- **C94, negative versions.** A library whose only version is -1 is found by its version and not as the latest. -/
theorem C94_boundary :
    get (after [⟨"a", "", -1, 7⟩]) "a" (-1) = some 7 ∧ get (after [⟨"a", "", -1, 7⟩]) "a" latest = none := by
  refine ⟨by decide +kernel, by decide +kernel⟩

/-- A case: two versions of `cel.lib.math`, called `math`, and another library that takes the same alias. -/
theorem C94_example :
    (let r := after [⟨"cel.lib.math", "math", 0, 1⟩, ⟨"cel.lib.math", "math", 2, 2⟩, ⟨"other", "math", 2, 3⟩, ⟨"strings", "", 1, 4⟩]
     get r "math" latest = some 2 ∧ get r "math" 0 = some 1 ∧ get r "other" 2 = some 3 ∧ get r "strings" latest = some 4 ∧
     get r "math" 1 = none ∧ get r "" latest = none) := by
  decide +kernel

end Cel.Registry
