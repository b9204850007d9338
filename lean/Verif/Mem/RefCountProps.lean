import Verif.Mem.RefCount

/-
C51: an object shared through reference counting is finalized once, freed
once, in that order, and never while somebody can still reach it – for every
number of threads and every interleaving.
-/

set_option linter.unusedVariables false
set_option linter.unusedSimpArgs false

namespace Cel.Mem

/-! ### The invariant -/

/-- Sum of a measure over the threads. -/
def tsum (f : Th → Nat) (l : List Th) : Nat := (l.map f).sum

theorem tsum_append (f : Th → Nat) (a b : List Th) :
    tsum f (a ++ b) = tsum f a + tsum f b := by
  simp [tsum, List.sum_append]

theorem tsum_cons (f : Th → Nat) (t : Th) (b : List Th) :
    tsum f (t :: b) = f t + tsum f b := by
  simp [tsum]

def atFin (t : Th) : Nat := if t.pc = .atFinalize then 1 else 0
def atWk (t : Th) : Nat := if t.pc = .atWeakUnref then 1 else 0
def atDel (t : Th) : Nat := if t.pc = .atDelete then 1 else 0

/-- A thread inside `StrengthenRef` has a weak handle and has loaded a
non-negative count; if it has loaded 0, no strong handle (`S`) is left. -/
def StrOk (S : Nat) (t : Th) : Prop :=
  ∀ c, t.pc = .strengthening c → 0 < t.weak ∧ 0 ≤ c ∧ (c = 0 → S = 0)

/-- The arithmetic of the invariant: counters `sc`, `wc`; `S`, `W` handles; `F`
threads before `Finalize`, `K` threads between `Finalize` and the release of
the weak reference the strong handles share, `D` threads before `Delete`;
`fin`, `del` events so far. -/
def Arith (sc wc : Int) (S W F K D fin del : Nat) : Prop :=
  sc = S
  ∧ ((1 ≤ S ∧ F = 0 ∧ K = 0 ∧ fin = 0 ∧ wc = W + 1)
      ∨ (S = 0 ∧ F + fin = 1 ∧ K ≤ fin ∧ wc = W + F + K))
  ∧ ((1 ≤ wc ∧ D = 0 ∧ del = 0) ∨ (wc = 0 ∧ D + del = 1))
  ∧ S ≤ 2147483647 ∧ W + 1 ≤ 2147483647

structure Inv (tr : List Ev) (s : Sys) : Prop where
  arith : Arith s.b.strong s.b.weak (strongHandles s) (weakHandles s)
    (tsum atFin s.th) (tsum atWk s.th) (tsum atDel s.th)
    (tr.count .finalize) (tr.count .delete)
  str : ∀ t ∈ s.th, StrOk (strongHandles s) t

theorem inv_start : Inv [] start where
  arith := by unfold Arith; decide
  str := by
    intro t ht c hc
    simp [start] at ht
    subst ht
    cases hc

theorem strongHandles_eq (b : Block) (l : List Th) (ts tw : Nat) :
    strongHandles ⟨b, l, ts, tw⟩ = tsum (·.strong) l + ts := rfl

theorem weakHandles_eq (b : Block) (l : List Th) (ts tw : Nat) :
    weakHandles ⟨b, l, ts, tw⟩ = tsum (·.weak) l + tw := rfl

theorem wrap32_id {x : Int} (h0 : 0 ≤ x) (h1 : x ≤ 2147483647) : wrap32 x = x := by
  unfold wrap32; omega

theorem strOk_mono {S S' : Nat} {t : Th} (h : StrOk S t) (m : S = 0 → S' = 0) :
    StrOk S' t := fun c hc => ⟨(h c hc).1, (h c hc).2.1, fun z => m ((h c hc).2.2 z)⟩

theorem str_replace {S S' : Nat} {pre post : List Th} {t t' : Th}
    (h : ∀ u ∈ pre ++ t :: post, StrOk S u) (m : S = 0 → S' = 0) (h' : StrOk S' t') :
    ∀ u ∈ pre ++ t' :: post, StrOk S' u := by
  intro u hu
  rcases List.mem_append.1 hu with hu | hu
  · exact strOk_mono (h u (List.mem_append.2 (Or.inl hu))) m
  · rcases List.mem_cons.1 hu with hu | hu
    · exact hu ▸ h'
    · exact strOk_mono
        (h u (List.mem_append.2 (Or.inr (List.mem_cons.2 (Or.inr hu))))) m

theorem strOk_idle (S s w : Nat) : StrOk S ⟨s, w, .idle⟩ := by intro c hc; cases hc
theorem strOk_fin (S s w : Nat) : StrOk S ⟨s, w, .atFinalize⟩ := by intro c hc; cases hc
theorem strOk_wk (S s w : Nat) : StrOk S ⟨s, w, .atWeakUnref⟩ := by intro c hc; cases hc
theorem strOk_del (S s w : Nat) : StrOk S ⟨s, w, .atDelete⟩ := by intro c hc; cases hc

theorem dead_mono {tr : List Ev} {s s' : Sys} {e : Ev} (h : Inv tr s)
    (st : Step s e s') : strongHandles s = 0 → strongHandles s' = 0 := by
  obtain ⟨ar, str⟩ := h
  intro hs
  cases st with
  | run pre post t t' b b' ts tw e hts =>
    cases hts <;>
      simp [Arith, strongHandles_eq, weakHandles_eq, tsum_append, tsum_cons, atFin, atWk,
        atDel] at * <;> omega
  | _ =>
    simp [strongHandles_eq, tsum_append, tsum_cons] at *
    try omega

theorem inv_step {tr : List Ev} {s s' : Sys} {e : Ev} (h : Inv tr s)
    (st : Step s e s') (fit : Fits s') : Inv (tr ++ [e]) s' := by
  have mono := dead_mono h st
  obtain ⟨ar, str⟩ := h
  cases st with
  | spawn th b ts tw =>
    refine ⟨?_, ?_⟩
    · simp [Fits, Arith, strongHandles_eq, weakHandles_eq, tsum_cons, atFin, atWk,
        atDel, List.count_append] at *
      omega
    · intro t ht
      rcases List.mem_cons.1 ht with h | h
      · subst h; exact strOk_idle _ _ _
      · exact strOk_mono (str t h) mono
  | giveStrong pre post b s w ts tw =>
    refine ⟨?_, str_replace str mono (strOk_idle _ _ _)⟩
    simp [Fits, Arith, strongHandles_eq, weakHandles_eq, tsum_append, tsum_cons, atFin,
      atWk, atDel, List.count_append] at *
    omega
  | takeStrong pre post b s w ts tw =>
    refine ⟨?_, str_replace str mono (strOk_idle _ _ _)⟩
    simp [Fits, Arith, strongHandles_eq, weakHandles_eq, tsum_append, tsum_cons, atFin,
      atWk, atDel, List.count_append] at *
    omega
  | giveWeak pre post b s w ts tw =>
    refine ⟨?_, str_replace str mono (strOk_idle _ _ _)⟩
    simp [Fits, Arith, strongHandles_eq, weakHandles_eq, tsum_append, tsum_cons, atFin,
      atWk, atDel, List.count_append] at *
    omega
  | takeWeak pre post b s w ts tw =>
    refine ⟨?_, str_replace str mono (strOk_idle _ _ _)⟩
    simp [Fits, Arith, strongHandles_eq, weakHandles_eq, tsum_append, tsum_cons, atFin,
      atWk, atDel, List.count_append] at *
    omega
  | run pre post t t' b b' ts tw e ht =>
    have hst := str t (List.mem_append.2 (Or.inr (List.mem_cons_self ..)))
    refine ⟨?_, str_replace str mono ?_⟩
    · cases ht <;>
        simp [Fits, Arith, strongHandles_eq, weakHandles_eq, tsum_append, tsum_cons, atFin,
          atWk, atDel, List.count_append, wrap32] at * <;>
        omega
    · cases ht <;> first
        | exact strOk_idle _ _ _
        | exact strOk_fin _ _ _
        | exact strOk_wk _ _ _
        | exact strOk_del _ _ _
        | (intro c hc
           cases hc
           have h : b.strong = _ := ar.1
           refine ⟨?_, by omega, fun z => mono (by omega)⟩
           first
             | exact Nat.succ_pos _
             | exact (hst _ rfl).1)

theorem inv_of_exec {tr : List Ev} {s : Sys} (h : Exec tr s) : Inv tr s := by
  induction h with
  | nil => exact inv_start
  | step _ st fit ih => exact inv_step ih st fit

/-! ### The theorems -/

/-- An event that reads or writes the control block. -/
def Touches : Ev → Prop
  | .pass => False
  | .deref => False
  | .drop => False
  | _ => True

/-- **C51.** `Finalize` runs at most once, and not while a strong handle
exists anywhere. -/
theorem C51_finalize_once {tr : List Ev} {s : Sys} (h : Exec tr s) :
    tr.count .finalize ≤ 1 ∧ (0 < strongHandles s → .finalize ∉ tr) := by
  have ⟨ar, _⟩ := inv_of_exec h
  unfold Arith at ar
  refine ⟨by omega, fun hs => ?_⟩
  rw [← List.count_eq_zero]
  omega

/-- **C51.** Whoever looks at the object through a strong handle finds it not
finalized, and its memory not freed. -/
theorem C51_no_use_after_finalize {tr : List Ev} {s s' : Sys} (h : Exec tr s)
    (st : Step s .deref s') : .finalize ∉ tr ∧ .delete ∉ tr := by
  have ⟨ar, _⟩ := inv_of_exec h
  have hs : 0 < strongHandles s := by
    cases st with
    | run pre post t t' b b' ts tw e ht =>
      cases ht
      simp [strongHandles_eq, tsum_append, tsum_cons]
      omega
  unfold Arith at ar
  rw [← List.count_eq_zero, ← List.count_eq_zero]
  omega

/-- **C51.** No thread touches the control block after `Delete`; in
particular `Delete` runs at most once. -/
theorem C51_no_use_after_free {tr : List Ev} {s s' : Sys} {e : Ev} (h : Exec tr s)
    (st : Step s e s') (ht : Touches e) : .delete ∉ tr := by
  have ⟨ar, hstr⟩ := inv_of_exec h
  rw [← List.count_eq_zero]
  cases st with
  | run pre post t t' b b' ts tw e hts =>
    have hst := hstr t (List.mem_append.2 (Or.inr (List.mem_cons_self ..)))
    cases hts <;>
      simp [Arith, strongHandles_eq, weakHandles_eq, tsum_append, tsum_cons, atFin, atWk,
        atDel] at ar <;> first
      | omega
      | (have := (hst _ rfl).1
         simp only at this
         omega)
      | exact ht.elim
  | _ => exact ht.elim

/-- **C51.** The memory is freed only after the object has been finalized, and
when nobody – neither strongly nor weakly – refers to it any more. -/
theorem C51_delete_last {tr : List Ev} {s s' : Sys} (h : Exec tr s)
    (st : Step s .delete s') :
    .finalize ∈ tr ∧ strongHandles s = 0 ∧ weakHandles s = 0 := by
  have ⟨ar, hstr⟩ := inv_of_exec h
  rw [← List.count_pos_iff]
  cases st with
  | run pre post t t' b b' ts tw e hts =>
    cases hts
    simp [Arith, strongHandles_eq, weakHandles_eq, tsum_append, tsum_cons, atFin, atWk,
        atDel] at ar
    simp only [strongHandles_eq, weakHandles_eq, tsum_append, tsum_cons]
    omega

/-- **C51.** No leak: when every handle has been given up and every call has
returned, the object has been finalized and its memory freed, once each. -/
theorem C51_no_leak {tr : List Ev} {s : Sys} (h : Exec tr s)
    (hs : strongHandles s = 0) (hw : weakHandles s = 0)
    (idle : ∀ t ∈ s.th, t.pc = .idle) :
    tr.count .finalize = 1 ∧ tr.count .delete = 1 := by
  have ⟨ar, _⟩ := inv_of_exec h
  have z : ∀ (f : Th → Nat) (l : List Th), (∀ t ∈ l, f t = 0) → tsum f l = 0 := by
    intro f l hl
    induction l with
    | nil => rfl
    | cons a l ih =>
      rw [tsum_cons, hl a (List.mem_cons_self ..),
        ih (fun t ht => hl t (List.mem_cons_of_mem _ ht))]
  have h1 := z atFin s.th (fun t ht => by simp [atFin, idle t ht])
  have h2 := z atWk s.th (fun t ht => by simp [atWk, idle t ht])
  have h3 := z atDel s.th (fun t ht => by simp [atDel, idle t ht])
  unfold Arith at ar
  omega

/-- The count that each checked access asserts (`ABSL_DCHECK_*` and
`ABSL_ASSUME`, reference_count.h:294, 306-307, 324-325, 346, 358-359, 374-375,
387-388). -/
def CountOk : Ev → Prop
  | .strongAdd c | .strongSub c | .weakAdd c | .weakSub c | .unique c _ => 0 < c
  | .strongLoad c | .expired c _ => 0 ≤ c
  | _ => True

/-- **C51.** Every assertion about a count holds, so `ABSL_ASSUME` never makes
the behaviour undefined. -/
theorem C51_assumptions_hold {tr : List Ev} {s : Sys} (h : Exec tr s) :
    ∀ e ∈ tr, CountOk e := by
  induction h with
  | nil => intro e he; cases he
  | @step tr s s' e h st fit ih =>
    intro e' he'
    rcases List.mem_append.1 he' with he' | he'
    · exact ih e' he'
    · rw [List.mem_singleton] at he'
      subst he'
      have ⟨ar, hstr⟩ := inv_of_exec h
      cases st with
      | run pre post t t' b b' ts tw e hts =>
        cases hts <;> try trivial
        all_goals
          simp [Arith, strongHandles_eq, weakHandles_eq, tsum_append, tsum_cons, atFin,
            atWk, atDel] at ar
          simp only [CountOk]
          omega
      | _ => trivial

/-- **C51.** `StrengthenRef` returns true exactly by creating a strong handle to
an object that is not finalized, and false only when no strong handle is
left. -/
theorem C51_strengthen {tr : List Ev} {s s' : Sys} {ok : Bool} (h : Exec tr s)
    (st : Step s (.strengthened ok) s') (fit : Fits s') :
    (ok = true → .finalize ∉ tr ∧ 0 < strongHandles s
      ∧ strongHandles s' = strongHandles s + 1)
    ∧ (ok = false → strongHandles s = 0 ∧ strongHandles s' = 0) := by
  have ⟨ar, hstr⟩ := inv_of_exec h
  have mono := dead_mono (inv_of_exec h) st
  rw [← List.count_eq_zero]
  cases st with
  | run pre post t t' b b' ts tw e hts =>
    have hst := hstr t (List.mem_append.2 (Or.inr (List.mem_cons_self ..)))
    cases hts
    · have := (hst 0 rfl).2.2 rfl
      exact ⟨fun h => Bool.noConfusion h, fun _ => ⟨this, mono this⟩⟩
    · clear hst hstr mono
      simp [Arith, strongHandles_eq, weakHandles_eq, tsum_append, tsum_cons, atFin, atWk,
        atDel] at * <;> omega

/-- **C51.** Once no strong handle is left none ever comes back. -/
theorem C51_expired_forever {tr : List Ev} {s s' : Sys} {e : Ev} (h : Exec tr s)
    (hs : strongHandles s = 0) (st : Step s e s') : strongHandles s' = 0 :=
  dead_mono (inv_of_exec h) st hs

/-- **C51.** `IsUniqueRef` says exactly whether the caller's handle is the only
strong handle. -/
theorem C51_unique {tr : List Ev} {s s' : Sys} {v : Int} {r : Bool} (h : Exec tr s)
    (st : Step s (.unique v r) s') : r = true ↔ strongHandles s = 1 := by
  have ⟨ar, _⟩ := inv_of_exec h
  cases st with
  | run pre post t t' b b' ts tw e hts =>
    cases hts
    simp [Arith, strongHandles_eq, weakHandles_eq, tsum_append, tsum_cons, atFin, atWk,
        atDel] at *
    omega

/-- **C51.** `IsExpiredRef` says exactly whether no strong handle is left. -/
theorem C51_expired {tr : List Ev} {s s' : Sys} {v : Int} {r : Bool} (h : Exec tr s)
    (st : Step s (.expired v r) s') : r = true ↔ strongHandles s = 0 := by
  have ⟨ar, _⟩ := inv_of_exec h
  cases st with
  | run pre post t t' b b' ts tw e hts =>
    cases hts
    simp [Arith, strongHandles_eq, weakHandles_eq, tsum_append, tsum_cons, atFin, atWk,
        atDel] at *
    omega

end Cel.Mem
