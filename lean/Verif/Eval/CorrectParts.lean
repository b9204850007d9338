import Verif.Eval.CorrectBase

/-!
# Simulation: variables and loops
-/

set_option linter.unusedSimpArgs false
set_option linter.unusedVariables false

namespace Cel.Eval
open Cel

variable {σ : Type} {cfg : Cfg σ} {P : Prog σ} {B : Nat → Prop}

/-- The instruction a variable in scope compiles to. -/
def entInstr (x : String) : Ent → Instr σ
  | .val k => .slot x k
  | .delayed k _ sub => .lazyInit k sub

/-- Names not in scope are not in the environment. -/
theorem rel_none {Γ : Scope} {ρ : Env σ} {sl : Slots} {h : List (Option VA)} {x : String}
    (hr : Rel B Γ ρ sl h) (hx : scopeGet Γ x = none) : envGet ρ x = none := by
  induction Γ generalizing ρ with
  | nil => cases ρ with
    | nil => rfl
    | cons _ _ => exact hr.elim
  | cons p Γ ih =>
    obtain ⟨y, e⟩ := p
    unfold scopeGet at hx
    by_cases hxy : x = y
    · rw [if_pos hxy] at hx; cases hx
    · rw [if_neg hxy] at hx
      cases ρ with
      | nil => cases e <;> exact hr.elim
      | cons q ρ =>
        obtain ⟨z, b⟩ := q
        cases e <;> cases b
        · obtain ⟨h1, _, h3⟩ := hr
          subst h1
          unfold envGet; rw [if_neg hxy]; exact ih h3 hx
        · exact hr.elim
        · exact hr.elim
        · obtain ⟨h1, _, _, h3⟩ := hr
          subst h1
          unfold envGet; rw [if_neg hxy]; exact ih h3 hx

/-- A variable in scope: its instruction reads the binding (running the initializer if needed). -/
theorem sim_var {code : List (Instr σ)} {kc pc : Nat} (hk : P[kc]? = some code) {x : String}
    {st : List VA} {its : List (List Item)} {cs : List (Nat × Nat × Nat)} {s : SS σ} {sl : Slots} :
    ∀ (Γ : Scope) (ρ : Env σ) (n : Nat) (e : Ent), WF Γ n → Good cfg P B Γ ρ → Rel B Γ ρ sl s.heap →
      scopeGet Γ x = some e → code[pc]? = some (entInstr x e) →
      ∃ b, envGet ρ x = some b ∧
        Concl cfg P B Γ ρ 0 0 ⟨kc, pc, st, its, sl, cs, s.host, s.count⟩ kc (pc + 1) (· :: st) its cs sl
          s.heap (readBinding b s) := by
  intro Γ
  induction Γ with
  | nil => intro ρ n e _ _ _ hx; cases hx
  | cons p Γ ih =>
    intro ρ n e wf hg hr hx hpc
    obtain ⟨y, e0⟩ := p
    unfold scopeGet at hx
    cases ρ with
    | nil => cases e0 <;> exact hr.elim
    | cons q ρ =>
      obtain ⟨z, b⟩ := q
      by_cases hxy : x = y
      · rw [if_pos hxy] at hx
        cases hx
        cases e with
        | val k =>
          cases b with
          | delayed c th => exact hr.elim
          | val a =>
            refine ⟨.val a, ?_, ?_⟩
            · unfold envGet; rw [if_pos (hxy.trans hr.1)]
            · refine Concl.ok sl (Steps.one ?_) ⟨hr, fun j _ _ h2 => by omega⟩ Chg.refl
              rw [step_at hk hpc]
              simp [entInstr, exec, hr.2.1]
        | delayed k w sub =>
          cases b with
          | val a => exact hr.elim
          | delayed c th =>
            refine ⟨.delayed c th, ?_, ?_⟩
            · unfold envGet; rw [if_pos (hxy.trans hr.1)]
            · obtain ⟨hr1, hr2, hr3, hr4⟩ := hr
              obtain ⟨hg1, ⟨cd, hcd, hsim⟩, hg3⟩ := hg
              unfold readBinding
              simp only [hr2]
              cases hslk : sl k with
              | some a =>
                refine Concl.ok sl (Steps.one ?_) ⟨⟨hr1, hr2, hr3, hr4⟩, fun j _ _ h2 => by omega⟩ Chg.refl
                rw [step_at hk hpc]
                simp [entInstr, exec, hslk]
              | none =>
                have hstep : step cfg P ⟨kc, pc, st, its, sl, cs, s.host, s.count⟩ =
                    .next ⟨sub, 0, st, its, sl, (kc, pc + 1, k) :: cs, s.host, s.count⟩ := by
                  rw [step_at hk hpc]
                  simp [entInstr, exec, hslk]
                have hc := hsim st its sl ((kc, pc + 1, k) :: cs) s ⟨hr4, hr3⟩
                refine Concl.steps (Steps.one hstep) ?_
                simp only
                cases ho : th s with
                | err e h => rw [ho] at hc; exact hc
                | ub => rw [ho] at hc; exact hc
                | ok a s' =>
                  rw [ho] at hc
                  obtain ⟨sl', hs', hi', hc'⟩ := hc
                  have hclt : c < s.heap.length := (List.getElem?_eq_some_iff.1 hr2).1
                  have hclt' : c < s'.heap.length := by rw [hc'.2.1]; exact hclt
                  have hnc : ¬ Cells ρ c := fun hcc => by have := hg1 c hcc; omega
                  refine Concl.ok (upd sl' k (some a)) (hs'.trans (Steps.one ?_)) ⟨⟨hr1, ?_, ?_, ?_⟩, ?_⟩ ?_
                  · simp [step, hcd]
                  · simp [upd, hclt']
                  · intro j hb h1 h2
                    show (if j = k then some a else sl' j) = none
                    rw [if_neg (by omega)]
                    exact hi'.2 j hb h1 h2
                  · refine Rel.frame wf.2 hi'.1 (fun j hj => ?_) (fun c' hc'' => ?_)
                    · show (if j = k then some a else sl' j) = sl' j
                      rw [if_neg (by omega)]
                    · have := hg1 c' hc''
                      exact List.getElem?_set_ne (by omega)
                  · intro j _ _ h2; omega
                  · refine ⟨fun j _ hf => ?_, ?_, fun c' hcc => ?_⟩
                    · show (if j = k then some a else sl' j) = sl j
                      have hjk : ¬ (k ≤ j ∧ j < k + 1 + w) := fun h => hf (Or.inl h)
                      rw [if_neg (by omega)]
                      exact hc'.1 j (by omega) (fun h => hf (Or.inr h))
                    · simp [hc'.2.1]
                    · have h1 : c ≠ c' := fun h => hcc (Or.inl h.symm)
                      rw [List.getElem?_set_ne h1]
                      exact hc'.2.2 c' (fun h => hcc (Or.inr h))
      · rw [if_neg hxy] at hx
        cases e0 with
        | val k =>
          cases b with
          | delayed c th => exact hr.elim
          | val a =>
            obtain ⟨hr1, hr2, hr3⟩ := hr
            obtain ⟨b, hb, hc⟩ := ih ρ n e wf.2.2 hg hr3 hx hpc
            refine ⟨b, ?_, ?_⟩
            · subst hr1; unfold envGet; rw [if_neg hxy]; exact hb
            · cases ho : readBinding b s with
              | err e h => rw [ho] at hc; exact hc
              | ub => rw [ho] at hc; exact hc
              | ok a' s' =>
                rw [ho] at hc
                obtain ⟨sl', hs', hi', hc'⟩ := hc
                refine Concl.ok sl' hs' ⟨⟨hr1, ?_, hi'.1⟩, hi'.2⟩ hc'
                rw [hc'.1 k (by omega) wf.2.1]; exact hr2
        | delayed k w sub =>
          cases b with
          | val a => exact hr.elim
          | delayed c th =>
            obtain ⟨hr1, hr2, hr3, hr4⟩ := hr
            obtain ⟨b, hb, hc⟩ := ih ρ k e wf.2 hg.2.2 hr4 hx hpc
            refine ⟨b, ?_, ?_⟩
            · subst hr1; unfold envGet; rw [if_neg hxy]; exact hb
            · cases ho : readBinding b s with
              | err e h => rw [ho] at hc; exact hc
              | ub => rw [ho] at hc; exact hc
              | ok a' s' =>
                rw [ho] at hc
                obtain ⟨sl', hs', hi', hc'⟩ := hc
                have hfp : ∀ j, k ≤ j → ¬ FP Γ j := fun j hj hf => by have := wf.2.fp hf; omega
                have hnc : ¬ Cells ρ c := fun hcc => by have := hg.1 c hcc; omega
                refine Concl.ok sl' hs' ⟨⟨hr1, ?_, ?_, hi'.1⟩, hi'.2⟩ ⟨?_, hc'.2.1, ?_⟩
                · rw [hc'.1 k (by omega) (hfp k (by omega)), hc'.2.2 c hnc]; exact hr2
                · intro j hbj h1 h2
                  rw [hc'.1 j (by omega) (hfp j (by omega))]
                  exact hr3 j hbj h1 h2
                · intro j h1 h2
                  exact hc'.1 j h1 (fun h => h2 (Or.inr h))
                · intro c' hcc
                  exact hc'.2.2 c' (fun h => hcc (Or.inr h))

/-- Lowering the trivial region `[0, 0)` to any region above the scope. -/
theorem Concl.region {α : Type} {Γ : Scope} {ρ : Env σ} {n N : Nat} {m : MS σ} {k pc : Nat}
    {st : α → List VA} {its cs sl h} {o : Out σ α} (wf : WF Γ n) (hi : Inv B Γ ρ n N sl h)
    (h1 : Concl cfg P B Γ ρ 0 0 m k pc st its cs sl h o) :
    Concl cfg P B Γ ρ n N m k pc st its cs sl h o := by
  cases o with
  | err e h => exact h1
  | ub => exact h1
  | ok a s =>
    obtain ⟨sl', hs, hi', hc⟩ := h1
    refine ⟨sl', hs, ⟨hi'.1, fun j hb h1 h2 => ?_⟩, ⟨fun j h1 h2 => hc.1 j (by omega) h2, hc.2⟩⟩
    rw [hc.1 j (by omega) (fun hf => by have := wf.fp hf; omega)]
    exact hi.2 j hb h1 h2

/-! ## Loops -/

theorem upd_ne {sl : Slots} {k j : Nat} {x : Option VA} (h : j ≠ k) : upd sl k x j = sl j := if_neg h
theorem upd_eq {sl : Slots} {k j : Nat} {x : Option VA} (h : j = k) : upd sl k x j = x := if_pos h
theorem iterSlots_none : iterSlots none = 1 := rfl
theorem iterSlots_some (y : String) : iterSlots (some y) = 2 := rfl


theorem fp_loop (iter : String) (iter2 : Option String) (accu : String) (n ka j : Nat) (Γ : Scope) :
    FP (iterScope iter iter2 n ++ (accu, .val ka) :: Γ) j ↔ FP Γ j := by
  cases iter2 <;> simp [iterScope, FP]

theorem cells_loop (iter : String) (iter2 : Option String) (accu : String) (t : Trail) (it : Item)
    (a : VA) (c : Nat) (ρ : Env σ) :
    Cells (iterBinds cfg iter iter2 t it ++ (accu, .val a) :: ρ) c ↔ Cells ρ c := by
  cases iter2 <;> simp [iterBinds, Cells]

theorem wf_loop {iter : String} {iter2 : Option String} {accu : String} {n n' : Nat} {Γ : Scope}
    (wf : WF Γ n) (h : n + iterSlots iter2 + 1 ≤ n') :
    WF (iterScope iter iter2 n ++ (accu, .val (n + iterSlots iter2)) :: Γ) n' := by
  have hf : ∀ j, n ≤ j → ¬ FP Γ j := fun j hj hf => by have := wf.fp hf; omega
  cases iter2 with
  | none =>
    simp only [iterSlots_none, iterSlots_some] at h
    exact ⟨by omega, hf n (by omega), by simp [iterSlots]; omega, hf _ (by simp [iterSlots]),
      wf.mono (by omega)⟩
  | some y =>
    simp only [iterSlots_none, iterSlots_some] at h
    exact ⟨by omega, hf n (by omega), by omega, hf _ (by omega), by simp [iterSlots]; omega,
      hf _ (by simp [iterSlots]), wf.mono (by omega)⟩

theorem good_loop {iter : String} {iter2 : Option String} {accu : String} {n ka : Nat} {t : Trail}
    {it : Item} {a : VA} {Γ : Scope} {ρ : Env σ} (hg : Good cfg P B Γ ρ) :
    Good cfg P B (iterScope iter iter2 n ++ (accu, .val ka) :: Γ)
      (iterBinds cfg iter iter2 t it ++ (accu, .val a) :: ρ) := by
  cases iter2 <;> exact hg

/-- Setting the slots of a loop iteration establishes the extended relation. -/
theorem rel_loop {iter : String} {iter2 : Option String} {accu : String} {n : Nat} {t : Trail}
    {it : Item} {a : VA} {Γ : Scope} {ρ : Env σ} {sl : Slots} {h : List (Option VA)}
    (wf : WF Γ n) (hr : Rel B Γ ρ sl h) :
    Rel B (iterScope iter iter2 n ++ (accu, .val (n + iterSlots iter2)) :: Γ)
      (iterBinds cfg iter iter2 t it ++ (accu, .val a) :: ρ)
      (setIter cfg.unknowns cfg.pats (upd sl (n + iterSlots iter2) (some a)) n (slot2 iter2 n) t it) h := by
  cases iter2 with
  | none =>
    refine ⟨rfl, by simp [setIter, slot2, upd], rfl, by simp [setIter, slot2, upd, iterSlots], ?_⟩
    exact hr.frame wf (fun j hj => by simp only [setIter, slot2, iterSlots_none, iterSlots_some]; rw [upd_ne (by omega), upd_ne (by omega)])
      (fun _ _ => rfl)
  | some y =>
    refine ⟨rfl, by simp [setIter, slot2, upd], rfl, by simp [setIter, slot2, upd], rfl,
      by simp [setIter, slot2, upd, iterSlots], ?_⟩
    exact hr.frame wf (fun j hj => by
      simp only [setIter, slot2, iterSlots_none, iterSlots_some]; rw [upd_ne (by omega), upd_ne (by omega), upd_ne (by omega)])
      (fun _ _ => rfl)

/-- The extended relation contains the accumulator and the outer relation. -/
theorem rel_unloop {iter : String} {iter2 : Option String} {accu : String} {n ka : Nat} {t : Trail}
    {it : Item} {a : VA} {Γ : Scope} {ρ : Env σ} {sl : Slots} {h : List (Option VA)}
    (hr : Rel B (iterScope iter iter2 n ++ (accu, .val ka) :: Γ)
      (iterBinds cfg iter iter2 t it ++ (accu, .val a) :: ρ) sl h) :
    sl ka = some a ∧ Rel B Γ ρ sl h := by
  cases iter2 with
  | none => exact ⟨hr.2.2.2.1, hr.2.2.2.2⟩
  | some y => exact ⟨hr.2.2.2.2.2.1, hr.2.2.2.2.2.2⟩

theorem chg_loop {iter : String} {iter2 : Option String} {accu : String} {n ka n' N : Nat} {t : Trail}
    {it : Item} {a : VA} {Γ : Scope} {ρ : Env σ} {sl sl' : Slots} {h h' : List (Option VA)}
    (hc : Chg (iterScope iter iter2 n ++ (accu, .val ka) :: Γ)
      (iterBinds cfg iter iter2 t it ++ (accu, .val a) :: ρ) n' N sl h sl' h') :
    Chg Γ ρ n' N sl h sl' h' :=
  ⟨fun j h1 h2 => hc.1 j h1 (fun hf => h2 ((fp_loop ..).1 hf)), hc.2.1,
   fun c h1 => hc.2.2 c (fun hf => h1 ((cells_loop ..).1 hf))⟩

/-- Slots of the iteration variables that may be inspected by a later `cel.bind`. -/
def IterClean (B : Nat → Prop) (iter2 : Option String) (n : Nat) (sl : Slots) : Prop :=
  ∀ j, B j → n ≤ j → j < n + iterSlots iter2 → sl j = none

/-- Outcome of a loop, as the machine sees it. -/
def LoopConcl (cfg : Cfg σ) (P : Prog σ) (B : Nat → Prop) (Γ : Scope) (ρ : Env σ) (iter2 : Option String)
    (n N : Nat) (m : MS σ) (k pcRes pcEnd : Nat) (r : VA) (st : List VA) (its : List (List Item))
    (cs : List (Nat × Nat × Nat)) (sl : Slots) (h : List (Option VA)) (o : Out σ LoopEnd) : Prop :=
  match o with
  | .ok (.accu a) s => ∃ sl' its', Steps cfg P m ⟨k, pcRes, r :: st, its' :: its, sl', cs, s.host, s.count⟩ ∧
      Inv B Γ ρ (n + iterSlots iter2 + 1) N sl' s.heap ∧ Chg Γ ρ n N sl h sl' s.heap ∧
      sl' (n + iterSlots iter2) = some a ∧ IterClean B iter2 n sl'
  | .ok (.stop x) s => ∃ sl', Steps cfg P m ⟨k, pcEnd, x :: st, its, sl', cs, s.host, s.count⟩ ∧
      Inv B Γ ρ n N sl' s.heap ∧ Chg Γ ρ n N sl h sl' s.heap
  | .err e h => Halts cfg P m (.status e h)
  | .ub => Halts cfg P m .ub

theorem LoopConcl.pre {Γ : Scope} {ρ : Env σ} {iter2 : Option String}
    {n N : Nat} {m m' : MS σ} {k pcRes pcEnd : Nat} {r : VA} {st : List VA} {its : List (List Item)}
    {cs : List (Nat × Nat × Nat)} {sl sl' : Slots} {h h' : List (Option VA)} {o : Out σ LoopEnd}
    (hs : Steps cfg P m m') (hc : Chg Γ ρ n N sl h sl' h')
    (hl : LoopConcl cfg P B Γ ρ iter2 n N m' k pcRes pcEnd r st its cs sl' h' o) :
    LoopConcl cfg P B Γ ρ iter2 n N m k pcRes pcEnd r st its cs sl h o := by
  cases o with
  | err e h => exact Halts.of_steps hs hl
  | ub => exact Halts.of_steps hs hl
  | ok le s =>
    cases le with
    | accu a =>
      obtain ⟨sl2, i2, h1, h2, h3, h4⟩ := hl
      exact ⟨sl2, i2, hs.trans h1, h2, hc.trans h3, h4⟩
    | stop x =>
      obtain ⟨sl2, h1, h2, h3⟩ := hl
      exact ⟨sl2, hs.trans h1, h2, hc.trans h3⟩

theorem chg_clearIter {Γ : Scope} {ρ : Env σ} {iter2 : Option String} {n N : Nat} {sl : Slots}
    {h : List (Option VA)} (hN : n + iterSlots iter2 + 1 ≤ N) (a : Option VA) :
    Chg Γ ρ n N sl h (clearOpt (upd (upd sl (n + iterSlots iter2) a) n none) (slot2 iter2 n)) h := by
  cases iter2 with
  | none =>
    simp only [iterSlots_none, iterSlots_some] at hN
    exact (Chg.refl.upd a (by omega) (by simp only [iterSlots_none, iterSlots_some]; omega)).upd none (by omega) (by omega)
  | some y =>
    simp only [iterSlots_none, iterSlots_some] at hN
    exact ((Chg.refl.upd a (by omega) (by simp only [iterSlots_none, iterSlots_some]; omega)).upd none (by omega) (by omega)).upd none
      (by omega) (by omega)

theorem chg_setIter {Γ : Scope} {ρ : Env σ} {iter2 : Option String} {n N : Nat} {sl : Slots}
    {h : List (Option VA)} (hN : n + iterSlots iter2 + 1 ≤ N) (a : Option VA) (u : Bool)
    (pats : List Pattern) (t : Trail) (it : Item) :
    Chg Γ ρ n N sl h (setIter u pats (upd sl (n + iterSlots iter2) a) n (slot2 iter2 n) t it) h := by
  cases iter2 with
  | none =>
    simp only [iterSlots_none, iterSlots_some] at hN
    exact (Chg.refl.upd a (by omega) (by simp only [iterSlots_none, iterSlots_some]; omega)).upd _ (by omega) (by omega)
  | some y =>
    simp only [iterSlots_none, iterSlots_some] at hN
    exact ((Chg.refl.upd a (by omega) (by simp only [iterSlots_none, iterSlots_some]; omega)).upd _ (by omega) (by omega)).upd _
      (by omega) (by omega)

theorem setIter_above {u : Bool} {pats : List Pattern} {sl : Slots} {n j : Nat} {iter2 : Option String}
    {t : Trail} {it : Item} {a : Option VA} (hj : n + iterSlots iter2 + 1 ≤ j) :
    setIter u pats (upd sl (n + iterSlots iter2) a) n (slot2 iter2 n) t it j = sl j := by
  cases iter2 with
  | none =>
    simp only [iterSlots_none, iterSlots_some] at hj
    simp only [setIter, slot2, iterSlots_none, iterSlots_some]
    rw [upd_ne (by omega), upd_ne (by omega)]
  | some y =>
    simp only [iterSlots_none, iterSlots_some] at hj
    simp only [setIter, slot2, iterSlots_none, iterSlots_some]
    rw [upd_ne (by omega), upd_ne (by omega), upd_ne (by omega)]

/-- The loop between `compNext` and the jump back to it. -/
theorem sim_loop {code : List (Instr σ)} {k : Nat} (hk : P[k]? = some code)
    {Γ : Scope} {ρ : Env σ} {iter accu : String} {iter2 : Option String} {n N n2 n3 : Nat} (wf : WF Γ n)
    (hN : n + iterSlots iter2 + 1 ≤ N)
    (hB : cfg.shortCircuit = false ∨ ∀ j, n ≤ j → j < n + iterSlots iter2 → ¬ B j)
    (hn2 : n + iterSlots iter2 + 1 ≤ n2) (hn3 : n + iterSlots iter2 + 1 ≤ n3)
    {pn lc ls lt : Nat} {r : VA}
    (hnext : code[pn]? = some (.compNext n (slot2 iter2 n) (n + iterSlots iter2) (lc + ls + 2 : Nat)))
    (hcond : code[pn + 1 + lc]? = some (.compCond n (slot2 iter2 n) (n + iterSlots iter2) (ls + 1 : Nat)
      (ls + lt + 2 : Nat)))
    (hjump : code[pn + 1 + lc + 1 + ls]? = some (.jump (-(lc + ls + 3 : Nat))))
    (hsize : pn + 1 + lc + 1 + ls + 1 + lt + 1 ≤ code.length)
    {condF stepF : Item → VA → SS σ → Out σ VA}
    (simC : ∀ it a, Sim cfg P B (iterScope iter iter2 n ++ (accu, .val (n + iterSlots iter2)) :: Γ)
      (iterBinds cfg iter iter2 r.t it ++ (accu, .val a) :: ρ) k (pn + 1) (pn + 1 + lc) n2 N (condF it a))
    (simS : ∀ it a, Sim cfg P B (iterScope iter iter2 n ++ (accu, .val (n + iterSlots iter2)) :: Γ)
      (iterBinds cfg iter iter2 r.t it ++ (accu, .val a) :: ρ) k (pn + 1 + lc + 1) (pn + 1 + lc + 1 + ls) n3 N
      (stepF it a))
    {st : List VA} {its : List (List Item)} {cs : List (Nat × Nat × Nat)} :
    ∀ (l : List Item) (a : VA) (sl : Slots) (s : SS σ),
      Inv B Γ ρ (n + iterSlots iter2 + 1) N sl s.heap →
      LoopConcl cfg P B Γ ρ iter2 n N ⟨k, pn, a :: r :: st, l :: its, sl, cs, s.host, s.count⟩ k
        (pn + 1 + lc + 1 + ls + 1) (pn + 1 + lc + 1 + ls + 1 + lt + 1) r st its cs sl s.heap
        (loop cfg condF stepF l a s) := by
  intro l
  induction l with
  | nil =>
    intro a sl s hi
    refine ⟨clearOpt (upd (upd sl (n + iterSlots iter2) (some a)) n none) (slot2 iter2 n), [], Steps.one ?_,
      ⟨?_, ?_⟩, chg_clearIter hN _, ?_, ?_⟩
    · rw [step_at hk hnext]
      simp only [exec]
      rw [jump_ok _ _ _ _ _ _ (pc' := pn + 1 + lc + 1 + ls + 1) (by push_cast; omega) (by omega)]
    · refine hi.1.frame wf (fun j hj => ?_) (fun _ _ => rfl)
      cases iter2 with
      | none =>
        simp only [clearOpt, slot2, iterSlots_none, iterSlots_some]
        rw [upd_ne (by omega), upd_ne (by omega)]
      | some y =>
        simp only [clearOpt, slot2, iterSlots_none, iterSlots_some]
        rw [upd_ne (by omega), upd_ne (by omega), upd_ne (by omega)]
    · intro j hb h1 h2
      have := hi.2 j hb h1 h2
      cases iter2 with
      | none =>
        simp only [iterSlots_none, iterSlots_some] at h1
        simp only [clearOpt, slot2, iterSlots_none, iterSlots_some]
        rw [upd_ne (by omega), upd_ne (by omega)]; exact this
      | some y =>
        simp only [iterSlots_none, iterSlots_some] at h1
        simp only [clearOpt, slot2, iterSlots_none, iterSlots_some]
        rw [upd_ne (by omega), upd_ne (by omega), upd_ne (by omega)]; exact this
    · cases iter2 <;> simp [clearOpt, slot2, upd, iterSlots]
    · intro j hb h1 h2
      cases iter2 with
      | none =>
        simp only [iterSlots_none, iterSlots_some] at h2
        simp only [clearOpt, slot2, iterSlots_none, iterSlots_some]
        rw [upd_eq (by omega)]
      | some y =>
        simp only [iterSlots_none, iterSlots_some] at h2
        simp only [clearOpt, slot2, iterSlots_none, iterSlots_some]
        by_cases hj : j = n + 1
        · rw [upd_eq hj]
        · rw [upd_ne hj, upd_eq (by omega)]
  | cons it l ih =>
    intro a sl s hi
    unfold loop
    cases ht : tick cfg.maxIter s.count with
    | none =>
      refine Halts.of_step ?_
      rw [step_at hk hnext]
      simp only [exec, ht]
    | some c' =>
      simp only
      let sl1 := setIter cfg.unknowns cfg.pats (upd sl (n + iterSlots iter2) (some a)) n (slot2 iter2 n) r.t it
      have hstep : Steps cfg P ⟨k, pn, a :: r :: st, (it :: l) :: its, sl, cs, s.host, s.count⟩
          ⟨k, pn + 1, r :: st, l :: its, sl1, cs, s.host, c'⟩ := by
        refine Steps.one ?_
        rw [step_at hk hnext]
        simp only [exec, ht]
        rfl
      have hr1 := rel_loop (cfg := cfg) (B := B) (iter := iter) (iter2 := iter2) (accu := accu) (t := r.t)
        (it := it) (a := a) wf hi.1
      have hcl1 : ∀ j, B j → n + iterSlots iter2 + 1 ≤ j → j < N → sl1 j = none := fun j hb h1 h2 => by
        show setIter _ _ _ _ _ _ _ j = none
        rw [setIter_above h1]; exact hi.2 j hb h1 h2
      have wfl := wf_loop (iter := iter) (iter2 := iter2) (accu := accu) wf (Nat.le_refl _)
      have hc1 : Chg Γ ρ n N sl s.heap sl1 s.heap := chg_setIter hN _ _ _ _ _
      refine LoopConcl.pre hstep hc1 ?_
      have hC := simC it a (r :: st) (l :: its) sl1 cs ⟨s.host, c', s.heap⟩ ⟨hr1, fun j hb h1 h2 => hcl1 j hb (by omega) h2⟩
      cases ho : condF it a ⟨s.host, c', s.heap⟩ with
      | err e h => rw [ho] at hC; exact hC
      | ub => rw [ho] at hC; exact hC
      | ok cv s2 =>
        rw [ho] at hC
        obtain ⟨sl2, hs2, hi2, hc2⟩ := hC
        have hi2' := Inv.after (by omega) wfl ⟨hr1, hcl1⟩ hi2 hc2
        have hc2' : Chg Γ ρ n N sl1 s.heap sl2 s2.heap := (chg_loop hc2).mono (by omega)
        refine LoopConcl.pre hs2 hc2' ?_
        obtain ⟨hka, hrel2⟩ := rel_unloop hi2'.1
        simp only [Out.bind]
        cases hcond' : condOf cfg.shortCircuit cv with
        | stop x =>
          refine ⟨upd (clearOpt (upd sl2 n none) (slot2 iter2 n)) (n + iterSlots iter2) none,
            Steps.one ?_, ⟨?_, ?_⟩, ?_⟩
          · rw [step_at hk hcond]
            simp only [exec, hcond', List.tail_cons]
            rw [jump_ok _ _ _ _ _ _ (pc' := pn + 1 + lc + 1 + ls + 1 + lt + 1) (by push_cast; omega) (by omega)]
          · refine hrel2.frame wf (fun j hj => ?_) (fun _ _ => rfl)
            cases iter2 with
            | none =>
              simp only [clearOpt, slot2, iterSlots_none, iterSlots_some]
              rw [upd_ne (by omega), upd_ne (by omega)]
            | some y =>
              simp only [clearOpt, slot2, iterSlots_none, iterSlots_some]
              rw [upd_ne (by omega), upd_ne (by omega), upd_ne (by omega)]
          · intro j hb h1 h2
            by_cases hj : n + iterSlots iter2 + 1 ≤ j
            · have := hi2'.2 j hb hj h2
              cases iter2 with
              | none =>
                simp only [iterSlots_none, iterSlots_some] at hj
                simp only [clearOpt, slot2, iterSlots_none, iterSlots_some]
                rw [upd_ne (by omega), upd_ne (by omega)]; exact this
              | some y =>
                simp only [iterSlots_none, iterSlots_some] at hj
                simp only [clearOpt, slot2, iterSlots_none, iterSlots_some]
                rw [upd_ne (by omega), upd_ne (by omega), upd_ne (by omega)]; exact this
            · cases iter2 with
              | none =>
                simp only [iterSlots_none, iterSlots_some] at hj
                simp only [clearOpt, slot2, iterSlots_none, iterSlots_some]
                by_cases h3 : j = n + 1
                · rw [upd_eq h3]
                · rw [upd_ne h3, upd_eq (by omega)]
              | some y =>
                simp only [iterSlots_none, iterSlots_some] at hj
                simp only [clearOpt, slot2, iterSlots_none, iterSlots_some]
                by_cases h3 : j = n + 2
                · rw [upd_eq h3]
                · by_cases h4 : j = n + 1
                  · rw [upd_ne h3, upd_eq h4]
                  · rw [upd_ne h3, upd_ne h4, upd_eq (by omega)]
          · cases iter2 with
            | none =>
              simp only [iterSlots_none, iterSlots_some] at hN
              exact (Chg.refl.upd none (by omega) (by omega)).upd none (by omega) (by simp only [iterSlots_none, iterSlots_some]; omega)
            | some y =>
              simp only [iterSlots_none, iterSlots_some] at hN
              exact ((Chg.refl.upd none (by omega) (by omega)).upd none (by omega) (by omega)).upd none
                (by omega) (by simp only [iterSlots_none, iterSlots_some]; omega)
        | brk =>
          refine ⟨sl2, l, Steps.one ?_, ⟨hrel2, hi2'.2⟩, Chg.refl, hka, ?_⟩
          · rw [step_at hk hcond]
            simp only [exec, hcond']
            rw [jump_ok _ _ _ _ _ _ (pc' := pn + 1 + lc + 1 + ls + 1) (by push_cast; omega) (by omega)]
          · intro j hb h1 h2
            rcases hB with hB | hB
            · exfalso
              unfold condOf at hcond'
              split at hcond' <;> simp [hB] at hcond'
            · exact absurd hb (hB j h1 h2)
        | go =>
          have hstep2 : Steps cfg P ⟨k, pn + 1 + lc, cv :: r :: st, l :: its, sl2, cs, s2.host, s2.count⟩
              ⟨k, pn + 1 + lc + 1, r :: st, l :: its, sl2, cs, s2.host, s2.count⟩ := by
            refine Steps.one ?_
            rw [step_at hk hcond]
            simp only [exec, hcond']
          refine LoopConcl.pre hstep2 Chg.refl ?_
          have hS := simS it a (r :: st) (l :: its) sl2 cs s2 (hi2'.mono (by omega))
          cases ho2 : stepF it a s2 with
          | err e h => rw [ho2] at hS; exact hS
          | ub => rw [ho2] at hS; exact hS
          | ok a' s3 =>
            rw [ho2] at hS
            obtain ⟨sl3, hs3, hi3, hc3⟩ := hS
            have hi3' := Inv.after (by omega) wfl hi2' hi3 hc3
            have hc3' : Chg Γ ρ n N sl2 s2.heap sl3 s3.heap := (chg_loop hc3).mono (by omega)
            refine LoopConcl.pre (hs3.trans (Steps.one ?_)) hc3' (ih a' sl3 s3 ⟨(rel_unloop hi3'.1).2, hi3'.2⟩)
            rw [step_at hk hjump]
            simp only [exec]
            rw [jump_ok _ _ _ _ _ _ (pc' := pn) (by push_cast; omega) (by omega)]

end Cel.Eval
