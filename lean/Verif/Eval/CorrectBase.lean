import Verif.Eval.Compile

/-!
# Simulation of the meaning by the machine: invariants and bookkeeping lemmas
-/

set_option linter.unusedSimpArgs false
set_option linter.unusedVariables false

namespace Cel.Eval
open Cel

/-! ## Steps -/

section
variable {σ : Type} {cfg : Cfg σ} {P : Prog σ}

theorem Steps.trans {a b c : MS σ} (h1 : Steps cfg P a b) (h2 : Steps cfg P b c) : Steps cfg P a c := by
  induction h1 with
  | refl => exact h2
  | cons h _ ih => exact .cons h (ih h2)

theorem Steps.one {a b : MS σ} (h : step cfg P a = .next b) : Steps cfg P a b := .cons h (.refl _)

theorem Halts.of_steps {a b : MS σ} {r : Final σ} (h1 : Steps cfg P a b) (h2 : Halts cfg P b r) :
    Halts cfg P a r := by
  obtain ⟨m, h3, h4⟩ := h2
  exact ⟨m, h1.trans h3, h4⟩

theorem Halts.of_step {a : MS σ} {r : Final σ} (h : step cfg P a = .fin r) : Halts cfg P a r :=
  ⟨a, .refl _, h⟩

/-- The machine is deterministic: it stops with at most one outcome. -/
theorem Halts.unique {a : MS σ} {r r' : Final σ} (h1 : Halts cfg P a r) (h2 : Halts cfg P a r') :
    r = r' := by
  obtain ⟨m, s1, e1⟩ := h1
  obtain ⟨m', s2, e2⟩ := h2
  induction s1 with
  | refl =>
    cases s2 with
    | refl => rw [e1] at e2; cases e2; rfl
    | cons h _ => rw [e1] at h; cases h
  | cons h _ ih =>
    cases s2 with
    | refl => rw [e2] at h; cases h
    | cons h' s2 => rw [h] at h'; cases h'; exact ih e1 s2

end

/-! ## Code at a position -/

/-- `xs` occurs in `code` at position `pc`. -/
def CodeAt {α : Type} (code : List α) (pc : Nat) : List α → Prop
  | [] => pc ≤ code.length
  | x :: xs => code[pc]? = some x ∧ CodeAt code (pc + 1) xs

theorem codeAt_le {α : Type} {code : List α} : ∀ {pc : Nat} {xs : List α},
    CodeAt code pc xs → pc + xs.length ≤ code.length
  | _, [], h => h
  | pc, x :: xs, h => by have := codeAt_le h.2; simp at *; omega

theorem codeAt_append {α : Type} {code : List α} : ∀ {pc : Nat} {a b : List α},
    CodeAt code pc (a ++ b) ↔ CodeAt code pc a ∧ CodeAt code (pc + a.length) b
  | pc, [], b => by
    constructor
    · intro h; exact ⟨by have := codeAt_le h; show pc ≤ _; simp at this; omega, h⟩
    · intro h; exact h.2
  | pc, x :: a, b => by
    have := @codeAt_append α code (pc + 1) a b
    simp only [List.cons_append, CodeAt, List.length_cons]
    rw [this, and_assoc, show pc + 1 + a.length = pc + (a.length + 1) by omega]

theorem codeAt_cons {α : Type} {code : List α} {pc : Nat} {x : α} {b : List α} :
    CodeAt code pc (x :: b) ↔ code[pc]? = some x ∧ CodeAt code (pc + 1) b := Iff.rfl

theorem codeAt_self {α : Type} (xs : List α) : CodeAt xs 0 xs := by
  suffices h : ∀ (pre ys : List α), CodeAt (pre ++ ys) pre.length ys from h [] xs
  intro pre ys
  induction ys generalizing pre with
  | nil => simp [CodeAt]
  | cons y ys ih =>
    refine ⟨by simp, ?_⟩
    have := ih (pre ++ [y])
    simpa using this

/-! ## Scopes and environments -/

/-- Slots an evaluation may touch through the delayed variables in scope. -/
def FP : Scope → Nat → Prop
  | [], _ => False
  | (_, .val _) :: Γ, j => FP Γ j
  | (_, .delayed k w _) :: Γ, j => (k ≤ j ∧ j < k + 1 + w) ∨ FP Γ j

/-- Slots in scope lie below `n`, and no variable's slot is reused by another. -/
def WF : Scope → Nat → Prop
  | [], _ => True
  | (_, .val k) :: Γ, n => k < n ∧ ¬ FP Γ k ∧ WF Γ n
  | (_, .delayed k w _) :: Γ, n => k + 1 + w ≤ n ∧ WF Γ k

/-- Memo cells of an environment. -/
def Cells {σ : Type} : Env σ → Nat → Prop
  | [], _ => False
  | (_, .val _) :: ρ, c => Cells ρ c
  | (_, .delayed c' _) :: ρ, c => c = c' ∨ Cells ρ c

/-- Slots hold the values of the variables; the slot of a delayed variable is its memo cell. -/
def Rel {σ : Type} (B : Nat → Prop) : Scope → Env σ → Slots → List (Option VA) → Prop
  | [], [], _, _ => True
  | (x, .val k) :: Γ, (y, .val a) :: ρ, sl, h => x = y ∧ sl k = some a ∧ Rel B Γ ρ sl h
  | (x, .delayed k w _) :: Γ, (y, .delayed c _) :: ρ, sl, h =>
    x = y ∧ h[c]? = some (sl k) ∧ (∀ j, B j → k + 1 ≤ j → j < k + 1 + w → sl j = none) ∧ Rel B Γ ρ sl h
  | _, _, _, _ => False

theorem WF.mono {Γ : Scope} {n n' : Nat} (hle : n ≤ n') (h : WF Γ n) : WF Γ n' := by
  induction Γ with
  | nil => trivial
  | cons p Γ ih =>
    obtain ⟨x, e⟩ := p
    cases e with
    | val k => exact ⟨by have := h.1; omega, h.2.1, ih h.2.2⟩
    | delayed k w s => exact ⟨by have := h.1; omega, h.2⟩

theorem WF.fp {Γ : Scope} {n j : Nat} (h : WF Γ n) (hj : FP Γ j) : j < n := by
  induction Γ generalizing n with
  | nil => exact hj.elim
  | cons p Γ ih =>
    obtain ⟨x, e⟩ := p
    cases e with
    | val k => exact ih h.2.2 hj
    | delayed k w s =>
      rcases hj with hj | hj
      · have := h.1; omega
      · have := ih h.2 hj; have := h.1; omega

theorem Rel.cells {σ : Type} {B : Nat → Prop} {Γ : Scope} {ρ : Env σ} {sl : Slots}
    {h : List (Option VA)} (hr : Rel B Γ ρ sl h) {c : Nat} (hc : Cells ρ c) : c < h.length := by
  induction Γ generalizing ρ with
  | nil => cases ρ with
    | nil => exact hc.elim
    | cons _ _ => exact hr.elim
  | cons p Γ ih =>
    obtain ⟨x, e⟩ := p
    cases ρ with
    | nil => cases e <;> exact hr.elim
    | cons q ρ =>
      obtain ⟨y, b⟩ := q
      cases e <;> cases b
      · exact ih hr.2.2 hc
      · exact hr.elim
      · exact hr.elim
      · rcases hc with hc | hc
        · subst hc
          have := hr.2.1
          exact (List.getElem?_eq_some_iff.1 this).1
        · exact ih hr.2.2.2 hc

theorem Rel.frame {σ : Type} {B : Nat → Prop} {Γ : Scope} {ρ : Env σ} {sl sl' : Slots}
    {h h' : List (Option VA)} {n : Nat} (wf : WF Γ n) (hr : Rel B Γ ρ sl h)
    (hs : ∀ j, j < n → sl' j = sl j) (hh : ∀ c, Cells ρ c → h'[c]? = h[c]?) : Rel B Γ ρ sl' h' := by
  induction Γ generalizing ρ n with
  | nil => cases ρ with
    | nil => trivial
    | cons _ _ => exact hr.elim
  | cons p Γ ih =>
    obtain ⟨x, e⟩ := p
    cases ρ with
    | nil => cases e <;> exact hr.elim
    | cons q ρ =>
      obtain ⟨y, b⟩ := q
      cases e <;> cases b
      · exact ⟨hr.1, by rw [hs _ wf.1]; exact hr.2.1, ih wf.2.2 hr.2.2 hs hh⟩
      · exact hr.elim
      · exact hr.elim
      · rename_i k w s c th
        have hk := wf.1
        refine ⟨hr.1, ?_, ?_, ih wf.2 hr.2.2.2 (fun j hj => hs j (by omega)) (fun c hc => hh c (Or.inr hc))⟩
        · rw [hh _ (Or.inl rfl), hs _ (by omega)]; exact hr.2.1
        · intro j hb h1 h2
          rw [hs j (by omega)]; exact hr.2.2.1 j hb h1 h2

/-! ## Invariant and allowed changes -/

/-- The machine state represents the environment and the bind slots of the region `[n, N)` are
unset. -/
def Inv {σ : Type} (B : Nat → Prop) (Γ : Scope) (ρ : Env σ) (n N : Nat) (sl : Slots)
    (h : List (Option VA)) : Prop :=
  Rel B Γ ρ sl h ∧ ∀ j, B j → n ≤ j → j < N → sl j = none

/-- Only slots in `[n, N)` and those of delayed variables in scope changed. -/
def Chg {σ : Type} (Γ : Scope) (ρ : Env σ) (n N : Nat) (sl : Slots) (h : List (Option VA))
    (sl' : Slots) (h' : List (Option VA)) : Prop :=
  (∀ j, ¬ (n ≤ j ∧ j < N) → ¬ FP Γ j → sl' j = sl j) ∧ h'.length = h.length ∧
  ∀ c, ¬ Cells ρ c → h'[c]? = h[c]?

section
variable {σ : Type} {B : Nat → Prop} {Γ : Scope} {ρ : Env σ} {n n' N : Nat}
  {sl sl' sl'' : Slots} {h h' h'' : List (Option VA)}

theorem Chg.refl : Chg Γ ρ n N sl h sl h := ⟨fun _ _ _ => rfl, rfl, fun _ _ => rfl⟩

theorem Chg.trans (h1 : Chg Γ ρ n N sl h sl' h') (h2 : Chg Γ ρ n N sl' h' sl'' h'') :
    Chg Γ ρ n N sl h sl'' h'' :=
  ⟨fun j a b => (h2.1 j a b).trans (h1.1 j a b), h2.2.1.trans h1.2.1,
   fun c a => (h2.2.2 c a).trans (h1.2.2 c a)⟩

theorem Chg.mono (hn : n ≤ n') (h1 : Chg Γ ρ n' N sl h sl' h') : Chg Γ ρ n N sl h sl' h' :=
  ⟨fun j a b => h1.1 j (by omega) b, h1.2⟩

theorem Chg.upd {j : Nat} (x : Option VA) (h1 : n ≤ j) (h2 : j < N)
    (hc : Chg Γ ρ n N sl h sl' h') : Chg Γ ρ n N sl h (upd sl' j x) h' :=
  ⟨fun i a b => by
    show Cel.Eval.upd sl' j x i = _
    unfold Cel.Eval.upd
    rw [if_neg (by omega)]
    exact hc.1 i a b, hc.2⟩

theorem Inv.mono (hn : n ≤ n') (h1 : Inv B Γ ρ n N sl h) : Inv B Γ ρ n' N sl h :=
  ⟨h1.1, fun j a b c => h1.2 j a (by omega) c⟩

/-- After a part of the evaluation that works above `n'`, the bigger region is still clean. -/
theorem Inv.after (hn : n ≤ n') (wf : WF Γ n) (h0 : Inv B Γ ρ n N sl h)
    (h1 : Inv B Γ ρ n' N sl' h') (hc : Chg Γ ρ n' N sl h sl' h') : Inv B Γ ρ n N sl' h' := by
  refine ⟨h1.1, fun j a b c => ?_⟩
  by_cases hj : n' ≤ j
  · exact h1.2 j a hj c
  · rw [hc.1 j (by omega) (fun hf => by have := wf.fp hf; omega)]
    exact h0.2 j a b c

end

/-! ## Simulation -/

section
variable {σ : Type}

/-- Starting in `m`, the machine does what outcome `o` says. -/
def Concl (cfg : Cfg σ) (P : Prog σ) (B : Nat → Prop) {α : Type} (Γ : Scope) (ρ : Env σ) (n N : Nat)
    (m : MS σ) (k pc : Nat) (st : α → List VA) (its : List (List Item)) (cs : List (Nat × Nat × Nat))
    (sl : Slots) (h : List (Option VA)) (o : Out σ α) : Prop :=
  match o with
  | .ok a s => ∃ sl', Steps cfg P m ⟨k, pc, st a, its, sl', cs, s.host, s.count⟩ ∧
      Inv B Γ ρ n N sl' s.heap ∧ Chg Γ ρ n N sl h sl' s.heap
  | .err e h => Halts cfg P m (.status e h)
  | .ub => Halts cfg P m .ub

/-- The code between `pc` and `pc'` computes `f`, pushing its value. -/
def Sim (cfg : Cfg σ) (P : Prog σ) (B : Nat → Prop) (Γ : Scope) (ρ : Env σ) (k pc pc' n N : Nat)
    (f : SS σ → Out σ VA) : Prop :=
  ∀ (st : List VA) (its : List (List Item)) (sl : Slots) (cs : List (Nat × Nat × Nat)) (s : SS σ),
    Inv B Γ ρ n N sl s.heap →
    Concl cfg P B Γ ρ n N ⟨k, pc, st, its, sl, cs, s.host, s.count⟩ k pc' (· :: st) its cs sl s.heap (f s)

/-- The extracted subexpressions of the delayed variables compute their initializers. -/
def Good (cfg : Cfg σ) (P : Prog σ) (B : Nat → Prop) : Scope → Env σ → Prop
  | [], [] => True
  | (_, .val _) :: Γ, (_, .val _) :: ρ => Good cfg P B Γ ρ
  | (_, .delayed k w sub) :: Γ, (_, .delayed c th) :: ρ =>
    (∀ c', Cells ρ c' → c' < c) ∧
    (∃ code, P[sub]? = some code ∧ Sim cfg P B Γ ρ sub 0 code.length (k + 1) (k + 1 + w) th) ∧
    Good cfg P B Γ ρ
  | _, _ => False

variable {cfg : Cfg σ} {P : Prog σ} {B : Nat → Prop} {α β : Type} {Γ : Scope} {ρ : Env σ} {n n1 N : Nat}

theorem Concl.steps {m m' : MS σ} {k pc : Nat} {st : α → List VA} {its cs sl h} {o : Out σ α}
    (hs : Steps cfg P m m') (hc : Concl cfg P B Γ ρ n N m' k pc st its cs sl h o) :
    Concl cfg P B Γ ρ n N m k pc st its cs sl h o := by
  cases o with
  | ok a s =>
    obtain ⟨sl', h1, h2⟩ := hc
    exact ⟨sl', hs.trans h1, h2⟩
  | err e h => exact Halts.of_steps hs hc
  | ub => exact Halts.of_steps hs hc

/-- Sequencing two pieces of code. -/
theorem Concl.bind {m : MS σ} {k pc k' pc' : Nat} {st : α → List VA} {st' : β → List VA}
    {its its' cs cs' sl h} {o : Out σ α} {f : α → SS σ → Out σ β}
    (hn : n ≤ n1) (wf : WF Γ n) (hi : Inv B Γ ρ n N sl h)
    (h1 : Concl cfg P B Γ ρ n1 N m k pc st its cs sl h o)
    (h2 : ∀ a s1 sl1, Inv B Γ ρ n N sl1 s1.heap → Chg Γ ρ n N sl h sl1 s1.heap →
      Concl cfg P B Γ ρ n N ⟨k, pc, st a, its, sl1, cs, s1.host, s1.count⟩ k' pc' st' its' cs' sl1 s1.heap
        (f a s1)) :
    Concl cfg P B Γ ρ n N m k' pc' st' its' cs' sl h (o.bind f) := by
  cases o with
  | err e h => exact h1
  | ub => exact h1
  | ok a s =>
    obtain ⟨sl1, hs, hinv, hchg⟩ := h1
    have hinv' := Inv.after hn wf hi hinv hchg
    have hc := h2 a s sl1 hinv' (hchg.mono hn)
    show Concl cfg P B Γ ρ n N m k' pc' st' its' cs' sl h (f a s)
    refine Concl.steps hs ?_
    cases ho : f a s with
    | err e h => rw [ho] at hc; exact hc
    | ub => rw [ho] at hc; exact hc
    | ok b s' =>
      rw [ho] at hc
      obtain ⟨sl2, hs2, hi2, hc2⟩ := hc
      exact ⟨sl2, hs2, hi2, (hchg.mono hn).trans hc2⟩

/-- Base may be lowered. -/
theorem Concl.mono {m : MS σ} {k pc : Nat} {st : α → List VA} {its cs sl h} {o : Out σ α}
    (hn : n ≤ n1) (wf : WF Γ n) (hi : Inv B Γ ρ n N sl h)
    (h1 : Concl cfg P B Γ ρ n1 N m k pc st its cs sl h o) :
    Concl cfg P B Γ ρ n N m k pc st its cs sl h o := by
  cases o with
  | err e h => exact h1
  | ub => exact h1
  | ok a s =>
    obtain ⟨sl1, hs, hinv, hchg⟩ := h1
    exact ⟨sl1, hs, Inv.after hn wf hi hinv hchg, hchg.mono hn⟩

theorem Concl.ok {m : MS σ} {k pc : Nat} {st : α → List VA} {its cs sl h} {a : α} {s : SS σ}
    (sl' : Slots) (hs : Steps cfg P m ⟨k, pc, st a, its, sl', cs, s.host, s.count⟩)
    (hi : Inv B Γ ρ n N sl' s.heap) (hc : Chg Γ ρ n N sl h sl' s.heap) :
    Concl cfg P B Γ ρ n N m k pc st its cs sl h (.ok a s) := ⟨sl', hs, hi, hc⟩

/-! ## Single machine steps -/

theorem step_at {code : List (Instr σ)} {k pc : Nat} {i : Instr σ} (hk : P[k]? = some code)
    (hi : code[pc]? = some i) (st its sl cs) (h : σ) (c : Int) :
    step cfg P ⟨k, pc, st, its, sl, cs, h, c⟩ =
      exec cfg code.length i ⟨k, pc + 1, st, its, sl, cs, h, c⟩ := by
  simp [step, hk, hi]

theorem jump_ok {size : Nat} {off : Int} {k pc pc' : Nat} (st its sl cs) (h : σ) (c : Int)
    (h1 : (pc : Int) + off = pc') (h2 : pc' ≤ size) :
    jumpTo size off ⟨k, pc, st, its, sl, cs, h, c⟩ = .next ⟨k, pc', st, its, sl, cs, h, c⟩ := by
  unfold jumpTo
  rw [if_neg (by simp only; omega)]
  simp only [h1, Int.toNat_natCast]

end

end Cel.Eval
