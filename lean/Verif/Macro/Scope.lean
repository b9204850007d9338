import Verif.Eval.Pure

/-!
# Free variables: an expression's value depends only on the variables it mentions freely
-/

set_option linter.unusedSimpArgs false
set_option linter.unusedVariables false

namespace Cel.Eval
open Cel

variable {σ : Type}

mutual
/-- `z` occurs free in the expression.  The accumulator is bound in the condition, the step and the
result; the iteration variables in the condition and the step only. -/
def Free (z : String) : Expr σ → Prop
  | .const _ => False
  | .ident x abs => abs = false ∧ z = x
  | .op _ args => Frees z args
  | .logic _ a b => Free z a ∨ Free z b
  | .cond c t e => Free z c ∨ Free z t ∨ Free z e
  | .comp x y accu range init cnd stp res =>
    Free z range ∨ Free z init ∨
    (z ≠ x ∧ y ≠ some z ∧ z ≠ accu ∧ (Free z cnd ∨ Free z stp)) ∨
    (z ≠ accu ∧ Free z res)
  | .bind x init body => Free z init ∨ (z ≠ x ∧ Free z body)
/-- `z` occurs free in one of the operands. -/
def Frees (z : String) : Exprs σ → Prop
  | .nil => False
  | .cons e es => Free z e ∨ Frees z es
end

variable {cfg : Cfg σ} {h : σ}

theorem ploop_congr {sc : Bool} {c c' s s' : Item → VA → VA} (hc : ∀ it a, c it a = c' it a)
    (hs : ∀ it a, s it a = s' it a) (l : List Item) (a : VA) : ploop sc c s l a = ploop sc c' s' l a := by
  have h1 : c = c' := by funext it a; exact hc it a
  have h2 : s = s' := by funext it a; exact hs it a
  rw [h1, h2]

theorem penvGet_append (ρ ρ' : PEnv) (x : String) :
    penvGet (ρ ++ ρ') x = (match penvGet ρ x with | some a => some a | none => penvGet ρ' x) := by
  induction ρ with
  | nil => rfl
  | cons b ρ ih =>
    obtain ⟨y, a⟩ := b
    simp only [List.cons_append, penvGet]
    split
    · rfl
    · exact ih

theorem penvGet_iter (x : String) (y : Option String) (t : Trail) (it : Item) (z : String)
    (hx : z ≠ x) (hy : y ≠ some z) : penvGet (piterBinds cfg x y t it) z = none := by
  cases y with
  | none => simp [piterBinds, penvGet, hx]
  | some y =>
    have : z ≠ y := fun hh => hy (by rw [hh])
    simp [piterBinds, penvGet, hx, this]

/-- Two environments that agree on everything outside the iteration variables agree once the iteration
variables are added. -/
theorem agree_iter {ρ ρ' : PEnv} {x : String} {y : Option String} {t : Trail} {it : Item} (z : String)
    (hz : z ≠ x → y ≠ some z → penvGet ρ z = penvGet ρ' z) :
    penvGet (piterBinds cfg x y t it ++ ρ) z = penvGet (piterBinds cfg x y t it ++ ρ') z := by
  rw [penvGet_append, penvGet_append]
  by_cases hx : z = x
  · cases y <;> simp [piterBinds, penvGet, hx]
  · by_cases hy : y = some z
    · subst hy; simp [piterBinds, penvGet, hx]
    · rw [penvGet_iter x y t it z hx hy]
      exact hz hx hy

theorem agree_cons {ρ ρ' : PEnv} {w : String} {a : VA} (z : String)
    (hz : z ≠ w → penvGet ρ z = penvGet ρ' z) : penvGet ((w, a) :: ρ) z = penvGet ((w, a) :: ρ') z := by
  simp only [penvGet]
  split
  · rfl
  · exact hz ‹_›

mutual
/-- The value of an expression depends only on the values of its free variables. -/
theorem pden_agree (e : Expr σ) : ∀ (ρ ρ' : PEnv), (∀ z, Free z e → penvGet ρ z = penvGet ρ' z) →
    pden cfg h e ρ = pden cfg h e ρ' := by
  cases e with
  | const v => intro ρ ρ' _; rfl
  | ident x abs =>
    intro ρ ρ' ha
    simp only [pden]
    cases abs with
    | true => rfl
    | false => rw [if_neg (by simp), if_neg (by simp), ha x ⟨rfl, rfl⟩]
  | op f args =>
    intro ρ ρ' ha
    simp only [pden]
    rw [pdenArgs_agree args ρ ρ' ha]
  | logic o a b =>
    intro ρ ρ' ha
    simp only [pden]
    rw [pden_agree a ρ ρ' fun z hz => ha z (Or.inl hz), pden_agree b ρ ρ' fun z hz => ha z (Or.inr hz)]
  | cond c t f =>
    intro ρ ρ' ha
    simp only [pden]
    rw [pden_agree c ρ ρ' fun z hz => ha z (Or.inl hz),
      pden_agree t ρ ρ' fun z hz => ha z (Or.inr (Or.inl hz)),
      pden_agree f ρ ρ' fun z hz => ha z (Or.inr (Or.inr hz))]
  | comp x y accu range init cnd stp res =>
    intro ρ ρ' ha
    simp only [pden]
    rw [pden_agree range ρ ρ' fun z hz => ha z (Or.inl hz)]
    have hbody : ∀ z, (Free z cnd ∨ Free z stp) → ∀ t it a,
        penvGet (piterBinds cfg x y t it ++ (accu, a) :: ρ) z
          = penvGet (piterBinds cfg x y t it ++ (accu, a) :: ρ') z := by
      intro z hz t it a
      refine agree_iter z fun hx hy => agree_cons z fun hacc => ha z ?_
      exact Or.inr (Or.inr (Or.inl ⟨hx, hy, hacc, hz⟩))
    cases rangeOf cfg.unknowns cfg.pats (pden cfg h range ρ') with
    | stop v => rfl
    | items l =>
      simp only []
      rw [pden_agree init ρ ρ' fun z hz => ha z (Or.inr (Or.inl hz))]
      rw [ploop_congr (fun it a => pden_agree cnd _ _ fun z hz => hbody z (Or.inl hz) _ it a)
        (fun it a => pden_agree stp _ _ fun z hz => hbody z (Or.inr hz) _ it a)]
      split
      · rfl
      · exact pden_agree res _ _ fun z hz => agree_cons z fun hacc => ha z (Or.inr (Or.inr (Or.inr ⟨hacc, hz⟩)))
  | bind x init body =>
    intro ρ ρ' ha
    simp only [pden]
    rw [pden_agree init ρ ρ' fun z hz => ha z (Or.inl hz)]
    exact pden_agree body _ _ fun z hz => agree_cons z fun hx => ha z (Or.inr ⟨hx, hz⟩)
theorem pdenArgs_agree (es : Exprs σ) : ∀ (ρ ρ' : PEnv), (∀ z, Frees z es → penvGet ρ z = penvGet ρ' z) →
    pdenArgs cfg h es ρ = pdenArgs cfg h es ρ' := by
  cases es with
  | nil => intro ρ ρ' _; rfl
  | cons e es =>
    intro ρ ρ' ha
    simp only [pdenArgs]
    rw [pden_agree e ρ ρ' fun z hz => ha z (Or.inl hz), pdenArgs_agree es ρ ρ' fun z hz => ha z (Or.inr hz)]
end

end Cel.Eval
