import Verif.Eval.Logic
import Verif.Eval.AttributeProps

/-!
# C20: `&&` and `||` absorb errors and unknowns, independently of operand order

Specification: the three-valued "absorbing value wins, then unknown, then error" table, phrased over
what an operand *is*, not over the code's helpers.
-/

set_option linter.unusedSimpArgs false
set_option linter.unusedVariables false

namespace Cel.Eval
open Cel

/-- What an operand is, for the purpose of `&&`/`||` with absorbing value `isOr`. -/
inductive OperandClass where
  | absorbing | unknown | bad | neutral
  deriving DecidableEq

/-- Specification of the classes: the absorbing boolean (`false` for `&&`, `true` for `||`), an
unknown, the neutral boolean, or anything else (an error or a non-boolean). -/
def classify (isOr : Bool) : Value → OperandClass
  | .bool b => if b = isOr then .absorbing else .neutral
  | .unknown _ => .unknown
  | _ => .bad

/-- Attributes of an operand's unknown set (none if the operand is not unknown). -/
def unknownAttrs : Value → List Attr
  | .unknown u => u.attrs
  | _ => []

/-- Function results of an operand's unknown set. -/
def unknownFns : Value → List FnResult
  | .unknown u => u.fns
  | _ => []

/-- **C20, absorbing operand.** If either operand is the absorbing boolean, so is the result, whatever
the other operand is (even an error or an unknown). -/
theorem logic_absorbs (isOr unk : Bool) (a b : Value)
    (h : classify isOr a = .absorbing ∨ classify isOr b = .absorbing) :
    calcLogic isOr unk a b = .bool isOr := by
  have key : ∀ v, classify isOr v = .absorbing → v = .bool isOr := by
    intro v hv
    cases v <;> simp [classify] at hv
    rename_i x
    cases x <;> cases isOr <;> simp_all
  rcases h with h | h
  · rw [key a h]; cases b <;> simp [calcLogic]
  · rw [key b h]
    cases a <;> simp [calcLogic]

/-- **C20, both neutral.** `true && true = true`, `false || false = false`. -/
theorem logic_neutral (isOr unk : Bool) (a b : Value)
    (ha : classify isOr a = .neutral) (hb : classify isOr b = .neutral) :
    calcLogic isOr unk a b = .bool (!isOr) := by
  have key : ∀ v, classify isOr v = .neutral → v = .bool (!isOr) := by
    intro v hv
    cases v <;> simp [classify] at hv
    rename_i x
    cases x <;> cases isOr <;> simp_all
  rw [key a ha, key b hb]
  cases isOr <;> simp [calcLogic]

theorem calcLogic_rest (isOr unk : Bool) (a b : Value) (ha : classify isOr a ≠ .absorbing)
    (hb : classify isOr b ≠ .absorbing) (hn : ¬ (classify isOr a = .neutral ∧ classify isOr b = .neutral)) :
    calcLogic isOr unk a b = calcLogic.rest isOr unk a b := by
  cases a <;> cases b <;> simp [calcLogic, classify] at ha hb hn ⊢
  · simp_all
  all_goals simp_all

/-- **C20, unknowns win over errors.** With unknown processing on, if no operand is absorbing and at
least one is unknown, the result is an unknown whose attributes and function results all come from
the operands, and which has every (supported) attribute and every function (by descriptor) of both. -/
theorem logic_unknown (isOr : Bool) (a b : Value)
    (ha : classify isOr a ≠ .absorbing) (hb : classify isOr b ≠ .absorbing)
    (hu : classify isOr a = .unknown ∨ classify isOr b = .unknown) :
    ∃ u, calcLogic isOr true a b = .unknown u ∧
      (∀ x ∈ u.attrs, x ∈ unknownAttrs a ∨ x ∈ unknownAttrs b) ∧
      (∀ x, ValidAttr x → (x ∈ unknownAttrs a ∨ x ∈ unknownAttrs b) → x ∈ u.attrs) ∧
      (∀ f ∈ u.fns, f ∈ unknownFns a ∨ f ∈ unknownFns b) ∧
      (∀ f, (f ∈ unknownFns a ∨ f ∈ unknownFns b) → ∃ g ∈ u.fns, FnDesc.eq f.desc g.desc = true) := by
  have hn : ¬ (classify isOr a = .neutral ∧ classify isOr b = .neutral) := by
    rintro ⟨h1, h2⟩; rcases hu with h | h <;> simp_all
  rw [calcLogic_rest isOr true a b ha hb hn]
  have hm : mergeUnknowns [a, b] = some ⟨attrUnion (attrUnion [] (unknownAttrs a)) (unknownAttrs b),
      fnUnion (fnUnion [] (unknownFns a)) (unknownFns b)⟩ := by
    have : (∃ u, a = .unknown u) ∨ (∃ u, b = .unknown u) := by
      have key : ∀ v, classify isOr v = .unknown → ∃ u, v = .unknown u := by
        intro v hv
        cases v <;> simp [classify] at hv ⊢
        rename_i x; cases x <;> cases isOr <;> simp_all
      rcases hu with h | h
      · exact Or.inl (key a h)
      · exact Or.inr (key b h)
    unfold mergeUnknowns
    rcases this with ⟨u, rfl⟩ | ⟨u, rfl⟩
    · cases b <;> simp [mergeLoop, unknownAttrs, unknownFns, attrUnion, fnUnion, setUnion]
    · cases a <;> simp [mergeLoop, unknownAttrs, unknownFns, attrUnion, fnUnion, setUnion]
  refine ⟨⟨attrUnion (attrUnion [] (unknownAttrs a)) (unknownAttrs b),
      fnUnion (fnUnion [] (unknownFns a)) (unknownFns b)⟩, ?_, ?_, ?_, ?_, ?_⟩
  · unfold calcLogic.rest
    simp [hm]
  · exact (merge_no_new ⟨unknownAttrs a, []⟩ ⟨unknownAttrs b, []⟩).1
  · intro x hv hx
    have h2 : ∀ xs ys : List Attr, x ∈ xs ∨ x ∈ ys → x ∈ attrUnion xs ys := by
      intro xs ys h
      rcases h with h | h
      · exact subset_setUnion_left h
      · obtain ⟨w, hw, he⟩ := setUnion_has_right attrLt_sw (xs := xs) h
        rw [attr_equiv_eq hv he]; exact hw
    rcases hx with hx | hx
    · exact h2 _ _ (Or.inl (h2 _ _ (Or.inr hx)))
    · exact h2 _ _ (Or.inr hx)
  · exact (merge_no_new ⟨[], unknownFns a⟩ ⟨[], unknownFns b⟩).2
  · exact fun f hf => merge_fns_has ⟨[], unknownFns a⟩ ⟨[], unknownFns b⟩ f hf

/-- **C20, errors.** If neither operand is absorbing or unknown and at least one is bad (an error or a
non-boolean), the result is an error: the first operand's error, else the second's, else
"no matching overload". -/
theorem logic_error (isOr unk : Bool) (a b : Value)
    (ha : classify isOr a = .bad ∨ classify isOr a = .neutral)
    (hb : classify isOr b = .bad ∨ classify isOr b = .neutral)
    (hbad : classify isOr a = .bad ∨ classify isOr b = .bad) :
    calcLogic isOr unk a b =
      if a.isError then a else if b.isError then b
      else .error (noOverload (if isOr then "_||_" else "_&&_")) := by
  rw [calcLogic_rest isOr unk a b (by rcases ha with h | h <;> simp [h])
    (by rcases hb with h | h <;> simp [h]) (by rintro ⟨h1, h2⟩; simp_all)]
  have hm : mergeUnknowns [a, b] = none := by
    have key : ∀ v, (classify isOr v = .bad ∨ classify isOr v = .neutral) → ∀ u, v ≠ .unknown u := by
      intro v hv u h
      subst h
      simp [classify] at hv
    have ka := key a ha
    have kb := key b hb
    unfold mergeUnknowns
    cases a <;> cases b <;> simp [mergeLoop] at ka kb ⊢
  unfold calcLogic.rest
  rw [hm]
  have : (if unk = true then (none : Option UnknownSet) else none) = none := by cases unk <;> rfl
  rw [this]
  cases a <;> cases b <;> simp [Value.isError, logicName]

/-- Non-vacuity of the four cases (their hypotheses partition all operand pairs, see
`logic_cases`). -/
example : classify false (.bool false) = .absorbing ∧ classify false (.bool true) = .neutral ∧
    classify true (.unknown ⟨[], []⟩) = .unknown ∧ classify true (.int 3) = .bad ∧
    calcLogic false true (.error ⟨.unknown, "e"⟩) (.bool false) = .bool false := by
  simp [classify, calcLogic]

/-- The four theorems cover every pair of operands. -/
theorem logic_cases (isOr : Bool) (a b : Value) :
    (classify isOr a = .absorbing ∨ classify isOr b = .absorbing) ∨
    (classify isOr a = .neutral ∧ classify isOr b = .neutral) ∨
    (classify isOr a ≠ .absorbing ∧ classify isOr b ≠ .absorbing ∧
      (classify isOr a = .unknown ∨ classify isOr b = .unknown)) ∨
    ((classify isOr a = .bad ∨ classify isOr a = .neutral) ∧
     (classify isOr b = .bad ∨ classify isOr b = .neutral) ∧
     (classify isOr a = .bad ∨ classify isOr b = .bad)) := by
  cases classify isOr a <;> cases classify isOr b <;> simp

/-- Two values are the same result up to *which* error is reported and up to the representation of
the unknown set. -/
def SameUpToError (v w : Value) : Prop :=
  (∃ e f, v = .error e ∧ w = .error f) ∨
  (∃ x y, v = .unknown x ∧ w = .unknown y ∧
    (∀ a, ValidAttr a → (a ∈ x.attrs ↔ a ∈ y.attrs)) ∧ SameFns x.fns y.fns) ∨
  (∃ b, v = .bool b ∧ w = .bool b)

/-- **C20, commutativity.** Swapping the operands changes at most which of two errors is reported. -/
theorem logic_comm (isOr : Bool) (a b : Value) :
    SameUpToError (calcLogic isOr true a b) (calcLogic isOr true b a) := by
  rcases logic_cases isOr a b with h | ⟨h1, h2⟩ | ⟨h1, h2, h3⟩ | ⟨h1, h2, h3⟩
  · rw [logic_absorbs isOr true a b h, logic_absorbs isOr true b a h.symm]
    exact Or.inr (Or.inr ⟨_, rfl, rfl⟩)
  · rw [logic_neutral isOr true a b h1 h2, logic_neutral isOr true b a h2 h1]
    exact Or.inr (Or.inr ⟨_, rfl, rfl⟩)
  · obtain ⟨x, hx, x1, x2, x3, x4⟩ := logic_unknown isOr a b h1 h2 h3
    obtain ⟨y, hy, y1, y2, y3, y4⟩ := logic_unknown isOr b a h2 h1 h3.symm
    refine Or.inr (Or.inl ⟨x, y, hx, hy, ?_, ?_, ?_⟩)
    · intro z hz
      exact ⟨fun h => y2 z hz (x1 z h).symm, fun h => x2 z hz (y1 z h).symm⟩
    · intro f hf; exact y4 f (x3 f hf).symm
    · intro f hf; exact x4 f (y3 f hf).symm
  · rw [logic_error isOr true a b h1 h2 h3, logic_error isOr true b a h2 h1 h3.symm]
    left
    have key : ∀ v : Value, v.isError = true → ∃ e, v = .error e := by
      intro v hv; cases v <;> simp [Value.isError] at hv ⊢
    cases ha : a.isError <;> cases hb : b.isError <;> simp only [if_true, if_false, Bool.false_eq_true]
    · exact ⟨_, _, rfl, rfl⟩
    · obtain ⟨e, rfl⟩ := key b hb; exact ⟨e, e, rfl, rfl⟩
    · obtain ⟨e, rfl⟩ := key a ha; exact ⟨e, e, rfl, rfl⟩
    · obtain ⟨e, rfl⟩ := key a ha; obtain ⟨f, rfl⟩ := key b hb; exact ⟨e, f, rfl, rfl⟩

theorem classify_result (isOr : Bool) (a b : Value) :
    classify isOr (calcLogic isOr true a b) =
      if classify isOr a = .absorbing ∨ classify isOr b = .absorbing then .absorbing
      else if classify isOr a = .unknown ∨ classify isOr b = .unknown then .unknown
      else if classify isOr a = .bad ∨ classify isOr b = .bad then .bad else .neutral := by
  rcases logic_cases isOr a b with h | ⟨h1, h2⟩ | ⟨h1, h2, h3⟩ | ⟨h1, h2, h3⟩
  · rw [logic_absorbs isOr true a b h, if_pos h]; simp [classify]
  · rw [logic_neutral isOr true a b h1 h2]
    have : classify isOr (.bool (!isOr)) = .neutral := by cases isOr <;> simp [classify]
    simp [h1, h2, this]
  · obtain ⟨x, hx, -⟩ := logic_unknown isOr a b h1 h2 h3
    have : classify isOr (.unknown x) = .unknown := by simp [classify]
    rw [hx]; simp [h1, h2, h3, this]
  · rw [logic_error isOr true a b h1 h2 h3]
    have : classify isOr (if a.isError then a else if b.isError then b
      else .error (noOverload (if isOr then "_||_" else "_&&_"))) = .bad := by
      have key : ∀ v : Value, v.isError = true → classify isOr v = .bad := by
        intro v hv; cases v <;> simp [Value.isError, classify] at hv ⊢
      have key2 : ∀ e, classify isOr (.error e) = .bad := by intro e; simp [classify]
      cases ha : a.isError <;> cases hb : b.isError <;> simp [key2, key, ha, hb]
    rw [this]
    rcases h1 with h1 | h1 <;> rcases h2 with h2 | h2 <;> simp_all

theorem classify_bad_error (isOr : Bool) (a b : Value)
    (h : classify isOr (calcLogic isOr true a b) = .bad) : ∃ e, calcLogic isOr true a b = .error e := by
  rcases logic_cases isOr a b with h0 | ⟨h1, h2⟩ | ⟨h1, h2, h3⟩ | ⟨h1, h2, h3⟩
  · rw [logic_absorbs isOr true a b h0] at h; simp [classify] at h
  · rw [logic_neutral isOr true a b h1 h2] at h; simp [classify] at h
  · obtain ⟨x, hx, -⟩ := logic_unknown isOr a b h1 h2 h3
    rw [hx] at h; simp [classify] at h
  · rw [logic_error isOr true a b h1 h2 h3]
    have key : ∀ v : Value, v.isError = true → ∃ e, v = .error e := by
      intro v hv; cases v <;> simp [Value.isError] at hv ⊢
    cases ha : a.isError <;> cases hb : b.isError <;> simp only [if_true, if_false, Bool.false_eq_true]
    · exact ⟨_, rfl⟩
    · exact key b hb
    · exact key a ha
    · exact key a ha

theorem classify_of_result (isOr : Bool) (v : Value) :
    (classify isOr v = .absorbing → v = .bool isOr) ∧ (classify isOr v = .neutral → v = .bool (!isOr)) ∧
    (classify isOr v = .unknown → ∃ u, v = .unknown u) := by
  cases v <;> simp [classify]
  rename_i x; cases x <;> cases isOr <;> simp

/-- Membership in the unknown set of a result, whatever the operands. -/
theorem unknown_result_mem (isOr : Bool) (a b : Value) (h : classify isOr (calcLogic isOr true a b) = .unknown) :
    (∀ x, ValidAttr x → (x ∈ unknownAttrs (calcLogic isOr true a b) ↔ x ∈ unknownAttrs a ∨ x ∈ unknownAttrs b)) ∧
    (∀ f ∈ unknownFns (calcLogic isOr true a b), f ∈ unknownFns a ∨ f ∈ unknownFns b) ∧
    (∀ f, (f ∈ unknownFns a ∨ f ∈ unknownFns b) →
      ∃ g ∈ unknownFns (calcLogic isOr true a b), FnDesc.eq f.desc g.desc = true) := by
  rw [classify_result] at h
  have h1 : ¬ (classify isOr a = .absorbing ∨ classify isOr b = .absorbing) := by
    intro hh; rw [if_pos hh] at h; simp at h
  have h2 : classify isOr a = .unknown ∨ classify isOr b = .unknown := by
    by_cases hh : classify isOr a = .unknown ∨ classify isOr b = .unknown
    · exact hh
    · rw [if_neg h1, if_neg hh] at h; split at h <;> simp at h
  obtain ⟨u, hu, u1, u2, u3, u4⟩ := logic_unknown isOr a b (fun hh => h1 (Or.inl hh)) (fun hh => h1 (Or.inr hh)) h2
  rw [hu]
  exact ⟨fun x hv => ⟨u1 x, u2 x hv⟩, u3, u4⟩

theorem fnDescEq_trans {a b c : FnDesc} (h1 : FnDesc.eq a b = true) (h2 : FnDesc.eq b c = true) :
    FnDesc.eq a c = true := by
  unfold FnDesc.eq at *; simp at *; simp [h1, h2]

/-- **C20, associativity.** Regrouping a chain `a op b op c` changes at most which error is reported;
with `logic_comm` this makes the value of a chain independent of order and grouping up to that. -/
theorem logic_assoc (isOr : Bool) (a b c : Value) :
    SameUpToError (calcLogic isOr true (calcLogic isOr true a b) c)
      (calcLogic isOr true a (calcLogic isOr true b c)) := by
  have hcl : classify isOr (calcLogic isOr true (calcLogic isOr true a b) c)
      = classify isOr (calcLogic isOr true a (calcLogic isOr true b c)) := by
    rw [classify_result, classify_result, classify_result, classify_result]
    cases classify isOr a <;> cases classify isOr b <;> cases classify isOr c <;> simp
  cases hc : classify isOr (calcLogic isOr true (calcLogic isOr true a b) c) with
  | absorbing =>
    rw [(classify_of_result isOr _).1 hc, (classify_of_result isOr (calcLogic isOr true a (calcLogic isOr true b c))).1 (hcl ▸ hc)]
    exact Or.inr (Or.inr ⟨_, rfl, rfl⟩)
  | neutral =>
    rw [(classify_of_result isOr _).2.1 hc, (classify_of_result isOr (calcLogic isOr true a (calcLogic isOr true b c))).2.1 (hcl ▸ hc)]
    exact Or.inr (Or.inr ⟨_, rfl, rfl⟩)
  | bad =>
    obtain ⟨e, he⟩ := classify_bad_error isOr _ _ hc
    obtain ⟨f, hf⟩ := classify_bad_error isOr _ _ (hcl ▸ hc)
    exact Or.inl ⟨e, f, he, hf⟩
  | unknown =>
    obtain ⟨x, hx⟩ := (classify_of_result isOr _).2.2 hc
    obtain ⟨y, hy⟩ := (classify_of_result isOr _).2.2 (hcl ▸ hc)
    have L := unknown_result_mem isOr _ _ hc
    have R := unknown_result_mem isOr _ _ (hcl ▸ hc)
    -- inner results
    have inner : ∀ p q : Value, classify isOr (calcLogic isOr true p q) ≠ .absorbing →
        (∀ z, ValidAttr z → (z ∈ unknownAttrs (calcLogic isOr true p q) ↔ z ∈ unknownAttrs p ∨ z ∈ unknownAttrs q)) ∧
        (∀ f ∈ unknownFns (calcLogic isOr true p q), f ∈ unknownFns p ∨ f ∈ unknownFns q) ∧
        (∀ f, (f ∈ unknownFns p ∨ f ∈ unknownFns q) →
          ∃ g ∈ unknownFns (calcLogic isOr true p q), FnDesc.eq f.desc g.desc = true) := by
      intro p q hpq
      by_cases hu : classify isOr (calcLogic isOr true p q) = .unknown
      · exact unknown_result_mem isOr p q hu
      · have hr := classify_result isOr p q
        have hp : classify isOr p ≠ .unknown := by
          intro h; rw [hr] at hu hpq
          by_cases h9 : classify isOr p = .absorbing ∨ classify isOr q = .absorbing
          · simp [h9] at hpq
          · rw [if_neg h9, if_pos (by simp [h])] at hu; exact hu rfl
        have hq : classify isOr q ≠ .unknown := by
          intro h; rw [hr] at hu hpq
          by_cases h9 : classify isOr p = .absorbing ∨ classify isOr q = .absorbing
          · simp [h9] at hpq
          · rw [if_neg h9, if_pos (by simp [h])] at hu; exact hu rfl
        have e1 : ∀ v, classify isOr v ≠ .unknown → unknownAttrs v = [] ∧ unknownFns v = [] := by
          intro v hv; cases v <;> simp [unknownAttrs, unknownFns, classify] at hv ⊢
        simp [e1 _ hu, e1 _ hp, e1 _ hq]
    have hnab : classify isOr (calcLogic isOr true a b) ≠ .absorbing := by
      intro h; rw [classify_result] at hc; simp [h] at hc
    have hnbc : classify isOr (calcLogic isOr true b c) ≠ .absorbing := by
      intro h; have := hcl ▸ hc; rw [classify_result] at this; simp [h] at this
    have I1 := inner a b hnab
    have I2 := inner b c hnbc
    have hxa : unknownAttrs (calcLogic isOr true (calcLogic isOr true a b) c) = x.attrs := by rw [hx]; rfl
    have hya : unknownAttrs (calcLogic isOr true a (calcLogic isOr true b c)) = y.attrs := by rw [hy]; rfl
    have hxf : unknownFns (calcLogic isOr true (calcLogic isOr true a b) c) = x.fns := by rw [hx]; rfl
    have hyf : unknownFns (calcLogic isOr true a (calcLogic isOr true b c)) = y.fns := by rw [hy]; rfl
    rw [hxa, hxf] at L
    rw [hya, hyf] at R
    refine Or.inr (Or.inl ⟨x, y, hx, hy, ?_, ?_, ?_⟩)
    · intro z hz
      rw [L.1 z hz, R.1 z hz, I1.1 z hz, I2.1 z hz]
      exact or_assoc
    · intro f hf
      have : f ∈ unknownFns a ∨ f ∈ unknownFns b ∨ f ∈ unknownFns c := by
        rcases L.2.1 f hf with h | h
        · rcases I1.2.1 f h with h | h
          · exact Or.inl h
          · exact Or.inr (Or.inl h)
        · exact Or.inr (Or.inr h)
      rcases this with h | h
      · exact R.2.2 f (Or.inl h)
      · obtain ⟨g, hg, he⟩ := I2.2.2 f h
        obtain ⟨g', hg', he'⟩ := R.2.2 g (Or.inr hg)
        exact ⟨g', hg', fnDescEq_trans he he'⟩
    · intro f hf
      have : (f ∈ unknownFns a ∨ f ∈ unknownFns b) ∨ f ∈ unknownFns c := by
        rcases R.2.1 f hf with h | h
        · exact Or.inl (Or.inl h)
        · rcases I2.2.1 f h with h | h
          · exact Or.inl (Or.inr h)
          · exact Or.inr h
      rcases this with h | h
      · obtain ⟨g, hg, he⟩ := I1.2.2 f h
        obtain ⟨g', hg', he'⟩ := L.2.2 g (Or.inl hg)
        exact ⟨g', hg', fnDescEq_trans he he'⟩
      · exact L.2.2 f (Or.inr h)

/-- **C20, recursive evaluator.** The recursive logic steps compute the same value as the iterative
step, for values whose unknown sets are as the evaluator builds them (ascending); both report the
same error. -/
theorem logic_direct_agrees (isOr unk : Bool) (l r : VA)
    (hl : ∀ u, l.v = .unknown u → Ascending Attr.lt u.attrs ∧ Ascending FnResult.lt u.fns)
    (hr : ∀ u, r.v = .unknown u → Ascending Attr.lt u.attrs ∧ Ascending FnResult.lt u.fns) :
    (directLogic isOr unk l r).v = calcLogic isOr unk l.v r.v := by
  have hself : ∀ u : UnknownSet, Ascending Attr.lt u.attrs → Ascending FnResult.lt u.fns →
      (⟨attrUnion [] u.attrs, fnUnion [] u.fns⟩ : UnknownSet) = u := by
    have gen : ∀ {α : Type} (lt : α → α → Bool) (sw : StrictWeak lt) (xs pre : List α),
        Ascending lt (pre ++ xs) → setUnion lt pre xs = pre ++ xs := by
      intro α lt sw xs
      induction xs with
      | nil => intro pre _; simp [setUnion]
      | cons x xs ih =>
        intro pre h
        have hins : setInsert lt x pre = pre ++ [x] := by
          clear ih
          induction pre with
          | nil => simp [setInsert]
          | cons y ys ihy =>
            have h1 : lt y x = true := h.1 x (by simp)
            have h2 := sw.asymm _ _ h1
            unfold setInsert
            simp [h1, h2, ihy h.2]
        show setUnion lt (setInsert lt x pre) xs = _
        rw [hins, ih (pre ++ [x]) (by simpa using h)]
        simp
    intro u h1 h2
    have e1 := gen Attr.lt attrLt_sw u.attrs [] (by simpa using h1)
    have e2 := gen FnResult.lt fnResultLt_sw u.fns [] (by simpa using h2)
    simp only [attrUnion, fnUnion, e1, e2, List.nil_append]
  obtain ⟨lv, lt⟩ := l
  obtain ⟨rv, rt⟩ := r
  simp only at hl hr ⊢
  cases lv with
  | bool x =>
    cases rv with
    | bool y => cases x <;> cases y <;> cases isOr <;> cases unk <;>
        simp [directLogic, directLogic.tail, returnLogic, calcLogic]
    | unknown u =>
      have := hself u (hr u rfl).1 (hr u rfl).2
      cases x <;> cases isOr <;> cases unk <;>
        simp [directLogic, directLogic.tail, returnLogic, calcLogic, calcLogic.rest, mergeUnknowns, mergeLoop, this]
    | _ => cases x <;> cases isOr <;> cases unk <;>
        simp [directLogic, directLogic.tail, returnLogic, calcLogic, calcLogic.rest, mergeUnknowns, mergeLoop]
  | unknown u =>
    have hu := hself u (hl u rfl).1 (hl u rfl).2
    cases rv with
    | bool y => cases y <;> cases isOr <;> cases unk <;>
        simp [directLogic, directLogic.tail, returnLogic, calcLogic, calcLogic.rest, mergeUnknowns, mergeLoop, hu]
    | unknown w =>
      have hw := hself w (hr w rfl).1 (hr w rfl).2
      cases isOr <;> cases unk <;>
        simp [directLogic, directLogic.tail, returnLogic, calcLogic, calcLogic.rest, mergeUnknowns, mergeLoop, UnknownSet.merge]
    | _ => cases isOr <;> cases unk <;>
        simp [directLogic, directLogic.tail, returnLogic, calcLogic, calcLogic.rest, mergeUnknowns, mergeLoop, hu]
  | error e =>
    cases rv with
    | bool y => cases y <;> cases isOr <;> cases unk <;>
        simp [directLogic, directLogic.tail, returnLogic, calcLogic, calcLogic.rest, mergeUnknowns, mergeLoop]
    | unknown w =>
      have hw := hself w (hr w rfl).1 (hr w rfl).2
      cases isOr <;> cases unk <;>
        simp [directLogic, directLogic.tail, returnLogic, calcLogic, calcLogic.rest, mergeUnknowns, mergeLoop, hw]
    | _ => cases isOr <;> cases unk <;>
        simp [directLogic, directLogic.tail, returnLogic, calcLogic, calcLogic.rest, mergeUnknowns, mergeLoop]
  | _ =>
    cases rv with
    | bool y => cases y <;> cases isOr <;> cases unk <;>
        simp [directLogic, directLogic.tail, returnLogic, calcLogic, calcLogic.rest, mergeUnknowns, mergeLoop]
    | unknown w =>
      have hw := hself w (hr w rfl).1 (hr w rfl).2
      cases isOr <;> cases unk <;>
        simp [directLogic, directLogic.tail, returnLogic, calcLogic, calcLogic.rest, mergeUnknowns, mergeLoop, hw]
    | _ => cases isOr <;> cases unk <;>
        simp [directLogic, directLogic.tail, returnLogic, calcLogic, calcLogic.rest, mergeUnknowns, mergeLoop]

/-- **`!`.** Negation of a boolean that is not (partially) unknown; errors and unknowns pass through;
anything else is a no-matching-overload error. -/
theorem not_meaning (unk : Bool) (pats : List Pattern) (x : VA)
    (h : unk = false ∨ checkUnknown pats x.t true = false) :
    (∀ b, x.v = .bool b → (notStep unk pats x).v = .bool (!b)) ∧
    (∀ e, x.v = .error e → (notStep unk pats x).v = .error e) ∧
    (∀ u, x.v = .unknown u → (notStep unk pats x).v = .unknown u) ∧
    (x.v.kind ≠ kBool → x.v.kind ≠ kError → x.v.kind ≠ kUnknown →
      (notStep unk pats x).v = .error (noOverload "!_")) := by
  have hc : (if unk = true ∧ checkUnknown pats x.t true = true then x.t else none) = (none : Trail) := by
    rw [if_neg]; rintro ⟨h1, h2⟩; rcases h with h | h <;> simp_all
  obtain ⟨v, t⟩ := x
  simp only at hc
  unfold notStep
  simp only [hc]
  cases v <;> simp [Value.kind, kBool, kError, kUnknown, kNull, kInt, kUint, kDouble, kString, kBytes, kStruct, kDuration, kTimestamp, kList, kMap, kType, kOpaque]

end Cel.Eval
