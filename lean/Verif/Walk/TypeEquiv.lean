import Verif.Walk.Validators

set_option linter.unusedSimpArgs false
set_option linter.unusedVariables false

/-! # C65: when two element types count as the same -/

namespace Cel.Walk
open Cel Cel.Proto

mutual
/-- Types that may stand side by side in a literal: equal up to wrapping of primitive types, inside
lists, maps and parameters of abstract types too; the error type goes with everything. -/
inductive Same : TypeSpec → TypeSpec → Prop
  | refl (a : TypeSpec) : Same a a
  | unwrap (p : Prim) : Same (.wrapper p) (.primitive p)
  | wrap (p : Prim) : Same (.primitive p) (.wrapper p)
  | list {a b : TypeSpec} : Same a b → Same (.list a) (.list b)
  | map {k k' v v' : TypeSpec} : Same k k' → Same v v' → Same (.map k v) (.map k' v')
  | params (n : String) {ps ps' : List TypeSpec} : SameAll ps ps' →
    Same (.abstract n ps) (.abstract n ps')
  | errorL (a : TypeSpec) : Same .error a
  | errorR (a : TypeSpec) : Same a .error
/-- Lists of such types, of the same length. -/
inductive SameAll : List TypeSpec → List TypeSpec → Prop
  | nil : SameAll [] []
  | cons {a b : TypeSpec} {as bs : List TypeSpec} : Same a b → SameAll as bs →
    SameAll (a :: as) (b :: bs)
end

mutual
theorem typeEq_iff : ∀ a b : TypeSpec, typeEq a b = true ↔ a = b
  | .unset, b => by cases b <;> simp [typeEq]
  | .dyn, b => by cases b <;> simp [typeEq]
  | .error, b => by cases b <;> simp [typeEq]
  | .null, b => by cases b <;> simp [typeEq]
  | .primitive p, b => by cases b <;> simp [typeEq]
  | .wrapper p, b => by cases b <;> simp [typeEq]
  | .wellKnown p, b => by cases b <;> simp [typeEq]
  | .list a, b => by
    have ih := typeEq_iff a
    cases b <;> simp [typeEq, ih]
  | .map k v, b => by
    have ih1 := typeEq_iff k
    have ih2 := typeEq_iff v
    cases b <;> simp [typeEq, ih1, ih2]
  | .function r as, b => by
    have ih1 := typeEq_iff r
    have ih2 := typesEq_iff as
    cases b <;> simp [typeEq, ih1, ih2]
  | .message n, b => by cases b <;> simp [typeEq]
  | .typeParam n, b => by cases b <;> simp [typeEq]
  | .typeNull, b => by cases b <;> simp [typeEq]
  | .typeOf a, b => by
    have ih := typeEq_iff a
    cases b <;> simp [typeEq, ih]
  | .abstract n ps, b => by
    have ih := typesEq_iff ps
    cases b <;> simp [typeEq, ih]
theorem typesEq_iff : ∀ as bs : List TypeSpec, typesEq as bs = true ↔ as = bs
  | [], bs => by cases bs <;> simp [typesEq]
  | a :: as, bs => by
    have ih1 := typeEq_iff a
    have ih2 := typesEq_iff as
    cases bs <;> simp [typesEq, ih1, ih2]
end

mutual
theorem typeEquiv_iff : ∀ a b : TypeSpec, typeEquiv a b = true ↔ Same a b
  | .unset, b => by
    cases b <;> simp [typeEquiv, typeEq_iff] <;> first | exact .refl _ | exact .errorR _ | (intro h; cases h)
  | .dyn, b => by
    cases b <;> simp [typeEquiv, typeEq_iff] <;> first | exact .refl _ | exact .errorR _ | (intro h; cases h)
  | .error, b => by
    cases b <;> simp [typeEquiv, typeEq_iff] <;> exact .errorL _
  | .null, b => by
    cases b <;> simp [typeEquiv, typeEq_iff] <;> first | exact .refl _ | exact .errorR _ | (intro h; cases h)
  | .primitive p, b => by
    cases b with
    | primitive q =>
      simp only [typeEquiv, typeEq, decide_eq_true_eq]
      exact ⟨fun h => h ▸ .refl _, fun h => by cases h; rfl⟩
    | wrapper q =>
      simp only [typeEquiv, decide_eq_true_eq]
      exact ⟨fun h => h ▸ .wrap _, fun h => by cases h; rfl⟩
    | error => simp only [typeEquiv, true_iff]; exact .errorR _
    | _ => simp [typeEquiv, typeEq]; intro h; cases h
  | .wrapper p, b => by
    cases b with
    | wrapper q =>
      simp only [typeEquiv, typeEq, decide_eq_true_eq]
      exact ⟨fun h => h ▸ .refl _, fun h => by cases h; rfl⟩
    | primitive q =>
      simp only [typeEquiv, decide_eq_true_eq]
      exact ⟨fun h => h ▸ .unwrap _, fun h => by cases h; rfl⟩
    | error => simp only [typeEquiv, true_iff]; exact .errorR _
    | _ => simp [typeEquiv, typeEq]; intro h; cases h
  | .wellKnown p, b => by
    cases b with
    | wellKnown q =>
      simp only [typeEquiv, typeEq, decide_eq_true_eq]
      exact ⟨fun h => h ▸ .refl _, fun h => by cases h; rfl⟩
    | error => simp only [typeEquiv, true_iff]; exact .errorR _
    | _ => simp [typeEquiv, typeEq]; intro h; cases h
  | .list a, b => by
    have ih := typeEquiv_iff a
    cases b with
    | list b =>
      simp only [typeEquiv, Bool.or_eq_true, typeEq_iff, ih]
      constructor
      · rintro (h | h)
        · rw [h]; exact .refl _
        · exact .list h
      · intro h
        cases h with
        | refl => exact .inl rfl
        | list h => exact .inr h
    | error => simp only [typeEquiv, true_iff]; exact .errorR _
    | _ => simp [typeEquiv, typeEq]; intro h; cases h
  | .map k v, b => by
    have ih1 := typeEquiv_iff k
    have ih2 := typeEquiv_iff v
    cases b with
    | map k' v' =>
      simp only [typeEquiv, Bool.or_eq_true, Bool.and_eq_true, typeEq_iff, ih1, ih2]
      constructor
      · rintro (h | ⟨h, h'⟩)
        · rw [h]; exact .refl _
        · exact .map h h'
      · intro h
        cases h with
        | refl => exact .inl rfl
        | map h h' => exact .inr ⟨h, h'⟩
    | error => simp only [typeEquiv, true_iff]; exact .errorR _
    | _ => simp [typeEquiv, typeEq]; intro h; cases h
  | .function r as, b => by
    cases b with
    | function r' as' =>
      simp only [typeEquiv, typeEq_iff]
      exact ⟨fun h => h ▸ .refl _, fun h => by cases h; rfl⟩
    | error => simp only [typeEquiv, true_iff]; exact .errorR _
    | _ => simp [typeEquiv, typeEq]; intro h; cases h
  | .message n, b => by
    cases b with
    | message q =>
      simp only [typeEquiv, typeEq, decide_eq_true_eq]
      exact ⟨fun h => h ▸ .refl _, fun h => by cases h; rfl⟩
    | error => simp only [typeEquiv, true_iff]; exact .errorR _
    | _ => simp [typeEquiv, typeEq]; intro h; cases h
  | .typeParam n, b => by
    cases b with
    | typeParam q =>
      simp only [typeEquiv, typeEq, decide_eq_true_eq]
      exact ⟨fun h => h ▸ .refl _, fun h => by cases h; rfl⟩
    | error => simp only [typeEquiv, true_iff]; exact .errorR _
    | _ => simp [typeEquiv, typeEq]; intro h; cases h
  | .typeNull, b => by
    cases b <;> simp [typeEquiv, typeEq_iff] <;> first | exact .refl _ | exact .errorR _ | (intro h; cases h)
  | .typeOf a, b => by
    cases b with
    | typeOf a' =>
      simp only [typeEquiv, typeEq_iff]
      exact ⟨fun h => h ▸ .refl _, fun h => by cases h; rfl⟩
    | error => simp only [typeEquiv, true_iff]; exact .errorR _
    | _ => simp [typeEquiv, typeEq]; intro h; cases h
  | .abstract n ps, b => by
    have ih := typesEquiv_iff ps
    cases b with
    | «abstract» n' ps' =>
      simp only [typeEquiv, Bool.or_eq_true, Bool.and_eq_true, typeEq_iff, ih, decide_eq_true_eq]
      constructor
      · rintro (h | ⟨h, h'⟩)
        · rw [h]; exact .refl _
        · subst h; exact .params n h'
      · intro h
        cases h with
        | refl => exact .inl rfl
        | params _ h => exact .inr ⟨rfl, h⟩
    | error => simp only [typeEquiv, true_iff]; exact .errorR _
    | _ => simp [typeEquiv, typeEq]; intro h; cases h
theorem typesEquiv_iff : ∀ as bs : List TypeSpec, typesEquiv as bs = true ↔ SameAll as bs
  | [], bs => by
    cases bs with
    | nil => simp only [typesEquiv, true_iff]; exact .nil
    | cons => simp only [typesEquiv, Bool.false_eq_true, false_iff]; intro h; cases h
  | a :: as, bs => by
    have ih1 := typeEquiv_iff a
    have ih2 := typesEquiv_iff as
    cases bs with
    | nil => simp only [typesEquiv, Bool.false_eq_true, false_iff]; intro h; cases h
    | cons b bs =>
      simp only [typesEquiv, Bool.and_eq_true, ih1, ih2]
      exact ⟨fun h => .cons h.1 h.2, fun h => by cases h with | cons h h' => exact ⟨h, h'⟩⟩
end

/-! ## Laws -/

mutual
/-- No error type where `Same` looks. -/
def errorFree : TypeSpec → Bool
  | .error => false
  | .list a => errorFree a
  | .map k v => errorFree k && errorFree v
  | .abstract _ ps => errorsFree ps
  | _ => true
def errorsFree : List TypeSpec → Bool
  | [] => true
  | a :: as => errorFree a && errorsFree as
end

mutual
/-- Wrappers replaced by what they wrap. -/
def unwrapped : TypeSpec → TypeSpec
  | .wrapper p => .primitive p
  | .list a => .list (unwrapped a)
  | .map k v => .map (unwrapped k) (unwrapped v)
  | .abstract n ps => .abstract n (unwrappeds ps)
  | t => t
def unwrappeds : List TypeSpec → List TypeSpec
  | [] => []
  | a :: as => unwrapped a :: unwrappeds as
end

mutual
theorem same_symm : ∀ {a b : TypeSpec}, Same a b → Same b a
  | _, _, .refl a => .refl a
  | _, _, .unwrap p => .wrap p
  | _, _, .wrap p => .unwrap p
  | _, _, .list h => .list (same_symm h)
  | _, _, .map h h' => .map (same_symm h) (same_symm h')
  | _, _, .params n h => .params n (sameAll_symm h)
  | _, _, .errorL a => .errorR a
  | _, _, .errorR a => .errorL a
theorem sameAll_symm : ∀ {as bs : List TypeSpec}, SameAll as bs → SameAll bs as
  | _, _, .nil => .nil
  | _, _, .cons h h' => .cons (same_symm h) (sameAll_symm h')
end

mutual
theorem same_unwrapped : ∀ {a b : TypeSpec}, Same a b → errorFree a = true → errorFree b = true →
    unwrapped a = unwrapped b
  | _, _, .refl a, _, _ => rfl
  | _, _, .unwrap p, _, _ => by simp [unwrapped]
  | _, _, .wrap p, _, _ => by simp [unwrapped]
  | _, _, .list h, h1, h2 => by
    simp only [errorFree] at h1 h2
    simp only [unwrapped, same_unwrapped h h1 h2]
  | _, _, .map h h', h1, h2 => by
    simp only [errorFree, Bool.and_eq_true] at h1 h2
    simp only [unwrapped, same_unwrapped h h1.1 h2.1, same_unwrapped h' h1.2 h2.2]
  | _, _, .params n h, h1, h2 => by
    simp only [errorFree] at h1 h2
    simp only [unwrapped, sameAll_unwrapped h h1 h2]
  | _, _, .errorL a, h1, _ => by simp [errorFree] at h1
  | _, _, .errorR a, _, h2 => by simp [errorFree] at h2
theorem sameAll_unwrapped : ∀ {as bs : List TypeSpec}, SameAll as bs → errorsFree as = true →
    errorsFree bs = true → unwrappeds as = unwrappeds bs
  | _, _, .nil, _, _ => rfl
  | _, _, .cons h h', h1, h2 => by
    simp only [errorsFree, Bool.and_eq_true] at h1 h2
    simp only [unwrappeds, same_unwrapped h h1.1 h2.1, sameAll_unwrapped h' h1.2 h2.2]
end

mutual
theorem unwrapped_same : ∀ (a b : TypeSpec), unwrapped a = unwrapped b → Same a b
  | .wrapper p, b, h => by
    cases b <;> simp [unwrapped] at h
    · subst h; exact .unwrap _
    · subst h; exact .refl _
  | .primitive p, b, h => by
    cases b <;> simp [unwrapped] at h
    · subst h; exact .refl _
    · subst h; exact .wrap _
  | .list a, b, h => by
    have ih := unwrapped_same a
    cases b <;> simp [unwrapped] at h
    exact .list (ih _ h)
  | .map k v, b, h => by
    have ih1 := unwrapped_same k
    have ih2 := unwrapped_same v
    cases b <;> simp [unwrapped] at h
    exact .map (ih1 _ h.1) (ih2 _ h.2)
  | .abstract n ps, b, h => by
    have ih := unwrappeds_same ps
    cases b <;> simp [unwrapped] at h
    obtain ⟨rfl, h⟩ := h
    exact .params n (ih _ h)
  | .unset, b, h => by cases b <;> simp [unwrapped] at h; exact .refl _
  | .dyn, b, h => by cases b <;> simp [unwrapped] at h; exact .refl _
  | .error, b, h => .errorL _
  | .null, b, h => by cases b <;> simp [unwrapped] at h; exact .refl _
  | .wellKnown w, b, h => by cases b <;> simp [unwrapped] at h; subst h; exact .refl _
  | .function r as, b, h => by
    cases b <;> simp [unwrapped] at h
    obtain ⟨rfl, rfl⟩ := h
    exact .refl _
  | .message n, b, h => by cases b <;> simp [unwrapped] at h; subst h; exact .refl _
  | .typeParam n, b, h => by cases b <;> simp [unwrapped] at h; subst h; exact .refl _
  | .typeNull, b, h => by cases b <;> simp [unwrapped] at h; exact .refl _
  | .typeOf a, b, h => by cases b <;> simp [unwrapped] at h; subst h; exact .refl _
theorem unwrappeds_same : ∀ (as bs : List TypeSpec), unwrappeds as = unwrappeds bs → SameAll as bs
  | [], bs, h => by cases bs <;> simp [unwrappeds] at h; exact .nil
  | a :: as, bs, h => by
    have ih1 := unwrapped_same a
    have ih2 := unwrappeds_same as
    cases bs <;> simp [unwrappeds] at h
    exact .cons (ih1 _ h.1) (ih2 _ h.2)
end

/-- Without error types, `TypeEquiv` is: equal once wrappers are unwrapped, hence an equivalence. -/
theorem C65_type_equivalence (a b : TypeSpec) (ha : errorFree a = true) (hb : errorFree b = true) :
    typeEquiv a b = true ↔ unwrapped a = unwrapped b :=
  (typeEquiv_iff a b).trans ⟨fun h => same_unwrapped h ha hb, unwrapped_same a b⟩

/-- In general it is reflexive and symmetric. -/
theorem C65_type_equivalence_laws (a b : TypeSpec) :
    typeEquiv a a = true ∧ (typeEquiv a b = true ↔ typeEquiv b a = true) :=
  ⟨(typeEquiv_iff a a).2 (.refl a), by
    rw [typeEquiv_iff, typeEquiv_iff]; exact ⟨same_symm, same_symm⟩⟩

example : typeEquiv (.list (.wrapper .int64)) (.list (.primitive .int64)) = true ∧
    typeEquiv (.list (.wrapper .int64)) (.list (.primitive .string)) = false ∧
    typeEquiv (.typeOf (.wrapper .int64)) (.typeOf (.primitive .int64)) = false := by
  decide +kernel

end Cel.Walk
