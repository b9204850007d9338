import Verif.Macro.Macros
import Verif.Macro.Scope
import Verif.Eval.LogicProps

/-!
# C26: `all` and `exists`
-/

set_option linter.unusedSimpArgs false
set_option linter.unusedVariables false

namespace Cel.Macro
open Cel Cel.Num Cel.Eval Cel.Data

variable {σ : Type} {cfg : Cfg σ} {h : σ}

/-- The value of an expression for one element of the range: the iteration variables are bound to the
element (and its index or key), everything else is as outside. -/
def valueAt (cfg : Cfg σ) (h : σ) (x : String) (y : Option String) (t : Trail) (ρ : PEnv) (e : Expr σ)
    (it : Item) : VA := pden cfg h e (piterBinds cfg x y t it ++ ρ)

/-- The iteration variables differ from the accumulator, and the expression does not mention the
accumulator (which the parser guarantees for `@result`, a name no user can write). -/
structure Hygienic (accu x : String) (y : Option String) (e : Expr σ) : Prop where
  iter : accu ≠ x
  iter2 : y ≠ some accu
  free : ¬ Free accu e

theorem Hygienic.accu_get {accu x : String} {y : Option String} {e : Expr σ} (hy : Hygienic accu x y e)
    (t : Trail) (it : Item) (a : VA) (ρ : PEnv) :
    penvGet (piterBinds cfg x y t it ++ (accu, a) :: ρ) accu = some a := by
  rw [penvGet_append, penvGet_iter x y t it accu hy.iter hy.iter2]
  simp [penvGet]

theorem Hygienic.value {accu x : String} {y : Option String} {e : Expr σ} (hy : Hygienic accu x y e)
    (t : Trail) (it : Item) (a : VA) (ρ : PEnv) :
    pden cfg h e (piterBinds cfg x y t it ++ (accu, a) :: ρ) = valueAt cfg h x y t ρ e it := by
  refine pden_agree e _ _ fun z hz => agree_iter z fun _ _ => ?_
  have : z ≠ accu := fun hh => hy.free (hh ▸ hz)
  simp [penvGet, this]

/-! ## The fold -/

/-- Booleans, errors and unknowns: what `&&` and `||` return. -/
def LogicVal (v : Value) : Prop := (∃ b, v = .bool b) ∨ (∃ e, v = .error e) ∨ ∃ u, v = .unknown u

theorem calcLogic_val (isOr unk : Bool) (a b : Value) : LogicVal (calcLogic isOr unk a b) := by
  have hrest : LogicVal (calcLogic.rest isOr unk a b) := by
    unfold calcLogic.rest
    split
    · exact Or.inr (Or.inr ⟨_, rfl⟩)
    · split <;> exact Or.inr (Or.inl ⟨_, rfl⟩)
  by_cases h1 : classify isOr a = .absorbing ∨ classify isOr b = .absorbing
  · rw [logic_absorbs isOr unk a b h1]; exact Or.inl ⟨_, rfl⟩
  · by_cases h2 : classify isOr a = .neutral ∧ classify isOr b = .neutral
    · rw [logic_neutral isOr unk a b h2.1 h2.2]; exact Or.inl ⟨_, rfl⟩
    · rw [calcLogic_rest isOr unk a b (fun hh => h1 (Or.inl hh)) (fun hh => h1 (Or.inr hh)) h2]
      exact hrest

/-- Combining all values with `&&` or `||`. -/
def combine (isOr unk : Bool) (a : Value) (vs : List Value) : Value := vs.foldl (calcLogic isOr unk) a

theorem combine_absorbed (isOr unk : Bool) (vs : List Value) : combine isOr unk (.bool isOr) vs = .bool isOr := by
  induction vs with
  | nil => rfl
  | cons v vs ih =>
    simp only [combine, List.foldl_cons]
    rw [logic_absorbs isOr unk _ _ (Or.inl (by simp [classify]))]
    exact ih

/-- The loop of `all`/`exists`: it goes on until the accumulator is absorbing (or to the end), and
computes the combination of all values either way. -/
theorem ploop_combine {sc isOr unk : Bool} {condF stepF : Item → VA → VA} {p : Item → Value}
    (hc : ∀ it a, LogicVal a.v → a.t = none →
      (a.v = .bool isOr ∧ sc = true → condOf sc (condF it a) = .brk) ∧
      (¬ (a.v = .bool isOr ∧ sc = true) → condOf sc (condF it a) = .go))
    (hs : ∀ it a, LogicVal a.v → a.t = none →
      stepF it a = ⟨calcLogic isOr unk a.v (p it), none⟩) (l : List Item) :
    ∀ a, LogicVal a.v → a.t = none →
      ploop sc condF stepF l a = .accu ⟨combine isOr unk a.v (l.map p), none⟩ := by
  induction l with
  | nil => intro a _ ht; obtain ⟨v, t⟩ := a; cases ht; rfl
  | cons it l ih =>
    intro a hv ht
    unfold ploop
    by_cases hb : a.v = .bool isOr ∧ sc = true
    · rw [(hc it a hv ht).1 hb]
      obtain ⟨v, t⟩ := a
      obtain ⟨hb, -⟩ := hb
      simp only at hb ht
      subst hb; subst ht
      simp only []
      rw [combine_absorbed]
    · rw [(hc it a hv ht).2 hb]
      simp only []
      rw [hs it a hv ht, ih _ (calcLogic_val _ _ _ _) rfl]
      rfl

/-- What combining many values gives; `isOr` is the absorbing value. -/
theorem combine_spec (isOr unk : Bool) (vs : List Value) (a : Value) :
    ((∃ v ∈ a :: vs, v = .bool isOr) → vs ≠ [] ∨ a = .bool isOr → combine isOr unk a vs = .bool isOr) ∧
    ((∀ v ∈ a :: vs, v = .bool (!isOr)) → combine isOr unk a vs = .bool (!isOr)) := by
  induction vs generalizing a with
  | nil => exact ⟨by simp [combine], by simp [combine]⟩
  | cons w vs ih =>
    have ih' := ih (calcLogic isOr unk a w)
    constructor
    · rintro ⟨v, hv, rfl⟩ -
      change combine isOr unk (calcLogic isOr unk a w) vs = _
      by_cases hz : a = .bool isOr ∨ w = .bool isOr
      · rw [logic_absorbs isOr unk a w (by rcases hz with rfl | rfl <;> simp [classify]), combine_absorbed]
      · have hv' : Value.bool isOr ∈ vs := by
          rcases List.mem_cons.1 hv with hv | hv
          · exact absurd (Or.inl hv.symm) hz
          · rcases List.mem_cons.1 hv with hv | hv
            · exact absurd (Or.inr hv.symm) hz
            · exact hv
        exact ih'.1 ⟨_, List.mem_cons_of_mem _ hv', rfl⟩ (Or.inl (by rintro rfl; simp at hv'))
    · intro hall
      change combine isOr unk (calcLogic isOr unk a w) vs = _
      refine ih'.2 fun v hv => ?_
      rcases List.mem_cons.1 hv with rfl | hv
      · rw [hall a (by simp), hall w (by simp)]
        exact logic_neutral isOr unk _ _ (by cases isOr <;> simp [classify]) (by cases isOr <;> simp [classify])
      · exact hall v (by simp [hv])

theorem classify_neutral_bool (isOr : Bool) : classify isOr (.bool (!isOr)) = .neutral := by
  cases isOr <;> simp [classify]

/-- With unknown processing on, no absorbing value and at least one unknown, the result is an unknown
with exactly the (supported) attributes of the unknowns. -/
theorem combine_unknown (isOr : Bool) (vs : List Value) (a : Value)
    (hab : ∀ v ∈ a :: vs, v ≠ .bool isOr) (hu : ∃ v ∈ a :: vs, v.isUnknown = true) :
    ∃ u, combine isOr true a vs = .unknown u ∧
      ∀ x, ValidAttr x → (x ∈ u.attrs ↔ ∃ v ∈ a :: vs, x ∈ unknownAttrs v) := by
  have habc : ∀ v ∈ a :: vs, classify isOr v ≠ .absorbing := by
    intro v hv hc
    exact hab v hv ((classify_of_result isOr v).1 hc)
  induction vs generalizing a with
  | nil =>
    obtain ⟨v, hv, huv⟩ := hu
    simp at hv; subst hv
    cases v <;> simp [Value.isUnknown] at huv
    exact ⟨_, rfl, fun x _ => by simp [unknownAttrs]⟩
  | cons w vs ih =>
    by_cases hz : a.isUnknown = true ∨ w.isUnknown = true
    · have hcl : classify isOr (calcLogic isOr true a w) = .unknown := by
        rw [classify_result, if_neg (by
          rintro (hh | hh)
          · exact habc a (by simp) hh
          · exact habc w (by simp) hh), if_pos]
        rcases hz with hz | hz
        · left; cases a <;> simp [Value.isUnknown, classify] at hz ⊢
        · right; cases w <;> simp [Value.isUnknown, classify] at hz ⊢
      obtain ⟨u, hu'⟩ := (classify_of_result isOr _).2.2 hcl
      have hm := (unknown_result_mem isOr a w hcl).1
      obtain ⟨u', h1, h2⟩ := ih (calcLogic isOr true a w) (by
          intro v hv
          rcases List.mem_cons.1 hv with rfl | hv
          · rw [hu']; simp
          · exact hab v (by simp [hv])) ⟨_, List.mem_cons_self, by rw [hu']; rfl⟩ (by
          intro v hv
          rcases List.mem_cons.1 hv with rfl | hv
          · rw [hcl]; simp
          · exact habc v (by simp [hv]))
      refine ⟨u', h1, fun x hx => ?_⟩
      rw [h2 x hx]
      simp only [List.exists_mem_cons_iff]
      rw [hm x hx, or_assoc]
    · -- neither of the two is unknown
      have hna : a.isUnknown = false := by simpa using fun hh => hz (Or.inl hh)
      have hnw : w.isUnknown = false := by simpa using fun hh => hz (Or.inr hh)
      have hnc : ∀ v : Value, v.isUnknown = false → classify isOr v ≠ .absorbing →
          classify isOr v = .bad ∨ classify isOr v = .neutral := by
        intro v h1 h2
        cases hcv : classify isOr v with
        | absorbing => exact absurd hcv h2
        | unknown =>
          obtain ⟨u, rfl⟩ := (classify_of_result isOr v).2.2 hcv
          simp [Value.isUnknown] at h1
        | bad => exact Or.inl rfl
        | neutral => exact Or.inr rfl
      have ha := hnc a hna (habc a (by simp))
      have hw := hnc w hnw (habc w (by simp))
      have hcl : classify isOr (calcLogic isOr true a w) ≠ .absorbing ∧
          classify isOr (calcLogic isOr true a w) ≠ .unknown := by
        rw [classify_result]
        rcases ha with ha | ha <;> rcases hw with hw | hw <;> simp [ha, hw]
      obtain ⟨u', h1, h2⟩ := ih (calcLogic isOr true a w) (by
          intro v hv
          rcases List.mem_cons.1 hv with rfl | hv
          · intro hh; rw [hh] at hcl; simp [classify] at hcl
          · exact hab v (by simp [hv])) (by
          obtain ⟨v, hv, huv⟩ := hu
          rcases List.mem_cons.1 hv with rfl | hv
          · rw [hna] at huv; cases huv
          · rcases List.mem_cons.1 hv with rfl | hv
            · rw [hnw] at huv; cases huv
            · exact ⟨v, List.mem_cons_of_mem _ hv, huv⟩) (by
          intro v hv
          rcases List.mem_cons.1 hv with rfl | hv
          · exact hcl.1
          · exact habc v (by simp [hv]))
      refine ⟨u', h1, fun x hx => ?_⟩
      have he : unknownAttrs (calcLogic isOr true a w) = [] := by
        generalize calcLogic isOr true a w = r at hcl
        cases r <;> simp [classify] at hcl <;> rfl
      have hea : unknownAttrs a = [] := by cases a <;> first | rfl | (simp [Value.isUnknown] at hna)
      have hew : unknownAttrs w = [] := by cases w <;> first | rfl | (simp [Value.isUnknown] at hnw)
      rw [h2 x hx]
      simp [he, hea, hew]

/-- The error a value stands for in `&&`/`||`: itself, or "no matching overload" for a non-boolean. -/
def operandError (isOr : Bool) : Value → Status
  | .error e => e
  | _ => noOverload (if isOr then "_||_" else "_&&_")

/-- If no value is absorbing and none is unknown, the first value that is not a boolean decides which
error is reported. -/
theorem combine_error (isOr unk : Bool) (post : List Value) (v : Value)
    (hv : classify isOr v = .bad) (hpost : ∀ w ∈ post, w ≠ .bool isOr ∧ w.isUnknown = false)
    (herr : ∃ e, v = .error e) : combine isOr unk v post = v := by
  induction post with
  | nil => rfl
  | cons w post ih =>
    obtain ⟨e, rfl⟩ := herr
    have hw : classify isOr w = .bad ∨ classify isOr w = .neutral := by
      obtain ⟨h1, h2⟩ := hpost w List.mem_cons_self
      cases hcv : classify isOr w with
      | absorbing => exact absurd ((classify_of_result isOr w).1 hcv) h1
      | unknown =>
        obtain ⟨u, rfl⟩ := (classify_of_result isOr w).2.2 hcv
        simp [Value.isUnknown] at h2
      | bad => exact Or.inl rfl
      | neutral => exact Or.inr rfl
    simp only [combine, List.foldl_cons]
    rw [logic_error isOr unk _ _ (Or.inl hv) hw (Or.inl hv)]
    simp only [Value.isError, if_true]
    exact ih fun w hw => hpost w (List.mem_cons_of_mem _ hw)

theorem combine_first_error (isOr unk : Bool) (pre post : List Value) (v : Value)
    (hpre : ∀ w ∈ pre, w = .bool (!isOr)) (hv : ∀ b, v ≠ .bool b) (hvu : v.isUnknown = false)
    (hpost : ∀ w ∈ post, w ≠ .bool isOr ∧ w.isUnknown = false) :
    combine isOr unk (.bool (!isOr)) (pre ++ v :: post) = .error (operandError isOr v) := by
  have hcv : classify isOr v = .bad := by
    cases v <;> simp_all [classify, Value.isUnknown]
  have h0 : combine isOr unk (.bool (!isOr)) pre = .bool (!isOr) :=
    (combine_spec isOr unk pre _).2 (by simpa using hpre)
  simp only [combine, List.foldl_append, List.foldl_cons]
  rw [show List.foldl (calcLogic isOr unk) (.bool (!isOr)) pre = combine isOr unk (.bool (!isOr)) pre from rfl, h0,
    logic_error isOr unk _ _ (Or.inr (classify_neutral_bool isOr)) (Or.inl hcv) (Or.inr hcv)]
  have hr : (if (Value.bool (!isOr)).isError then Value.bool (!isOr) else if v.isError then v
      else .error (noOverload (if isOr then "_||_" else "_&&_"))) = .error (operandError isOr v) := by
    cases v <;> simp [Value.isError, operandError]
  rw [hr]
  exact combine_error isOr unk post _ (by simp [classify]) hpost ⟨_, rfl⟩

/-! ## The macros -/

theorem pdenArgs1 (e : Expr σ) (ρ : PEnv) : pdenArgs cfg h (args1 e) ρ = [pden cfg h e ρ] := rfl
theorem pdenArgs2 (e f : Expr σ) (ρ : PEnv) :
    pdenArgs cfg h (args2 e f) ρ = [pden cfg h e ρ, pden cfg h f ρ] := rfl

theorem pden_accu {accu x : String} {y : Option String} {e : Expr σ} (hy : Hygienic accu x y e)
    (t : Trail) (it : Item) (a : VA) (ρ : PEnv) :
    pden cfg h (accuIdent accu) (piterBinds cfg x y t it ++ (accu, a) :: ρ) = a := by
  simp only [accuIdent, pden]
  rw [if_neg (by simp), hy.accu_get t it a ρ]

theorem pden_accu_res (accu : String) (a : VA) (ρ : PEnv) :
    pden cfg h (accuIdent accu) ((accu, a) :: ρ) = a := by
  simp [accuIdent, pden, penvGet]

theorem nsf_cond (sc : Bool) (a : VA) (hv : LogicVal a.v) :
    (a.v = .bool false ∧ sc = true → condOf sc (notStrictlyFalse a) = .brk) ∧
    (¬ (a.v = .bool false ∧ sc = true) → condOf sc (notStrictlyFalse a) = .go) := by
  obtain ⟨v, t⟩ := a
  rcases hv with ⟨b, rfl⟩ | ⟨e, rfl⟩ | ⟨u, rfl⟩
  · cases b <;> simp [notStrictlyFalse, condOf]
  · simp [notStrictlyFalse, condOf]
  · simp [notStrictlyFalse, condOf]

theorem not_val (unk : Bool) (pats : List Pattern) (v : Value) (hv : LogicVal v) :
    LogicVal (notStep unk pats ⟨v, none⟩).v ∧ ((notStep unk pats ⟨v, none⟩).v = .bool false ↔ v = .bool true) := by
  rcases hv with ⟨b, rfl⟩ | ⟨e, rfl⟩ | ⟨u, rfl⟩
  · cases b <;> (unfold notStep; simp [LogicVal])
  · unfold notStep; simp [LogicVal]
  · unfold notStep; simp [LogicVal]

theorem logic_step_value (isOr : Bool) (accu x : String) (y : Option String) (p : Expr σ)
    (hy : Hygienic accu x y p) (t : Trail) (it : Item) (a : VA) (ρ : PEnv) (ht : a.t = none) :
    pden cfg h (.logic isOr (accuIdent accu) p) (piterBinds cfg x y t it ++ (accu, a) :: ρ) =
      ⟨calcLogic isOr cfg.unknowns a.v (valueAt cfg h x y t ρ p it).v, none⟩ := by
  simp only [pden]
  rw [pden_accu hy, hy.value]
  obtain ⟨v, t'⟩ := a
  simp only at ht
  subst ht
  simp only []
  split
  · rename_i b hv
    split
    · rename_i hbo
      subst hbo
      rw [logic_absorbs b cfg.unknowns _ _ (Or.inl (by simp [classify]))]
    · rfl
  · rfl

/-- `all` computes the conjunction of the predicate's values, in order. -/
theorem all_combine (accu x : String) (y : Option String) (target p : Expr σ) (ρ : PEnv)
    (hy : Hygienic accu x y p) (l : List Item)
    (hr : rangeOf cfg.unknowns cfg.pats (pden cfg h target ρ) = .items l) :
    pden cfg h (allMacro accu x y target p) ρ =
      ⟨combine false cfg.unknowns (.bool true)
        (l.map fun it => (valueAt cfg h x y (pden cfg h target ρ).t ρ p it).v), none⟩ := by
  unfold allMacro
  rw [pden.eq_def]
  simp only []
  rw [hr]
  simp only []
  rw [ploop_combine (isOr := false) (unk := cfg.unknowns)
    (p := fun it => (valueAt cfg h x y (pden cfg h target ρ).t ρ p it).v)]
  · simp only []
    rw [pden_accu_res]; rfl
  · intro it a hv ht
    simp only [pden, pdenArgs1, nsfOp, valOf]
    rw [pden_accu hy]
    exact nsf_cond _ a hv
  · intro it a hv ht
    exact logic_step_value false accu x y p hy _ it a ρ ht
  · exact Or.inl ⟨_, rfl⟩
  · rfl

/-- `exists` computes the disjunction of the predicate's values, in order. -/
theorem exists_combine (c : StepCfg) (accu x : String) (y : Option String) (target p : Expr σ) (ρ : PEnv)
    (hy : Hygienic accu x y p) (l : List Item)
    (hr : rangeOf cfg.unknowns cfg.pats (pden cfg h target ρ) = .items l) :
    pden cfg h (existsMacro c accu x y target p) ρ =
      ⟨combine true cfg.unknowns (.bool false)
        (l.map fun it => (valueAt cfg h x y (pden cfg h target ρ).t ρ p it).v), none⟩ := by
  unfold existsMacro
  rw [pden.eq_def]
  simp only []
  rw [hr]
  simp only []
  rw [ploop_combine (isOr := true) (unk := cfg.unknowns)
    (p := fun it => (valueAt cfg h x y (pden cfg h target ρ).t ρ p it).v)]
  · simp only []
    rw [pden_accu_res]; rfl
  · intro it a hv ht
    simp only [pden, pdenArgs1, nsfOp, notOp, valOf]
    rw [pden_accu hy]
    obtain ⟨v, t⟩ := a
    simp only at ht hv
    subst ht
    obtain ⟨h1, h2⟩ := not_val c.unknowns c.pats v hv
    have := nsf_cond cfg.shortCircuit _ h1
    rw [h2] at this
    exact this
  · intro it a hv ht
    exact logic_step_value true accu x y p hy _ it a ρ ht
  · exact Or.inl ⟨_, rfl⟩
  · rfl

/-- **C26 (`all`).** `target.all(x, p)`: false as soon as `p` is false for some element, whatever it is
for the others (even an error or unknown); true if `p` is true for every element; otherwise unknown if
`p` is unknown for some element, with exactly the attributes of those unknowns; otherwise the error of
the first element for which `p` is not a boolean. -/
theorem C26_all (accu x : String) (y : Option String) (target p : Expr σ) (ρ : PEnv)
    (hy : Hygienic accu x y p) (l : List Item)
    (hr : rangeOf cfg.unknowns cfg.pats (pden cfg h target ρ) = .items l) (vs : List Value)
    (hvs : vs = l.map fun it => (valueAt cfg h x y (pden cfg h target ρ).t ρ p it).v) :
    ((∃ v ∈ vs, v = .bool false) → (pden cfg h (allMacro accu x y target p) ρ).v = .bool false) ∧
    ((∀ v ∈ vs, v = .bool true) → (pden cfg h (allMacro accu x y target p) ρ).v = .bool true) ∧
    ((∀ v ∈ vs, v ≠ .bool false) → (∃ v ∈ vs, v.isUnknown = true) → cfg.unknowns = true →
      ∃ u, (pden cfg h (allMacro accu x y target p) ρ).v = .unknown u ∧
        ∀ a, ValidAttr a → (a ∈ u.attrs ↔ ∃ v ∈ vs, a ∈ unknownAttrs v)) ∧
    (∀ pre v post, vs = pre ++ v :: post → (∀ w ∈ pre, w = .bool true) → (∀ b, v ≠ .bool b) →
      (∀ w ∈ v :: post, w ≠ .bool false ∧ w.isUnknown = false) →
      (pden cfg h (allMacro accu x y target p) ρ).v = .error (operandError false v)) := by
  rw [all_combine accu x y target p ρ hy l hr, ← hvs]
  simp only []
  refine ⟨?_, ?_, ?_, ?_⟩
  · rintro ⟨v, hv, rfl⟩
    exact (combine_spec false cfg.unknowns vs _).1 ⟨_, List.mem_cons_of_mem _ hv, rfl⟩
      (Or.inl (by rintro rfl; simp at hv))
  · intro hall
    exact (combine_spec false cfg.unknowns vs _).2 (by simpa using hall)
  · intro h1 h2 h3
    rw [h3]
    obtain ⟨u, hu, hm⟩ := combine_unknown false vs (.bool true) (by simpa using h1)
      (by obtain ⟨v, hv, h'⟩ := h2; exact ⟨v, List.mem_cons_of_mem _ hv, h'⟩)
    refine ⟨u, hu, fun a ha => ?_⟩
    rw [hm a ha]; simp [unknownAttrs]
  · rintro pre v post rfl hpre hv hpost
    exact combine_first_error false cfg.unknowns pre post v hpre hv (hpost v (by simp)).2
      fun w hw => hpost w (by simp [hw])

/-- **C26 (`exists`).** The dual: true as soon as `p` is true for some element, whatever it is for the
others; false if `p` is false for every element; otherwise unknown, otherwise an error. -/
theorem C26_exists (c : StepCfg) (accu x : String) (y : Option String) (target p : Expr σ) (ρ : PEnv)
    (hy : Hygienic accu x y p) (l : List Item)
    (hr : rangeOf cfg.unknowns cfg.pats (pden cfg h target ρ) = .items l) (vs : List Value)
    (hvs : vs = l.map fun it => (valueAt cfg h x y (pden cfg h target ρ).t ρ p it).v) :
    ((∃ v ∈ vs, v = .bool true) → (pden cfg h (existsMacro c accu x y target p) ρ).v = .bool true) ∧
    ((∀ v ∈ vs, v = .bool false) → (pden cfg h (existsMacro c accu x y target p) ρ).v = .bool false) ∧
    ((∀ v ∈ vs, v ≠ .bool true) → (∃ v ∈ vs, v.isUnknown = true) → cfg.unknowns = true →
      ∃ u, (pden cfg h (existsMacro c accu x y target p) ρ).v = .unknown u ∧
        ∀ a, ValidAttr a → (a ∈ u.attrs ↔ ∃ v ∈ vs, a ∈ unknownAttrs v)) ∧
    (∀ pre v post, vs = pre ++ v :: post → (∀ w ∈ pre, w = .bool false) → (∀ b, v ≠ .bool b) →
      (∀ w ∈ v :: post, w ≠ .bool true ∧ w.isUnknown = false) →
      (pden cfg h (existsMacro c accu x y target p) ρ).v = .error (operandError true v)) := by
  rw [exists_combine c accu x y target p ρ hy l hr, ← hvs]
  simp only []
  refine ⟨?_, ?_, ?_, ?_⟩
  · rintro ⟨v, hv, rfl⟩
    exact (combine_spec true cfg.unknowns vs _).1 ⟨_, List.mem_cons_of_mem _ hv, rfl⟩
      (Or.inl (by rintro rfl; simp at hv))
  · intro hall
    exact (combine_spec true cfg.unknowns vs _).2 (by simpa using hall)
  · intro h1 h2 h3
    rw [h3]
    obtain ⟨u, hu, hm⟩ := combine_unknown true vs (.bool false) (by simpa using h1)
      (by obtain ⟨v, hv, h'⟩ := h2; exact ⟨v, List.mem_cons_of_mem _ hv, h'⟩)
    refine ⟨u, hu, fun a ha => ?_⟩
    rw [hm a ha]; simp [unknownAttrs]
  · rintro pre v post rfl hpre hv hpost
    exact combine_first_error true cfg.unknowns pre post v hpre hv (hpost v (by simp)).2
      fun w hw => hpost w (by simp [hw])

/-- If the range itself is an error or unknown, so is the macro. -/
theorem C26_quantifier_range_stops (c : StepCfg) (accu x : String) (y : Option String) (target p : Expr σ)
    (ρ : PEnv) (v : VA) (hr : rangeOf cfg.unknowns cfg.pats (pden cfg h target ρ) = .stop v) :
    pden cfg h (allMacro accu x y target p) ρ = v ∧ pden cfg h (existsMacro c accu x y target p) ρ = v := by
  constructor
  · unfold allMacro; rw [pden.eq_def]; simp only []; rw [hr]
  · unfold existsMacro; rw [pden.eq_def]; simp only []; rw [hr]

end Cel.Macro
