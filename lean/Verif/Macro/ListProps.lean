import Verif.Macro.QuantProps
import Verif.Data.BuildProps
import Verif.Num.IntProps

/-!
# C26: `exists_one`, `map`, `filter`
-/

set_option linter.unusedSimpArgs false
set_option linter.unusedVariables false

namespace Cel.Macro
open Cel Cel.Num Cel.Eval Cel.Data

variable {σ : Type} {cfg : Cfg σ} {h : σ}

/-! ## `+` and list literals on the operands the macros give them -/

theorem checkUnknown_none (pats : List Pattern) (b : Bool) : checkUnknown pats none b = false := by
  cases b <;> rfl

theorem prepared_none (c : StepCfg) (vs : List Value) :
    (if c.unknowns then checkPartialUnknowns c.pats (vs.map fun v => (⟨v, none⟩ : VA))
      else (vs.map fun v => (⟨v, none⟩ : VA)).map (·.v)) = vs := by
  have h1 : checkPartialUnknowns c.pats (vs.map fun v => (⟨v, none⟩ : VA)) = vs := by
    induction vs with
    | nil => rfl
    | cons v vs ih =>
      simp only [List.map_cons, checkPartialUnknowns, checkUnknown_none, Bool.false_eq_true, if_false, ih]
  have h2 : (vs.map fun v => (⟨v, none⟩ : VA)).map (·.v) = vs := by
    rw [List.map_map]; simp [Function.comp_def]
  rw [h1, h2]; simp

theorem add_eval (c : StepCfg) (fr : Bool) (v w : Value) (s : σ) :
    addOp c fr [⟨v, none⟩, ⟨w, none⟩] s =
      (match (match resolveStatic [v, w] addOverloads with
        | none => (Res.ok (noOverloadResult "_+_" [v, w] false c.unknowns), s)
        | some o =>
          if shouldAcceptOverload o.desc [v, w] then invoke ⟨c.unknowns, fr, c.pats⟩ o 0 [v, w] s
          else (Res.ok (noOverloadResult "_+_" [v, w] false c.unknowns), s)) with
      | (.ok v, h') => (.ok ⟨v, none⟩, h')
      | (.err e, h') => (.err e, h')
      | (.ub, h') => (.ub, h')) := by
  have hp := prepared_none c [v, w]
  simp only [List.map_cons, List.map_nil] at hp
  unfold addOp callOp evalCall CallSite.resolve
  simp only [List.map_cons, List.map_nil]
  rw [hp]
  cases resolveStatic [v, w] addOverloads <;> rfl

theorem add_lists (c : StepCfg) (fr : Bool) (a b : List Value) (s : σ) :
    addOp c fr [⟨.list a, none⟩, ⟨.list b, none⟩] s = (.ok ⟨.list (a ++ b), none⟩, s) := by
  rw [add_eval]
  simp only [resolveStatic, addOverloads, argumentKindsMatch, kindsMatchLoop, List.length_cons, List.length_nil,
    Value.kind, kInt, kUint, kList, kAny, ne_eq, shouldAcceptOverload, Value.isUnknown, Value.isError]
  simp only [show ¬ ((10 : Nat) = 2) by decide, show ¬ ((10 : Nat) = 3) by decide, not_false_eq_true,
    show ¬ ((2 : Nat) = 15) by decide, show ¬ ((3 : Nat) = 15) by decide, and_self, if_true, not_true_eq_false,
    false_and, if_false, Bool.false_eq_true, or_self, invoke]
  have : (if a.length = 0 then b else if b.length = 0 then a else a ++ b) = a ++ b := by
    cases a with
    | nil => rfl
    | cons v a => cases b with
      | nil => simp
      | cons w b => simp
  rw [this]

theorem add_ints (c : StepCfg) (fr : Bool) (a b : Int) (s : σ) (h0 : InI64 (a + b)) :
    addOp c fr [⟨.int a, none⟩, ⟨.int b, none⟩] s = (.ok ⟨.int (a + b), none⟩, s) := by
  rw [add_eval]
  simp only [resolveStatic, addOverloads, argumentKindsMatch, kindsMatchLoop, List.length_cons, List.length_nil,
    Value.kind, kInt, kUint, kList, kAny, ne_eq, shouldAcceptOverload, Value.isUnknown, Value.isError]
  have hadd : checkedAddI a b = .ok (a + b) := (C01_int_arith_exact_or_error a b).1.1 h0
  simp [invoke, hadd, intResult]

theorem add_error_left (c : StepCfg) (fr : Bool) (e : Status) (v : Value) (s : σ) (hv : v.isUnknown = false) :
    addOp c fr [⟨.error e, none⟩, ⟨v, none⟩] s = (.ok ⟨.error e, none⟩, s) := by
  rw [add_eval]
  simp [resolveStatic, addOverloads, argumentKindsMatch, kindsMatchLoop, Value.kind, kInt, kUint, kList, kAny, kError,
    noOverloadResult, firstError]

theorem add_error_right (c : StepCfg) (fr : Bool) (e : Status) (l : List Value) (s : σ) :
    addOp c fr [⟨.list l, none⟩, ⟨.error e, none⟩] s = (.ok ⟨.error e, none⟩, s) := by
  rw [add_eval]
  simp [resolveStatic, addOverloads, argumentKindsMatch, kindsMatchLoop, Value.kind, kInt, kUint, kList, kAny, kError,
    noOverloadResult, firstError]

theorem list_one (c : StepCfg) (x : VA) (hx : PlainOperand c x) (s : σ) :
    listOp c [x] s = (.ok ⟨.list [x.v], none⟩, s) := by
  unfold listOp
  rw [C47_list_literal_exact c [x] (by simpa using hx)]
  rfl

theorem list_none (c : StepCfg) (s : σ) : listOp c [] s = (.ok ⟨.list [], none⟩, s) := by
  unfold listOp
  rw [C47_list_literal_exact c [] (by simp)]
  rfl

theorem list_error (c : StepCfg) (x : VA) (e : Status) (hx : x.v = .error e) (s : σ) :
    listOp c [x] s = (.ok ⟨.error e, none⟩, s) := by
  unfold listOp
  rw [(C47_literal_error c (fun _ => false) [x] [] [] e (by simp [hx]) (by simp)).1]

/-! ## Loops whose condition is `true` -/

theorem ploop_true {sc : Bool} {condF stepF : Item → VA → VA} (hc : ∀ it a, condF it a = ⟨.bool true, none⟩)
    (l : List Item) (a : VA) : ploop sc condF stepF l a = .accu (l.foldl (fun a it => stepF it a) a) := by
  induction l generalizing a with
  | nil => rfl
  | cons it l ih =>
    unfold ploop
    rw [hc]
    have : condOf sc ⟨.bool true, none⟩ = .go := by simp [condOf]
    rw [this]
    exact ih _

theorem comp_true (accu x : String) (y : Option String) (target init stp res : Expr σ) (ρ : PEnv) (l : List Item)
    (hr : rangeOf cfg.unknowns cfg.pats (pden cfg h target ρ) = .items l) :
    pden cfg h (.comp x y accu target init (.const (.bool true)) stp res) ρ =
      pden cfg h res ((accu, l.foldl (fun a it =>
        pden cfg h stp (piterBinds cfg x y (pden cfg h target ρ).t it ++ (accu, a) :: ρ)) (pden cfg h init ρ)) :: ρ) := by
  rw [pden.eq_def]
  simp only []
  rw [hr]
  simp only []
  have hpl := ploop_true (sc := cfg.shortCircuit)
    (condF := fun it a => pden cfg h (.const (.bool true)) (piterBinds cfg x y (pden cfg h target ρ).t it ++ (accu, a) :: ρ))
    (stepF := fun it a => pden cfg h stp (piterBinds cfg x y (pden cfg h target ρ).t it ++ (accu, a) :: ρ))
    (fun it a => by simp only [pden]) l (pden cfg h init ρ)
  rw [hpl]

theorem pden_append (c : StepCfg) (fr : Bool) {accu x : String} {y : Option String} {e : Expr σ}
    (hy : Hygienic accu x y e) (t : Trail) (it : Item) (a : VA) (ρ : PEnv) :
    pden cfg h (appendExpr c fr accu e) (piterBinds cfg x y t it ++ (accu, a) :: ρ) =
      valOf (addOp c fr [a, valOf (listOp c [valueAt cfg h x y t ρ e it] h)] h) := by
  simp only [appendExpr, pden, pdenArgs2, pdenArgs1]
  rw [pden_accu hy, hy.value]

/-- A conditional step whose condition is a boolean. -/
theorem pden_cond_bool (p t f : Expr σ) (ρ : PEnv) (b : Bool) (hp : (pden cfg h p ρ).v = .bool b)
    (ht : b = true → (pden cfg h t ρ).t = none) (hf : b = false → (pden cfg h f ρ).t = none) :
    pden cfg h (.cond p t f) ρ = if b then pden cfg h t ρ else pden cfg h f ρ := by
  simp only [pden]
  have h1 : ternOf (pden cfg h p ρ) = if b then .yes else .no := by
    unfold ternOf; rw [hp]; cases b <;> rfl
  rw [h1]
  have hmk : ∀ x : VA, x.t = none → x = ⟨x.v, none⟩ := by rintro ⟨v, t⟩ ht; cases ht; rfl
  cases b
  · split
    · rfl
    · unfold ternaryStep; rw [hp]; exact (hmk _ (hf rfl)).symm
  · split
    · rfl
    · unfold ternaryStep; rw [hp]; exact (hmk _ (ht rfl)).symm

/-! ## `map` -/

/-- **C26 (`map`).** If the transform's value for every element is a plain value, `target.map(x, e)` is
the list of those values, in order. -/
theorem C26_map (c : StepCfg) (fr : Bool) (accu x : String) (y : Option String) (target e : Expr σ) (ρ : PEnv)
    (hy : Hygienic accu x y e) (l : List Item)
    (hr : rangeOf cfg.unknowns cfg.pats (pden cfg h target ρ) = .items l)
    (hp : ∀ it ∈ l, PlainOperand c (valueAt cfg h x y (pden cfg h target ρ).t ρ e it)) :
    pden cfg h (map2Macro c fr accu x y target e) ρ =
      ⟨.list (l.map fun it => (valueAt cfg h x y (pden cfg h target ρ).t ρ e it).v), none⟩ := by
  unfold map2Macro
  rw [comp_true accu x y target _ _ _ ρ l hr, pden_accu_res]
  have hinit : pden cfg h (.op (listOp c) .nil) ρ = ⟨.list [], none⟩ := by
    simp only [pden, pdenArgs, list_none, valOf]
  rw [hinit]
  have key : ∀ l' : List Item, (∀ it ∈ l', it ∈ l) → ∀ acc, l'.foldl (fun a it =>
      pden cfg h (appendExpr c fr accu e) (piterBinds cfg x y (pden cfg h target ρ).t it ++ (accu, a) :: ρ))
        (⟨.list acc, none⟩ : VA) = ⟨.list (acc ++ l'.map fun it => (valueAt cfg h x y (pden cfg h target ρ).t ρ e it).v), none⟩ := by
    intro l'
    induction l' with
    | nil => intro _ acc; simp
    | cons it l' ih =>
      intro hsub acc
      simp only [List.foldl_cons]
      rw [pden_append c fr hy, list_one c _ (hp it (hsub it List.mem_cons_self))]
      simp only [valOf]
      rw [add_lists]
      simp only []
      rw [ih (fun i hi => hsub i (List.mem_cons_of_mem _ hi))]
      simp
  rw [key l (fun _ hi => hi)]
  simp

/-- **C26 (`map`, errors).** If no value is unknown and some value is an error, the result is the
first of these errors. -/
theorem C26_map_error (c : StepCfg) (fr : Bool) (accu x : String) (y : Option String) (target e : Expr σ) (ρ : PEnv)
    (hy : Hygienic accu x y e) (pre post : List Item) (bad : Item) (s : Status)
    (hr : rangeOf cfg.unknowns cfg.pats (pden cfg h target ρ) = .items (pre ++ bad :: post))
    (hpre : ∀ it ∈ pre, PlainOperand c (valueAt cfg h x y (pden cfg h target ρ).t ρ e it))
    (hbad : (valueAt cfg h x y (pden cfg h target ρ).t ρ e bad).v = .error s)
    (hpost : ∀ it ∈ post, PlainOperand c (valueAt cfg h x y (pden cfg h target ρ).t ρ e it) ∨
      ∃ s', (valueAt cfg h x y (pden cfg h target ρ).t ρ e it).v = .error s') :
    pden cfg h (map2Macro c fr accu x y target e) ρ = ⟨.error s, none⟩ := by
  unfold map2Macro
  rw [comp_true accu x y target _ _ _ ρ _ hr, pden_accu_res]
  have hinit : pden cfg h (.op (listOp c) .nil) ρ = ⟨.list [], none⟩ := by
    simp only [pden, pdenArgs, list_none, valOf]
  rw [hinit, List.foldl_append, List.foldl_cons]
  have key1 : ∀ l' : List Item, (∀ it ∈ l', it ∈ pre) → ∀ acc, ∃ acc', l'.foldl (fun a it =>
      pden cfg h (appendExpr c fr accu e) (piterBinds cfg x y (pden cfg h target ρ).t it ++ (accu, a) :: ρ))
        (⟨.list acc, none⟩ : VA) = ⟨.list acc', none⟩ := by
    intro l'
    induction l' with
    | nil => intro _ acc; exact ⟨acc, rfl⟩
    | cons it l' ih =>
      intro hsub acc
      simp only [List.foldl_cons]
      rw [pden_append c fr hy, list_one c _ (hpre it (hsub it List.mem_cons_self))]
      simp only [valOf]
      rw [add_lists]
      exact ih (fun i hi => hsub i (List.mem_cons_of_mem _ hi)) _
  obtain ⟨acc, hacc⟩ := key1 pre (fun _ hi => hi) []
  rw [hacc, pden_append c fr hy, list_error c _ s hbad]
  simp only [valOf]
  rw [add_error_right]
  simp only []
  clear hr
  induction post with
  | nil => rfl
  | cons it post ih =>
    simp only [List.foldl_cons]
    rw [pden_append c fr hy]
    have : pden cfg h (appendExpr c fr accu e)
        (piterBinds cfg x y (pden cfg h target ρ).t it ++ (accu, ⟨.error s, none⟩) :: ρ) = ⟨.error s, none⟩ := by
      rw [pden_append c fr hy]
      rcases hpost it List.mem_cons_self with hpl | ⟨s', hs'⟩
      · rw [list_one c _ hpl]; simp only [valOf]
        rw [add_error_left c fr s _ h rfl]
      · rw [list_error c _ s' hs']; simp only [valOf]
        rw [add_error_left c fr s _ h rfl]
    rw [pden_append c fr hy] at this
    rw [this]
    exact ih fun i hi => hpost i (List.mem_cons_of_mem _ hi)

/-! ## `filter` and three-argument `map` -/

/-- Is the predicate true for this element? -/
def holdsAt (cfg : Cfg σ) (h : σ) (x : String) (y : Option String) (t : Trail) (ρ : PEnv) (p : Expr σ)
    (it : Item) : Bool :=
  match (valueAt cfg h x y t ρ p it).v with
  | .bool b => b
  | _ => false

/-- **C26 (`map` with a filter).** If the predicate is a boolean for every element and the transform is
a plain value for every element satisfying it, `target.map(x, p, e)` is the list of transforms of the
elements satisfying the predicate, in order. -/
theorem C26_map_filter (c : StepCfg) (fr : Bool) (accu x : String) (y : Option String) (target p e : Expr σ)
    (ρ : PEnv) (hyp : Hygienic accu x y p) (hy : Hygienic accu x y e) (l : List Item)
    (hr : rangeOf cfg.unknowns cfg.pats (pden cfg h target ρ) = .items l)
    (hb : ∀ it ∈ l, ∃ b, (valueAt cfg h x y (pden cfg h target ρ).t ρ p it).v = .bool b)
    (hp : ∀ it ∈ l, holdsAt cfg h x y (pden cfg h target ρ).t ρ p it = true →
      PlainOperand c (valueAt cfg h x y (pden cfg h target ρ).t ρ e it)) :
    pden cfg h (map3Macro c fr accu x y target p e) ρ =
      ⟨.list ((l.filter fun it => holdsAt cfg h x y (pden cfg h target ρ).t ρ p it).map
        fun it => (valueAt cfg h x y (pden cfg h target ρ).t ρ e it).v), none⟩ := by
  unfold map3Macro
  rw [comp_true accu x y target _ _ _ ρ l hr, pden_accu_res]
  have hinit : pden cfg h (.op (listOp c) .nil) ρ = ⟨.list [], none⟩ := by
    simp only [pden, pdenArgs, list_none, valOf]
  rw [hinit]
  have key : ∀ l' : List Item, (∀ it ∈ l', it ∈ l) → ∀ acc, l'.foldl (fun a it =>
      pden cfg h (.cond p (appendExpr c fr accu e) (accuIdent accu))
        (piterBinds cfg x y (pden cfg h target ρ).t it ++ (accu, a) :: ρ))
        (⟨.list acc, none⟩ : VA) = ⟨.list (acc ++ (l'.filter fun it => holdsAt cfg h x y (pden cfg h target ρ).t ρ p it).map
          fun it => (valueAt cfg h x y (pden cfg h target ρ).t ρ e it).v), none⟩ := by
    intro l'
    induction l' with
    | nil => intro _ acc; simp
    | cons it l' ih =>
      intro hsub acc
      simp only [List.foldl_cons]
      obtain ⟨b, hbv⟩ := hb it (hsub it List.mem_cons_self)
      have hpv : (pden cfg h p (piterBinds cfg x y (pden cfg h target ρ).t it ++ (accu, ⟨.list acc, none⟩) :: ρ)).v = .bool b := by
        rw [hyp.value]; exact hbv
      have hh : holdsAt cfg h x y (pden cfg h target ρ).t ρ p it = b := by simp only [holdsAt, hbv]
      have happ : b = true → pden cfg h (appendExpr c fr accu e)
          (piterBinds cfg x y (pden cfg h target ρ).t it ++ (accu, ⟨.list acc, none⟩) :: ρ) =
            ⟨.list (acc ++ [(valueAt cfg h x y (pden cfg h target ρ).t ρ e it).v]), none⟩ := by
        intro hbt
        rw [pden_append c fr hy, list_one c _ (hp it (hsub it List.mem_cons_self) (hh.trans hbt))]
        simp only [valOf]
        rw [add_lists]
      rw [pden_cond_bool p _ _ _ b hpv (fun hbt => by rw [happ hbt]) (fun _ => by rw [pden_accu hy])]
      have ih' := ih (fun i hi => hsub i (List.mem_cons_of_mem _ hi))
      cases b with
      | true =>
        rw [if_pos rfl, happ rfl, ih', List.filter_cons, if_pos hh]
        simp
      | false =>
        rw [if_neg (by simp), pden_accu hy, ih', List.filter_cons, if_neg (by rw [hh]; simp)]
  rw [key l (fun _ hi => hi)]
  simp

/-- What the one-variable form binds its variable to. -/
theorem valueAt_var (x : String) (t : Trail) (ρ : PEnv) (it : Item) :
    valueAt cfg h x none t ρ (.ident x false) it = item1 cfg.unknowns cfg.pats t it := by
  simp [valueAt, pden, piterBinds, penvGet]

/-- **C26 (`filter`).** If the predicate is a boolean for every element, and the elements satisfying it
are plain values, `target.filter(x, p)` is the list of the elements satisfying it, in order. -/
theorem C26_filter (c : StepCfg) (fr : Bool) (accu x : String) (target p : Expr σ)
    (ρ : PEnv) (hyp : Hygienic accu x none p) (l : List Item)
    (hr : rangeOf cfg.unknowns cfg.pats (pden cfg h target ρ) = .items l)
    (hb : ∀ it ∈ l, ∃ b, (valueAt cfg h x none (pden cfg h target ρ).t ρ p it).v = .bool b)
    (hp : ∀ it ∈ l, holdsAt cfg h x none (pden cfg h target ρ).t ρ p it = true →
      PlainOperand c (item1 cfg.unknowns cfg.pats (pden cfg h target ρ).t it)) :
    pden cfg h (filterMacro c fr accu x target p) ρ =
      ⟨.list ((l.filter fun it => holdsAt cfg h x none (pden cfg h target ρ).t ρ p it).map
        fun it => (item1 cfg.unknowns cfg.pats (pden cfg h target ρ).t it).v), none⟩ := by
  have hy : Hygienic accu x none (.ident x false : Expr σ) :=
    ⟨hyp.iter, hyp.iter2, fun hf => hyp.iter hf.2⟩
  unfold filterMacro
  rw [C26_map_filter c fr accu x none target p (.ident x false) ρ hyp hy l hr hb (fun it hi ht => by
    rw [valueAt_var]; exact hp it hi ht)]
  simp only [valueAt_var]

/-- The elements a one-variable macro sees over a list, when unknowns are off: the list itself. -/
theorem items_list (l : List Value) (i : Int) : (listItems i l).map Item.one = l := by
  induction l generalizing i with
  | nil => rfl
  | cons v l ih => simp [listItems, ih]

/-- ... and over a map: its keys. -/
theorem items_map (m : List (Value × Value)) : (mapItems m).map Item.one = m.map Prod.fst := by
  induction m with
  | nil => rfl
  | cons e m ih => obtain ⟨k, v⟩ := e; simp [mapItems, ih]

/-! ## `exists_one` -/

theorem eq_one (c : StepCfg) (n : Int) (s : σ) :
    eqOp c [⟨.int n, none⟩, ⟨.int 1, none⟩] s = (.ok ⟨.bool (n == 1), none⟩, s) := by
  have hm : ∀ (acc : Option UnknownSet) (k : Int), maybeAdd c.pats acc ⟨.int k, none⟩ = acc := by
    intro acc k
    simp only [maybeAdd, checkUnknown_none, Bool.false_eq_true, if_false]
  simp only [eqOp, eqStep, eqEval, hm]
  simp [valueEqual]

/-- **C26 (`exists_one`).** If the predicate is a boolean for every element, `target.exists_one(x, p)`
is true exactly when it is true for exactly one element. -/
theorem C26_exists_one (c : StepCfg) (fr : Bool) (accu x : String) (y : Option String) (target p : Expr σ)
    (ρ : PEnv) (hyp : Hygienic accu x y p) (l : List Item) (hlen : (l.length : Int) < 2 ^ 63)
    (hr : rangeOf cfg.unknowns cfg.pats (pden cfg h target ρ) = .items l)
    (hb : ∀ it ∈ l, ∃ b, (valueAt cfg h x y (pden cfg h target ρ).t ρ p it).v = .bool b) :
    pden cfg h (existsOneMacro c fr accu x y target p) ρ =
      ⟨.bool (decide ((l.filter fun it => holdsAt cfg h x y (pden cfg h target ρ).t ρ p it).length = 1)), none⟩ := by
  unfold existsOneMacro
  rw [comp_true accu x y target _ _ _ ρ l hr]
  have hinit : pden cfg h (.const (.int 0)) ρ = ⟨.int ((0 : Nat) : Int), none⟩ := rfl
  rw [hinit]
  have key : ∀ l' : List Item, (∀ it ∈ l', it ∈ l) → ∀ n : Nat, n + l'.length ≤ l.length → l'.foldl (fun a it =>
      pden cfg h (.cond p (.op (addOp c fr) (args2 (accuIdent accu) (.const (.int 1)))) (accuIdent accu))
        (piterBinds cfg x y (pden cfg h target ρ).t it ++ (accu, a) :: ρ))
        (⟨.int (n : Int), none⟩ : VA) =
          ⟨.int ((n + (l'.filter fun it => holdsAt cfg h x y (pden cfg h target ρ).t ρ p it).length : Nat) : Int), none⟩ := by
    intro l'
    induction l' with
    | nil => intro _ n _; simp
    | cons it l' ih =>
      intro hsub n hn
      simp only [List.foldl_cons, List.length_cons] at hn ⊢
      obtain ⟨b, hbv⟩ := hb it (hsub it List.mem_cons_self)
      have hpv : (pden cfg h p (piterBinds cfg x y (pden cfg h target ρ).t it ++ (accu, ⟨.int (n : Int), none⟩) :: ρ)).v = .bool b := by
        rw [hyp.value]; exact hbv
      have hh : holdsAt cfg h x y (pden cfg h target ρ).t ρ p it = b := by simp only [holdsAt, hbv]
      have hadd : pden cfg h (.op (addOp c fr) (args2 (accuIdent accu) (.const (.int 1))))
          (piterBinds cfg x y (pden cfg h target ρ).t it ++ (accu, ⟨.int (n : Int), none⟩) :: ρ) =
            ⟨.int ((n + 1 : Nat) : Int), none⟩ := by
        simp only [pden, pdenArgs2]
        rw [pden_accu hyp]
        rw [add_ints c fr _ _ h (by unfold InI64 i64Min i64Max; omega)]
        simp [valOf]
      rw [pden_cond_bool p _ _ _ b hpv (fun _ => by rw [hadd]) (fun _ => by rw [pden_accu hyp])]
      have ih' := ih (fun i hi => hsub i (List.mem_cons_of_mem _ hi))
      cases b with
      | true =>
        rw [if_pos rfl, hadd, ih' (n + 1) (by omega), List.filter_cons, if_pos hh]
        simp only [List.length_cons]
        congr 3; omega
      | false =>
        rw [if_neg (by simp), pden_accu hyp, ih' n (by omega), List.filter_cons, if_neg (by rw [hh]; simp)]
  rw [key l (fun _ hi => hi) 0 (by omega)]
  simp only [pden, pdenArgs2]
  rw [pden_accu_res, eq_one]
  simp only [valOf, Nat.zero_add]
  congr 2
  rw [Bool.eq_iff_iff]
  simp

end Cel.Macro
