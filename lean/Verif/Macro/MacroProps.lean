import Verif.Macro.ListProps

/-!
# C26: `exists_one` on errors, `optMap`, hygiene, and the macros as planned programs
-/

set_option linter.unusedSimpArgs false
set_option linter.unusedVariables false

namespace Cel.Macro
open Cel Cel.Num Cel.Eval Cel.Data

variable {σ : Type} {cfg : Cfg σ} {h : σ}

/-! ## Calls with one operand -/

/-- What a call to a function with a single overload of one parameter does with one operand. -/
theorem call_one (c : StepCfg) (fr : Bool) (n : String) (recv : Bool) (o : Overload σ) (x : VA)
    (hx : PlainOperand c x) (hk : argumentKindsMatch o.desc [x.v] = true) (hs : o.desc.strict = true) (s : σ)
    (v : Value) (ho : o.impl [x.v] s = (.ok v, s)) (hv : v.isError = false) :
    callOp c fr ⟨n, recv, 0, .eager [o]⟩ [x] s = (.ok ⟨v, none⟩, s) := by
  have hp : (if c.unknowns then checkPartialUnknowns c.pats [x] else [x].map (·.v)) = [x.v] := by
    by_cases hu : c.unknowns = true
    · rw [if_pos hu]; simp [checkPartialUnknowns, hx.2 hu]
    · rw [if_neg hu]; rfl
  have hacc : shouldAcceptOverload o.desc [x.v] = true := by
    simp [shouldAcceptOverload, hx.1.1, hx.1.2]
  unfold callOp evalCall CallSite.resolve
  simp only []
  rw [hp]
  simp only [resolveStatic, hk, if_true, hacc, invoke, ho]
  cases v <;> first | rfl | (simp [Value.isError] at hv)

/-- **C26 (`optMap`).** `target.optMap(x, e)` is none if the target is none; otherwise it holds the value
of `e` with `x` bound to the target's content. `optFlatMap` is that value itself. -/
theorem C26_optMap (c : StepCfg) (fr : Bool) (x : String) (target e : Expr σ) (ρ : PEnv) (o : Option Value)
    (ht : (pden cfg h target ρ).v = .opt o) (hp : PlainOperand c (pden cfg h target ρ))
    (hv : ∀ v, o = some v → v.isError = false)
    (he : ∀ v, o = some v → PlainOperand c (pden cfg h e ((x, ⟨v, none⟩) :: ρ))) :
    (pden cfg h (optMapMacro c fr x target e) ρ).v =
      (match o with
       | none => .opt none
       | some v => .opt (some (pden cfg h e ((x, ⟨v, none⟩) :: ρ)).v)) ∧
    (pden cfg h (optFlatMapMacro c fr x target e) ρ).v =
      (match o with
       | none => .opt none
       | some v => (pden cfg h e ((x, ⟨v, none⟩) :: ρ)).v) := by
  have h1 : callOp c fr hasValueSite [pden cfg h target ρ] h = (.ok ⟨.bool o.isSome, none⟩, h) := by
    refine call_one c fr _ _ _ _ hp ?_ rfl h _ ?_ rfl
    · rw [ht]; rfl
    · rw [ht]
  have h2 : ∀ v, o = some v → callOp c fr valueSite [pden cfg h target ρ] h = (.ok ⟨v, none⟩, h) := by
    intro v hov
    refine call_one c fr _ _ _ _ hp ?_ rfl h _ ?_ (hv v hov)
    · rw [ht]; rfl
    · rw [ht, hov]
  have h3 : callOp c fr noneSite [] h = (.ok ⟨.opt none, none⟩, h) := by
    unfold callOp evalCall CallSite.resolve noneSite
    cases c.unknowns <;> rfl
  have hcond : (pden cfg h (.op (callOp c fr hasValueSite) (args1 target)) ρ).v = .bool o.isSome := by
    simp only [pden, pdenArgs1, h1, valOf]
  cases o with
  | none =>
    have key : ∀ t : Expr σ, (pden cfg h (.cond (.op (callOp c fr hasValueSite) (args1 target)) t
        (.op (callOp c fr noneSite) .nil)) ρ).v = .opt none := by
      intro t
      rw [pden_cond_bool _ _ _ _ false hcond (by simp) (fun _ => by simp only [pden, pdenArgs, h3, valOf])]
      simp only [Bool.false_eq_true, if_false, pden, pdenArgs, h3, valOf]
    exact ⟨key _, key _⟩
  | some v =>
    have h4 : callOp c fr ofSite [pden cfg h e ((x, ⟨v, none⟩) :: ρ)] h =
        (.ok ⟨.opt (some (pden cfg h e ((x, ⟨v, none⟩) :: ρ)).v), none⟩, h) := by
      refine call_one c fr _ _ _ _ (he v rfl) ?_ rfl h _ rfl rfl
      simp [argumentKindsMatch, kindsMatchLoop]
    have hbind : pden cfg h (.bind x (.op (callOp c fr valueSite) (args1 target)) e) ρ =
        pden cfg h e ((x, ⟨v, none⟩) :: ρ) := by
      simp only [pden, pdenArgs1, h2 v rfl, valOf]
    have key : ∀ t f : Expr σ, (pden cfg h (.cond (.op (callOp c fr hasValueSite) (args1 target)) t f) ρ).v =
        (pden cfg h t ρ).v := by
      intro t f
      have ht' : ternOf (pden cfg h (.op (callOp c fr hasValueSite) (args1 target)) ρ) = .yes := by
        unfold ternOf; rw [hcond]; rfl
      rw [pden.eq_def]
      simp only []
      rw [ht']
      split
      · rfl
      · unfold ternaryStep; rw [hcond]; rfl
    constructor
    · unfold optMapMacro
      rw [key]
      simp only [pden.eq_3, pdenArgs1]
      rw [hbind, h4]
      rfl
    · unfold optFlatMapMacro
      rw [key, hbind]

/-! ## Hygiene matters -/

/-- With the old accumulator name `__result__` (option `enable_hidden_accumulator_var` off) a predicate
that mentions a variable of that name is captured: `[1].all(x, __result__)` is true although the
variable `__result__` is false. With the hidden name it is false. -/
theorem C26_old_accumulator_captures (cfg : Cfg Unit)
    (hg : cfg.global "__result__" () = (.ok ⟨.bool false, none⟩, ())) :
    (pden cfg () (allMacro "__result__" "x" none (.const (.list [.int 1])) (.ident "__result__" false)) []).v
      = .bool true ∧
    (pden cfg () (allMacro "@result" "x" none (.const (.list [.int 1])) (.ident "__result__" false)) []).v
      = .bool false := by
  obtain ⟨sc, unk, pats, mx, g⟩ := cfg
  simp only at hg
  constructor
  · cases sc <;> cases unk <;> simp [allMacro, pden, rangeOf, listItems, ploop, piterBinds, penvGet, accuIdent, args1, pdenArgs,
      nsfOp, valOf, notStrictlyFalse, condOf, calcLogic]
  · cases sc <;> cases unk <;> simp [allMacro, pden, rangeOf, listItems, ploop, piterBinds, penvGet, accuIdent, args1, pdenArgs,
      nsfOp, valOf, notStrictlyFalse, condOf, calcLogic, hg]

/-! ## The macros as planned programs -/

theorem hasOp_args1 {f : Op σ} {k : Nat} {e : Expr σ} : HasOps f k (args1 e) ↔ HasOp f k e := by
  simp [args1, HasOps]

/-- **C26 (planned `all`).** The flattened program of `target.all(x, p)` always stops, with the value
described by `C26_all` (here: the predicate is a boolean for every element). -/
theorem C26_planned_all (hmax : cfg.maxIter = 0) (hg : PureGlobal h cfg) (accu x : String) (y : Option String)
    (target p : Expr σ) (hy : Hygienic accu x y p)
    (ho : ∀ f k, HasOp f k target ∨ HasOp f k p → PureOp h k f)
    (hnc : NoClash cfg (allMacro accu x y target p)) (l : List Item)
    (hr : rangeOf cfg.unknowns cfg.pats (pden cfg h target []) = .items l)
    (hb : ∀ it ∈ l, ∃ b, (valueAt cfg h x y (pden cfg h target []).t [] p it).v = .bool b) (r : Final σ) :
    Halts cfg (plan cfg (allMacro accu x y target p)) (MS.start h) r ↔
      r = .value (.bool (l.all fun it => holdsAt cfg h x y (pden cfg h target []).t [] p it)) h := by
  rw [plan_pure hmax hg _ _ hnc]
  · have := C26_all (cfg := cfg) (h := h) accu x y target p [] hy l hr _ rfl
    have hval : (pden cfg h (allMacro accu x y target p) []).v =
        .bool (l.all fun it => holdsAt cfg h x y (pden cfg h target []).t [] p it) := by
      by_cases hall : ∀ it ∈ l, holdsAt cfg h x y (pden cfg h target []).t [] p it = true
      · rw [List.all_eq_true.2 hall]
        refine this.2.1 fun v hv => ?_
        obtain ⟨it, hi, rfl⟩ := List.mem_map.1 hv
        obtain ⟨b, hbv⟩ := hb it hi
        have := hall it hi
        simp only [holdsAt, hbv] at this
        rw [hbv, this]
      · have hne : (l.all fun it => holdsAt cfg h x y (pden cfg h target []).t [] p it) = false := by
          rw [Bool.eq_false_iff]; exact fun hh => hall (List.all_eq_true.1 hh)
        rw [hne]
        refine this.1 ?_
        push Not at hall
        obtain ⟨it, hi, hf⟩ := hall
        obtain ⟨b, hbv⟩ := hb it hi
        refine ⟨_, List.mem_map.2 ⟨it, hi, rfl⟩, ?_⟩
        simp only [holdsAt, hbv] at hf
        rw [hbv]; cases b <;> simp_all
    rw [hval]
  · intro f k hf
    simp only [allMacro, HasOp, accuIdent, hasOp_args1, args1, HasOps, Exprs.len, or_false, false_or] at hf
    rcases hf with hf | ⟨rfl, rfl⟩ | hf
    · exact ho f k (Or.inl hf)
    · intro xs hl
      match xs, hl with
      | [x], _ => exact ⟨_, rfl⟩
    · exact ho f k (Or.inr hf)

/-- A non-trivial instance: `[1, 2].all(x, x == 1)` is false. -/
def demoCfg : Cfg Unit := ⟨true, false, [], 0, fun _ s => (.ok ⟨.null, none⟩, s)⟩
def demoPred : Expr Unit := .op (eqOp sampleCfg) (args2 (.ident "x" false) (.const (.int 1)))

theorem demo_hygienic : Hygienic "@result" "x" none demoPred :=
  ⟨by decide, by simp, by simp [demoPred, args2, Free, Frees]⟩

example : ∃ v, Halts demoCfg (plan demoCfg (allMacro "@result" "x" none (.const (.list [.int 1, .int 2])) demoPred))
    (MS.start ()) (.value (.bool v) ()) := by
  refine ⟨_, (C26_planned_all (h := ()) rfl (fun x => ⟨_, rfl⟩) "@result" "x" none (.const (.list [.int 1, .int 2])) demoPred
    demo_hygienic ?_ (noClash_noBind ?_) _ rfl ?_ _).2 rfl⟩
  · rintro f k (hf | hf)
    · exact hf.elim
    · simp only [demoPred, HasOp, args2, HasOps, Exprs.len, or_false] at hf
      obtain ⟨rfl, rfl⟩ := hf
      intro xs hl
      match xs, hl with
      | [a, b], _ => exact ⟨_, rfl⟩
  · simp [allMacro, demoPred, args1, args2, accuIdent, NoBind, NoBinds]
  · intro it hi
    simp only [listItems, List.mem_cons, List.not_mem_nil, or_false] at hi
    rcases hi with rfl | rfl
    · exact ⟨true, by rfl⟩
    · exact ⟨false, by rfl⟩

/-- `[1, 2, 1].map(x, [x])`, `.filter(x, x == 1)`, `.exists_one(x, x == 1)`, evaluated. -/
example :
    pden demoCfg () (filterMacro sampleCfg false "@result" "x" (.const (.list [.int 1, .int 2, .int 1])) demoPred) []
      = ⟨.list [.int 1, .int 1], none⟩ ∧
    pden demoCfg () (existsOneMacro sampleCfg false "@result" "x" none (.const (.list [.int 1, .int 2, .int 1])) demoPred) []
      = ⟨.bool false, none⟩ ∧
    pden demoCfg () (map2Macro sampleCfg false "@result" "x" none (.const (.list [.int 1, .int 2])) demoPred) []
      = ⟨.list [.bool true, .bool false], none⟩ := by
  refine ⟨by rfl, by rfl, by rfl⟩

end Cel.Macro
