import Verif.Fold.Model
import Verif.Macro.ListProps

/-!
# C50: constant folding is unobservable
-/

set_option linter.unusedSimpArgs false
set_option linter.unusedVariables false

namespace Cel.Fold
open Cel Cel.Eval Cel.Data Cel.Direct Cel.Macro

variable {σ : Type}

/-! ## Specification -/

mutual
/-- Constant subexpressions: literals, non-empty list and map literals, selections, operators and calls
of eagerly bound, non-contextual functions, over constant operands. -/
def Constant (contextual : FnDesc → Bool) : Src σ → Bool
  | .const _ => true
  | .call c args => decide (isConstSite contextual c = .conditional) && Constants contextual args
  | .not a => Constant contextual a
  | .nsf a => Constant contextual a
  | .bin _ a b => Constant contextual a && Constant contextual b
  | .index a b => Constant contextual a && Constant contextual b
  | .select _ _ a => Constant contextual a
  | .list _ .nil => false
  | .list _ (.cons e es) => Constant contextual e && Constants contextual es
  | .map _ .nil => false
  | .map _ (.cons e es) => Constant contextual e && Constants contextual es
  | .ident _ _ => false
  | .logic _ _ _ => false
  | .cond _ _ _ => false
  | .comp _ _ _ _ _ _ _ _ => false
  | .bind _ _ _ => false
def Constants (contextual : FnDesc → Bool) : Srcs σ → Bool
  | .nil => true
  | .cons e es => Constant contextual e && Constants contextual es
end

/-- An implementation is a function of its arguments: it neither reads nor changes the host. -/
def PureImpl (o : Overload σ) : Prop := ∀ args, ∃ res, ∀ h, o.impl args h = (res, h)

/-- Functions that are registered eagerly and as not contextual are pure. -/
def PureSite (contextual : FnDesc → Bool) (c : CallSite σ) : Prop :=
  ∀ os, c.resolver = .eager os → (∀ o ∈ os, contextual o.desc = false) → ∀ o ∈ os, PureImpl o

mutual
/-- All call sites of an expression are. -/
def PureSites (contextual : FnDesc → Bool) : Src σ → Prop
  | .const _ => True
  | .ident _ _ => True
  | .call c args => PureSite contextual c ∧ PureSitess contextual args
  | .not a => PureSites contextual a
  | .nsf a => PureSites contextual a
  | .bin _ a b => PureSites contextual a ∧ PureSites contextual b
  | .index a b => PureSites contextual a ∧ PureSites contextual b
  | .select _ _ a => PureSites contextual a
  | .list _ args => PureSitess contextual args
  | .map _ args => PureSitess contextual args
  | .logic _ a b => PureSites contextual a ∧ PureSites contextual b
  | .cond c t f => PureSites contextual c ∧ PureSites contextual t ∧ PureSites contextual f
  | .comp _ _ _ range init cnd stp res =>
    PureSites contextual range ∧ PureSites contextual init ∧ PureSites contextual cnd ∧ PureSites contextual stp ∧
      PureSites contextual res
  | .bind _ init body => PureSites contextual init ∧ PureSites contextual body
def PureSitess (contextual : FnDesc → Bool) : Srcs σ → Prop
  | .nil => True
  | .cons e es => PureSites contextual e ∧ PureSitess contextual es
end

/-! ## The pass, written recursively -/

mutual
/-- Folding without the stack of flags. -/
def foldE (f : FoldCfg σ) : Src σ → Src σ
  | .const v => .const v
  | .ident x abs => .ident x abs
  | .call c args => fin f (Constant f.contextual (.call c args)) (.call c (foldEs f args))
  | .not a => fin f (Constant f.contextual (.not a)) (.not (foldE f a))
  | .nsf a => fin f (Constant f.contextual (.nsf a)) (.nsf (foldE f a))
  | .bin k a b => fin f (Constant f.contextual (.bin k a b)) (.bin k (foldE f a) (foldE f b))
  | .index a b => fin f (Constant f.contextual (.index a b)) (.index (foldE f a) (foldE f b))
  | .select fl test a => fin f (Constant f.contextual (.select fl test a)) (.select fl test (foldE f a))
  | .list opt args => fin f (Constant f.contextual (.list opt args)) (.list opt (foldEs f args))
  | .map opt args => fin f (Constant f.contextual (.map opt args)) (.map opt (foldEs f args))
  | .logic o a b => .logic o (foldE f a) (foldE f b)
  | .cond c t e => .cond (foldE f c) (foldE f t) (foldE f e)
  | .comp iter iter2 accu range init cnd stp res =>
    .comp iter iter2 accu (foldE f range) (foldE f init) (foldE f cnd) (foldE f stp) (foldE f res)
  | .bind x init body => .bind x (foldE f init) (foldE f body)
where
  /-- fold a constant node -/
  fin (f : FoldCfg σ) (const : Bool) (e : Src σ) : Src σ := if const then foldNode f e else e
def foldEs (f : FoldCfg σ) : Srcs σ → Srcs σ
  | .nil => .nil
  | .cons e es => .cons (foldE f e) (foldEs f es)
end

/-- The flags after a subexpression. -/
def mark (const : Bool) : List IsConst → List IsConst
  | [] => []
  | c :: st => if const then c :: st else .nonConst :: st

theorem mark_mark (a b : Bool) (st : List IsConst) : mark b (mark a st) = mark (a && b) st := by
  cases st with
  | nil => rfl
  | cons c st => cases a <;> cases b <;> rfl

theorem post_mark (f : FoldCfg σ) (e : Src σ) (c : Bool) (st : List IsConst) :
    onPostVisit f e (mark c (.conditional :: st)) = some (foldE.fin f c e, mark c st) := by
  cases c with
  | true => cases st <;> rfl
  | false => cases st <;> rfl

theorem post_non (f : FoldCfg σ) (e : Src σ) (c : Bool) (st : List IsConst) :
    onPostVisit f e (mark c (.nonConst :: st)) = some (e, mark false st) := by
  cases c <;> cases st <;> rfl

mutual
theorem visit_eq (f : FoldCfg σ) : ∀ (e : Src σ) (st : List IsConst),
    visit f e st = some (foldE f e, mark (Constant f.contextual e) st)
  | .const v, st => by cases st <;> rfl
  | .ident x abs, st => by cases st <;> rfl
  | .call c args, st => by
    simp only [visit, visits_eq f args, isConstExpr, foldE, Constant, Option.bind_eq_bind, Option.bind_some]
    cases hc : isConstSite f.contextual c with
    | conditional => rw [post_mark]; simp
    | nonConst =>
      rw [post_non]; simp [foldE.fin]
  | .not a, st => by
    simp only [visit, visit_eq f a, isConstExpr, foldE, Constant, Option.bind_eq_bind, Option.bind_some]
    rw [post_mark]
  | .nsf a, st => by
    simp only [visit, visit_eq f a, isConstExpr, foldE, Constant, Option.bind_eq_bind, Option.bind_some]
    rw [post_mark]
  | .bin k a b, st => by
    simp only [visit, visit_eq f a, visit_eq f b, isConstExpr, foldE, Constant, Option.bind_eq_bind, Option.bind_some,
      mark_mark]
    rw [post_mark]
  | .index a b, st => by
    simp only [visit, visit_eq f a, visit_eq f b, isConstExpr, foldE, Constant, Option.bind_eq_bind, Option.bind_some,
      mark_mark]
    rw [post_mark]
  | .select fl test a, st => by
    simp only [visit, visit_eq f a, isConstExpr, foldE, Constant, Option.bind_eq_bind, Option.bind_some]
    rw [post_mark]
  | .list opt .nil, st => by cases st <;> rfl
  | .list opt (.cons e es), st => by
    simp only [visit, visits_eq f (.cons e es), isConstExpr, foldE, Constant, Constants, Option.bind_eq_bind, Option.bind_some]
    rw [post_mark]
  | .map opt .nil, st => by cases st <;> rfl
  | .map opt (.cons e es), st => by
    simp only [visit, visits_eq f (.cons e es), isConstExpr, foldE, Constant, Constants, Option.bind_eq_bind, Option.bind_some]
    rw [post_mark]
  | .logic o a b, st => by
    simp only [visit, visit_eq f a, visit_eq f b, isConstExpr, foldE, Constant, Option.bind_eq_bind, Option.bind_some,
      mark_mark]
    rw [post_non]
  | .cond c t e, st => by
    simp only [visit, visit_eq f c, visit_eq f t, visit_eq f e, isConstExpr, foldE, Constant, Option.bind_eq_bind,
      Option.bind_some, mark_mark]
    rw [post_non]
  | .comp iter iter2 accu range init cnd stp res, st => by
    simp only [visit, visit_eq f range, visit_eq f init, visit_eq f cnd, visit_eq f stp, visit_eq f res, isConstExpr, foldE,
      Constant, Option.bind_eq_bind, Option.bind_some, mark_mark]
    rw [post_non]
  | .bind x init body, st => by
    simp only [visit, visit_eq f init, visit_eq f body, isConstExpr, foldE, Constant, Option.bind_eq_bind, Option.bind_some,
      mark_mark]
    rw [post_non]
theorem visits_eq (f : FoldCfg σ) : ∀ (es : Srcs σ) (st : List IsConst),
    visits f es st = some (foldEs f es, mark (Constants f.contextual es) st)
  | .nil, st => by cases st <;> rfl
  | .cons e es, st => by
    simp only [visits, visit_eq f e, visits_eq f es, foldEs, Constants, Option.bind_eq_bind, Option.bind_some, mark_mark]
    rfl
end

/-- The pass never meets its internal error. -/
theorem foldConstants_eq (f : FoldCfg σ) (e : Src σ) : foldConstants f e = some (foldE f e) := by
  simp only [foldConstants, visit_eq, Option.map_some]

/-! ## Constant expressions evaluate the same way everywhere -/

/-- Operands without a trail. -/
def plain (vs : List Value) : List VA := vs.map fun v => ⟨v, none⟩

/-- A value without a trail. -/
def plainRes : Res Value → Res VA
  | .ok v => .ok ⟨v, none⟩
  | .err e => .err e
  | .ub => .ub

/-- The outcome of an evaluation without effects. -/
def outc (o : Res Value) (s : SS σ) : Out σ VA :=
  match o with
  | .ok v => .ok ⟨v, none⟩ s
  | .err e => .err e s.host
  | .ub => .ub

/-- The outcome of evaluating operands without effects. -/
def outcs (o : Res (List Value)) (s : SS σ) : Out σ (List VA) :=
  match o with
  | .ok vs => .ok (plain vs) s
  | .err e => .err e s.host
  | .ub => .ub

/-- The steps agree on operands without a trail, and have no effects. -/
def OpSame (f g : Op σ) : Prop :=
  ∀ vs, ∃ o : Res Value, ∀ h, f (plain vs) h = (plainRes o, h) ∧ g (plain vs) h = (plainRes o, h)

theorem outc_lift (o : Res Value) (s : SS σ) : lift (plainRes o, s.host) s = outc o s := by
  cases o <;> rfl

theorem opSame_den {cfg cfg' : Cfg σ} {f g : Op σ} (hfg : OpSame f g) {as bs : Exprs σ}
    (ha : ∃ o : Res (List Value), ∀ ρ s, denArgs cfg as ρ s = outcs o s ∧ denArgs cfg' bs ρ s = outcs o s) :
    ∃ o : Res Value, ∀ ρ s, den cfg (.op f as) ρ s = outc o s ∧ den cfg' (.op g bs) ρ s = outc o s := by
  obtain ⟨o, ho⟩ := ha
  cases o with
  | ok vs =>
    obtain ⟨o', ho'⟩ := hfg vs
    refine ⟨o', fun ρ s => ?_⟩
    simp only [den, (ho ρ s).1, (ho ρ s).2, outcs, Out.bind, (ho' s.host).1, (ho' s.host).2, outc_lift, and_self]
  | err e => exact ⟨.err e, fun ρ s => by simp only [den, (ho ρ s).1, (ho ρ s).2, outcs, Out.bind, outc, and_self]⟩
  | ub => exact ⟨.ub, fun ρ s => by simp only [den, (ho ρ s).1, (ho ρ s).2, outcs, Out.bind, outc, and_self]⟩

theorem opSame_opR {c c' : StepCfg} (F : StepCfg → List VA → Res VA)
    (h : ∀ vs, ∃ o : Res Value, F c (plain vs) = plainRes o ∧ F c' (plain vs) = plainRes o) :
    OpSame (σ := σ) (opR (F c)) (opR (F c')) := by
  intro vs
  obtain ⟨o, h1, h2⟩ := h vs
  exact ⟨o, fun h => by simp only [opR, h1, h2, and_self]⟩

/-- Options without the activation's patterns. -/
abbrev bare (c : StepCfg) : StepCfg := { c with pats := [], missingPats := [] }

theorem step_none (q : Qual) : Trail.step none q = none := rfl

theorem not_same (c : StepCfg) : OpSame (σ := σ) (op1 (notStep c.unknowns c.pats)) (op1 (notStep c.unknowns [])) := by
  intro vs
  match vs with
  | [v] =>
    refine ⟨.ok (notStep c.unknowns [] ⟨v, none⟩).v, fun h => ?_⟩
    have hv : ∀ pats, notStep c.unknowns pats ⟨v, none⟩ = ⟨(notStep c.unknowns [] ⟨v, none⟩).v, none⟩ := by
      intro pats
      simp only [notStep, checkUnknown_none, Bool.false_eq_true, and_false, if_false]
      cases v <;> rfl
    simp only [plain, List.map_cons, List.map_nil, op1, plainRes]
    rw [hv c.pats]
    exact ⟨rfl, by rw [← hv []]⟩
  | [] => exact ⟨.err underflow, fun h => ⟨rfl, rfl⟩⟩
  | _ :: _ :: _ => exact ⟨.err underflow, fun h => ⟨rfl, rfl⟩⟩

theorem nsf_same : OpSame (σ := σ) (op1 notStrictlyFalse) (op1 notStrictlyFalse) := by
  intro vs
  match vs with
  | [v] =>
    refine ⟨.ok (notStrictlyFalse ⟨v, none⟩).v, fun h => ?_⟩
    have : notStrictlyFalse ⟨v, none⟩ = ⟨(notStrictlyFalse ⟨v, none⟩).v, none⟩ := by cases v <;> rfl
    simp only [plain, List.map_cons, List.map_nil, op1, plainRes]
    rw [← this]
    exact ⟨rfl, rfl⟩
  | [] => exact ⟨.err underflow, fun h => ⟨rfl, rfl⟩⟩
  | _ :: _ :: _ => exact ⟨.err underflow, fun h => ⟨rfl, rfl⟩⟩

theorem maybeAdd_plain (pats : List Pattern) (acc : Option UnknownSet) (v : Value) :
    maybeAdd pats acc ⟨v, none⟩ = maybeAdd [] acc ⟨v, none⟩ := by
  cases v <;> simp only [maybeAdd, checkUnknown_none, Bool.false_eq_true, if_false]

theorem eqEval_plain (c : StepCfg) (neg : Bool) (v w : Value) :
    eqEval c neg ⟨v, none⟩ ⟨w, none⟩ = eqEval (bare c) neg ⟨v, none⟩ ⟨w, none⟩ := by
  unfold eqEval
  simp only [maybeAdd_plain c.pats]

theorem inEval_plain (c : StepCfg) (v w : Value) :
    inEval c ⟨v, none⟩ ⟨w, none⟩ = inEval (bare c) ⟨v, none⟩ ⟨w, none⟩ := by
  unfold inEval
  simp only [maybeAdd_plain c.pats]

theorem bin_same (r : RCfg σ) (vars : String → σ → Res VA × σ) (k : Bin) :
    OpSame (binOp r k) (binOp (planTime r vars) k) := by
  cases k with
  | eq neg =>
    refine opSame_opR (fun c => eqStep c neg) fun vs => ?_
    match vs with
    | [v, w] => exact ⟨.ok _, by simp only [plain, List.map_cons, List.map_nil, eqStep, eqEval_plain r.c]; rfl, rfl⟩
    | [] => exact ⟨.err _, rfl, rfl⟩
    | [_] => exact ⟨.err _, rfl, rfl⟩
    | _ :: _ :: _ :: _ => exact ⟨.err _, rfl, rfl⟩
  | isIn =>
    refine opSame_opR inStep fun vs => ?_
    match vs with
    | [v, w] => exact ⟨.ok _, by simp only [plain, List.map_cons, List.map_nil, inStep, inEval_plain r.c]; rfl, rfl⟩
    | [] => exact ⟨.err _, rfl, rfl⟩
    | [_] => exact ⟨.err _, rfl, rfl⟩
    | _ :: _ :: _ :: _ => exact ⟨.err _, rfl, rfl⟩

theorem lookup_bare (c : StepCfg) (v k : Value) : lookupIn c v k = lookupIn (bare c) v k := by
  cases v <;> rfl

theorem indexEval_plain (c : StepCfg) (v k : Value) :
    indexEval c ⟨v, none⟩ ⟨k, none⟩ = ⟨(indexEval (bare c) ⟨v, none⟩ ⟨k, none⟩).v, none⟩ ∧
    indexEval (bare c) ⟨v, none⟩ ⟨k, none⟩ = ⟨(indexEval (bare c) ⟨v, none⟩ ⟨k, none⟩).v, none⟩ := by
  have ht : ∀ c : StepCfg, indexTrail c ⟨v, none⟩ ⟨k, none⟩ = none := by
    intro c; simp only [indexTrail]; split <;> rfl
  have hT : ∀ c' : StepCfg, (indexEval c' ⟨v, none⟩ ⟨k, none⟩).t = none := by
    intro c'
    unfold indexEval
    simp only [ht]
    split
    · rfl
    · split
      · rfl
      · split
        · rfl
        · rfl
        · split
          · split
            · rfl
            · split
              · split <;> rfl
              · rfl
          · rfl
        · rfl
  have heta : ∀ X : VA, X.t = none → X = ⟨X.v, none⟩ := by
    intro X h; cases X; simp only at h; rw [h]
  have hE : indexEval c ⟨v, none⟩ ⟨k, none⟩ = indexEval (bare c) ⟨v, none⟩ ⟨k, none⟩ := by
    unfold indexEval
    simp only [ht, lookup_bare c, checkUnknown_none, Bool.false_eq_true, and_false, if_false]
  exact ⟨hE.trans (heta _ (hT _)), heta _ (hT _)⟩

theorem index_same (c : StepCfg) : OpSame (σ := σ) (opR (indexStep c)) (opR (indexStep (bare c))) := by
  refine opSame_opR indexStep fun vs => ?_
  match vs with
  | [v, w] =>
    refine ⟨.ok (indexEval (bare c) ⟨v, none⟩ ⟨w, none⟩).v, ?_, ?_⟩
    · simp only [plain, List.map_cons, List.map_nil, indexStep, plainRes]
      rw [← (indexEval_plain c v w).1]
    · simp only [plain, List.map_cons, List.map_nil, indexStep, plainRes]
      rw [← (indexEval_plain c v w).2]
  | [] => exact ⟨.err _, rfl, rfl⟩
  | [_] => exact ⟨.err _, rfl, rfl⟩
  | _ :: _ :: _ :: _ => exact ⟨.err _, rfl, rfl⟩

/-- A result without a trail. -/
def NoTrail (r : Res VA) : Prop := ∃ o, r = plainRes o

theorem select_none (c : StepCfg) (f : String) (test : Bool) (v : Value) :
    selectEval c f test ⟨v, none⟩ = selectEval (bare c) f test ⟨v, none⟩ ∧
    NoTrail (selectEval (bare c) f test ⟨v, none⟩) := by
  have ht : ∀ c : StepCfg, (if c.unknowns = true ∨ c.missing = true then Trail.step none (.str f) else none) = none := by
    intro c; split <;> rfl
  have hm : ∀ c : StepCfg, markedAttribute c none = none := fun _ => rfl
  have h1 : ∀ w, testOnlySelect c f w = testOnlySelect (bare c) f w := by intro w; cases w <;> rfl
  have h2 : ∀ w, performSelect c f w = performSelect (bare c) f w := by intro w; cases w <;> rfl
  have hbind : ∀ o : Res Value, NoTrail (do let x ← o; pure ⟨x, none⟩) := by
    intro o
    cases o with
    | ok v => exact ⟨.ok v, rfl⟩
    | err e => exact ⟨.err e, rfl⟩
    | ub => exact ⟨.ub, rfl⟩
  have hopt : ∀ o : Res (Option Value), NoTrail (do
      match ← o with
      | none => return ⟨.opt none, none⟩
      | some w => return ⟨.opt (some w), none⟩) := by
    intro o
    cases o with
    | ok v => cases v with
      | none => exact ⟨.ok (.opt none), rfl⟩
      | some w => exact ⟨.ok (.opt (some w)), rfl⟩
    | err e => exact ⟨.err e, rfl⟩
    | ub => exact ⟨.ub, rfl⟩
  constructor
  · unfold selectEval
    simp only [ht, hm, h1, h2]
    rfl
  · unfold selectEval
    simp only [ht, hm]
    split
    · exact ⟨.ok (.unknown _), rfl⟩
    · exact ⟨.ok (.error _), rfl⟩
    · split
      · split
        · split
          · exact ⟨.ok _, rfl⟩
          · exact hbind _
        · split
          · exact ⟨.ok _, rfl⟩
          · exact hopt _
      · split
        · split
          · exact hbind _
          · exact ⟨.ok _, rfl⟩
        · split
          · exact hbind _
          · exact hbind _
        · exact ⟨.ok _, rfl⟩

theorem select_same (c : StepCfg) (f : String) (test : Bool) :
    OpSame (σ := σ) (opR (selectStep c f test)) (opR (selectStep (bare c) f test)) := by
  refine opSame_opR (fun c => selectStep c f test) fun vs => ?_
  match vs with
  | [v] =>
    obtain ⟨h1, o, h2⟩ := select_none c f test v
    refine ⟨o, ?_, ?_⟩
    · show selectEval c f test ⟨v, none⟩ = _
      rw [h1, h2]
    · exact h2
  | [] => exact ⟨.err _, rfl, rfl⟩
  | _ :: _ :: _ => exact ⟨.err _, rfl, rfl⟩

theorem checkFor_plain (pats : List Pattern) (vs : List Value) (acc : List Attr) :
    checkForUnknowns pats true (plain vs) acc = acc := by
  induction vs with
  | nil => rfl
  | cons v vs ih =>
    show checkForUnknowns pats true (⟨v, none⟩ :: plain vs) acc = acc
    simp only [checkForUnknowns, checkUnknown_none, Bool.false_eq_true, if_false, ih]

theorem identify_plain (pats : List Pattern) (vs : List Value) :
    identifyAndMerge pats true (plain vs) = identifyAndMerge [] true (plain vs) := by
  simp only [identifyAndMerge, checkFor_plain]

theorem plain_vals (vs : List Value) : (plain vs).map VA.v = vs := by
  induction vs with
  | nil => rfl
  | cons v vs ih => simp only [plain, List.map_cons] at *; rw [ih]

theorem buildList_bare (c : StepCfg) (opt : Nat → Bool) : ∀ (vs : List Value) (i : Nat) (acc : List Value),
    buildList c opt i vs acc = buildList (bare c) opt i vs acc := by
  intro vs
  induction vs with
  | nil => intro i acc; rfl
  | cons v vs ih => intro i acc; simp only [buildList, ih]

theorem buildMap_bare (c : StepCfg) (opt : Nat → Bool) : ∀ (vs : List (Value × Value)) (i : Nat) (acc : List (Value × Value)),
    buildMap c opt i vs acc = buildMap (bare c) opt i vs acc := by
  intro vs
  induction vs with
  | nil => intro i acc; rfl
  | cons v vs ih => intro i acc; obtain ⟨k, v⟩ := v; simp only [buildMap, ih]

theorem list_same (c : StepCfg) (opt : Nat → Bool) : OpSame (σ := σ) (opR (listStep c opt)) (opR (listStep (bare c) opt)) := by
  refine opSame_opR (fun c => listStep c opt) fun vs => ?_
  have h : listEval c opt (plain vs) = listEval (bare c) opt (plain vs) := by
    unfold listEval
    simp only [identify_plain c.pats, plain_vals, buildList_bare c]
  refine ⟨listEval (bare c) opt (plain vs), ?_, ?_⟩
  · simp only [listStep, h]; cases listEval (bare c) opt (plain vs) <;> rfl
  · simp only [listStep]; cases listEval (bare c) opt (plain vs) <;> rfl

theorem map_same (c : StepCfg) (opt : Nat → Bool) : OpSame (σ := σ) (opR (mapStep c opt)) (opR (mapStep (bare c) opt)) := by
  refine opSame_opR (fun c => mapStep c opt) fun vs => ?_
  have h : mapEval c opt (plain vs) = mapEval (bare c) opt (plain vs) := by
    unfold mapEval
    simp only [identify_plain c.pats, plain_vals, buildMap_bare c]
  refine ⟨mapEval (bare c) opt (plain vs), ?_, ?_⟩
  · simp only [mapStep, h]; cases mapEval (bare c) opt (plain vs) <;> rfl
  · simp only [mapStep]; cases mapEval (bare c) opt (plain vs) <;> rfl

theorem partial_plain (pats : List Pattern) (vs : List Value) : checkPartialUnknowns pats (plain vs) = vs := by
  induction vs with
  | nil => rfl
  | cons v vs ih =>
    show checkPartialUnknowns pats (⟨v, none⟩ :: plain vs) = v :: vs
    simp only [checkPartialUnknowns, checkUnknown_none, Bool.false_eq_true, if_false, ih]

theorem resolveStatic_mem {args : List Value} {os : List (Overload σ)} {o : Overload σ}
    (h : resolveStatic args os = some o) : o ∈ os := by
  induction os with
  | nil => cases h
  | cons a os ih =>
    simp only [resolveStatic] at h
    split at h
    · cases h; exact List.mem_cons_self
    · exact List.mem_cons_of_mem _ (ih h)

theorem call_same (r : RCfg σ) (vars : String → σ → Res VA × σ) {ctx : FnDesc → Bool} {c : CallSite σ}
    (hp : PureSite ctx c) (hc : isConstSite ctx c = .conditional) :
    OpSame (Direct.callOp r c) (Direct.callOp (planTime r vars) c) := by
  intro vs
  unfold isConstSite at hc
  cases hres : c.resolver with
  | lazy ps => rw [hres] at hc; cases hc
  | eager os =>
    rw [hres] at hc
    simp only at hc
    split at hc
    · cases hc
    · rename_i hctx
      have hctx' : ∀ o ∈ os, ctx o.desc = false := by
        intro o ho
        cases hb : ctx o.desc with
        | false => rfl
        | true => exact absurd (List.any_eq_true.2 ⟨o, ho, hb⟩) hctx
      have hpure := hp os hres hctx'
      have harg : ∀ r : RCfg σ, (if r.callOpts.unknowns = true then checkPartialUnknowns r.callOpts.pats (plain vs)
          else (plain vs).map (·.v)) = vs := by
        intro r
        rw [partial_plain, plain_vals]; simp
      have key : ∃ o : Res Value, ∀ h, evalCall r.callOpts c (plain vs) h = (o, h) ∧
          evalCall (planTime r vars).callOpts c (plain vs) h = (o, h) := by
        unfold evalCall
        simp only [harg, CallSite.resolve, hres]
        cases hr : resolveStatic vs os with
        | none => exact ⟨_, fun h => ⟨rfl, rfl⟩⟩
        | some o =>
          simp only
          split
          · obtain ⟨res, himpl⟩ := hpure o (resolveStatic_mem hr) vs
            simp only [invoke, himpl]
            cases res with
            | ok v =>
              cases v with
              | error st =>
                simp only
                by_cases hk : r.fnResults = true ∧ st.code = .unknownFunctionResult
                · refine ⟨.ok (.unknown ⟨[], [⟨o.desc, c.exprId⟩]⟩), fun h => ?_⟩
                  exact ⟨by rw [if_pos (show r.callOpts.unknownFnResults = true ∧ _ from hk)],
                    by rw [if_pos (show (planTime r vars).callOpts.unknownFnResults = true ∧ _ from hk)]⟩
                · refine ⟨.ok (.error st), fun h => ?_⟩
                  exact ⟨by rw [if_neg (show ¬ (r.callOpts.unknownFnResults = true ∧ _) from hk)],
                    by rw [if_neg (show ¬ ((planTime r vars).callOpts.unknownFnResults = true ∧ _) from hk)]⟩
              | _ => exact ⟨.ok _, fun h => ⟨rfl, rfl⟩⟩
            | err e => exact ⟨.err e, fun h => ⟨rfl, rfl⟩⟩
            | ub => exact ⟨.ub, fun h => ⟨rfl, rfl⟩⟩
          · exact ⟨_, fun h => ⟨rfl, rfl⟩⟩
      obtain ⟨o, ho⟩ := key
      refine ⟨o, fun h => ?_⟩
      unfold Direct.callOp
      rw [(ho h).1, (ho h).2]
      cases o <;> exact ⟨rfl, rfl⟩

/-- The two evaluations of an expression agree, do not depend on the state and have no effects. -/
def Same (r r' : RCfg σ) (e : Src σ) : Prop :=
  ∃ o : Res Value, ∀ ρ s, den r.cfg (toExpr r e) ρ s = outc o s ∧ den r'.cfg (toExpr r' e) ρ s = outc o s

/-- The same for operands. -/
def Sames (r r' : RCfg σ) (es : Srcs σ) : Prop :=
  ∃ o : Res (List Value), ∀ ρ s, denArgs r.cfg (toExprs r es) ρ s = outcs o s ∧ denArgs r'.cfg (toExprs r' es) ρ s = outcs o s

theorem sames_nil (r r' : RCfg σ) : Sames r r' .nil := ⟨.ok [], fun ρ s => ⟨rfl, rfl⟩⟩

theorem sames_cons {r r' : RCfg σ} {e : Src σ} {es : Srcs σ} (h1 : Same r r' e) (h2 : Sames r r' es) :
    Sames r r' (.cons e es) := by
  obtain ⟨o1, h1⟩ := h1
  obtain ⟨o2, h2⟩ := h2
  cases o1 with
  | err e => exact ⟨.err e, fun ρ s => by simp only [toExprs, denArgs, (h1 ρ s).1, (h1 ρ s).2, outc, outcs, Out.bind, and_self]⟩
  | ub => exact ⟨.ub, fun ρ s => by simp only [toExprs, denArgs, (h1 ρ s).1, (h1 ρ s).2, outc, outcs, Out.bind, and_self]⟩
  | ok v =>
    cases o2 with
    | err e =>
      exact ⟨.err e, fun ρ s => by
        simp only [toExprs, denArgs, (h1 ρ s).1, (h1 ρ s).2, (h2 ρ s).1, (h2 ρ s).2, outc, outcs, Out.bind, and_self]⟩
    | ub =>
      exact ⟨.ub, fun ρ s => by
        simp only [toExprs, denArgs, (h1 ρ s).1, (h1 ρ s).2, (h2 ρ s).1, (h2 ρ s).2, outc, outcs, Out.bind, and_self]⟩
    | ok vs =>
      exact ⟨.ok (v :: vs), fun ρ s => by
        simp only [toExprs, denArgs, (h1 ρ s).1, (h1 ρ s).2, (h2 ρ s).1, (h2 ρ s).2, outc, outcs, Out.bind, plain,
          List.map_cons, and_self]⟩

mutual
/-- Constant expressions mean the same with and without the activation. -/
theorem const_same (r : RCfg σ) (vars : String → σ → Res VA × σ) (ctx : FnDesc → Bool) : ∀ e : Src σ,
    Constant ctx e = true → PureSites ctx e → Same r (planTime r vars) e
  | .const v, _, _ => ⟨.ok v, fun ρ s => ⟨rfl, rfl⟩⟩
  | .ident _ _, h, _ => Bool.noConfusion (show false = true from h)
  | .call c args, h, hp => by
    simp only [Constant, Bool.and_eq_true, decide_eq_true_eq] at h
    exact opSame_den (call_same r vars hp.1 h.1) (const_sames r vars ctx args h.2 hp.2)
  | .not a, h, hp =>
    opSame_den (not_same r.c) (sames_cons (const_same r vars ctx a h hp) (sames_nil _ _))
  | .nsf a, h, hp =>
    opSame_den nsf_same (sames_cons (const_same r vars ctx a h hp) (sames_nil _ _))
  | .bin k a b, h, hp => by
    simp only [Constant, Bool.and_eq_true] at h
    exact opSame_den (bin_same r vars k) (sames_cons (const_same r vars ctx a h.1 hp.1)
      (sames_cons (const_same r vars ctx b h.2 hp.2) (sames_nil _ _)))
  | .index a b, h, hp => by
    simp only [Constant, Bool.and_eq_true] at h
    exact opSame_den (index_same r.c) (sames_cons (const_same r vars ctx a h.1 hp.1)
      (sames_cons (const_same r vars ctx b h.2 hp.2) (sames_nil _ _)))
  | .select f test a, h, hp =>
    opSame_den (select_same r.c f test) (sames_cons (const_same r vars ctx a h hp) (sames_nil _ _))
  | .list opt .nil, h, _ => Bool.noConfusion (show false = true from h)
  | .list opt (.cons e es), h, hp =>
    opSame_den (list_same r.c opt) (const_sames r vars ctx (.cons e es) h hp)
  | .map opt .nil, h, _ => Bool.noConfusion (show false = true from h)
  | .map opt (.cons e es), h, hp =>
    opSame_den (map_same r.c opt) (const_sames r vars ctx (.cons e es) h hp)
  | .logic _ _ _, h, _ => Bool.noConfusion (show false = true from h)
  | .cond _ _ _, h, _ => Bool.noConfusion (show false = true from h)
  | .comp _ _ _ _ _ _ _ _, h, _ => Bool.noConfusion (show false = true from h)
  | .bind _ _ _, h, _ => Bool.noConfusion (show false = true from h)
theorem const_sames (r : RCfg σ) (vars : String → σ → Res VA × σ) (ctx : FnDesc → Bool) : ∀ es : Srcs σ,
    Constants ctx es = true → PureSitess ctx es → Sames r (planTime r vars) es
  | .nil, _, _ => sames_nil _ _
  | .cons e es, h, hp => by
    simp only [Constants, Bool.and_eq_true] at h
    exact sames_cons (const_same r vars ctx e h.1 hp.1) (const_sames r vars ctx es h.2 hp.2)
end

/-! ## Folding keeps constants constant -/

theorem foldNode_cases (f : FoldCfg σ) (e : Src σ) : foldNode f e = e ∨ ∃ v, foldNode f e = .const v := by
  have h : ∀ (X : Final σ) (y : Src σ), (y = match X with
      | .value v _ => if v.isUnknown then e else .const v
      | .status _ _ => e
      | .ub => e) → y = e ∨ ∃ v, y = .const v := by
    intro X y hy
    cases X with
    | value v h =>
      simp only at hy
      split at hy
      · exact Or.inl hy
      · exact Or.inr ⟨v, hy⟩
    | status _ _ => exact Or.inl hy
    | ub => exact Or.inl hy
  cases e with
  | const v => exact Or.inl rfl
  | _ => exact h _ _ rfl

theorem fin_cases (f : FoldCfg σ) (c : Bool) (e : Src σ) : foldE.fin f c e = e ∨ ∃ v, foldE.fin f c e = .const v := by
  cases c with
  | true => exact foldNode_cases f e
  | false => exact Or.inl rfl

theorem fin_keeps {f : FoldCfg σ} {c : Bool} {e : Src σ} (P : Src σ → Prop) (h : P e) (hc : ∀ v, P (.const v)) :
    P (foldE.fin f c e) := by
  rcases fin_cases f c e with h' | ⟨v, h'⟩
  · rw [h']; exact h
  · rw [h']; exact hc v

mutual
theorem fold_const (f : FoldCfg σ) : ∀ e : Src σ, Constant f.contextual e = true → Constant f.contextual (foldE f e) = true
  | .const v, _ => rfl
  | .ident _ _, h => Bool.noConfusion (show false = true from h)
  | .call c args, h => by
    simp only [Constant, Bool.and_eq_true, decide_eq_true_eq] at h
    refine fin_keeps (fun e => Constant f.contextual e = true) ?_ (fun _ => rfl)
    simp only [Constant, Bool.and_eq_true, decide_eq_true_eq]
    exact ⟨h.1, fold_consts f args h.2⟩
  | .not a, h => fin_keeps (fun e => Constant f.contextual e = true) (fold_const f a h) (fun _ => rfl)
  | .nsf a, h => fin_keeps (fun e => Constant f.contextual e = true) (fold_const f a h) (fun _ => rfl)
  | .bin k a b, h => by
    simp only [Constant, Bool.and_eq_true] at h
    refine fin_keeps (fun e => Constant f.contextual e = true) ?_ (fun _ => rfl)
    simp only [Constant, Bool.and_eq_true]
    exact ⟨fold_const f a h.1, fold_const f b h.2⟩
  | .index a b, h => by
    simp only [Constant, Bool.and_eq_true] at h
    refine fin_keeps (fun e => Constant f.contextual e = true) ?_ (fun _ => rfl)
    simp only [Constant, Bool.and_eq_true]
    exact ⟨fold_const f a h.1, fold_const f b h.2⟩
  | .select fl test a, h => fin_keeps (fun e => Constant f.contextual e = true) (fold_const f a h) (fun _ => rfl)
  | .list opt .nil, h => Bool.noConfusion (show false = true from h)
  | .list opt (.cons e es), h =>
    fin_keeps (fun e => Constant f.contextual e = true) (fold_consts f (.cons e es) h) (fun _ => rfl)
  | .map opt .nil, h => Bool.noConfusion (show false = true from h)
  | .map opt (.cons e es), h =>
    fin_keeps (fun e => Constant f.contextual e = true) (fold_consts f (.cons e es) h) (fun _ => rfl)
  | .logic _ _ _, h => Bool.noConfusion (show false = true from h)
  | .cond _ _ _, h => Bool.noConfusion (show false = true from h)
  | .comp _ _ _ _ _ _ _ _, h => Bool.noConfusion (show false = true from h)
  | .bind _ _ _, h => Bool.noConfusion (show false = true from h)
theorem fold_consts (f : FoldCfg σ) : ∀ es : Srcs σ, Constants f.contextual es = true →
    Constants f.contextual (foldEs f es) = true
  | .nil, _ => rfl
  | .cons e es, h => by
    simp only [Constants, Bool.and_eq_true] at h
    simp only [foldEs, Constants, Bool.and_eq_true]
    exact ⟨fold_const f e h.1, fold_consts f es h.2⟩
end

mutual
theorem fold_pure (f : FoldCfg σ) : ∀ e : Src σ, PureSites f.contextual e → PureSites f.contextual (foldE f e)
  | .const v, _ => trivial
  | .ident _ _, _ => trivial
  | .call c args, h => fin_keeps (PureSites f.contextual) ⟨h.1, fold_pures f args h.2⟩ (fun _ => trivial)
  | .not a, h => fin_keeps (PureSites f.contextual) (fold_pure f a h) (fun _ => trivial)
  | .nsf a, h => fin_keeps (PureSites f.contextual) (fold_pure f a h) (fun _ => trivial)
  | .bin k a b, h => fin_keeps (PureSites f.contextual) ⟨fold_pure f a h.1, fold_pure f b h.2⟩ (fun _ => trivial)
  | .index a b, h => fin_keeps (PureSites f.contextual) ⟨fold_pure f a h.1, fold_pure f b h.2⟩ (fun _ => trivial)
  | .select fl test a, h => fin_keeps (PureSites f.contextual) (fold_pure f a h) (fun _ => trivial)
  | .list opt args, h => fin_keeps (PureSites f.contextual) (fold_pures f args h) (fun _ => trivial)
  | .map opt args, h => fin_keeps (PureSites f.contextual) (fold_pures f args h) (fun _ => trivial)
  | .logic _ a b, h => ⟨fold_pure f a h.1, fold_pure f b h.2⟩
  | .cond c t e, h => ⟨fold_pure f c h.1, fold_pure f t h.2.1, fold_pure f e h.2.2⟩
  | .comp _ _ _ range init cnd stp res, h =>
    ⟨fold_pure f range h.1, fold_pure f init h.2.1, fold_pure f cnd h.2.2.1, fold_pure f stp h.2.2.2.1,
      fold_pure f res h.2.2.2.2⟩
  | .bind _ init body, h => ⟨fold_pure f init h.1, fold_pure f body h.2⟩
theorem fold_pures (f : FoldCfg σ) : ∀ es : Srcs σ, PureSitess f.contextual es → PureSitess f.contextual (foldEs f es)
  | .nil, _ => trivial
  | .cons e es, h => ⟨fold_pure f e h.1, fold_pures f es h.2⟩
end

/-! ## Folding one node -/

/-- Folding for evaluations with configuration `r`. -/
structure For (f : FoldCfg σ) (r : RCfg σ) : Prop where
  plan : ∃ vars, f.plan = planTime r vars

theorem foldNode_den {f : FoldCfg σ} {r : RCfg σ} (hf : For f r) (e : Src σ) (hc : Constant f.contextual e = true)
    (hp : PureSites f.contextual e) : den r.cfg (toExpr r (foldNode f e)) = den r.cfg (toExpr r e) := by
  obtain ⟨vars, hplan⟩ := hf.plan
  obtain ⟨o, ho⟩ := const_same r vars f.contextual e hc hp
  have hm : meaning f.plan.cfg (toExpr f.plan e) f.host = (outc o (⟨f.host, 0, []⟩ : SS σ)).final := by
    rw [hplan]
    unfold meaning
    rw [(ho [] _).2]
  have hgen : den r.cfg (toExpr r (match meaning f.plan.cfg (toExpr f.plan e) f.host with
      | .value v _ => if v.isUnknown then e else .const v
      | .status _ _ => e
      | .ub => e)) = den r.cfg (toExpr r e) := by
    rw [hm]
    cases o with
    | ok v =>
      simp only [outc, Out.final]
      split
      · rfl
      · funext ρ s
        rw [(ho ρ s).1]
        rfl
    | err e => rfl
    | ub => rfl
  cases e with
  | const v => rfl
  | _ => exact hgen

/-- A foldable node whose evaluation gives a value that is not unknown becomes that value. -/
theorem foldNode_value {f : FoldCfg σ} {e : Src σ} {v : Value} {h' : σ}
    (hm : meaning f.plan.cfg (toExpr f.plan e) f.host = .value v h') (hu : v.isUnknown = false) :
    foldNode f e = .const v := by
  have hgen : (match meaning f.plan.cfg (toExpr f.plan e) f.host with
      | .value v _ => if v.isUnknown then e else .const v
      | .status _ _ => e
      | .ub => e) = .const v := by
    rw [hm]; simp only [hu, Bool.false_eq_true, if_false]
  cases e with
  | const w =>
    simp only [meaning, toExpr, den, Out.final] at hm
    cases hm; rfl
  | _ => exact hgen

theorem fin_den {f : FoldCfg σ} {r : RCfg σ} (hf : For f r) (c : Bool) (e : Src σ)
    (hc : c = true → Constant f.contextual e = true) (hp : PureSites f.contextual e) :
    den r.cfg (toExpr r (foldE.fin f c e)) = den r.cfg (toExpr r e) := by
  cases c with
  | false => rfl
  | true => exact foldNode_den hf e (hc rfl) hp

mutual
/-- Folding does not change the meaning, in any scope and state. -/
theorem fold_den {f : FoldCfg σ} {r : RCfg σ} (hf : For f r) : ∀ e : Src σ, PureSites f.contextual e →
    den r.cfg (toExpr r (foldE f e)) = den r.cfg (toExpr r e)
  | .const v, _ => rfl
  | .ident _ _, _ => rfl
  | .call c args, hp => by
    have h := fin_den hf (Constant f.contextual (.call c args)) (.call c (foldEs f args)) (fun h => by
      simp only [Constant, Bool.and_eq_true] at *; exact ⟨h.1, fold_consts f args h.2⟩) ⟨hp.1, fold_pures f args hp.2⟩
    refine h.trans ?_
    funext ρ s
    simp only [toExpr, den, folds_den hf args hp.2]
  | .not a, hp => by
    refine (fin_den hf _ (.not (foldE f a)) (fun h => fold_const f a h) (fold_pure f a hp)).trans ?_
    funext ρ s
    simp only [toExpr, den, denArgs, fold_den hf a hp]
  | .nsf a, hp => by
    refine (fin_den hf _ (.nsf (foldE f a)) (fun h => fold_const f a h) (fold_pure f a hp)).trans ?_
    funext ρ s
    simp only [toExpr, den, denArgs, fold_den hf a hp]
  | .bin k a b, hp => by
    refine (fin_den hf _ (.bin k (foldE f a) (foldE f b)) (fun h => by
      simp only [Constant, Bool.and_eq_true] at *; exact ⟨fold_const f a h.1, fold_const f b h.2⟩)
      ⟨fold_pure f a hp.1, fold_pure f b hp.2⟩).trans ?_
    funext ρ s
    simp only [toExpr, den, denArgs, fold_den hf a hp.1, fold_den hf b hp.2]
  | .index a b, hp => by
    refine (fin_den hf _ (.index (foldE f a) (foldE f b)) (fun h => by
      simp only [Constant, Bool.and_eq_true] at *; exact ⟨fold_const f a h.1, fold_const f b h.2⟩)
      ⟨fold_pure f a hp.1, fold_pure f b hp.2⟩).trans ?_
    funext ρ s
    simp only [toExpr, den, denArgs, fold_den hf a hp.1, fold_den hf b hp.2]
  | .select fl test a, hp => by
    refine (fin_den hf _ (.select fl test (foldE f a)) (fun h => fold_const f a h) (fold_pure f a hp)).trans ?_
    funext ρ s
    simp only [toExpr, den, denArgs, fold_den hf a hp]
  | .list opt .nil, _ => rfl
  | .list opt (.cons e es), hp => by
    refine (fin_den hf _ (.list opt (foldEs f (.cons e es))) (fun h => fold_consts f (.cons e es) h)
      (fold_pures f (.cons e es) hp)).trans ?_
    funext ρ s
    simp only [toExpr, den, folds_den hf (.cons e es) hp]
  | .map opt .nil, _ => rfl
  | .map opt (.cons e es), hp => by
    refine (fin_den hf _ (.map opt (foldEs f (.cons e es))) (fun h => fold_consts f (.cons e es) h)
      (fold_pures f (.cons e es) hp)).trans ?_
    funext ρ s
    simp only [toExpr, den, folds_den hf (.cons e es) hp]
  | .logic o a b, hp => by
    funext ρ s
    simp only [foldE, toExpr, den, fold_den hf a hp.1, fold_den hf b hp.2]
  | .cond c t e, hp => by
    funext ρ s
    simp only [foldE, toExpr, den, fold_den hf c hp.1, fold_den hf t hp.2.1, fold_den hf e hp.2.2]
  | .comp iter iter2 accu range init cnd stp res, hp => by
    funext ρ s
    simp only [foldE, toExpr, den, fold_den hf range hp.1, fold_den hf init hp.2.1, fold_den hf cnd hp.2.2.1,
      fold_den hf stp hp.2.2.2.1, fold_den hf res hp.2.2.2.2]
  | .bind x init body, hp => by
    funext ρ s
    simp only [foldE, toExpr, den, fold_den hf init hp.1, fold_den hf body hp.2]
theorem folds_den {f : FoldCfg σ} {r : RCfg σ} (hf : For f r) : ∀ es : Srcs σ, PureSitess f.contextual es →
    denArgs r.cfg (toExprs r (foldEs f es)) = denArgs r.cfg (toExprs r es)
  | .nil, _ => rfl
  | .cons e es, hp => by
    funext ρ s
    simp only [foldEs, toExprs, denArgs, fold_den hf e hp.1, folds_den hf es hp.2]
end

end Cel.Fold
