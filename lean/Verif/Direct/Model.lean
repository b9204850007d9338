import Verif.Eval.PlanProps
import Verif.Data.Steps

/-!
# Recursive planning (`max_recursion_depth`)

Besides flattening an expression for the stack machine, the planner can build a tree of
`DirectExpressionStep`s (`eval/eval/direct_expression_step.h`) that evaluate themselves recursively.
Each step writes its value and its attribute trail into two references supplied by its caller; some
steps pass those references on to their operands, and a comprehension passes references to the
accumulator's slot to its loop step.  `dev` is this evaluator, including those effects.
-/

namespace Cel.Direct
open Cel Cel.Num Cel.Eval Cel.Data

/-- Comparisons handled by dedicated steps: `==`, `!=` and `in`
(`eval/compiler/flat_expr_builder.cc` lines 2092-2145). -/
inductive Bin where
  | eq (neg : Bool)
  | isIn

mutual
/-- Expressions after macro expansion and function resolution, with the built-in operators the
planner treats specially.  Struct creation, `optional.or`, `cel.@block` and the list/map append
optimisation of comprehensions are not included; variadic `&&`/`||` are nested
(`eval/compiler/flat_expr_builder.cc` lines 1128-1168). -/
inductive Src (σ : Type) where
  | const (v : Value)
  | ident (x : String) (abs : Bool)
  | call (c : CallSite σ) (args : Srcs σ)
  | not (a : Src σ)
  | nsf (a : Src σ)
  | bin (k : Bin) (a b : Src σ)
  | index (a b : Src σ)
  | select (f : String) (test : Bool) (a : Src σ)
  | list (opt : Nat → Bool) (args : Srcs σ)
  /-- keys and values alternate -/
  | map (opt : Nat → Bool) (args : Srcs σ)
  | logic (isOr : Bool) (a b : Src σ)
  | cond (c t f : Src σ)
  | comp (iter : String) (iter2 : Option String) (accu : String)
      (range init cnd stp res : Src σ)
  | bind (x : String) (init body : Src σ)
inductive Srcs (σ : Type) where
  | nil
  | cons (e : Src σ) (es : Srcs σ)
end

/-- Everything evaluation depends on besides the expression (`runtime/runtime_options.h`, the
activation). -/
structure RCfg (σ : Type) where
  c : StepCfg
  /-- `unknown_processing == kAttributeAndFunction` -/
  fnResults : Bool
  shortCircuit : Bool
  maxIter : Int
  global : String → σ → Res VA × σ

/-- The part of the configuration the stack machine's core needs. -/
def RCfg.cfg {σ : Type} (r : RCfg σ) : Cfg σ := ⟨r.shortCircuit, r.c.unknowns, r.c.pats, r.maxIter, r.global⟩

/-- `attribute_tracking_enabled` (`eval/eval/evaluator_core.h` lines 240-246). -/
def RCfg.tracking {σ : Type} (r : RCfg σ) : Bool := r.c.unknowns || r.c.missing

/-- Options of call steps. -/
def RCfg.callOpts {σ : Type} (r : RCfg σ) : CallOpts := ⟨r.c.unknowns, r.fnResults, r.c.pats⟩

/-! ## Iterative steps of the operators -/

/-- A call step: `AbstractFunctionStep::Evaluate` (`eval/eval/function_step.cc` lines 271-284). -/
def callOp {σ : Type} (r : RCfg σ) (cs : CallSite σ) : Op σ := fun xs h =>
  match evalCall r.callOpts cs xs h with
  | (.ok v, h') => (.ok ⟨v, none⟩, h')
  | (.err e, h') => (.err e, h')
  | (.ub, h') => (.ub, h')

/-- A step on one operand that cannot fail. -/
def op1 {σ : Type} (f : VA → VA) : Op σ := fun xs h =>
  match xs with
  | [x] => (.ok (f x), h)
  | _ => (.err underflow, h)

/-- A step without effects on the host. -/
def opR {σ : Type} (f : List VA → Res VA) : Op σ := fun xs h => (f xs, h)

/-- The step of a comparison (`eval/eval/equality_steps.cc` lines 113-128, 250-264). -/
def binOp {σ : Type} (r : RCfg σ) : Bin → Op σ
  | .eq neg => opR (eqStep r.c neg)
  | .isIn => opR (inStep r.c)

mutual
/-- The expression the stack machine's planner flattens. -/
def toExpr {σ : Type} (r : RCfg σ) : Src σ → Expr σ
  | .const v => .const v
  | .ident x abs => .ident x abs
  | .call cs args => .op (callOp r cs) (toExprs r args)
  | .not a => .op (op1 (notStep r.c.unknowns r.c.pats)) (.cons (toExpr r a) .nil)
  | .nsf a => .op (op1 notStrictlyFalse) (.cons (toExpr r a) .nil)
  | .bin k a b => .op (binOp r k) (.cons (toExpr r a) (.cons (toExpr r b) .nil))
  | .index a b => .op (opR (indexStep r.c)) (.cons (toExpr r a) (.cons (toExpr r b) .nil))
  | .select f test a => .op (opR (selectStep r.c f test)) (.cons (toExpr r a) .nil)
  | .list opt args => .op (opR (listStep r.c opt)) (toExprs r args)
  | .map opt args => .op (opR (mapStep r.c opt)) (toExprs r args)
  | .logic o a b => .logic o (toExpr r a) (toExpr r b)
  | .cond c t f => .cond (toExpr r c) (toExpr r t) (toExpr r f)
  | .comp iter iter2 accu range init cnd stp res =>
    .comp iter iter2 accu (toExpr r range) (toExpr r init) (toExpr r cnd) (toExpr r stp) (toExpr r res)
  | .bind x init body => .bind x (toExpr r init) (toExpr r body)
def toExprs {σ : Type} (r : RCfg σ) : Srcs σ → Exprs σ
  | .nil => .nil
  | .cons e es => .cons (toExpr r e) (toExprs r es)
end

/-! ## The tree -/

mutual
/-- `DirectExpressionStep` subclasses. -/
inductive DStep (σ : Type) where
  /-- `eval/eval/compiler_constant_step.cc` lines 25-31 -/
  | const (v : Value)
  /-- `DirectIdentStep`, `eval/eval/ident_step.cc` lines 114-126 -/
  | ident (x : String)
  /-- `DirectSlotStep`, `eval/eval/ident_step.cc` lines 128-152 -/
  | slot (x : String) (k : Nat)
  /-- `DirectLazyInitStep`, `eval/eval/lazy_init_step.cc` lines 61-86 -/
  | lazyInit (k : Nat) (sub : DStep σ)
  /-- `DirectFunctionStepImpl`, `eval/eval/function_step.cc` lines 410-480 -/
  | call (c : CallSite σ) (args : DSteps σ)
  /-- `DirectNotStep`, `eval/eval/logic_step.cc` lines 286-327 -/
  | not (a : DStep σ)
  /-- `DirectNotStrictlyFalseStep`, `eval/eval/logic_step.cc` lines 369-401 -/
  | nsf (a : DStep σ)
  /-- `DirectEqualityStep`, `DirectInStep`, `eval/eval/equality_steps.cc` lines 78-107, 217-243 -/
  | bin (k : Bin) (a b : DStep σ)
  /-- `DirectContainerAccessStep`, `eval/eval/container_access_step.cc` lines 311-346 -/
  | index (a b : DStep σ)
  /-- `DirectSelectStep`, `eval/eval/select_step.cc` lines 304-492 -/
  | select (f : String) (test : Bool) (a : DStep σ)
  /-- `CreateListDirectStep`, `eval/eval/create_list_step.cc` lines 135-217 -/
  | list (opt : Nat → Bool) (args : DSteps σ)
  /-- `DirectCreateMapStep`, `eval/eval/create_map_step.cc` lines 134-235 -/
  | map (opt : Nat → Bool) (args : DSteps σ)
  /-- `DirectLogicStep`, `ExhaustiveDirectLogicStep`, `eval/eval/logic_step.cc` lines 84-186 -/
  | logic (isOr : Bool) (a b : DStep σ)
  /-- `ShortcircuitingDirectTernaryStep`, `ExhaustiveDirectTernaryStep`,
  `eval/eval/ternary_step.cc` lines 30-121 -/
  | cond (c t f : DStep σ)
  /-- `ComprehensionDirectStep`, `eval/eval/comprehension_step.cc` lines 80-445 -/
  | comp (iter : Nat) (iter2 : Option Nat) (accu : Nat) (range init cnd stp res : DStep σ)
  /-- `BindStep`, `eval/eval/lazy_init_step.cc` lines 88-108; `sub` is the extracted initializer
  that `lazyInit` steps in `body` point to -/
  | bind (k : Nat) (sub body : DStep σ)
inductive DSteps (σ : Type) where
  | nil
  | cons (d : DStep σ) (ds : DSteps σ)
end

/-! ## Planning -/

/-- A variable in scope: slot of a comprehension variable, or slot, size and tree of a `cel.bind`
variable (`LookupSlot`, `eval/compiler/flat_expr_builder.cc` lines 713-780, 808-826). -/
inductive DEnt (σ : Type) where
  | val (k : Nat)
  | delayed (k w : Nat) (sub : DStep σ)

/-- Variables in scope, innermost first. -/
abbrev DScope (σ : Type) := List (String × DEnt σ)

/-- The innermost entry of `x`. -/
def dscopeGet {σ : Type} : DScope σ → String → Option (DEnt σ)
  | [], _ => none
  | (y, e) :: Γ, x => if x = y then some e else dscopeGet Γ x

mutual
/-- Slots reserved (as `Cel.Eval.width`). -/
def Src.width {σ : Type} : Src σ → Nat
  | .const _ => 0
  | .ident _ _ => 0
  | .call _ args => args.width
  | .not a => a.width
  | .nsf a => a.width
  | .bin _ a b => a.width + b.width
  | .index a b => a.width + b.width
  | .select _ _ a => a.width
  | .list _ args => args.width
  | .map _ args => args.width
  | .logic _ a b => a.width + b.width
  | .cond c t f => c.width + t.width + f.width
  | .comp _ iter2 _ range init cnd stp res =>
    iterSlots iter2 + 1 + range.width + init.width + cnd.width + stp.width + res.width
  | .bind _ init body => 1 + init.width + body.width
def Srcs.width {σ : Type} : Srcs σ → Nat
  | .nil => 0
  | .cons e es => e.width + es.width
end

/-- First slot free for the next sibling (as `Cel.Eval.after`). -/
def Src.after {σ : Type} (ini : Bool) (n : Nat) (e : Src σ) : Nat := if ini then n + e.width else n

/-- Scope entries of the iteration variables (as `Cel.Eval.iterScope`). -/
def diterScope {σ : Type} (iter : String) (iter2 : Option String) (n : Nat) : DScope σ :=
  match iter2 with
  | none => [(iter, .val n)]
  | some y => [(iter, .val n), (y, .val (n + 1))]

mutual
/-- The tree built for an expression (`SetRecursiveStep` calls,
`eval/compiler/flat_expr_builder.cc` lines 790-900, 965-981, 1094-1257, 1531-1542, 1606-1617,
1634-1690, 1954-2145).  Slots are numbered as for the stack machine. -/
def planD {σ : Type} (Γ : DScope σ) (ini : Bool) (n : Nat) : Src σ → DStep σ
  | .const v => .const v
  | .ident x abs =>
    match (if abs then none else dscopeGet Γ x) with
    | none => .ident x
    | some (.val k) => .slot x k
    | some (.delayed k _ sub) => .lazyInit k sub
  | .call c args => .call c (planDs Γ ini n args)
  | .not a => .not (planD Γ ini n a)
  | .nsf a => .nsf (planD Γ ini n a)
  | .bin k a b => .bin k (planD Γ ini n a) (planD Γ ini (a.after ini n) b)
  | .index a b => .index (planD Γ ini n a) (planD Γ ini (a.after ini n) b)
  | .select f test a => .select f test (planD Γ ini n a)
  | .list opt args => .list opt (planDs Γ ini n args)
  | .map opt args => .map opt (planDs Γ ini n args)
  | .logic o a b => .logic o (planD Γ ini n a) (planD Γ ini (a.after ini n) b)
  | .cond c t f =>
    let n1 := c.after ini n
    .cond (planD Γ ini n c) (planD Γ ini n1 t) (planD Γ ini (t.after ini n1) f)
  | .comp iter iter2 accu range init cnd stp res =>
    let ka := n + iterSlots iter2
    let Γr := (accu, DEnt.val ka) :: Γ
    let Γl := diterScope iter iter2 n ++ Γr
    let n0 := ka + 1
    let n1 := range.after ini n0
    let n2 := init.after ini n1
    let n3 := cnd.after ini n2
    let n4 := stp.after ini n3
    .comp n (slot2 iter2 n) ka (planD Γ ini n0 range) (planD Γ ini n1 init) (planD Γl ini n2 cnd)
      (planD Γl ini n3 stp) (planD Γr ini n4 res)
  | .bind x init body =>
    let sub := planD Γ true (n + 1) init
    .bind n sub (planD ((x, .delayed n init.width sub) :: Γ) ini (n + 1 + init.width) body)
def planDs {σ : Type} (Γ : DScope σ) (ini : Bool) (n : Nat) : Srcs σ → DSteps σ
  | .nil => .nil
  | .cons e es => .cons (planD Γ ini n e) (planDs Γ ini (e.after ini n) es)
end

mutual
/-- The depth recorded for a tree (`eval/compiler/flat_expr_builder.cc` lines 818-826, 1110-1126,
1142-1167, 1203-1226, 1240-1257; `flat_expr_builder_extensions.cc` lines 101-118). -/
def DStep.depth {σ : Type} : DStep σ → Nat
  | .const _ => 1
  | .ident _ => 1
  | .slot _ _ => 1
  | .lazyInit _ sub => sub.depth + 1
  | .call _ args => args.depth + 1
  | .not a => a.depth + 1
  | .nsf a => a.depth + 1
  | .bin _ a b => max a.depth b.depth + 1
  | .index a b => max a.depth b.depth + 1
  | .select _ _ a => a.depth + 1
  | .list _ args => args.depth + 1
  | .map _ args => args.depth + 1
  | .logic _ a b => max a.depth b.depth + 1
  | .cond c t f => max c.depth (max t.depth f.depth) + 1
  | .comp _ _ _ range init cnd stp res =>
    max range.depth (max init.depth (max cnd.depth (max stp.depth res.depth))) + 1
  | .bind _ _ body => body.depth + 1
def DSteps.depth {σ : Type} : DSteps σ → Nat
  | .nil => 0
  | .cons d ds => max d.depth ds.depth
end

mutual
/-- The largest depth recorded for the tree, a part of it, or an initializer planned on the way
(`SetRecursiveStep` checks each of them, `eval/compiler/flat_expr_builder.cc` lines 1725-1730). -/
def DStep.peak {σ : Type} : DStep σ → Nat
  | .const _ => 1
  | .ident _ => 1
  | .slot _ _ => 1
  | .lazyInit _ sub => sub.depth + 1
  | .call c args => max (DStep.call c args).depth args.peak
  | .not a => max (DStep.not a).depth a.peak
  | .nsf a => max (DStep.nsf a).depth a.peak
  | .bin k a b => max (DStep.bin k a b).depth (max a.peak b.peak)
  | .index a b => max (DStep.index a b).depth (max a.peak b.peak)
  | .select f test a => max (DStep.select f test a).depth a.peak
  | .list opt args => max (DStep.list opt args).depth args.peak
  | .map opt args => max (DStep.map opt args).depth args.peak
  | .logic o a b => max (DStep.logic o a b).depth (max a.peak b.peak)
  | .cond c t f => max (DStep.cond c t f).depth (max c.peak (max t.peak f.peak))
  | .comp i i2 ka range init cnd stp res =>
    max (DStep.comp i i2 ka range init cnd stp res).depth
      (max range.peak (max init.peak (max cnd.peak (max stp.peak res.peak))))
  | .bind k sub body => max (DStep.bind k sub body).depth (max sub.peak body.peak)
def DSteps.peak {σ : Type} : DSteps σ → Nat
  | .nil => 0
  | .cons d ds => max d.peak ds.peak
end

/-! ## Evaluation -/

/-- What the tree's evaluation changes: host, iteration counter, slots. -/
structure DS (σ : Type) where
  host : σ
  count : Int
  slots : Slots

/-- Outcome of evaluating a step: value and trail, failing status, undefined behaviour. -/
inductive DOut (σ : Type) (α : Type) where
  | ok (a : α) (s : DS σ)
  | err (e : Status) (h : σ)
  | ub

/-- Sequencing (`CEL_RETURN_IF_ERROR`). -/
def DOut.bind {σ α β : Type} (o : DOut σ α) (f : α → DS σ → DOut σ β) : DOut σ β :=
  match o with
  | .ok a s => f a s
  | .err e h => .err e h
  | .ub => .ub

/-- Writing the value reference when it is an alias of slot `k` (`some k`); a local otherwise. -/
def wrV : Option Nat → Value → Slots → Slots
  | none, _, sl => sl
  | some k, v, sl =>
    match sl k with
    | some a => upd sl k (some ⟨v, a.t⟩)
    | none => sl

/-- Writing the trail reference when it is an alias of slot `k`. -/
def wrT : Option Nat → Trail → Slots → Slots
  | none, _, sl => sl
  | some k, t, sl =>
    match sl k with
    | some a => upd sl k (some ⟨a.v, t⟩)
    | none => sl

/-- Value of a comparison (`eval/eval/equality_steps.cc` lines 48-77, 185-216). -/
def binEval (c : StepCfg) : Bin → VA → VA → Value
  | .eq neg, l, r => eqEval c neg l r
  | .isIn, l, r => inEval c l r

/-- `PerformLookup` with the caller's trail reference holding `cur`
(`eval/eval/container_access_step.cc` lines 222-273). -/
def indexD (c : StepCfg) (cur : Trail) (x k : VA) : VA :=
  match (if c.unknowns then maybeAddV (maybeAddV none x.v) k.v else none) with
  | some u => ⟨.unknown u, cur⟩
  | none => ⟨(indexEval c x k).v, if c.unknowns then indexTrail c x k else cur⟩

/-- `DirectSelectStep::PerformTestOnlySelect` (`eval/eval/select_step.cc` lines 415-434). -/
def testD (c : StepCfg) (f : String) : Value → Res Value
  | .map m => .ok (.bool (mapHas m (.str f)))
  | .struct n i => match c.structHas n i f with
    | .ok b => .ok (.bool b)
    | .err e => .ok (.error e)
    | .ub => .ub
  | _ => .ok (.error badSelectTarget)

/-- `DirectSelectStep::Evaluate` after its operand (`eval/eval/select_step.cc` lines 321-389). -/
def selectD (c : StepCfg) (f : String) (test : Bool) (x : VA) : Res VA :=
  match x.v with
  | .unknown _ => .ok x
  | .error _ => .ok x
  | arg =>
    let tracking := c.unknowns || c.missing
    let t : Trail := if tracking then x.t.step (.str f) else x.t
    match (if tracking then markedAttribute c t else none) with
    | some v => .ok ⟨v, t⟩
    | none =>
      let optArg : Option (Option Value) := match arg with
        | .opt o => if c.optionals then some o else none
        | _ => none
      match optArg with
      | some none => .ok ⟨if test then .bool false else arg, t⟩
      | some (some v) =>
        if test then do return ⟨← testD c f v, t⟩
        else do
          match ← performSelect c f v with
          | none => return ⟨.opt none, t⟩
          | some w => return ⟨.opt (some w), t⟩
      | none =>
        match arg with
        | .map m => if test then do return ⟨← testD c f arg, t⟩ else .ok ⟨getField c m f, t⟩
        | .struct n i =>
          if test then do return ⟨← testD c f arg, t⟩
          else do return ⟨← orError (c.structGet n i f), t⟩
        | _ => .ok ⟨.error badSelectTarget, t⟩

/-- What happens after one element of a literal. -/
inductive LitNext (β : Type) where
  /-- evaluation of the literal ends with this value -/
  | done (v : Value)
  /-- the builder refuses the element -/
  | fail (e : Status)
  /-- go on, with the unknowns found so far and the builder's content -/
  | more (acc : Option UnknownSet) (out : β)

/-- Adding a trail to the accumulator (`eval/eval/attribute_utility.cc` lines 219-225). -/
def addTrail (acc : Option UnknownSet) (t : Trail) : Option UnknownSet :=
  match t with
  | none => acc
  | some a =>
    let c := acc.getD ⟨[], []⟩
    some ⟨attrUnion c.attrs [a], c.fns⟩

/-- The list builder's content after element `i` evaluated to `v`
(`eval/eval/create_list_step.cc` lines 184-207). -/
def listPut (c : StepCfg) (opt : Nat → Bool) (i : Nat) (v : Value) (out : List Value) :
    LitNext (List Value) :=
  if opt i then
    match v with
    | .opt none => .more none out
    | .opt (some (.error e)) => .done (.error e)
    | .opt (some w) =>
      match checkElement w with
      | some e => .fail e
      | none => .more none (out ++ [w])
    | _ => .done (.error (typeConversionError (c.typeName v) "optional_type"))
  else
    match checkElement v with
    | some e => .fail e
    | none => .more none (out ++ [v])

/-- The unknowns after an element (`eval/eval/create_list_step.cc` lines 167-175). -/
def listAcc (c : StepCfg) (acc : Option UnknownSet) (x : VA) : Option UnknownSet :=
  if c.unknowns then
    let a1 := maybeAddV acc x.v
    if checkUnknown c.pats x.t true = true then addTrail a1 x.t else a1
  else acc

/-- The body of the element loop (`eval/eval/create_list_step.cc` lines 154-207). -/
def listNext (c : StepCfg) (opt : Nat → Bool) (i : Nat) (acc : Option UnknownSet) (out : List Value)
    (x : VA) : LitNext (List Value) :=
  match x.v with
  | .error e => .done (.error e)
  | _ =>
    if c.missing = true ∧ checkMissing c.missingPats x.t = true then
      match x.t.bind Attr.asString with
      | some p => .done (.error (missingAttribute p))
      | none => .fail ⟨.invalidArgument, "Only ident rooted attributes are supported."⟩
    else
      match listAcc c acc x with
      | some u => .more (some u) out
      | none => listPut c opt i x.v out

/-- The unknowns after a key or value (`eval/eval/create_map_step.cc` lines 166-172, 184-190). -/
def mapAcc (c : StepCfg) (acc : Option UnknownSet) (x : VA) : Option UnknownSet :=
  if c.unknowns then maybeAdd c.pats acc x else acc

/-- After a key (`eval/eval/create_map_step.cc` lines 161-174). -/
def mapKeyNext (c : StepCfg) (acc : Option UnknownSet) (k : VA) : LitNext Unit :=
  match k.v with
  | .error e => .done (.error e)
  | _ =>
    match checkMapKey k.v with
    | some e => .done (.error e)
    | none => .more (mapAcc c acc k) ()

/-- After a value (`eval/eval/create_map_step.cc` lines 179-220). -/
def mapValNext (c : StepCfg) (opt : Nat → Bool) (i : Nat) (acc : Option UnknownSet)
    (out : List (Value × Value)) (key : Value) (x : VA) : LitNext (List (Value × Value)) :=
  match x.v with
  | .error e => .done (.error e)
  | _ =>
    match mapAcc c acc x with
    | some u => .more (some u) out
    | none =>
      if opt i then
        match x.v with
        | .opt none => .more none out
        | .opt (some (.error e)) => .done (.error e)
        | .opt (some w) =>
          match mapPut out key w with
          | .ok out' => .more none out'
          | .err e => .fail e
          | .ub => .more none out
        | v => .done (.error (typeConversionError (c.debugString v) "optional_type"))
      else
        match mapPut out key x.v with
        | .ok out' => .more none out'
        | .err e => .fail e
        | .ub => .more none out

/-- Choice of a direct `?:` (`eval/eval/ternary_step.cc` lines 55-75, 97-114): `cur` is the content
of the trail reference. -/
def ternD (cur : Trail) (x : VA) : TernRes :=
  match x.v with
  | .bool true => .yes
  | .bool false => .no
  | .error _ => .stop x
  | .unknown _ => .stop x
  | _ => .stop ⟨.error (noOverload "_?_:_"), cur⟩

/-- How a direct loop ends: result step next, or with a value. -/
inductive DEnd where
  | result
  | stop (v : Value)

/-- The loop of `ComprehensionDirectStep` (`eval/eval/comprehension_step.cc` lines 206-300,
376-432).  `ct` is the content of `condition_attr`, which persists across iterations.  The step's
value and trail end up in the accumulator's slot `ka`. -/
def dloop {σ : Type} (r : RCfg σ) (iter : Nat) (iter2 : Option Nat) (ka : Nat) (rt : Trail)
    (condF : Trail → DS σ → DOut σ VA) (stepF : DS σ → DOut σ VA) :
    List Item → Trail → DS σ → DOut σ DEnd
  | [], _, s => .ok .result s
  | it :: its, ct, s =>
    match tick r.maxIter s.count with
    | none => .err budgetError s.host
    | some n =>
      (condF ct ⟨s.host, n, setIter r.c.unknowns r.c.pats s.slots iter iter2 rt it⟩).bind fun x s =>
        match condOf r.shortCircuit x with
        | .stop y => .ok (.stop y.v) s
        | .brk => .ok .result s
        | .go =>
          (stepF s).bind fun a s =>
            dloop r iter iter2 ka rt condF stepF its x.t { s with slots := upd s.slots ka (some a) }

/-- The value reference between two elements of a list literal; after the last element it is
overwritten with the list at once (`eval/eval/create_list_step.cc` lines 209-215). -/
def wrNext {σ : Type} : DSteps σ → Option Nat → Value → Slots → Slots
  | .nil, _, _, sl => sl
  | .cons _ _, av, v, sl => wrV av v sl

mutual
/-- `DirectExpressionStep::Evaluate`.  `av`/`at'`: the slot that the value/trail reference is an alias
of, if any; `cur`: the content of the trail reference.  The result is what the references hold
afterwards; the caller stores it. -/
def dev {σ : Type} (r : RCfg σ) : DStep σ → (av at' : Option Nat) → (cur : Trail) → DS σ → DOut σ VA
  | .const v, _, _, cur, s => .ok ⟨v, cur⟩ s
  | .ident x, _, _, cur, s =>
    match r.global x s.host with
    | (.ok a, h) => .ok ⟨a.v, a.t.or cur⟩ { s with host := h }
    | (.err e, h) => .err e h
    | (.ub, _) => .ub
  | .slot x k, _, _, cur, s =>
    match s.slots k with
    | some a => .ok ⟨a.v, if r.tracking then a.t else cur⟩ s
    | none => .err ⟨.internal, "Comprehension variable accessed out of scope: " ++ x⟩ s.host
  | .lazyInit k sub, av, at', cur, s =>
    match s.slots k with
    | some a => .ok a s
    | none => (dev r sub av at' cur s).bind fun a s => .ok a { s with slots := upd s.slots k (some a) }
  | .call cs args, _, _, cur, s =>
    (devArgs r args s).bind fun xs s =>
      match evalCall r.callOpts cs xs s.host with
      | (.ok v, h) => .ok ⟨v, cur⟩ { s with host := h }
      | (.err e, h) => .err e h
      | (.ub, _) => .ub
  | .not a, av, at', cur, s =>
    (dev r a av at' cur s).bind fun x s => .ok ⟨(notStep r.c.unknowns r.c.pats x).v, x.t⟩ s
  | .nsf a, av, at', cur, s =>
    (dev r a av at' cur s).bind fun x s => .ok ⟨(notStrictlyFalse x).v, x.t⟩ s
  | .bin k a b, av, _, cur, s =>
    (dev r a av none none s).bind fun x s =>
      (dev r b none none none { s with slots := wrV av x.v s.slots }).bind fun y s =>
        .ok ⟨binEval r.c k x y, cur⟩ s
  | .index a b, _, _, cur, s =>
    (dev r a none none none s).bind fun x s =>
      (dev r b none none none s).bind fun y s => .ok (indexD r.c cur x y) s
  | .select f test a, av, at', cur, s =>
    (dev r a av at' cur s).bind fun x s =>
      match selectD r.c f test x with
      | .ok y => .ok y s
      | .err e => .err e s.host
      | .ub => .ub
  | .list opt args, av, _, cur, s => devList r opt args av cur 0 none [] none s
  | .map opt args, _, _, cur, s => devMap r opt args cur 0 none [] none none s
  | .logic o a b, av, at', cur, s =>
    (dev r a av at' cur s).bind fun x s =>
      match r.shortCircuit, x.v with
      | true, .bool y =>
        if y = o then .ok x s
        else (dev r b none at' x.t { s with slots := wrT at' x.t (wrV av x.v s.slots) }).bind fun z s =>
          .ok (directLogic o r.c.unknowns x z) s
      | _, _ =>
        (dev r b none at' x.t { s with slots := wrT at' x.t (wrV av x.v s.slots) }).bind fun z s =>
          .ok (directLogic o r.c.unknowns x z) s
  | .cond c t f, av, at', cur, s =>
    (dev r c none none none s).bind fun x s =>
      if r.shortCircuit then
        match ternD cur x with
        | .stop y => .ok y s
        | .yes => dev r t av at' cur s
        | .no => dev r f av at' cur s
      else
        (dev r t none none none s).bind fun y s => (dev r f none none none s).bind fun z s =>
          match ternD cur x with
          | .stop w => .ok w s
          | .yes => .ok y s
          | .no => .ok z s
  | .comp iter iter2 ka range init cnd stp res, av, at', cur, s =>
    (dev r range none none none s).bind fun x s =>
      match rangeOf r.c.unknowns r.c.pats x with
      | .stop y => .ok ⟨y.v, cur⟩ s
      | .items l =>
        (dev r init none none none s).bind fun a s =>
          (dloop r iter iter2 ka x.t
            (fun ct s => dev r cnd none none ct s)
            (fun s => dev r stp (some ka) (some ka) ((s.slots ka).bind VA.t) s)
            l none { s with slots := upd s.slots ka (some a) }).bind fun e s =>
              let s1 : DS σ := { s with slots := clearOpt (upd s.slots iter none) iter2 }
              match e with
              | .stop v => .ok ⟨v, cur⟩ { s1 with slots := upd s1.slots ka none }
              | .result =>
                (dev r res av at' cur s1).bind fun y s => .ok y { s with slots := upd s.slots ka none }
  | .bind k _ body, av, at', cur, s =>
    (dev r body av at' cur s).bind fun x s => .ok x { s with slots := upd s.slots k none }
/-- Arguments of a call, each into fresh locals (`eval/eval/function_step.cc` lines 427-437). -/
def devArgs {σ : Type} (r : RCfg σ) : DSteps σ → DS σ → DOut σ (List VA)
  | .nil, s => .ok [] s
  | .cons d ds, s =>
    (dev r d none none none s).bind fun x s => (devArgs r ds s).bind fun xs s => .ok (x :: xs) s
/-- `CreateListDirectStep::Evaluate` (`eval/eval/create_list_step.cc` lines 144-217): every element
is evaluated into `result`.  Simplified: after an element was moved into the builder, `result` is
taken to still hold it. -/
def devList {σ : Type} (r : RCfg σ) (opt : Nat → Bool) : DSteps σ → (av : Option Nat) → (cur : Trail) →
    Nat → Option UnknownSet → List Value → Trail → DS σ → DOut σ VA
  | .nil, _, cur, _, acc, out, _, s =>
    match acc with
    | some u => .ok ⟨.unknown u, cur⟩ s
    | none => .ok ⟨.list out, cur⟩ s
  | .cons d ds, av, cur, i, acc, out, tmp, s =>
    (dev r d av none tmp s).bind fun x s =>
      match listNext r.c opt i acc out x with
      | .done v => .ok ⟨v, cur⟩ s
      | .fail e => .err e s.host
      | .more acc' out' =>
        devList r opt ds av cur (i + 1) acc' out' x.t { s with slots := wrNext ds av x.v s.slots }
/-- `DirectCreateMapStep::Evaluate` (`eval/eval/create_map_step.cc` lines 150-235), one operand at a
time: `pend` is the key whose value comes next. -/
def devMap {σ : Type} (r : RCfg σ) (opt : Nat → Bool) : DSteps σ → (cur : Trail) →
    Nat → Option UnknownSet → List (Value × Value) → (pend : Option Value) → Trail → DS σ → DOut σ VA
  | .nil, cur, _, acc, out, _, _, s =>
    match acc with
    | some u => .ok ⟨.unknown u, cur⟩ s
    | none => .ok ⟨.map out, cur⟩ s
  | .cons d ds, cur, i, acc, out, pend, tmp, s =>
    (dev r d none none tmp s).bind fun x s =>
      match pend with
      | none =>
        match mapKeyNext r.c acc x with
        | .done v => .ok ⟨v, cur⟩ s
        | .fail e => .err e s.host
        | .more acc' _ => devMap r opt ds cur i acc' out (some x.v) x.t s
      | some key =>
        match mapValNext r.c opt i acc out key x with
        | .done v => .ok ⟨v, cur⟩ s
        | .fail e => .err e s.host
        | .more acc' out' => devMap r opt ds cur (i + 1) acc' out' none none s
end

/-- What an embedder sees (`eval/eval/direct_expression_step.cc`; slots are cleared first). -/
def DOut.final {σ : Type} : DOut σ VA → Final σ
  | .ok x s => .value x.v s.host
  | .err e h => .status e h
  | .ub => .ub

/-- Evaluating a recursively planned expression. -/
def runDirect {σ : Type} (r : RCfg σ) (e : Src σ) (h : σ) : Final σ :=
  (dev r (planD [] false 0 e) none none none ⟨h, 0, fun _ => none⟩).final

/-- Planning with `max_recursion_depth = limit`, `limit ≠ 0` (`eval/compiler/flat_expr_builder.cc`
lines 1716-1731, 2606-2611); `-1` means no limit (`INT_MAX` in C++), 0 turns recursive planning off
and is not covered by this function. -/
def planRec {σ : Type} (limit : Int) (e : Src σ) : Res (DStep σ) :=
  let d := planD [] false 0 e
  if limit ≠ -1 ∧ (d.peak : Int) > limit then
    .err ⟨.invalidArgument, "Maximum recursion depth of " ++ toString limit ++ " exceeded"⟩
  else .ok d

end Cel.Direct
