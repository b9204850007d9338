import Verif.Direct.Model

/-!
# Constant folding (`eval/compiler/constant_folding.cc`)

An optional pass of the planner.  It follows the planner's traversal of the expression with a stack of
flags, and when a node and everything below it is constant it runs the node's part of the program
with an empty activation and replaces that part by a constant.

The pass works on the node's part of the flattened program; here it works on the expression the part
is planned from (a part that is replaced by a constant step is the plan of a constant).  The stack
machine's plan is modelled; with recursive planning the pass replaces trees in the same way.
-/

namespace Cel.Fold
open Cel Cel.Eval Cel.Data Cel.Direct

/-- `IsConst` (`eval/compiler/constant_folding.cc` lines 63-66). -/
inductive IsConst where
  | conditional
  | nonConst
deriving DecidableEq

/-- The call case of `IsConstExpr` (`eval/compiler/constant_folding.cc` lines 150-172): lazily bound
functions and functions with an overload that wants the evaluation's context are not folded.
`contextual` is `FunctionDescriptor::is_contextual`. -/
def isConstSite {σ : Type} (contextual : FnDesc → Bool) (c : CallSite σ) : IsConst :=
  match c.resolver with
  | .lazy _ => .nonConst
  | .eager os => if os.any (fun o => contextual o.desc) then .nonConst else .conditional

/-- `IsConstExpr` (`eval/compiler/constant_folding.cc` lines 110-179).  The operators that have steps of
their own are calls there; they are taken to have no lazy or contextual overloads. -/
def isConstExpr {σ : Type} (contextual : FnDesc → Bool) : Src σ → IsConst
  | .const _ => .conditional
  | .ident _ _ => .nonConst
  | .comp _ _ _ _ _ _ _ _ => .nonConst
  | .bind _ _ _ => .nonConst
  | .map _ .nil => .nonConst
  | .map _ (.cons _ _) => .conditional
  | .list _ .nil => .nonConst
  | .list _ (.cons _ _) => .conditional
  | .select _ _ _ => .conditional
  | .logic _ _ _ => .nonConst
  | .cond _ _ _ => .nonConst
  | .call c _ => isConstSite contextual c
  | .not _ => .conditional
  | .nsf _ => .conditional
  | .bin _ _ _ => .conditional
  | .index _ _ => .conditional

/-- The configuration while folding: the runtime's options with an empty activation, which has no
attribute patterns and no variables (`eval/compiler/constant_folding.cc` line 101, 216). -/
def planTime {σ : Type} (r : RCfg σ) (vars : String → σ → Res VA × σ) : RCfg σ :=
  { r with c := { r.c with pats := [], missingPats := [] }, global := vars }

/-- What folding depends on. -/
structure FoldCfg (σ : Type) where
  /-- the runtime's options and, for folding, the empty activation -/
  plan : RCfg σ
  contextual : FnDesc → Bool
  /-- host state while planning -/
  host : σ

/-- The end of `OnPostVisit` (`eval/compiler/constant_folding.cc` lines 207-251): constants are replaced
by themselves; otherwise the part is evaluated, and a failing status or an unknown leaves it as it
was.  The evaluation is written as the expression's meaning, which is what the stack machine computes
(`fold_runs_the_plan`). -/
def foldNode {σ : Type} (f : FoldCfg σ) (e : Src σ) : Src σ :=
  match e with
  | .const v => .const v
  | e =>
    match meaning f.plan.cfg (toExpr f.plan e) f.host with
    | .value v _ => if v.isUnknown then e else .const v
    | .status _ _ => e
    | .ub => e

/-- `OnPostVisit` (`eval/compiler/constant_folding.cc` lines 189-206) for a node whose children have been
visited; `none` is the internal error. -/
def onPostVisit {σ : Type} (f : FoldCfg σ) (e : Src σ) : List IsConst → Option (Src σ × List IsConst)
  | [] => none
  | .nonConst :: st =>
    match st with
    | [] => some (e, [])
    | _ :: st' => some (e, .nonConst :: st')
  | .conditional :: st => some (foldNode f e, st)

mutual
/-- The traversal: `OnPreVisit` pushes the node's flag (`eval/compiler/constant_folding.cc` lines
181-187), the children are visited, `OnPostVisit` pops it. -/
def visit {σ : Type} (f : FoldCfg σ) : Src σ → List IsConst → Option (Src σ × List IsConst)
  | .const v, st => onPostVisit f (.const v) (isConstExpr f.contextual (Src.const v : Src σ) :: st)
  | .ident x abs, st => onPostVisit f (.ident x abs) (isConstExpr f.contextual (Src.ident x abs : Src σ) :: st)
  | .call c args, st => do
    let (args', st) ← visits f args (isConstExpr f.contextual (.call c args) :: st)
    onPostVisit f (.call c args') st
  | .not a, st => do
    let (a', st) ← visit f a (isConstExpr f.contextual (.not a) :: st)
    onPostVisit f (.not a') st
  | .nsf a, st => do
    let (a', st) ← visit f a (isConstExpr f.contextual (.nsf a) :: st)
    onPostVisit f (.nsf a') st
  | .bin k a b, st => do
    let (a', st) ← visit f a (isConstExpr f.contextual (.bin k a b) :: st)
    let (b', st) ← visit f b st
    onPostVisit f (.bin k a' b') st
  | .index a b, st => do
    let (a', st) ← visit f a (isConstExpr f.contextual (.index a b) :: st)
    let (b', st) ← visit f b st
    onPostVisit f (.index a' b') st
  | .select fl test a, st => do
    let (a', st) ← visit f a (isConstExpr f.contextual (.select fl test a) :: st)
    onPostVisit f (.select fl test a') st
  | .list opt args, st => do
    let (args', st) ← visits f args (isConstExpr f.contextual (.list opt args) :: st)
    onPostVisit f (.list opt args') st
  | .map opt args, st => do
    let (args', st) ← visits f args (isConstExpr f.contextual (.map opt args) :: st)
    onPostVisit f (.map opt args') st
  | .logic o a b, st => do
    let (a', st) ← visit f a (isConstExpr f.contextual (.logic o a b) :: st)
    let (b', st) ← visit f b st
    onPostVisit f (.logic o a' b') st
  | .cond c t e, st => do
    let (c', st) ← visit f c (isConstExpr f.contextual (.cond c t e) :: st)
    let (t', st) ← visit f t st
    let (e', st) ← visit f e st
    onPostVisit f (.cond c' t' e') st
  | .comp iter iter2 accu range init cnd stp res, st => do
    let (range', st) ← visit f range (isConstExpr f.contextual (.comp iter iter2 accu range init cnd stp res) :: st)
    let (init', st) ← visit f init st
    let (cnd', st) ← visit f cnd st
    let (stp', st) ← visit f stp st
    let (res', st) ← visit f res st
    onPostVisit f (.comp iter iter2 accu range' init' cnd' stp' res') st
  | .bind x init body, st => do
    let (init', st) ← visit f init (isConstExpr f.contextual (.bind x init body) :: st)
    let (body', st) ← visit f body st
    onPostVisit f (.bind x init' body') st
def visits {σ : Type} (f : FoldCfg σ) : Srcs σ → List IsConst → Option (Srcs σ × List IsConst)
  | .nil, st => some (.nil, st)
  | .cons e es, st => do
    let (e', st) ← visit f e st
    let (es', st) ← visits f es st
    return (.cons e' es', st)
end

/-- The whole pass; `none` is the internal error "called out of order". -/
def foldConstants {σ : Type} (f : FoldCfg σ) (e : Src σ) : Option (Src σ) := (visit f e []).map Prod.fst

end Cel.Fold
