import Verif.Eval.Value

/-!
# Logical operators (`eval/eval/logic_step.cc`)
-/

namespace Cel.Eval
open Cel

/-- A value together with its attribute trail: one entry of the evaluator's value stack
(`eval/eval/evaluator_stack.h`). -/
structure VA where
  v : Value
  t : Trail

/-- The name used in error messages: `cel::builtin::kOr`, `kAnd` (`base/builtins.h`). -/
def logicName (isOr : Bool) : String := if isOr then "_||_" else "_&&_"

/-- `LogicalOpStep::Calculate` (`eval/eval/logic_step.cc` lines 199-251); `isOr` is also
`shortcircuit_` (line 193).  The argument loop (lines 204-213) is unrolled. -/
def calcLogic (isOr unknowns : Bool) (a b : Value) : Value :=
  match a, b with
  | .bool x, .bool y =>
    if x = isOr then .bool x
    else if y = isOr then .bool y
    else if isOr then .bool (x || y) else .bool (x && y)
  | .bool x, b =>
    if x = isOr then .bool x else rest (.bool x) b
  | a, .bool y =>
    if y = isOr then .bool y else rest a (.bool y)
  | a, b => rest a b
where
  /-- Lines 226-250: unknowns before errors. -/
  rest (a b : Value) : Value :=
    match (if unknowns then mergeUnknowns [a, b] else none) with
    | some u => .unknown u
    | none =>
      match a, b with
      | .error e, _ => .error e
      | _, .error e => .error e
      | _, _ => .error (noOverload (logicName isOr))

/-- `ReturnLogicResult` (`eval/eval/logic_step.cc` lines 41-82), the shared tail of the recursive
logic steps.  `tl` is `attribute_trail`, `tr` is `rhs_attr`. -/
def returnLogic (isOr unknowns : Bool) (l r : VA) : VA :=
  match unknowns, l.v, r.v with
  | true, .unknown u, .unknown w => ⟨.unknown (u.merge w), none⟩
  | true, .unknown _, _ => l
  | true, _, .unknown _ => r
  | _, .error _, _ => l
  | _, _, .error _ => r
  | _, .bool _, .bool _ => l
  | _, _, _ => ⟨.error (noOverload (logicName isOr)), none⟩

/-- `DirectLogicStep::Evaluate` after both operands are evaluated, and
`ExhaustiveDirectLogicStep::Evaluate` (`eval/eval/logic_step.cc` lines 113-133, 159-185).  The
right operand is evaluated with `attribute_trail` as its trail destination (lines 111, 170), so the
trail passed on is the right operand's while `rhs_attr` stays empty. -/
def directLogic (isOr unknowns : Bool) (l r : VA) : VA :=
  match l.v with
  | .bool x => if x = isOr then ⟨l.v, r.t⟩ else tail l r
  | _ => tail l r
where
  tail (l r : VA) : VA :=
    match r.v with
    | .bool y => if y = isOr then ⟨r.v, none⟩ else returnLogic isOr unknowns ⟨l.v, r.t⟩ ⟨r.v, none⟩
    | _ => returnLogic isOr unknowns ⟨l.v, r.t⟩ ⟨r.v, none⟩

/-- `IterativeNotStep::Evaluate` / `DirectNotStep::Evaluate`
(`eval/eval/logic_step.cc` lines 297-366); `pats` are the unknown patterns. -/
def notStep (unknowns : Bool) (pats : List Pattern) (x : VA) : VA :=
  match (if unknowns ∧ checkUnknown pats x.t true = true then x.t else none) with
  | some a => ⟨.unknown (unknownOf a), none⟩
  | none =>
    match x.v with
    | .bool b => ⟨.bool (!b), none⟩
    | .unknown _ => x
    | .error _ => x
    | _ => ⟨.error (noOverload "!_"), none⟩

/-- `IterativeNotStrictlyFalseStep::Evaluate` (`eval/eval/logic_step.cc` lines 410-432). -/
def notStrictlyFalse (x : VA) : VA :=
  match x.v with
  | .bool _ => x
  | .unknown _ => ⟨.bool true, none⟩
  | .error _ => ⟨.bool true, none⟩
  | _ => ⟨.error (noOverload "!_"), none⟩

end Cel.Eval
