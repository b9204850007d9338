import Verif.Data.Steps
import Verif.Eval.Pure
import Verif.Num.IntModel

/-!
# Macro expansions (`parser/macro.cc`, `extensions/comprehensions_v2_macros.cc`)

The comprehension nodes the parser produces for `all`, `exists`, `exists_one`, `map` and `filter`, with
one or two iteration variables, over the steps the planner emits for the operators they use.
`accu` is `factory.AccuVarName()` (`@result`, or `__result__` when hidden accumulators are off).
The argument checks of the expanders (argument count, simple identifiers, the variable is not
`__result__`) are hypotheses of the theorems.
-/

namespace Cel.Macro
open Cel Cel.Num Cel.Eval Cel.Data

variable {σ : Type}

/-- `!x` (`eval/eval/logic_step.cc` lines 297-366) as a step of the program. -/
def notOp (c : StepCfg) : Op σ := fun xs h =>
  match xs with
  | [x] => (.ok (notStep c.unknowns c.pats x), h)
  | _ => (.err ⟨.internal, "Value stack underflow"⟩, h)

/-- `@not_strictly_false(x)` (`eval/eval/logic_step.cc` lines 410-432). -/
def nsfOp : Op σ := fun xs h =>
  match xs with
  | [x] => (.ok (notStrictlyFalse x), h)
  | _ => (.err ⟨.internal, "Value stack underflow"⟩, h)

/-- A list literal without `?` entries (`eval/eval/create_list_step.cc`). -/
def listOp (c : StepCfg) : Op σ := fun xs h => (listStep c (fun _ => false) xs, h)

/-- `x == y` (`eval/eval/equality_steps.cc` lines 113-128). -/
def eqOp (c : StepCfg) : Op σ := fun xs h => (eqStep c false xs, h)

/-- A status as an error value (`if (!sum.ok()) return ErrorValue(sum.status())`). -/
def intResult (f : Int → Value) : Res Int → Res Value
  | .ok i => .ok (f i)
  | .err e => .ok (.error e)
  | .ub => .ub

/-- The registered overloads of `_+_` on ints, uints and lists
(`runtime/standard/arithmetic_functions.cc` lines 38-55, `runtime/standard/container_functions.cc`
`ConcatList` lines 45-82; `enable_list_concat` is on by default).  The remaining overloads (double, string,
bytes, timestamp, duration) have other argument kinds and are omitted. -/
def addOverloads : List (Overload σ) := [
  ⟨⟨"_+_", false, [kInt, kInt], true⟩, fun xs h => match xs with
    | [.int a, .int b] => (intResult .int (checkedAddI a b), h)
    | _ => (.err ⟨.internal, "argument kinds"⟩, h)⟩,
  ⟨⟨"_+_", false, [kUint, kUint], true⟩, fun xs h => match xs with
    | [.uint a, .uint b] => (intResult .uint (checkedAddU a b), h)
    | _ => (.err ⟨.internal, "argument kinds"⟩, h)⟩,
  ⟨⟨"_+_", false, [kList, kList], true⟩, fun xs h => match xs with
    | [.list a, .list b] => (.ok (.list (if a.length = 0 then b else if b.length = 0 then a else a ++ b)), h)
    | _ => (.err ⟨.internal, "argument kinds"⟩, h)⟩]

/-- A call step (`eval/eval/function_step.cc` lines 337-378): the result has no attribute trail. -/
def callOp (c : StepCfg) (fnResults : Bool) (site : CallSite σ) : Op σ := fun xs h =>
  match evalCall ⟨c.unknowns, fnResults, c.pats⟩ site xs h with
  | (.ok v, h') => (.ok ⟨v, none⟩, h')
  | (.err e, h') => (.err e, h')
  | (.ub, h') => (.ub, h')

/-- `x + y`. -/
def addOp (c : StepCfg) (fnResults : Bool) : Op σ := callOp c fnResults ⟨"_+_", false, 0, .eager addOverloads⟩

/-- `factory.NewAccuIdent()`. -/
def accuIdent (accu : String) : Expr σ := .ident accu false

def args1 (a : Expr σ) : Exprs σ := .cons a .nil
def args2 (a b : Expr σ) : Exprs σ := .cons a (.cons b .nil)

/-- `ExpandAllMacro` (`parser/macro.cc` lines 91-115); with `y`, `ExpandAllMacro2`
(`extensions/comprehensions_v2_macros.cc` lines 48-85). -/
def allMacro (accu x : String) (y : Option String) (target pred : Expr σ) : Expr σ :=
  .comp x y accu target (.const (.bool true)) (.op nsfOp (args1 (accuIdent accu)))
    (.logic false (accuIdent accu) pred) (accuIdent accu)

/-- `ExpandExistsMacro` (`parser/macro.cc` lines 123-148); with `y`, `ExpandExistsMacro2`
(`extensions/comprehensions_v2_macros.cc` lines 93-131). -/
def existsMacro (c : StepCfg) (accu x : String) (y : Option String) (target pred : Expr σ) : Expr σ :=
  .comp x y accu target (.const (.bool false))
    (.op nsfOp (args1 (.op (notOp c) (args1 (accuIdent accu)))))
    (.logic true (accuIdent accu) pred) (accuIdent accu)

/-- `ExpandExistsOneMacro` (`parser/macro.cc` lines 157-187); with `y`, `ExpandExistsOneMacro2`
(`extensions/comprehensions_v2_macros.cc` lines 140-184). -/
def existsOneMacro (c : StepCfg) (fr : Bool) (accu x : String) (y : Option String) (target pred : Expr σ) :
    Expr σ :=
  .comp x y accu target (.const (.int 0)) (.const (.bool true))
    (.cond pred (.op (addOp c fr) (args2 (accuIdent accu) (.const (.int 1)))) (accuIdent accu))
    (.op (eqOp c) (args2 (accuIdent accu) (.const (.int 1))))

/-- `accu + [e]`. -/
def appendExpr (c : StepCfg) (fr : Bool) (accu : String) (e : Expr σ) : Expr σ :=
  .op (addOp c fr) (args2 (accuIdent accu) (.op (listOp c) (args1 e)))

/-- `ExpandMap2Macro` (`parser/macro.cc` lines 196-221); with `y`, `ExpandTransformList3Macro`
(`extensions/comprehensions_v2_macros.cc` lines 193-235). -/
def map2Macro (c : StepCfg) (fr : Bool) (accu x : String) (y : Option String) (target e : Expr σ) : Expr σ :=
  .comp x y accu target (.op (listOp c) .nil) (.const (.bool true)) (appendExpr c fr accu e) (accuIdent accu)

/-- `ExpandMap3Macro` (`parser/macro.cc` lines 229-256); with `y`, `ExpandTransformList4Macro`
(`extensions/comprehensions_v2_macros.cc` lines 244-288). -/
def map3Macro (c : StepCfg) (fr : Bool) (accu x : String) (y : Option String) (target pred e : Expr σ) : Expr σ :=
  .comp x y accu target (.op (listOp c) .nil) (.const (.bool true))
    (.cond pred (appendExpr c fr accu e) (accuIdent accu)) (accuIdent accu)

/-- `ExpandFilterMacro` (`parser/macro.cc` lines 264-293). -/
def filterMacro (c : StepCfg) (fr : Bool) (accu x : String) (target pred : Expr σ) : Expr σ :=
  map3Macro c fr accu x none target pred (.ident x false)

/-- `OptionalHasValue` (`runtime/optional_types.cc` lines 77-83). -/
def hasValueSite : CallSite σ := ⟨"hasValue", true, 0, .eager [
  ⟨⟨"hasValue", true, [kOpaque], true⟩, fun xs h => match xs with
    | [.opt o] => (.ok (.bool o.isSome), h)
    | _ => (.ok (.error (noOverload "hasValue")), h)⟩]⟩

/-- `OptionalGetValue` (`runtime/optional_types.cc` lines 70-75) with `OptionalValue::Value`
(`common/values/optional_value.cc`): none has no value, which is an error. -/
def valueSite : CallSite σ := ⟨"value", true, 0, .eager [
  ⟨⟨"value", true, [kOpaque], true⟩, fun xs h => match xs with
    | [.opt (some v)] => (.ok v, h)
    | [.opt none] => (.ok (.error ⟨.failedPrecondition, "optional.none() dereference"⟩), h)
    | _ => (.ok (.error (noOverload "value")), h)⟩]⟩

/-- `OptionalOf` (`runtime/optional_types.cc` lines 50-54, 271-273). -/
def ofSite : CallSite σ := ⟨"optional.of", false, 0, .eager [
  ⟨⟨"optional.of", false, [kAny], true⟩, fun xs h => match xs with
    | [v] => (.ok (.opt (some v)), h)
    | _ => (.err ⟨.internal, "argument kinds"⟩, h)⟩]⟩

/-- `OptionalNone` (`runtime/optional_types.cc` lines 56, 279-281). -/
def noneSite : CallSite σ := ⟨"optional.none", false, 0, .eager [
  ⟨⟨"optional.none", false, [], true⟩, fun _ h => (.ok (.opt none), h)⟩]⟩

/-- `ExpandOptFlatMapMacro` (`parser/macro.cc` lines 340-372).  The inner comprehension has an empty
range and the condition `false` over `#unused`, so the planner treats it as a binding
(`IsBind`, `eval/compiler/flat_expr_builder.cc` lines 401-411). -/
def optFlatMapMacro (c : StepCfg) (fr : Bool) (x : String) (target body : Expr σ) : Expr σ :=
  .cond (.op (callOp c fr hasValueSite) (args1 target))
    (.bind x (.op (callOp c fr valueSite) (args1 target)) body)
    (.op (callOp c fr noneSite) .nil)

/-- `ExpandOptMapMacro` (`parser/macro.cc` lines 302-332). -/
def optMapMacro (c : StepCfg) (fr : Bool) (x : String) (target body : Expr σ) : Expr σ :=
  .cond (.op (callOp c fr hasValueSite) (args1 target))
    (.op (callOp c fr ofSite) (args1 (.bind x (.op (callOp c fr valueSite) (args1 target)) body)))
    (.op (callOp c fr noneSite) .nil)

end Cel.Macro
