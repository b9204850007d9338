import Verif.Data.MemberProps
import Verif.Data.BuildProps
import Verif.Macro.Macros

/-!
# Optional values (`runtime/optional_types.cc`, `eval/eval/optional_or_step.cc`)

`optional.of`, `optional.none`, `hasValue` and `value` are in `Verif.Macro.Macros`; selection and
indexing *on* optionals with the plain operators are in `Verif.Data.Steps`.
-/

namespace Cel.Opt
open Cel Cel.Num Cel.Eval Cel.Data

/-- `Value::IsZeroValue`: `null_value.h` line 76, `bool_value.h` 81, `int_value.h` 80, `uint_value.h`
80, `double_value.h` 77 (`-0.0 == 0.0`), `string_value.h` 162, `bytes_value.h` 159,
`duration_value.h` 90, `timestamp_value.h` 91, `type_value.h` 80, `opaque_value.h` 205 (also
optionals), `custom_list_value.h` 213, `custom_map_value.h` 220, `error_value.h` 111,
`unknown_value.h` 81 (all in `common/values`).  Messages (`parsed_message_value.cc` lines 78-86) are
read through `sz`. -/
def isZeroValue (sz : String → Nat → Bool) : Value → Bool
  | .null => true
  | .bool b => !b
  | .int i => i == 0
  | .uint u => u == 0
  | .dbl (.fin _ mag) => mag == 0
  | .dbl _ => false
  | .str s => s == ""
  | .bytes b => b.isEmpty
  | .dur d => d == .fin 0
  | .ts t => t == .fin 0
  | .typ _ => false
  | .list l => l.isEmpty
  | .map m => m.isEmpty
  | .opt _ => false
  | .opaq _ _ => false
  | .struct n i => sz n i
  | .error _ => false
  | .unknown _ => false

/-- `OptionalOfNonZeroValue` (`runtime/optional_types.cc` lines 59-68). -/
def optionalOfNonZeroValue (sz : String → Nat → Bool) (v : Value) : Value :=
  if isZeroValue sz v then .opt none else .opt (some v)

/-- `SelectOptionalFieldStruct` (`runtime/optional_types.cc` lines 86-103). -/
def selectOptionalFieldStruct (c : StepCfg) (n : String) (i : Nat) (f : String) : Res Value := do
  let has ← c.structHas n i f
  if has then
    let v ← c.structGet n i f
    return .opt (some v)
  else return .opt none

/-- `SelectOptionalFieldMap` (`runtime/optional_types.cc` lines 105-117). -/
def selectOptionalFieldMap (m : List (Value × Value)) (f : String) : Value :=
  match mapFind m (.str f) with
  | some v => .opt (some v)
  | none => .opt none

/-- `SelectOptionalField` (`runtime/optional_types.cc` lines 119-136). -/
def selectOptionalField (c : StepCfg) (f : String) : Value → Res Value
  | .opt none => .ok (.opt none)
  | .opt (some (.map m)) => .ok (selectOptionalFieldMap m f)
  | .opt (some (.struct n i)) => selectOptionalFieldStruct c n i f
  | _ => .ok (.error (noOverload "_[?_]"))

/-- `MapOptIndexOptionalValue` (`runtime/optional_types.cc` lines 138-194). -/
def mapOptIndex (m : List (Value × Value)) (key : Value) : Value :=
  match key with
  | .dbl d =>
    match findInt m (.dbl d) with
    | some v => .opt (some v)
    | none =>
      match findUint m (.dbl d) with
      | some v => .opt (some v)
      | none => .opt none
  | key =>
    match mapFind m key with
    | some v => .opt (some v)
    | none =>
      match key with
      | .int i =>
        if i ≥ 0 then
          match mapFind m (.uint i) with
          | some v => .opt (some v)
          | none => .opt none
        else .opt none
      | .uint u =>
        if u ≤ 9223372036854775807 then
          match mapFind m (.int u) with
          | some v => .opt (some v)
          | none => .opt none
        else .opt none
      | _ => .opt none

/-- `ListOptIndexOptionalInt` (`runtime/optional_types.cc` lines 196-209). -/
def listOptIndex (l : List Value) (i : Int) : Value :=
  if i < 0 ∨ i ≥ l.length then .opt none
  else match l[i.toNat]? with
    | some v => .opt (some v)
    | none => .opt none

/-- `OptionalOptIndexOptionalValue` (`runtime/optional_types.cc` lines 211-230). -/
def optionalOptIndex (o key : Value) : Value :=
  match o, key with
  | .opt none, _ => .opt none
  | .opt (some (.map m)), k => mapOptIndex m k
  | .opt (some (.list l)), .int i => listOptIndex l i
  | _, _ => .error (noOverload "_[?_]")

/-- `ListFirst` (`runtime/optional_types.cc` lines 232-243). -/
def listFirst (l : List Value) : Value :=
  if l.length = 0 then .opt none
  else match l[0]? with
    | some v => .opt (some v)
    | none => .opt none

/-- `ListLast` (`runtime/optional_types.cc` lines 245-257). -/
def listLast (l : List Value) : Value :=
  if l.length = 0 then .opt none
  else match l[l.length - 1]? with
    | some v => .opt (some v)
    | none => .opt none

/-- The message of a failed unwrap (`runtime/optional_types.cc` lines 278-282). -/
def unwrapError (c : StepCfg) (v : Value) : Status :=
  ⟨.invalidArgument, "optional.unwrap() expected a list(optional(T)), but " ++ c.typeName v ++
    " was found in the list."⟩

/-- `ListUnwrapOpt` (`runtime/optional_types.cc` lines 259-292): the loop.  `builder->Add` rejects
errors and unknowns with a status, which the function turns into an error value. -/
def unwrapLoop (c : StepCfg) : List Value → List Value → Value
  | [], acc => .list acc
  | v :: vs, acc =>
    match v with
    | .opt (some w) =>
      match checkElement w with
      | some e => .error e
      | none => unwrapLoop c vs (acc ++ [w])
    | .opt none => unwrapLoop c vs acc
    | _ => .error (unwrapError c v)

variable {σ : Type}

/-- The registrations of `RegisterOptionalTypeFunctions` (`runtime/optional_types.cc`
lines 294-372) that are not in `Verif.Macro.Macros`.  The adapters check the argument kinds before
calling; the last case of each function is not reachable. -/
def ofNonZeroSite (sz : String → Nat → Bool) : CallSite σ := ⟨"optional.ofNonZeroValue", false, 0, .eager [
  ⟨⟨"optional.ofNonZeroValue", false, [kAny], true⟩, fun xs h => match xs with
    | [v] => (.ok (optionalOfNonZeroValue sz v), h)
    | _ => (.err ⟨.internal, "argument kinds"⟩, h)⟩]⟩

def optSelectSite (c : StepCfg) : CallSite σ := ⟨"_?._", false, 0, .eager [
  ⟨⟨"_?._", false, [kStruct, kString], true⟩, fun xs h => match xs with
    | [.struct n i, .str f] => (selectOptionalFieldStruct c n i f, h)
    | _ => (.err ⟨.internal, "argument kinds"⟩, h)⟩,
  ⟨⟨"_?._", false, [kMap, kString], true⟩, fun xs h => match xs with
    | [.map m, .str f] => (.ok (selectOptionalFieldMap m f), h)
    | _ => (.err ⟨.internal, "argument kinds"⟩, h)⟩,
  ⟨⟨"_?._", false, [kOpaque, kString], true⟩, fun xs h => match xs with
    | [o, .str f] => (selectOptionalField c f o, h)
    | _ => (.err ⟨.internal, "argument kinds"⟩, h)⟩]⟩

def optIndexSite : CallSite σ := ⟨"_[?_]", false, 0, .eager [
  ⟨⟨"_[?_]", false, [kMap, kAny], true⟩, fun xs h => match xs with
    | [.map m, k] => (.ok (mapOptIndex m k), h)
    | _ => (.err ⟨.internal, "argument kinds"⟩, h)⟩,
  ⟨⟨"_[?_]", false, [kList, kInt], true⟩, fun xs h => match xs with
    | [.list l, .int i] => (.ok (listOptIndex l i), h)
    | _ => (.err ⟨.internal, "argument kinds"⟩, h)⟩,
  ⟨⟨"_[?_]", false, [kOpaque, kAny], true⟩, fun xs h => match xs with
    | [o, k] => (.ok (optionalOptIndex o k), h)
    | _ => (.err ⟨.internal, "argument kinds"⟩, h)⟩]⟩

/-- `optional.unwrap(list)` and `list.unwrapOpt()`. -/
def unwrapSite (c : StepCfg) (name : String) (receiver : Bool) : CallSite σ := ⟨name, receiver, 0, .eager [
  ⟨⟨name, receiver, [kList], true⟩, fun xs h => match xs with
    | [.list l] => (.ok (unwrapLoop c l []), h)
    | _ => (.err ⟨.internal, "argument kinds"⟩, h)⟩]⟩

def firstSite : CallSite σ := ⟨"first", true, 0, .eager [
  ⟨⟨"first", true, [kList], true⟩, fun xs h => match xs with
    | [.list l] => (.ok (listFirst l), h)
    | _ => (.err ⟨.internal, "argument kinds"⟩, h)⟩]⟩

def lastSite : CallSite σ := ⟨"last", true, 0, .eager [
  ⟨⟨"last", true, [kList], true⟩, fun xs h => match xs with
    | [.list l] => (.ok (listLast l), h)
    | _ => (.err ⟨.internal, "argument kinds"⟩, h)⟩]⟩

/-! ## `or` and `orValue` -/

/-- `MakeNoOverloadError` (`eval/eval/optional_or_step.cc` lines 50-59). -/
def orNoOverload (orValue : Bool) : Value :=
  .error (noOverload (if orValue then "orValue" else "or"))

/-- `EvalOptionalOr` (`eval/eval/optional_or_step.cc` lines 129-170). -/
def evalOptionalOr (orValue : Bool) (lhs rhs : VA) : VA :=
  match lhs.v with
  | .error _ => lhs
  | .unknown _ => lhs
  | .opt (some v) => if orValue then ⟨v, lhs.t⟩ else lhs
  | .opt none =>
    if orValue then rhs
    else match rhs.v with
      | .error _ | .unknown _ | .opt _ => rhs
      | _ => ⟨orNoOverload orValue, none⟩
  | _ => ⟨orNoOverload orValue, none⟩

/-- A compiled operand of either evaluator: what it yields and its effect on the host state. -/
abbrev Step (σ : Type) := σ → Res VA × σ

/-- `DirectOptionalOrStep::Evaluate` (`eval/eval/optional_or_step.cc` lines 238-279).  The step passes
its own result references to both operands, and the operands are taken not to read them. -/
def directOr (orValue : Bool) (a b : Step σ) : Step σ := fun h =>
  match a h with
  | (.err e, h1) => (.err e, h1)
  | (.ub, h1) => (.ub, h1)
  | (.ok x, h1) =>
    match x.v with
    | .error _ => (.ok x, h1)
    | .unknown _ => (.ok x, h1)
    | .opt (some v) => (.ok (if orValue then ⟨v, x.t⟩ else x), h1)
    | .opt none =>
      match b h1 with
      | (.err e, h2) => (.err e, h2)
      | (.ub, h2) => (.ub, h2)
      | (.ok y, h2) =>
        if orValue then (.ok y, h2)
        else match y.v with
          | .error _ | .unknown _ | .opt _ => (.ok y, h2)
          | _ => (.ok ⟨orNoOverload orValue, y.t⟩, h2)
    | _ => (.ok ⟨orNoOverload orValue, x.t⟩, h1)

/-- `ExhaustiveDirectOptionalOrStep::Evaluate` (`eval/eval/optional_or_step.cc` lines 206-215). -/
def exhaustiveOr (orValue : Bool) (a b : Step σ) : Step σ := fun h =>
  match a h with
  | (.err e, h1) => (.err e, h1)
  | (.ub, h1) => (.ub, h1)
  | (.ok x, h1) =>
    match b h1 with
    | (.err e, h2) => (.err e, h2)
    | (.ub, h2) => (.ub, h2)
    | (.ok y, h2) => (.ok (evalOptionalOr orValue x y), h2)

/-- What the jump step does with the value on top of the stack
(`OptionalHasValueJumpStep::Evaluate`, `eval/eval/optional_or_step.cc` lines 87-110): `some` is the
new top with a jump over the alternative.  `PopAndPush(value)` pushes without an attribute trail. -/
def hasValueJump (orValue : Bool) (x : VA) : Option VA :=
  match x.v with
  | .opt (some v) => some (if orValue then ⟨v, none⟩ else x)
  | .opt none => none
  | .error _ => some x
  | .unknown _ => some x
  | _ => none

/-- The iterative layout with short circuiting (`eval/eval/optional_or_step.cc` lines 61-80,
`eval/compiler/flat_expr_builder.cc` lines 2212-2240, 2266-2287): target, jump, alternative, `or`.
Operands are taken to push one value each (C20). -/
def iterativeOr (orValue : Bool) (a b : Step σ) : Step σ := fun h =>
  match a h with
  | (.err e, h1) => (.err e, h1)
  | (.ub, h1) => (.ub, h1)
  | (.ok x, h1) =>
    match hasValueJump orValue x with
    | some r => (.ok r, h1)
    | none =>
      match b h1 with
      | (.err e, h2) => (.err e, h2)
      | (.ub, h2) => (.ub, h2)
      | (.ok y, h2) => (.ok (evalOptionalOr orValue x y), h2)

/-- The iterative layout without short circuiting has no jump
(`eval/compiler/flat_expr_builder.cc` lines 2217, 2266-2275). -/
def iterativeExhaustiveOr (orValue : Bool) (a b : Step σ) : Step σ := exhaustiveOr orValue a b

end Cel.Opt
