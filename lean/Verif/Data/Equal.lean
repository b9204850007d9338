import Verif.Eval.Value
import Verif.Num.Number

/-!
# Equality and key lookup on values

`runtime/standard/equality_functions.cc` (the `==` operator), `common/values/*_value.cc`
(`Value::Equal`) and key lookup in maps.  Values are immutable data here; the pointer-identity
shortcut `&lhs == &rhs` of `ListEqual`/`MapEqual` is not modelled (the two operands of `==` are
always distinct objects on the value stack).
-/

namespace Cel.Data
open Cel Cel.Num Cel.Eval

/-- `NumberFromValue` (`runtime/standard/equality_functions.cc` lines 180-190) and
`CelNumberFromValue` (`eval/eval/container_access_step.cc` lines 46-60). -/
def numOf : Value → Option Number
  | .int i => some (.int i)
  | .uint u => some (.uint u)
  | .dbl d => some (.dbl d)
  | _ => none

/-- `number->LosslessConvertibleToInt()` followed by `number->AsInt()`
(`internal/number.h` lines 184-194, 232-247).  The conversions are modelled with explicit undefined
behaviour; `C12_lossless_to_int` shows that the undefined case is never reached from here. -/
def losslessInt (n : Number) : Option Int :=
  match n.losslessToInt with
  | .ok true => match n.asInt with
    | .ok i => some i
    | _ => none
  | _ => none

/-- `LosslessConvertibleToUint()` followed by `AsUint()` (`internal/number.h` lines 195-205, 239-251). -/
def losslessUint (n : Number) : Option Int :=
  match n.losslessToUint with
  | .ok true => match n.asUint with
    | .ok i => some i
    | _ => none
  | _ => none

/-- Key equality of map values, `ValueEquals` (`common/values/value_builder.cc` lines 677-734);
the unreachable kinds are `false` here (every caller checks the key kind first). -/
def keyEq : Value → Value → Bool
  | .bool a, .bool b => a == b
  | .int a, .int b => a == b
  | .uint a, .uint b => a == b
  | .str a, .str b => a == b
  | _, _ => false

/-- The key kinds accepted by `MapValue::Find` and by map construction
(`common/values/custom_map_value.cc` lines 658-676, `common/values/map_value.cc` `CheckMapKey`). -/
def keyKind : Value → Bool
  | .bool _ | .int _ | .uint _ | .str _ => true
  | _ => false

/-- `MapValue::Find` (`common/values/custom_map_value.cc` lines 647-690): the value stored under
the key, if any.  A key of another kind is never found. -/
def mapFind : List (Value × Value) → Value → Option Value
  | [], _ => none
  | (k, v) :: m, key => if keyEq k key then some v else mapFind m key

/-- `MapValue::Has` for a key of an accepted kind (`common/values/custom_map_value.cc`
lines 692-738). -/
def mapHas (m : List (Value × Value)) (key : Value) : Bool := (mapFind m key).isSome

/-- The lookups under an `int` or `uint` key used for a number that lacks a direct match. -/
def findInt (m : List (Value × Value)) (n : Number) : Option Value :=
  match losslessInt n with
  | some i => mapFind m (.int i)
  | none => none

def findUint (m : List (Value × Value)) (n : Number) : Option Value :=
  match losslessUint n with
  | some i => mapFind m (.uint i)
  | none => none

def isInt : Value → Bool | .int _ => true | _ => false
def isUint : Value → Bool | .uint _ => true | _ => false
def isDbl : Value → Bool | .dbl _ => true | _ => false

/-- `CheckAlternativeNumericType` (`runtime/standard/equality_functions.cc` lines 192-226). -/
def altFind (key : Value) (rhs : List (Value × Value)) : Option Value :=
  match numOf key with
  | none => none
  | some n =>
    match (if isInt key then none else findInt rhs n) with
    | some v => some v
    | none => if isUint key then none else findUint rhs n

/-- The two lookups of `MapEqual` (`runtime/standard/equality_functions.cc` lines 247-256). -/
def hetFind (key : Value) (rhs : List (Value × Value)) : Option Value :=
  match mapFind rhs key with
  | some v => some v
  | none => altFind key rhs

mutual
/-- `Value::Equal`: `common/values/int_value.cc` lines 81-109, `uint_value.cc`, `double_value.cc`
lines 107-135, `string_value.cc`, ..., `list_value.cc` lines 181-218, `map_value.cc` lines 225-268,
`optional_value.cc` lines 88-124.  Errors and unknowns are never equal to anything
(`error_value.cc`, `unknown_value.h`).  Structs and other opaque values are compared by their
identity token. -/
def cEqual : Value → Value → Bool
  | .null, .null => true
  | .bool a, .bool b => a == b
  | .int a, .int b => a == b
  | .int a, .dbl b => (Number.int a).eq (.dbl b)
  | .int a, .uint b => (Number.int a).eq (.uint b)
  | .uint a, .uint b => a == b
  | .uint a, .dbl b => (Number.uint a).eq (.dbl b)
  | .uint a, .int b => (Number.uint a).eq (.int b)
  | .dbl a, .dbl b => Dbl.eq a b
  | .dbl a, .int b => (Number.dbl a).eq (.int b)
  | .dbl a, .uint b => (Number.dbl a).eq (.uint b)
  | .str a, .str b => a == b
  | .bytes a, .bytes b => a == b
  | .dur a, .dur b => decide (a = b)
  | .ts a, .ts b => decide (a = b)
  | .typ a, .typ b => a == b
  | .list a, .list b => a.length == b.length && cEqualList a b
  | .map a, .map b => a.length == b.length && cEqualMap a b
  | .opt none, .opt none => true
  | .opt (some a), .opt (some b) => cEqual a b
  | .opaq n i, .opaq n' i' => n == n' && i == i'
  | .struct n i, .struct n' i' => n == n' && i == i'
  | _, _ => false
/-- Element loop of `ListValueEqual` (`common/values/list_value.cc` lines 199-213). -/
def cEqualList : List Value → List Value → Bool
  | a :: as, b :: bs => cEqual a b && cEqualList as bs
  | _, _ => true
/-- Entry loop of `MapValueEqual` (`common/values/map_value.cc` lines 243-265). -/
def cEqualMap : List (Value × Value) → List (Value × Value) → Bool
  | (k, v) :: m, rhs =>
    match mapFind rhs k with
    | none => false
    | some w => cEqual v w && cEqualMap m rhs
  | [], _ => true
end

mutual
/-- `ValueEqualImpl` (`runtime/standard/equality_functions.cc` lines 554-590) with
`HomogenousValueEqual<HeterogeneousEqualProvider>` (lines 436-490) inlined; `none` is "no matching
overload". -/
def valueEqual : Value → Value → Option Bool
  | .null, .null => some true
  | .bool a, .bool b => some (a == b)
  | .int a, .int b => some (a == b)
  | .uint a, .uint b => some (a == b)
  | .dbl a, .dbl b => some (Dbl.eq a b)
  | .int a, .uint b => some ((Number.int a).eq (.uint b))
  | .int a, .dbl b => some ((Number.int a).eq (.dbl b))
  | .uint a, .int b => some ((Number.uint a).eq (.int b))
  | .uint a, .dbl b => some ((Number.uint a).eq (.dbl b))
  | .dbl a, .int b => some ((Number.dbl a).eq (.int b))
  | .dbl a, .uint b => some ((Number.dbl a).eq (.uint b))
  | .str a, .str b => some (a == b)
  | .bytes a, .bytes b => some (a == b)
  | .dur a, .dur b => some (decide (a = b))
  | .ts a, .ts b => some (decide (a = b))
  | .typ a, .typ b => some (a == b)
  | .list a, .list b => if a.length = b.length then listEqual a b else some false
  | .map a, .map b => if a.length = b.length then mapEqual a b else some false
  -- `OpaqueEqual` (lines 160-178) delegates to `Value::Equal`
  | .opt a, .opt b => some (cEqual (.opt a) (.opt b))
  | .opaq n i, .opaq n' i' => some (n == n' && i == i')
  | .struct n i, .struct n' i' => some (n == n' && i == i')
  | .error _, _ => none
  | .unknown _, _ => none
  | _, .error _ => none
  | _, .unknown _ => none
  | _, _ => some false
/-- `ListEqual` loop (`runtime/standard/equality_functions.cc` lines 141-153). -/
def listEqual : List Value → List Value → Option Bool
  | a :: as, b :: bs =>
    match valueEqual a b with
    | some true => listEqual as bs
    | r => r
  | _, _ => some true
/-- `MapEqual` loop (`runtime/standard/equality_functions.cc` lines 243-268). -/
def mapEqual : List (Value × Value) → List (Value × Value) → Option Bool
  | (k, v) :: m, rhs =>
    match hetFind k rhs with
    | none => some false
    | some w =>
      match valueEqual v w with
      | some true => mapEqual m rhs
      | r => r
  | [], _ => some true
end

/-- `ListValue::Contains` (`common/values/custom_list_value.cc` lines 326-347): the first element
that is `Equal` to the argument. -/
def listContains (l : List Value) (x : Value) : Bool := l.any fun e => cEqual e x

end Cel.Data
