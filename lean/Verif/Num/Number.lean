import Verif.Num.Double

/-! # Model of `internal/number.h` and the double conversions of `internal/overflow.cc` -/

namespace Cel.Num
open Cel

/-- `NumberVariant`, number.h:48. -/
inductive Number where
  | dbl (d : Dbl)
  | uint (u : Int)
  | int (i : Int)
  deriving DecidableEq, Repr

/-- The numbers that exist: representable payloads. -/
def Number.WF : Number → Prop
  | .dbl d => d.WF
  | .uint u => InU64 u
  | .int i => InI64 i

/-- `ComparisonResult`, number.h:50-56. -/
inductive CmpResult where
  | lesser | equal | greater | nanInequal
  deriving DecidableEq, Repr

/-- `Invert`, number.h:59-70. -/
def CmpResult.invert : CmpResult → CmpResult
  | lesser => greater
  | greater => lesser
  | equal => equal
  | nanInequal => nanInequal

/-- Constants, number.h:25-31, 41-44: static casts of the integer limits to double. -/
def kDoubleToIntMax : Dbl := Dbl.ofInt i64Max
def kDoubleToIntMin : Dbl := Dbl.ofInt i64Min
def kDoubleToUintMax : Dbl := Dbl.ofInt u64Max
/-- `RoundingError<T>()`, number.h:36-39: `1 << (digits(T) - 53 - 1)`, 63 and 64 digits. -/
def roundingErrorI : Int := 2 ^ (63 - 53 - 1)
def roundingErrorU : Int := 2 ^ (64 - 53 - 1)
def kMaxDoubleRepresentableAsInt : Dbl := Dbl.ofInt (i64Max - roundingErrorI)
def kMaxDoubleRepresentableAsUint : Dbl := Dbl.ofInt (u64Max - roundingErrorU)
/-- The `double` constant 0 (number.h:106 `v < 0`). -/
def dblZero : Dbl := Dbl.ofInt 0

/-- `Compare<T>` on integers, number.h:81-85. -/
def compareInt (a b : Int) : CmpResult :=
  if a > b then .greater else if a = b then .equal else .lesser
/-- `DoubleCompare`, number.h:87-93 (with `Compare<double>`). -/
def doubleCompare (a b : Dbl) : CmpResult :=
  if !(Dbl.eq a a) || !(Dbl.eq b b) then .nanInequal
  else if Dbl.gt a b then .greater else if Dbl.eq a b then .equal else .lesser

/-- `DoubleCompareVisitor(v)(uint64_t other)`, number.h:103-111. -/
def doubleVsUint (v : Dbl) (other : Int) : CmpResult :=
  if Dbl.gt v kDoubleToUintMax then .greater
  else if Dbl.lt v dblZero then .lesser
  else doubleCompare v (Dbl.ofInt other)
/-- `DoubleCompareVisitor(v)(int64_t other)`, number.h:113-121. -/
def doubleVsInt (v : Dbl) (other : Int) : CmpResult :=
  if Dbl.gt v kDoubleToIntMax then .greater
  else if Dbl.lt v kDoubleToIntMin then .lesser
  else doubleCompare v (Dbl.ofInt other)
/-- `UintCompareVisitor(v)(int64_t other)`, number.h:138-144. -/
def uintVsInt (v other : Int) : CmpResult :=
  if v > i64Max ∨ other < 0 then .greater else compareInt v (wrapU64 other)

/-- `Number::Compare`, number.h:96-182 and 291-294: double dispatch over both operand types. -/
def Number.compare : Number → Number → CmpResult
  | .dbl v, .dbl o => doubleCompare v o
  | .dbl v, .uint o => doubleVsUint v o
  | .dbl v, .int o => doubleVsInt v o
  | .uint v, .dbl o => (doubleVsUint o v).invert
  | .uint v, .uint o => compareInt v o
  | .uint v, .int o => uintVsInt v o
  | .int v, .dbl o => (doubleVsInt o v).invert
  | .int v, .uint o => (uintVsInt o v).invert
  | .int v, .int o => compareInt v o

/-- The six operators, number.h:253-279. -/
def Number.lt (a b : Number) : Bool := a.compare b == .lesser
def Number.le (a b : Number) : Bool :=
  !(a.compare b == .greater) && !(a.compare b == .nanInequal)
def Number.gt (a b : Number) : Bool := a.compare b == .greater
def Number.ge (a b : Number) : Bool :=
  !(a.compare b == .lesser) && !(a.compare b == .nanInequal)
def Number.eq (a b : Number) : Bool := a.compare b == .equal
def Number.ne (a b : Number) : Bool := !(a.compare b == .equal)

/-- `LosslessConvertibleToIntVisitor`, number.h:184-193. `Res` because the double case contains a
float-to-int cast, which could be undefined. -/
def Number.losslessToInt : Number → Res Bool
  | .dbl v =>
    if Dbl.ge v kDoubleToIntMin && Dbl.le v kMaxDoubleRepresentableAsInt then
      (Dbl.toI64 v) >>= fun i => .ok (Dbl.eq v (Dbl.ofInt i))
    else .ok false
  | .uint v => .ok (decide (v ≤ i64Max))
  | .int _ => .ok true
/-- `LosslessConvertibleToUintVisitor`, number.h:195-202. -/
def Number.losslessToUint : Number → Res Bool
  | .dbl v =>
    if Dbl.ge v dblZero && Dbl.le v kMaxDoubleRepresentableAsUint then
      (Dbl.toU64 v) >>= fun i => .ok (Dbl.eq v (Dbl.ofInt i))
    else .ok false
  | .uint _ => .ok true
  | .int v => .ok (decide (v ≥ 0))

/-- `Number::AsInt`, number.h:232-235 (`ConversionVisitor<int64_t>`). -/
def Number.asInt : Number → Res Int
  | .dbl v => Dbl.toI64 v
  | .uint v => .ok (wrapI64 v)
  | .int v => .ok v
/-- `Number::AsUint`, number.h:239-242. -/
def Number.asUint : Number → Res Int
  | .dbl v => Dbl.toU64 v
  | .uint v => .ok v
  | .int v => .ok (wrapU64 v)

/-- `CheckedDoubleToInt64`, overflow.cc:302-307; the constants are overflow.cc:37-38. -/
def checkedDoubleToI64 (v : Dbl) : Res Int := do
  checkRange (v.isFinite && Dbl.lt v (Dbl.ofInt i64Max) && Dbl.gt v (Dbl.ofInt i64Min))
    "double out of int64 range"
  Dbl.toI64 v
/-- `kDoubleTwoTo64 = ldexp(1.0, 64)`, overflow.cc:39. -/
def kDoubleTwoTo64 : Dbl := .fin false (2 ^ 64 * unit1)
/-- `CheckedDoubleToUint64`, overflow.cc:309-314. -/
def checkedDoubleToU64 (v : Dbl) : Res Int := do
  checkRange (v.isFinite && Dbl.ge v dblZero && Dbl.lt v kDoubleTwoTo64)
    "double out of uint64 range"
  Dbl.toU64 v

end Cel.Num
