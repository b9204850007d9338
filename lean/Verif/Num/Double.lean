import Verif.Num.IntModel
import Mathlib.Data.Rat.Defs
import Mathlib.Algebra.Order.Ring.Rat
import Mathlib.Tactic.FieldSimp
import Mathlib.Tactic.Ring
import Mathlib.Tactic.Linarith
import Mathlib.Tactic.NormNum

/-!
# IEEE-754 binary64

A finite double is stored as sign and magnitude in units of 2^-1074 (the smallest subnormal):
every finite double is an integral multiple of that unit, so the order on values is the order on
`Int`.  `ofBits` decodes a 64-bit pattern; `WF` characterises its image (`wf_iff_ofBits`).
-/

namespace Cel.Num
open Cel

/-- A double: NaN (payloads are not modelled), infinity, or `± mag * 2^-1074`. -/
inductive Dbl where
  | nan
  | inf (neg : Bool)
  | fin (neg : Bool) (mag : Nat)
  deriving DecidableEq, Repr

/-- 2^1074: the number of units in 1.0. -/
def unit1 : Nat := 2 ^ 1074

/-- Magnitude (in units) representable with 53 significant bits within binary64's exponent range:
`m * 2^e` with `m < 2^53`, `0 ≤ e ≤ 2045`  (2045 = 971 + 1074). -/
def RepMag (mag : Nat) : Prop := ∃ m e, m < 2 ^ 53 ∧ e ≤ 2045 ∧ mag = m * 2 ^ e

namespace Dbl

/-- The doubles that exist. -/
def WF : Dbl → Prop
  | fin _ mag => RepMag mag
  | _ => True

/-- Decoding of a 64-bit pattern (IEEE-754-2008 §3.4): sign, 11-bit biased exponent, 52-bit
fraction. -/
def ofBits (b : BitVec 64) : Dbl :=
  let s := b.getMsbD 0
  let e := (b.toNat / 2 ^ 52) % 2 ^ 11
  let f := b.toNat % 2 ^ 52
  if e = 2047 then (if f = 0 then .inf s else .nan)
  else if e = 0 then .fin s f
  else .fin s ((2 ^ 52 + f) * 2 ^ (e - 1))

/-- Signed magnitude in units of 2^-1074. -/
def sval (neg : Bool) (mag : Nat) : Int := if neg then -(mag : Int) else mag

/-- Mathematical value of a finite double. -/
def toRat : Dbl → Option ℚ
  | fin s m => some ((if s then -(m : ℚ) else (m : ℚ)) / 2 ^ 1074)
  | _ => none

def isNaN : Dbl → Bool
  | nan => true
  | _ => false
def isFinite : Dbl → Bool
  | fin _ _ => true
  | _ => false

/-- IEEE comparison of two doubles: `none` when unordered. `-0` and `+0` compare equal. -/
def cmp : Dbl → Dbl → Option Ordering
  | nan, _ => none
  | _, nan => none
  | inf a, inf b => some (if a = b then .eq else if a then .lt else .gt)
  | inf a, fin _ _ => some (if a then .lt else .gt)
  | fin _ _, inf b => some (if b then .gt else .lt)
  | fin a m, fin b n => some (compare (sval a m) (sval b n))

/-- C++ `a < b`, `a <= b`, `a > b`, `a >= b`, `a == b` on doubles. -/
def lt (a b : Dbl) : Bool := cmp a b == some .lt
def gt (a b : Dbl) : Bool := cmp a b == some .gt
def eq (a b : Dbl) : Bool := cmp a b == some .eq
def le (a b : Dbl) : Bool := lt a b || eq a b
def ge (a b : Dbl) : Bool := gt a b || eq a b

/-- Negation. -/
def neg : Dbl → Dbl
  | nan => nan
  | inf s => inf (!s)
  | fin s m => fin (!s) m

/-- Round a natural number to 53 significant bits, ties to even. -/
def round53 (n : Nat) : Nat :=
  if n < 2 ^ 53 then n
  else
    let s := Nat.log2 n - 52
    let q := n / 2 ^ s
    let r := n % 2 ^ s
    let q' := if 2 * r > 2 ^ s ∨ (2 * r = 2 ^ s ∧ q % 2 = 1) then q + 1 else q
    q' * 2 ^ s

/-- `static_cast<double>` of a 64-bit integer: round to nearest, ties to even. -/
def ofInt (x : Int) : Dbl := .fin (decide (x < 0)) (round53 x.natAbs * unit1)

/-- Truncation toward zero of a finite double. -/
def truncInt (s : Bool) (m : Nat) : Int := sval s (m / unit1)

/-- `static_cast<int64_t>(double)`: undefined when the truncated value is not an int64. -/
def toI64 : Dbl → Res Int
  | fin s m => if InI64 (truncInt s m) then .ok (truncInt s m) else .ub
  | _ => .ub
/-- `static_cast<uint64_t>(double)`: undefined when the truncated value is not a uint64. -/
def toU64 : Dbl → Res Int
  | fin s m => if InU64 (truncInt s m) then .ok (truncInt s m) else .ub
  | _ => .ub

end Dbl
end Cel.Num
