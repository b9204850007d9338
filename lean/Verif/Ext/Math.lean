import Mathlib.Data.Rat.Floor
import Verif.Num.NumberProps
import Verif.Data.Equal

/-!
# C45: the math extension (`extensions/math_ext.cc`, `extensions/math_ext_macros.cc`)

`int64_t` and `uint64_t` are integers in range, with 64-bit patterns for the bit operations.  `math.sqrt` is not modelled.
-/

set_option linter.unusedSimpArgs false
set_option linter.unusedVariables false

namespace Cel.Ext
open Cel Cel.Num Cel.Num.Spec Cel.Eval Cel.Data

/-! ## Model: bit operations -/

/-- `absl::bit_cast<uint64_t>` of an `int64_t`, and the `uint64_t` itself. -/
def bits (x : Int) : BitVec 64 := BitVec.ofInt 64 x

/-- `BitAndInt`, `BitAndUint` (`extensions/math_ext.cc` lines 245-247). -/
def bitAndInt (a b : Int) : Int := (bits a &&& bits b).toInt
def bitAndUint (a b : Int) : Int := (bits a &&& bits b).toNat
/-- `BitOrInt`, `BitOrUint` (lines 249-251). -/
def bitOrInt (a b : Int) : Int := (bits a ||| bits b).toInt
def bitOrUint (a b : Int) : Int := (bits a ||| bits b).toNat
/-- `BitXorInt`, `BitXorUint` (lines 253-255). -/
def bitXorInt (a b : Int) : Int := (bits a ^^^ bits b).toInt
def bitXorUint (a b : Int) : Int := (bits a ^^^ bits b).toNat
/-- `BitNotInt`, `BitNotUint` (lines 257-259). -/
def bitNotInt (a : Int) : Int := (~~~ bits a).toInt
def bitNotUint (a : Int) : Int := (~~~ bits a).toNat

/-- The error of the shifts (the amount is not printed). -/
def negativeShift (fn : String) : Value := .error ⟨.invalidArgument, fn ++ "() invalid negative shift"⟩

/-- A C++ shift of a `uint64_t`: undefined if the amount is not less than the width. -/
def cppShl (x : BitVec 64) (n : Int) : Res (BitVec 64) := if 0 ≤ n ∧ n < 64 then .ok (x <<< n.toNat) else .ub
def cppShr (x : BitVec 64) (n : Int) : Res (BitVec 64) := if 0 ≤ n ∧ n < 64 then .ok (x >>> n.toNat) else .ub

/-- `BitShiftLeftInt` (`extensions/math_ext.cc` lines 261-274). -/
def bitShiftLeftInt (lhs rhs : Int) : Res Value :=
  if rhs < 0 then .ok (negativeShift "math.bitShiftLeft")
  else if rhs > 63 then .ok (.int 0)
  else do let r ← cppShl (bits lhs) rhs; .ok (.int r.toInt)
/-- `BitShiftLeftUint` (lines 276-285). -/
def bitShiftLeftUint (lhs rhs : Int) : Res Value :=
  if rhs < 0 then .ok (negativeShift "math.bitShiftLeft")
  else if rhs > 63 then .ok (.uint 0)
  else do let r ← cppShl (bits lhs) rhs; .ok (.uint r.toNat)
/-- `BitShiftRightInt` (lines 287-299). -/
def bitShiftRightInt (lhs rhs : Int) : Res Value :=
  if rhs < 0 then .ok (negativeShift "math.bitShiftRight")
  else if rhs > 63 then .ok (.int 0)
  else do let r ← cppShr (bits lhs) rhs; .ok (.int r.toInt)
/-- `BitShiftRightUint` (lines 301-310). -/
def bitShiftRightUint (lhs rhs : Int) : Res Value :=
  if rhs < 0 then .ok (negativeShift "math.bitShiftRight")
  else if rhs > 63 then .ok (.uint 0)
  else do let r ← cppShr (bits lhs) rhs; .ok (.uint r.toNat)

/-! ## Model: sign, absolute value, classification, rounding -/

/-- `AbsInt` (lines 222-227); the negation is C++ negation. -/
def absInt (v : Int) : Res Value :=
  if v = i64Min then .ok (.error ⟨.invalidArgument, "integer overflow"⟩)
  else do let r ← (if v < 0 then (if InI64 (-v) then .ok (-v) else .ub) else .ok v); .ok (.int r)
/-- `AbsUint` (line 229). -/
def absUint (v : Int) : Int := v
/-- `AbsDouble`, `std::fabs` (line 220). -/
def absDouble : Dbl → Dbl
  | .nan => .nan
  | .inf _ => .inf false
  | .fin _ m => .fin false m
/-- `SignInt` (line 241). -/
def signInt (v : Int) : Int := if v < 0 then -1 else if v > 0 then 1 else 0
/-- `SignUint` (line 243). -/
def signUint (v : Int) : Int := if v = 0 then 0 else 1
/-- `std::signbit`. -/
def signbit : Dbl → Bool
  | .nan => false
  | .inf s => s
  | .fin s _ => s
/-- `SignDouble` (lines 231-239). -/
def signDouble (v : Dbl) : Dbl :=
  if v.isNaN then v
  else if Dbl.eq v dblZero then dblZero
  else if signbit v then Dbl.ofInt (-1) else Dbl.ofInt 1
/-- `IsInfDouble`, `IsNaNDouble`, `IsFiniteDouble` (lines 214-218). -/
def isInfDouble : Dbl → Bool
  | .inf _ => true
  | _ => false
def isNaNDouble (d : Dbl) : Bool := d.isNaN
def isFiniteDouble (d : Dbl) : Bool := d.isFinite
/-- `TruncDouble`, `std::trunc` (line 206). -/
def truncDouble : Dbl → Dbl
  | .fin s m => .fin s (m / unit1 * unit1)
  | d => d
/-- `FloorDouble`, `std::floor` (line 202). -/
def floorDouble : Dbl → Dbl
  | .fin false m => .fin false (m / unit1 * unit1)
  | .fin true m => .fin true ((m + (unit1 - 1)) / unit1 * unit1)
  | d => d
/-- `CeilDouble`, `std::ceil` (line 200). -/
def ceilDouble : Dbl → Dbl
  | .fin true m => .fin true (m / unit1 * unit1)
  | .fin false m => .fin false ((m + (unit1 - 1)) / unit1 * unit1)
  | d => d
/-- `RoundDouble`, `std::round` (line 204): half away from zero. -/
def roundDouble : Dbl → Dbl
  | .fin s m => .fin s ((2 * m + unit1) / (2 * unit1) * unit1)
  | d => d

/-! ## Model: extrema -/

/-- `NumberToValue` (lines 52-60). -/
def numberToValue : Number → Value
  | .uint u => .uint u
  | .int i => .int i
  | .dbl d => .dbl d

/-- `MinNumber`, `MaxNumber` (lines 77-82, 128-133). -/
def minNumber (v1 v2 : Number) : Number := if v2.lt v1 then v2 else v1
def maxNumber (v1 v2 : Number) : Number := if v2.gt v1 then v2 else v1

/-- The error of `ValueToNumber` (lines 62-75; `numOf` is its success). -/
def notNumeric (fn : String) : Value := .error ⟨.invalidArgument, fn ++ " arguments must be numeric"⟩

/-- The loops of `MinList` (lines 116-125) and `MaxList` (lines 162-171). -/
def listLoop (fn : String) (pick : Number → Number → Number) : List Value → Number → Value
  | [], cur => numberToValue cur
  | v :: rest, cur => match numOf v with
    | none => notNumeric fn
    | some n => listLoop fn pick rest (pick cur n)

/-- `MinList` (lines 98-126) and `MaxList` (lines 144-172): one text up to the name and the choice. -/
def extremeList (fn : String) (pick : Number → Number → Number) : List Value → Value
  | [] => .error ⟨.invalidArgument, fn ++ " argument must not be empty"⟩
  | v :: rest => match numOf v with
    | none => notNumeric fn
    | some n => listLoop fn pick rest n

def minList (l : List Value) : Value := extremeList "math.@min" minNumber l
def maxList (l : List Value) : Value := extremeList "math.@max" maxNumber l

/-- The overloads of `math.@min` and `math.@max` (`RegisterMathExtensionFunctions`, lines 314-385): one number, two numbers of any
kinds, or a list. -/
def callExtreme (fn : String) (pick : Number → Number → Number) (args : List Value) : Value :=
  match args with
  | [.list l] => extremeList fn pick l
  | [a] => match numOf a with
    | some x => numberToValue x
    | none => .error (noOverload fn)
  | [a, b] => match numOf a, numOf b with
    | some x, some y => numberToValue (pick x y)
    | _, _ => .error (noOverload fn)
  | _ => .error (noOverload fn)

/-- The calls `math.least(…)` and `math.greatest(…)` expand to (`extensions/math_ext_macros.cc` lines 95-190), applied to the values
of the arguments; `none` is the parse error for no arguments.  The check of literal arguments is not modelled. -/
def callMacro (fn : String) (pick : Number → Number → Number) (args : List Value) : Option Value :=
  match args with
  | [] => none
  | [a] => some (callExtreme fn pick [a])
  | [a, b] => some (callExtreme fn pick [a, b])
  | _ => some (callExtreme fn pick [.list args])

def least (args : List Value) : Option Value := callMacro "math.@min" minNumber args
def greatest (args : List Value) : Option Value := callMacro "math.@max" maxNumber args

/-! ## Specification -/

/-- Bit `i` of the two's complement representation. -/
def bit (x : Int) (i : Nat) : Bool := decide (x / 2 ^ i % 2 = 1)

/-! ## Bit operations -/

theorem bits_lsb (x : Int) (i : Nat) (h : i < 64) : (bits x).getLsbD i = bit x i := by
  unfold bits bit
  rw [← BitVec.testBit_toNat, BitVec.toNat_ofInt, Nat.testBit_eq_decide_div_mod_eq]
  have hpow : (2 : Int) ^ 64 = 2 ^ i * (2 * 2 ^ (63 - i)) := by
    rw [show (2 : Int) * 2 ^ (63 - i) = 2 ^ (63 - i + 1) by rw [pow_succ]; ring, ← pow_add]
    congr 1; omega
  have hp : (0 : Int) < 2 ^ i := by positivity
  have h1 : x % 2 ^ 64 / 2 ^ i % 2 = x / 2 ^ i % 2 := by
    have hx := Int.emod_add_mul_ediv x (2 ^ 64)
    have : x / 2 ^ i = x % 2 ^ 64 / 2 ^ i + 2 * (2 ^ (63 - i) * (x / 2 ^ 64)) := by
      conv_lhs => rw [← hx]
      rw [hpow]
      rw [show 2 ^ i * (2 * 2 ^ (63 - i)) * (x / (2 ^ i * (2 * 2 ^ (63 - i)))) =
        (2 * (2 ^ (63 - i) * (x / (2 ^ i * (2 * 2 ^ (63 - i)))))) * 2 ^ i by ring, Int.add_mul_ediv_right _ _ (ne_of_gt hp)]
    rw [this, Int.add_mul_emod_self_left]
  have h2 : (x % ((2 ^ 64 : Nat) : Int)).toNat / 2 ^ i % 2 = 1 ↔ x % 2 ^ 64 / 2 ^ i % 2 = 1 := by
    have hnn : 0 ≤ x % ((2 ^ 64 : Nat) : Int) := Int.emod_nonneg _ (by norm_num)
    constructor
    · intro h
      have : (((x % ((2 ^ 64 : Nat) : Int)).toNat / 2 ^ i % 2 : Nat) : Int) = 1 := by rw [h]; rfl
      rw [Int.natCast_mod, Int.natCast_div, Int.toNat_of_nonneg hnn] at this
      push_cast at this; exact this
    · intro h
      have : (((x % ((2 ^ 64 : Nat) : Int)).toNat / 2 ^ i % 2 : Nat) : Int) = 1 := by
        rw [Int.natCast_mod, Int.natCast_div, Int.toNat_of_nonneg hnn]; push_cast; exact h
      exact_mod_cast this
  rw [Bool.eq_iff_iff, decide_eq_true_iff, decide_eq_true_iff, h2, h1]

theorem bits_toInt (x : Int) (h : InI64 x) : (bits x).toInt = x := by
  unfold bits
  rw [BitVec.toInt_ofInt, Int.bmod_eq_of_le]
  · unfold InI64 i64Min i64Max at h; omega
  · unfold InI64 i64Min i64Max at h; omega

theorem inI64_toInt (b : BitVec 64) : InI64 b.toInt := by
  have h1 := BitVec.le_toInt b
  have h2 := @BitVec.toInt_lt 64 b
  unfold InI64 i64Min i64Max
  norm_num at h1 h2
  omega

theorem inU64_toNat (b : BitVec 64) : InU64 b.toNat := by
  have := b.isLt
  unfold InU64 u64Max
  omega

theorem bits_of_toInt (b : BitVec 64) : bits b.toInt = b := BitVec.ofInt_toInt

theorem bits_of_toNat (b : BitVec 64) : bits b.toNat = b := by
  unfold bits
  rw [BitVec.ofInt_natCast, BitVec.ofNat_toNat]; simp

/-- Two integers of one type with the same bits are the same: the statements below determine the results. -/
theorem bit_ext_int (x y : Int) (hx : InI64 x) (hy : InI64 y) (h : ∀ i < 64, bit x i = bit y i) : x = y := by
  rw [← bits_toInt x hx, ← bits_toInt y hy]
  congr 1
  apply BitVec.eq_of_getLsbD_eq
  intro i hi
  rw [bits_lsb x i hi, bits_lsb y i hi, h i hi]

/-- **C45 (and, or, xor, not).** Every bit of the result is the operation on the bits of the operands, and the result is in range:
for `int` and for `uint`. -/
theorem C45_bitwise (a b : Int) :
    (InI64 (bitAndInt a b) ∧ ∀ i < 64, bit (bitAndInt a b) i = (bit a i && bit b i)) ∧
    (InU64 (bitAndUint a b) ∧ ∀ i < 64, bit (bitAndUint a b) i = (bit a i && bit b i)) ∧
    (InI64 (bitOrInt a b) ∧ ∀ i < 64, bit (bitOrInt a b) i = (bit a i || bit b i)) ∧
    (InU64 (bitOrUint a b) ∧ ∀ i < 64, bit (bitOrUint a b) i = (bit a i || bit b i)) ∧
    (InI64 (bitXorInt a b) ∧ ∀ i < 64, bit (bitXorInt a b) i = (bit a i ^^ bit b i)) ∧
    (InU64 (bitXorUint a b) ∧ ∀ i < 64, bit (bitXorUint a b) i = (bit a i ^^ bit b i)) ∧
    (InI64 (bitNotInt a) ∧ ∀ i < 64, bit (bitNotInt a) i = !(bit a i)) ∧
    (InU64 (bitNotUint a) ∧ ∀ i < 64, bit (bitNotUint a) i = !(bit a i)) := by
  refine ⟨⟨inI64_toInt _, fun i hi => ?_⟩, ⟨inU64_toNat _, fun i hi => ?_⟩, ⟨inI64_toInt _, fun i hi => ?_⟩, ⟨inU64_toNat _, fun i hi => ?_⟩,
    ⟨inI64_toInt _, fun i hi => ?_⟩, ⟨inU64_toNat _, fun i hi => ?_⟩, ⟨inI64_toInt _, fun i hi => ?_⟩, ⟨inU64_toNat _, fun i hi => ?_⟩⟩
  · rw [← bits_lsb _ i hi, bitAndInt, bits_of_toInt, BitVec.getLsbD_and, bits_lsb _ _ hi, bits_lsb _ _ hi]
  · rw [← bits_lsb _ i hi, bitAndUint, bits_of_toNat, BitVec.getLsbD_and, bits_lsb _ _ hi, bits_lsb _ _ hi]
  · rw [← bits_lsb _ i hi, bitOrInt, bits_of_toInt, BitVec.getLsbD_or, bits_lsb _ _ hi, bits_lsb _ _ hi]
  · rw [← bits_lsb _ i hi, bitOrUint, bits_of_toNat, BitVec.getLsbD_or, bits_lsb _ _ hi, bits_lsb _ _ hi]
  · rw [← bits_lsb _ i hi, bitXorInt, bits_of_toInt, BitVec.getLsbD_xor, bits_lsb _ _ hi, bits_lsb _ _ hi]
  · rw [← bits_lsb _ i hi, bitXorUint, bits_of_toNat, BitVec.getLsbD_xor, bits_lsb _ _ hi, bits_lsb _ _ hi]
  · rw [← bits_lsb _ i hi, bitNotInt, bits_of_toInt, BitVec.getLsbD_not, bits_lsb _ _ hi]; simp [hi]
  · rw [← bits_lsb _ i hi, bitNotUint, bits_of_toNat, BitVec.getLsbD_not, bits_lsb _ _ hi]; simp [hi]

theorem toInt_mod (b : BitVec 64) : b.toInt % 2 ^ 64 = b.toNat := by
  rw [BitVec.toInt_eq_toNat_bmod]
  have := Int.emod_bmod (b.toNat) (2 ^ 64)
  have h := b.isLt
  rw [show (2 : Int) ^ 64 = ((2 ^ 64 : Nat) : Int) by norm_num, Int.bmod_emod]
  omega

theorem bits_toNat (x : Int) : ((bits x).toNat : Int) = x % 2 ^ 64 := by
  unfold bits
  rw [BitVec.toNat_ofInt, Int.toNat_of_nonneg (Int.emod_nonneg _ (by norm_num))]; norm_num

/-- **C45 (left shift).** A negative amount is an error; any other shift is multiplication by a power of two modulo 2^64, in
range, also where the amount is 64 or more (the result is then 0).  No shift is undefined. -/
theorem C45_shift_left (x n : Int) :
    (n < 0 → ∃ s, bitShiftLeftInt x n = .ok (.error s) ∧ bitShiftLeftUint x n = .ok (.error s) ∧ s.code = .invalidArgument) ∧
    (0 ≤ n → ∃ r u, bitShiftLeftInt x n = .ok (.int r) ∧ bitShiftLeftUint x n = .ok (.uint u) ∧ InI64 r ∧ InU64 u ∧
      r % 2 ^ 64 = x * 2 ^ n.toNat % 2 ^ 64 ∧ u = x * 2 ^ n.toNat % 2 ^ 64) := by
  constructor
  · intro h
    exact ⟨_, if_pos h, if_pos h, rfl⟩
  · intro h
    by_cases h63 : n > 63
    · refine ⟨0, 0, ?_, ?_, by decide, by decide, ?_, ?_⟩
      · rw [bitShiftLeftInt, if_neg (by omega), if_pos h63]
      · rw [bitShiftLeftUint, if_neg (by omega), if_pos h63]
      all_goals
        have : n.toNat = 64 + (n.toNat - 64) := by omega
        rw [this, pow_add, show x * (2 ^ 64 * 2 ^ (n.toNat - 64)) = 2 ^ 64 * (x * 2 ^ (n.toNat - 64)) by ring, Int.mul_emod_right]
      norm_num
    · have hs : cppShl (bits x) n = .ok (bits x <<< n.toNat) := if_pos ⟨h, by omega⟩
      refine ⟨(bits x <<< n.toNat).toInt, (bits x <<< n.toNat).toNat, ?_, ?_, inI64_toInt _, inU64_toNat _, ?_⟩
      · rw [bitShiftLeftInt, if_neg (by omega), if_neg h63, hs]; rfl
      · rw [bitShiftLeftUint, if_neg (by omega), if_neg h63, hs]; rfl
      · have key : (((bits x <<< n.toNat).toNat : Nat) : Int) = x * 2 ^ n.toNat % 2 ^ 64 := by
          rw [BitVec.toNat_shiftLeft, Nat.shiftLeft_eq, Int.natCast_mod, Int.natCast_mul, bits_toNat]
          push_cast
          rw [Int.mul_emod, Int.emod_emod_of_dvd _ (dvd_refl _), ← Int.mul_emod]
        exact ⟨by rw [toInt_mod, key], key⟩

/-- **C45 (right shift).** A negative amount is an error; any other shift divides the 64-bit pattern, read as unsigned, by a power of
two, rounding down (no sign extension), and amounts of 64 or more give 0. -/
theorem C45_shift_right (x n : Int) :
    (n < 0 → ∃ s, bitShiftRightInt x n = .ok (.error s) ∧ bitShiftRightUint x n = .ok (.error s) ∧ s.code = .invalidArgument) ∧
    (0 ≤ n → ∃ r u, bitShiftRightInt x n = .ok (.int r) ∧ bitShiftRightUint x n = .ok (.uint u) ∧ InI64 r ∧ InU64 u ∧
      r % 2 ^ 64 = x % 2 ^ 64 / 2 ^ n.toNat ∧ u = x % 2 ^ 64 / 2 ^ n.toNat) := by
  constructor
  · intro h
    exact ⟨_, if_pos h, if_pos h, rfl⟩
  · intro h
    by_cases h63 : n > 63
    · have hz : x % 2 ^ 64 / 2 ^ n.toNat = 0 := by
        apply Int.ediv_eq_zero_of_lt (Int.emod_nonneg _ (by norm_num))
        calc x % 2 ^ 64 < 2 ^ 64 := Int.emod_lt_of_pos _ (by norm_num)
          _ ≤ 2 ^ n.toNat := pow_le_pow_right₀ (by norm_num) (by omega)
      refine ⟨0, 0, ?_, ?_, by decide, by decide, ?_, hz.symm⟩
      · rw [bitShiftRightInt, if_neg (by omega), if_pos h63]
      · rw [bitShiftRightUint, if_neg (by omega), if_pos h63]
      · rw [hz]; norm_num
    · have hs : cppShr (bits x) n = .ok (bits x >>> n.toNat) := if_pos ⟨h, by omega⟩
      refine ⟨(bits x >>> n.toNat).toInt, (bits x >>> n.toNat).toNat, ?_, ?_, inI64_toInt _, inU64_toNat _, ?_⟩
      · rw [bitShiftRightInt, if_neg (by omega), if_neg h63, hs]; rfl
      · rw [bitShiftRightUint, if_neg (by omega), if_neg h63, hs]; rfl
      · have key : (((bits x >>> n.toNat).toNat : Nat) : Int) = x % 2 ^ 64 / 2 ^ n.toNat := by
          rw [BitVec.toNat_ushiftRight, Nat.shiftRight_eq_div_pow, Int.natCast_div, bits_toNat]; push_cast; rfl
        exact ⟨by rw [toInt_mod, key], key⟩

/-! ## Sign and absolute value -/

/-- **C45 (abs and sign of integers).** `math.abs` is the absolute value, except that the smallest `int` is an error; never
undefined.  `math.sign` is the sign. -/
theorem C45_abs_sign (v : Int) (h : InI64 v) :
    (v ≠ i64Min → absInt v = .ok (.int v.natAbs) ∧ InI64 v.natAbs) ∧
    (v = i64Min → ∃ s, absInt v = .ok (.error s) ∧ s.code = .invalidArgument) ∧
    signInt v = v.sign ∧ (0 ≤ v → absUint v = v ∧ signUint v = v.sign) := by
  refine ⟨fun hv => ?_, fun hv => ⟨_, if_pos hv, rfl⟩, ?_, fun hv => ⟨rfl, ?_⟩⟩
  · have hr : -9223372036854775808 < v ∧ v ≤ 9223372036854775807 := by
      unfold InI64 i64Min i64Max at h; unfold i64Min at hv; omega
    refine ⟨?_, by unfold InI64 i64Min i64Max; omega⟩
    rw [absInt, if_neg hv]
    by_cases hn : v < 0
    · rw [if_pos hn, if_pos (by unfold InI64 i64Min i64Max; omega)]
      simp only [Res.mbind_ok, Res.ok.injEq, Value.int.injEq]; omega
    · rw [if_neg hn]
      simp only [Res.mbind_ok, Res.ok.injEq, Value.int.injEq]; omega
  · unfold signInt
    rcases Int.lt_trichotomy v 0 with h | h | h
    · rw [if_pos h, Int.sign_eq_neg_one_of_neg h]
    · subst h; rfl
    · rw [if_neg (by omega), if_pos h, Int.sign_eq_one_of_pos h]
  · unfold signUint
    split
    · rename_i h; subst h; rfl
    · rw [Int.sign_eq_one_of_pos (by omega)]

/-- **C45 (abs and sign of doubles, classification).** -/
theorem C45_double (d : Dbl) :
    (d = .nan → signDouble d = .nan ∧ absDouble d = .nan) ∧
    (∀ s m, d = .fin s m → m = 0 → signDouble d = dblZero) ∧
    (∀ s m, d = .fin s m → m ≠ 0 → signDouble d = Dbl.ofInt (if s then -1 else 1)) ∧
    (∀ s, d = .inf s → signDouble d = Dbl.ofInt (if s then -1 else 1) ∧ absDouble d = .inf false) ∧
    (∀ q, d.toRat = some q → (absDouble d).toRat = some |q|) ∧
    (isNaNDouble d = true ↔ d = .nan) ∧ (isInfDouble d = true ↔ ∃ s, d = .inf s) ∧ (isFiniteDouble d = true ↔ ∃ q, d.toRat = some q) := by
  have hz : dblZero = .fin false 0 := by decide +kernel
  refine ⟨?_, ?_, ?_, ?_, ?_, ?_, ?_, ?_⟩
  · rintro rfl; exact ⟨rfl, rfl⟩
  · rintro s m rfl rfl
    rw [signDouble, if_neg (by simp [Dbl.isNaN]), if_pos]
    rw [hz, eq_fin]; cases s <;> decide
  · rintro s m rfl hm
    rw [signDouble, if_neg (by simp [Dbl.isNaN]), if_neg]
    · rw [show signbit (.fin s m) = s from rfl]; cases s
      · rw [if_neg (by simp), if_neg (by simp)]
      · rw [if_pos rfl, if_pos rfl]
    · rw [hz, eq_fin]; cases s <;> simp [Dbl.sval, hm]
  · rintro s rfl
    rw [signDouble, if_neg (by simp [Dbl.isNaN]), if_neg (by rw [hz]; cases s <;> simp [Dbl.eq, Dbl.cmp])]
    refine ⟨?_, rfl⟩
    rw [show signbit (.inf s) = s from rfl]; cases s
    · rw [if_neg (by simp), if_neg (by simp)]
    · rw [if_pos rfl, if_pos rfl]
  · intro q hq
    cases d with
    | fin s m =>
      simp only [Dbl.toRat, Option.some.injEq, absDouble, Bool.false_eq_true, if_false] at hq ⊢
      subst hq
      have hp := unitQ_pos
      generalize (2 : ℚ) ^ 1074 = t at hp
      cases s
      · simp only [Bool.false_eq_true, if_false]; rw [abs_of_nonneg (by positivity)]
      · simp only [if_true]; rw [neg_div, abs_neg, abs_of_nonneg (by positivity)]
    | _ => simp [Dbl.toRat] at hq
  · cases d <;> simp [isNaNDouble, Dbl.isNaN]
  · cases d <;> simp [isInfDouble]
  · cases d <;> simp [isFiniteDouble, Dbl.isFinite, Dbl.toRat]

/-! ## Rounding -/

theorem repMag_whole (m k : Nat) (hm : RepMag m) (h1 : m / unit1 ≤ k) (h2 : k ≤ m / unit1 + 1) (h3 : m % unit1 = 0 → k = m / unit1) :
    RepMag (k * unit1) := by
  obtain ⟨a, e, ha, he, rfl⟩ := hm
  by_cases h : 1074 ≤ e
  · have hd : a * 2 ^ e = a * 2 ^ (e - 1074) * unit1 := by
      unfold unit1; rw [Nat.mul_assoc, ← pow_add]; congr 2; omega
    have hk := h3 (by rw [hd]; exact Nat.mul_mod_left _ _)
    rw [hk, hd, Nat.mul_div_cancel _ unit1_pos, ← hd]
    exact ⟨a, e, ha, he, rfl⟩
  · have hlt : a * 2 ^ e / unit1 < 2 ^ 53 := by
      rw [Nat.div_lt_iff_lt_mul unit1_pos]
      calc a * 2 ^ e < 2 ^ 53 * 2 ^ e := Nat.mul_lt_mul_of_pos_right ha (Nat.two_pow_pos e)
        _ ≤ 2 ^ 53 * unit1 := Nat.mul_le_mul_left _ (by unfold unit1; exact Nat.pow_le_pow_right (by omega) (by omega))
    by_cases hk : k = 2 ^ 53
    · refine ⟨1, 1127, by norm_num, by omega, ?_⟩
      rw [hk]; unfold unit1; rw [← pow_add, one_mul]
    · exact ⟨k, 1074, by omega, by omega, rfl⟩

theorem ceil_exact (m U : Nat) (hU : 0 < U) (h : m % U = 0) : (m + (U - 1)) / U = m / U := by
  have := Nat.div_add_mod m U
  rw [h, Nat.add_zero] at this
  conv_lhs => rw [← this]
  rw [Nat.mul_add_div hU, Nat.div_eq_of_lt (show U - 1 < U by omega), Nat.add_zero]

theorem round_split (m U : Nat) (hU : 0 < U) :
    m / U ≤ (2 * m + U) / (2 * U) ∧ (2 * m + U) / (2 * U) ≤ m / U + 1 ∧ (m % U = 0 → (2 * m + U) / (2 * U) = m / U) := by
  have hk := Nat.div_add_mod m U
  have hr := Nat.mod_lt m hU
  have h2 : (2 * m + U) / (2 * U) = m / U + (2 * (m % U) + U) / (2 * U) := by
    conv_lhs => rw [← hk]
    rw [show 2 * (U * (m / U) + m % U) + U = (2 * U) * (m / U) + (2 * (m % U) + U) by ring, Nat.mul_add_div (by omega)]
  rw [h2]
  generalize m % U = r at hr ⊢
  generalize m / U = k
  have h3 : (2 * r + U) / (2 * U) ≤ 1 := by
    rw [← Nat.lt_succ_iff, Nat.div_lt_iff_lt_mul (by omega)]; omega
  refine ⟨Nat.le_add_right _ _, Nat.add_le_add_left h3 _, fun h0 => ?_⟩
  rw [h0, Nat.mul_zero, Nat.zero_add, Nat.div_eq_of_lt (show U < 2 * U by omega), Nat.add_zero]

theorem floor_nat (m U : Nat) (hU : 0 < U) : ⌊(m : ℚ) / U⌋ = ((m / U : Nat) : Int) := by
  rw [Int.floor_eq_iff]
  have hq : (0 : ℚ) < U := by exact_mod_cast hU
  constructor
  · rw [Int.cast_natCast, le_div_iff₀ hq]
    have := Nat.div_mul_le_self m U
    exact_mod_cast this
  · rw [div_lt_iff₀ hq, Int.cast_natCast]
    have := Nat.lt_mul_div_succ m hU
    have h : ((m : Nat) : ℚ) < ((U * (m / U + 1) : Nat) : ℚ) := by exact_mod_cast this
    push_cast at h ⊢
    linarith

theorem ceil_nat (m U : Nat) (hU : 0 < U) : ⌈(m : ℚ) / U⌉ = (((m + (U - 1)) / U : Nat) : Int) := by
  rw [Int.ceil_eq_iff]
  have hq : (0 : ℚ) < U := by exact_mod_cast hU
  have h1 := Nat.lt_mul_div_succ (m + (U - 1)) hU
  have h2 := Nat.div_mul_le_self (m + (U - 1)) U
  generalize (m + (U - 1)) / U = k at h1 h2
  constructor
  · rw [lt_div_iff₀ hq, Int.cast_natCast]
    have h : (((k * U : Nat) : Int) : ℚ) < (((m + U : Nat) : Int) : ℚ) := by
      have : k * U < m + U := by omega
      exact_mod_cast this
    push_cast at h; linarith
  · rw [div_le_iff₀ hq, Int.cast_natCast]
    have h : ((m : Nat) : ℚ) ≤ ((k * U : Nat) : ℚ) := by
      have : m ≤ k * U := by rw [Nat.mul_comm] at h1; rw [Nat.add_mul] at h1; omega
      exact_mod_cast this
    push_cast at h; exact h

theorem round_nat (m U : Nat) (hU : 0 < U) : ⌊(m : ℚ) / U + 1 / 2⌋ = (((2 * m + U) / (2 * U) : Nat) : Int) := by
  have hq : (0 : ℚ) < U := by exact_mod_cast hU
  rw [← floor_nat _ _ (show 0 < 2 * U by omega)]
  congr 1
  push_cast
  field_simp

theorem toRat_whole (s : Bool) (k : Nat) : (Dbl.fin s (k * unit1)).toRat = some (((if s then -(k : Int) else k) : Int) : ℚ) := by
  simp only [Dbl.toRat, Option.some.injEq]
  rw [← unit1_rat]
  have hu : ((unit1 : Nat) : ℚ) ≠ 0 := by have := unit1_pos; positivity
  cases s
  · simp only [Bool.false_eq_true, if_false]; push_cast; field_simp
  · simp only [if_true]; push_cast; field_simp

/-- **C45 (rounding).** `math.floor`, `math.ceil` and `math.trunc` give the integer they are named for, as a double that exists; and
`math.round` the nearest integer, half away from zero.  Infinities and NaN are returned as they are. -/
theorem C45_rounding (d : Dbl) (hd : d.WF) :
    (∀ q, d.toRat = some q →
      (floorDouble d).WF ∧ (floorDouble d).toRat = some (⌊q⌋ : ℚ) ∧
      (ceilDouble d).WF ∧ (ceilDouble d).toRat = some (⌈q⌉ : ℚ) ∧
      (truncDouble d).WF ∧ (truncDouble d).toRat = some ((if 0 ≤ q then ⌊q⌋ else ⌈q⌉ : Int) : ℚ) ∧
      (roundDouble d).WF ∧ (roundDouble d).toRat = some ((if 0 ≤ q then ⌊q + 1 / 2⌋ else ⌈q - 1 / 2⌉ : Int) : ℚ)) ∧
    (d.toRat = none → floorDouble d = d ∧ ceilDouble d = d ∧ truncDouble d = d ∧ roundDouble d = d) := by
  cases d with
  | nan => exact ⟨fun q h => by simp [Dbl.toRat] at h, fun _ => ⟨rfl, rfl, rfl, rfl⟩⟩
  | inf s => exact ⟨fun q h => by simp [Dbl.toRat] at h, fun _ => ⟨rfl, rfl, rfl, rfl⟩⟩
  | fin s m =>
    refine ⟨fun q hq => ?_, fun h => by simp [Dbl.toRat] at h⟩
    have hm : RepMag m := hd
    have hu := unit1_pos
    have huq : (0 : ℚ) < ((unit1 : Nat) : ℚ) := by exact_mod_cast hu
    simp only [Dbl.toRat, Option.some.injEq] at hq
    rw [← unit1_rat] at hq
    -- the three candidates
    have wt : RepMag (m / unit1 * unit1) := repMag_whole m _ hm (Nat.le_refl _) (by omega) (fun _ => rfl)
    have wc : RepMag ((m + (unit1 - 1)) / unit1 * unit1) := by
      refine repMag_whole m _ hm (Nat.div_le_div_right (by omega)) ?_ ?_
      · rw [← Nat.add_div_right _ hu]; exact Nat.div_le_div_right (by omega)
      · exact ceil_exact m unit1 hu
    have wr : RepMag ((2 * m + unit1) / (2 * unit1) * unit1) := by
      obtain ⟨r1, r2, r3⟩ := round_split m unit1 hu
      exact repMag_whole m _ hm r1 r2 r3
    have hfl := floor_nat m unit1 hu
    have hce := ceil_nat m unit1 hu
    have hro := round_nat m unit1 hu
    have hpos : 0 ≤ (m : ℚ) / unit1 := div_nonneg (Nat.cast_nonneg m) (le_of_lt huq)
    cases s
    · simp only [Bool.false_eq_true, if_false] at hq
      subst hq
      simp only [floorDouble, ceilDouble, truncDouble, roundDouble, toRat_whole, Bool.false_eq_true, if_false, if_pos hpos, hfl, hce, hro]
      exact ⟨wt, trivial, wc, trivial, wt, trivial, wr, trivial⟩
    · simp only [if_true] at hq
      subst hq
      rw [neg_div]
      simp only [floorDouble, ceilDouble, truncDouble, roundDouble, toRat_whole, if_true, Int.floor_neg, Int.ceil_neg, hfl, hce]
      by_cases h0 : 0 ≤ -((m : ℚ) / unit1)
      · have hm0 : m = 0 := by
          have h1 : (m : ℚ) / unit1 = 0 := by linarith
          rw [div_eq_zero_iff] at h1
          rcases h1 with h1 | h1
          · exact_mod_cast h1
          · exact absurd h1 (ne_of_gt huq)
        rw [if_pos h0, if_pos h0]
        refine ⟨wc, trivial, wt, trivial, wt, ?_, wr, ?_⟩
        · rw [hm0]; simp [Nat.div_eq_of_lt (show unit1 - 1 < unit1 by omega)]
        · rw [hm0]
          have : (2 * 0 + unit1) / (2 * unit1) = 0 := Nat.div_eq_of_lt (by omega)
          rw [this]; norm_num
      · rw [if_neg h0, if_neg h0]
        refine ⟨wc, trivial, wt, trivial, wt, ?_, wr, ?_⟩
        · exact congrArg some (by norm_num)
        rw [show -((m : ℚ) / unit1) - 1 / 2 = -((m : ℚ) / unit1 + 1 / 2) by ring, Int.ceil_neg, hro]

/-! ## Extrema -/

theorem lt_iff (a b : Number) (ha : a.WF) (hb : b.WF) :
    a.lt b = true ↔ match bothInt a b with
      | some (x, y) => x < y
      | none => Dbl.lt (asDbl a) (asDbl b) = true := by
  unfold Number.lt
  rw [compare_eq a b ha hb]
  cases bothInt a b with
  | some p =>
    simp only [beq_iff_eq]
    unfold compareInt
    constructor
    · intro h; split at h
      · cases h
      · split at h
        · cases h
        · omega
    · intro h; rw [if_neg (by omega), if_neg (by omega)]
  | none =>
    simp only [beq_iff_eq]
    generalize asDbl a = x; generalize asDbl b = y
    cases x with
    | nan => simp [doubleCompare, Cel.Num.eq_self, Dbl.isNaN, Dbl.lt, Dbl.cmp]
    | inf s => cases y with
      | nan => simp [doubleCompare, Cel.Num.eq_self, Dbl.isNaN, Dbl.lt, Dbl.cmp]
      | inf t => cases s <;> cases t <;> decide
      | fin t n => cases s <;> simp [doubleCompare, Cel.Num.eq_self, Dbl.isNaN, Dbl.lt, Dbl.gt, Dbl.eq, Dbl.cmp]
    | fin s m => cases y with
      | nan => simp [doubleCompare, Cel.Num.eq_self, Dbl.isNaN, Dbl.lt, Dbl.cmp]
      | inf t => cases t <;> simp [doubleCompare, Cel.Num.eq_self, Dbl.isNaN, Dbl.lt, Dbl.gt, Dbl.eq, Dbl.cmp]
      | fin t n =>
        rw [doubleCompare_fin, lt_fin]
        unfold compareInt
        simp only [decide_eq_true_iff]
        constructor
        · intro h; split at h
          · cases h
          · split at h
            · cases h
            · omega
        · intro h; rw [if_neg (by omega), if_neg (by omega)]

theorem dlt_fin (a b : Bool) (m n : Nat) : Dbl.lt (.fin a m) (.fin b n) = true ↔ Dbl.sval a m < Dbl.sval b n := by
  rw [lt_fin, decide_eq_true_iff]

theorem dlt_trans (a b c : Dbl) (h1 : Dbl.lt a b = true) (h2 : Dbl.lt b c = true) : Dbl.lt a c = true := by
  cases a with
  | nan => simp [Dbl.lt, Dbl.cmp] at h1
  | inf s =>
    cases s
    · cases b with
      | inf u => cases u <;> simp [Dbl.lt, Dbl.cmp] at h1
      | _ => simp [Dbl.lt, Dbl.cmp] at h1
    · cases c with
      | nan => cases b <;> simp [Dbl.lt, Dbl.cmp] at h2
      | inf t => cases t
                 · rfl
                 · cases b with
                   | inf u => cases u <;> simp [Dbl.lt, Dbl.cmp] at h2
                   | _ => simp [Dbl.lt, Dbl.cmp] at h2
      | fin t n => rfl
  | fin s m =>
    cases c with
    | nan => cases b <;> simp [Dbl.lt, Dbl.cmp] at h2
    | inf t => cases t
               · rfl
               · cases b with
                 | inf u => cases u <;> simp [Dbl.lt, Dbl.cmp] at h2
                 | _ => simp [Dbl.lt, Dbl.cmp] at h2
    | fin t n =>
      cases b with
      | nan => simp [Dbl.lt, Dbl.cmp] at h1
      | inf u => cases u
                 · simp [Dbl.lt, Dbl.cmp] at h2
                 · simp [Dbl.lt, Dbl.cmp] at h1
      | fin u k => rw [dlt_fin] at *; omega

theorem ofInt_lt {x y : Int} (h : Dbl.lt (Dbl.ofInt x) (Dbl.ofInt y) = true) : x < y := by
  rw [ofInt_eq, ofInt_eq, dlt_fin] at h
  by_contra hc
  have := roundI_mono (show y ≤ x by omega)
  have h1 : Dbl.sval (decide (x < 0)) (Dbl.round53 x.natAbs * unit1) = roundI x * unit1 := sval_mul _ _ _
  have h2 : Dbl.sval (decide (y < 0)) (Dbl.round53 y.natAbs * unit1) = roundI y * unit1 := sval_mul _ _ _
  rw [h1, h2] at h
  have := unit1_mul_le this
  omega

/-- Rounding an integer down the order keeps it below a double. -/
theorem ofInt_lt_dbl {x y : Int} {d : Dbl} (h : x < y) (hd : Dbl.lt (Dbl.ofInt y) d = true) : Dbl.lt (Dbl.ofInt x) d = true := by
  cases d with
  | nan => simp [Dbl.ofInt, Dbl.lt, Dbl.cmp] at hd
  | inf s => simpa [Dbl.ofInt, Dbl.lt, Dbl.cmp] using hd
  | fin s m =>
    rw [ofInt_eq, dlt_fin, sval_mul] at hd ⊢
    have h1 := unit1_mul_le (roundI_mono (show x ≤ y by omega))
    unfold roundI at h1
    omega

theorem dbl_lt_ofInt {x y : Int} {d : Dbl} (h : x < y) (hd : Dbl.lt d (Dbl.ofInt x) = true) : Dbl.lt d (Dbl.ofInt y) = true := by
  cases d with
  | nan => simp [Dbl.ofInt, Dbl.lt, Dbl.cmp] at hd
  | inf s => simpa [Dbl.ofInt, Dbl.lt, Dbl.cmp] using hd
  | fin s m =>
    rw [ofInt_eq, dlt_fin, sval_mul] at hd ⊢
    have h1 := unit1_mul_le (roundI_mono (show x ≤ y by omega))
    unfold roundI at h1
    omega

/-- The order used is transitive, although equality is not. -/
theorem lt_trans_number (a b c : Number) (ha : a.WF) (hb : b.WF) (hc : c.WF) (h1 : a.lt b = true) (h2 : b.lt c = true) :
    a.lt c = true := by
  rw [lt_iff _ _ ha hb] at h1
  rw [lt_iff _ _ hb hc] at h2
  rw [lt_iff _ _ ha hc]
  cases a <;> cases b <;> cases c <;> simp only [bothInt, asDbl] at h1 h2 ⊢
  all_goals first
    | exact dlt_trans _ _ _ h1 h2
    | exact dbl_lt_ofInt h2 h1
    | exact ofInt_lt_dbl h1 h2
    | exact ofInt_lt (dlt_trans _ _ _ h1 h2)
    | omega

theorem gt_lt (a b : Number) (ha : a.WF) (hb : b.WF) : b.gt a = a.lt b := (C10_comparison_operators_consistent a b ha hb).2.2.2.2.2.1

/-- The values of a list are numbers, the given ones. -/
def Numbers (l : List Value) (ns : List Number) : Prop := l.map numOf = ns.map some ∧ ∀ n ∈ ns, n.WF

theorem listLoop_eq (fn : String) (pick : Number → Number → Number) (l : List Value) (ns : List Number) (h : l.map numOf = ns.map some) (cur : Number) :
    listLoop fn pick l cur = numberToValue (ns.foldl pick cur) := by
  induction l generalizing ns cur with
  | nil => cases ns with
    | nil => rfl
    | cons n ns => simp at h
  | cons v l ih => cases ns with
    | nil => simp at h
    | cons n ns =>
      simp only [List.map_cons, List.cons.injEq] at h
      rw [listLoop, h.1]
      exact ih ns h.2 _

theorem numberToValue_numOf {v : Value} {n : Number} (h : numOf v = some n) : numberToValue n = v := by
  cases v <;> simp only [numOf, Option.some.injEq, reduceCtorEq] at h <;> subst h <;> rfl

theorem foldl_pick (below : Number → Number → Bool) (hirr : ∀ a, a.WF → below a a = false)
    (htr : ∀ a b c : Number, a.WF → b.WF → c.WF → below a b = true → below b c = true → below a c = true)
    (pick : Number → Number → Number) (hp : ∀ c n : Number, c.WF → n.WF → pick c n = if below n c then n else c)
    (ns : List Number) (cur : Number) (hc : cur.WF) (hw : ∀ n ∈ ns, n.WF) :
    (ns.foldl pick cur).WF ∧ ns.foldl pick cur ∈ cur :: ns ∧ (ns.foldl pick cur = cur ∨ below (ns.foldl pick cur) cur = true) ∧
      ∀ x ∈ cur :: ns, below x (ns.foldl pick cur) = false := by
  induction ns generalizing cur with
  | nil =>
    refine ⟨hc, List.mem_cons_self .., .inl rfl, fun x hx => ?_⟩
    rw [List.mem_singleton.1 hx]
    exact hirr cur hc
  | cons n ns ih =>
    have hn := hw n (List.mem_cons_self ..)
    have hw' : ∀ x ∈ ns, x.WF := fun x hx => hw x (List.mem_cons_of_mem _ hx)
    rw [List.foldl_cons, hp cur n hc hn]
    by_cases hnc : below n cur = true
    · rw [if_pos hnc]
      obtain ⟨w, h1, h2, h3⟩ := ih n hn hw'
      refine ⟨w, List.mem_cons_of_mem _ h1, ?_, fun x hx => ?_⟩
      · rcases h2 with h2 | h2
        · rw [h2]; exact .inr hnc
        · exact .inr (htr _ n cur w hn hc h2 hnc)
      · rcases List.mem_cons.1 hx with rfl | hx
        · cases hb : below x (ns.foldl pick n) with
          | false => rfl
          | true =>
            have := h3 n (List.mem_cons_self ..)
            rw [htr n x _ hn hc w hnc hb] at this; cases this
        · exact h3 x hx
    · rw [if_neg hnc]
      obtain ⟨w, h1, h2, h3⟩ := ih cur hc hw'
      refine ⟨w, ?_, h2, fun x hx => ?_⟩
      · rcases List.mem_cons.1 h1 with h | h
        · rw [h]; exact List.mem_cons_self ..
        · exact List.mem_cons_of_mem _ (List.mem_cons_of_mem _ h)
      · rcases List.mem_cons.1 hx with rfl | hx
        · exact h3 x (List.mem_cons_self ..)
        · rcases List.mem_cons.1 hx with rfl | hx
          · cases hb : below x (ns.foldl pick cur) with
            | false => rfl
            | true =>
              rcases h2 with h2 | h2
              · rw [h2] at hb; exact absurd hb hnc
              · exact absurd (htr x _ cur hn w hc hb h2) hnc
          · exact h3 x (List.mem_cons_of_mem _ hx)

theorem lt_irrefl_number (a : Number) (ha : a.WF) : a.lt a = false := by
  have := compare_swap a a ha ha
  unfold Number.lt
  cases h : a.compare a <;> rw [h] at this <;> first | rfl | cases this

theorem extremeList_eq (fn : String) (pick : Number → Number → Number) (l : List Value) (n : Number) (ns : List Number)
    (h : l.map numOf = (n :: ns).map some) : extremeList fn pick l = numberToValue (ns.foldl pick n) := by
  cases l with
  | nil => simp at h
  | cons v l =>
    simp only [List.map_cons, List.cons.injEq] at h
    rw [extremeList, h.1]
    exact listLoop_eq fn pick l ns h.2 n

/-- **C45 (least and greatest).** For a non-empty list of numbers of any kinds: the result is an element of the list, no element is
less than `math.least` and none greater than `math.greatest`, in CEL's own order. -/
theorem C45_extrema (l : List Value) (ns : List Number) (h : Numbers l ns) (hne : l ≠ []) :
    ∃ lo ∈ ns, ∃ hi ∈ ns, minList l = numberToValue lo ∧ numberToValue lo ∈ l ∧ maxList l = numberToValue hi ∧ numberToValue hi ∈ l ∧
      ∀ x ∈ ns, x.lt lo = false ∧ x.gt hi = false := by
  obtain ⟨h, hw⟩ := h
  cases ns with
  | nil => cases l with
    | nil => exact absurd rfl hne
    | cons v l => simp at h
  | cons n ns =>
    have hn := hw n (List.mem_cons_self ..)
    have hw' : ∀ x ∈ ns, x.WF := fun x hx => hw x (List.mem_cons_of_mem _ hx)
    have hmem : ∀ x ∈ n :: ns, numberToValue x ∈ l := by
      intro x hx
      have : some x ∈ l.map numOf := by rw [h]; exact List.mem_map_of_mem hx
      obtain ⟨v, hv, he⟩ := List.mem_map.1 this
      rw [numberToValue_numOf he]; exact hv
    obtain ⟨-, a1, -, a2⟩ := foldl_pick Number.lt lt_irrefl_number lt_trans_number minNumber (fun _ _ _ _ => rfl) ns n hn hw'
    obtain ⟨bw, b1, -, b2⟩ := foldl_pick (fun a b => Number.lt b a) lt_irrefl_number
      (fun a b c ha hb hc h1 h2 => lt_trans_number c b a hc hb ha h2 h1) maxNumber
      (fun c n hc hn => by unfold maxNumber; rw [gt_lt c n hc hn]) ns n hn hw'
    refine ⟨_, a1, _, b1, extremeList_eq _ _ l n ns h, hmem _ a1, extremeList_eq _ _ l n ns h, hmem _ b1, fun x hx => ⟨a2 x hx, ?_⟩⟩
    rw [gt_lt _ x bw (hw x hx)]
    exact b2 x hx

/-- **C45 (against the number line).** If there is no NaN and no integer that a double cannot represent next to a double, the value of
`math.least` is at most every value, and that of `math.greatest` at least every value. -/
theorem C45_extrema_exact (l : List Value) (ns : List Number) (h : Numbers l ns) (hne : l ≠ [])
    (hnan : ∀ x ∈ ns, value x ≠ none) (hr : ∀ x ∈ ns, ∀ y ∈ ns, NoRounding x y) :
    ∃ lo ∈ ns, ∃ hi ∈ ns, minList l = numberToValue lo ∧ maxList l = numberToValue hi ∧
      ∀ x ∈ ns, ∀ vx vlo vhi, value x = some vx → value lo = some vlo → value hi = some vhi → ¬ Ext.lt vx vlo ∧ ¬ Ext.lt vhi vx := by
  obtain ⟨lo, hlo, hi, hhi, h1, -, h2, -, h3⟩ := C45_extrema l ns h hne
  refine ⟨lo, hlo, hi, hhi, h1, h2, fun x hx vx vlo vhi e1 e2 e3 => ⟨fun hl => ?_, fun hl => ?_⟩⟩
  · have := ((C11_comparison_exact_without_rounding x lo (h.2 x hx) (h.2 lo hlo) vx vlo e1 e2 (hr x hx lo hlo)).1).2 hl
    rw [(h3 x hx).1] at this; cases this
  · have := ((C11_comparison_exact_without_rounding x hi (h.2 x hx) (h.2 hi hhi) vx vhi e1 e3 (hr x hx hi hhi)).2.1).2 hl
    rw [(h3 x hx).2] at this; cases this

/-- **C45 (errors).** An empty list, and a list with something that is no number in it, give an error. -/
theorem C45_extrema_errors (l : List Value) (h : l = [] ∨ ∃ v ∈ l, numOf v = none) :
    (∃ s, minList l = .error s ∧ s.code = .invalidArgument) ∧ (∃ s, maxList l = .error s ∧ s.code = .invalidArgument) := by
  have loop : ∀ fn pick (l : List Value) cur, (∃ v ∈ l, numOf v = none) → listLoop fn pick l cur = notNumeric fn := by
    intro fn pick l
    induction l with
    | nil => rintro cur ⟨v, hv, -⟩; cases hv
    | cons w l ih =>
      rintro cur ⟨v, hv, he⟩
      rw [listLoop]
      cases hw : numOf w with
      | none => rfl
      | some n =>
        rcases List.mem_cons.1 hv with rfl | hv
        · rw [he] at hw; cases hw
        · exact ih _ ⟨v, hv, he⟩
  have all : ∀ fn pick, ∃ s, extremeList fn pick l = .error s ∧ s.code = .invalidArgument := by
    intro fn pick
    rcases h with rfl | ⟨v, hv, he⟩
    · exact ⟨_, rfl, rfl⟩
    · cases l with
      | nil => cases hv
      | cons w l =>
        refine ⟨⟨.invalidArgument, fn ++ " arguments must be numeric"⟩, ?_, rfl⟩
        rw [extremeList]
        cases hw : numOf w with
        | none => rfl
        | some n =>
          rcases List.mem_cons.1 hv with rfl | hv
          · rw [he] at hw; cases hw
          · exact loop _ _ _ _ ⟨v, hv, he⟩
  exact ⟨all _ _, all _ _⟩

/-- **C45 (all forms agree).** `math.least(a, b, …)` with any number of numeric arguments is `math.least([a, b, …])`; with no
arguments it does not parse. -/
theorem C45_forms_agree (args : List Value) (ns : List Number) (h : args.map numOf = ns.map some) :
    least args = (if args = [] then none else some (minList args)) ∧ greatest args = (if args = [] then none else some (maxList args)) ∧
    least [.list args] = some (minList args) ∧ greatest [.list args] = some (maxList args) := by
  have all : ∀ fn pick, callMacro fn pick args = if args = [] then none else some (extremeList fn pick args) := by
    intro fn pick
    rcases args with _ | ⟨a, _ | ⟨b, _ | ⟨c, rest⟩⟩⟩
    · rfl
    · rcases ns with _ | ⟨x, _ | ⟨y, ns⟩⟩ <;> simp only [List.map_cons, List.map_nil, List.cons.injEq, and_true, reduceCtorEq, and_false] at h
      rw [if_neg (by simp)]
      show some (callExtreme fn pick [a]) = _
      rw [extremeList_eq fn pick [a] x [] (by simp [h])]
      cases a <;> simp only [numOf, Option.some.injEq, reduceCtorEq] at h <;> subst h <;> rfl
    · rcases ns with _ | ⟨x, _ | ⟨y, _ | ⟨z, ns⟩⟩⟩ <;> simp only [List.map_cons, List.map_nil, List.cons.injEq, and_true, reduceCtorEq, and_false] at h
      rw [if_neg (by simp), extremeList_eq fn pick [a, b] x [y] (by simp [h.1, h.2])]
      show some (callExtreme fn pick [a, b]) = _
      rw [callExtreme.eq_def]
      simp only [h.1, h.2, List.foldl_cons, List.foldl_nil]
    · rfl
  exact ⟨all _ _, all _ _, rfl, rfl⟩

/-! ## Concrete cases, and what is false -/

/-- A NaN is returned if it comes first, and ignored otherwise: the answer depends on the order of the arguments. -/
theorem C45_nan_depends_on_order :
    minList [.dbl .nan, .int 1] = .dbl .nan ∧ minList [.int 1, .dbl .nan] = .int 1 ∧
    maxList [.dbl .nan, .int 1] = .dbl .nan ∧ maxList [.int 1, .dbl .nan] = .int 1 := by
  have a : (Number.int 1).lt (.dbl .nan) = false := by decide +kernel
  have b : (Number.dbl .nan).lt (.int 1) = false := by decide +kernel
  have c : (Number.int 1).gt (.dbl .nan) = false := by decide +kernel
  have d : (Number.dbl .nan).gt (.int 1) = false := by decide +kernel
  simp [minList, maxList, extremeList, listLoop, numOf, minNumber, maxNumber, a, b, c, d, numberToValue]

/-- What is false without the premise on rounding: `math.least(9007199254740993, 9007199254740992.0)` is 9007199254740993. -/
theorem C45_least_not_least :
    minList [.int 9007199254740993, .dbl (Dbl.ofInt 9007199254740992)] = .int 9007199254740993 ∧
    value (.dbl (Dbl.ofInt 9007199254740992)) = some (.num 9007199254740992) := by
  constructor
  · have a : (Number.dbl (Dbl.ofInt 9007199254740992)).lt (.int 9007199254740993) = false := by decide +kernel
    simp [minList, extremeList, listLoop, numOf, minNumber, a, numberToValue]
  · rw [ofInt_eq]
    have h : Dbl.round53 (Int.natAbs 9007199254740992) = 9007199254740992 := by decide +kernel
    have := toRat_whole false 9007199254740992
    rw [h]
    simp only [Dbl.toRat, Option.some.injEq, Bool.false_eq_true, if_false] at this
    simp only [value, show decide ((9007199254740992 : Int) < 0) = false from by decide, Bool.false_eq_true, if_false, this]
    norm_num

example : bitAndInt (-1) 12 = 12 ∧ bitOrUint 8 1 = 9 ∧ bitXorInt (-1) 0 = -1 ∧ bitNotInt 0 = -1 ∧ bitNotUint 0 = u64Max ∧
    bit (-1) 63 = true ∧ bit 12 2 = true ∧ bit 12 0 = false := by decide +kernel

example : Numbers [.int 3, .uint 1, .int 2] [.int 3, .uint 1, .int 2] ∧ least [.int 3, .uint 1, .int 2] = some (.uint 1) := by
  refine ⟨⟨rfl, ?_⟩, rfl⟩
  intro n hn
  simp at hn
  rcases hn with rfl | rfl | rfl <;> simp [Number.WF, InI64, InU64, i64Min, i64Max, u64Max]

end Cel.Ext
