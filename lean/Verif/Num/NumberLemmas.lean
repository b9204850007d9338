import Verif.Num.NumberSpec
import Verif.Num.DoubleLemmas

set_option linter.unusedSimpArgs false

/-! # Lemmas for numeric comparison -/

namespace Cel.Num
open Cel Spec

/-- Signed rounding of an integer to 53 significant bits. -/
def roundI (x : Int) : Int := Dbl.sval (decide (x < 0)) (Dbl.round53 x.natAbs)

theorem sval_mul (b : Bool) (m k : Nat) : Dbl.sval b (m * k) = Dbl.sval b m * k := by
  unfold Dbl.sval; cases b <;> simp

theorem ofInt_eq (x : Int) : Dbl.ofInt x = .fin (decide (x < 0)) (Dbl.round53 x.natAbs * unit1) :=
  rfl

theorem sval_ofInt (x : Int) :
    Dbl.sval (decide (x < 0)) (Dbl.round53 x.natAbs * unit1) = roundI x * unit1 := sval_mul _ _ _

theorem round53_zero : Dbl.round53 0 = 0 := round53_small (by omega)

theorem roundI_mono {a b : Int} (h : a ≤ b) : roundI a ≤ roundI b := by
  unfold roundI Dbl.sval
  by_cases ha : a < 0
  · by_cases hb : b < 0
    · have := @round53_mono b.natAbs a.natAbs (by omega)
      simp [ha, hb]; omega
    · simp only [ha, hb, decide_true, decide_false, if_true, if_false, Bool.false_eq_true]; omega
  · have hb : ¬ b < 0 := by omega
    have := @round53_mono a.natAbs b.natAbs (by omega)
    simp only [ha, hb, decide_true, decide_false, if_true, if_false, Bool.false_eq_true]; omega

/-- Signed value of a representable magnitude against an integer's rounding. -/
theorem round_vs (s : Bool) (m : Nat) (hm : RepMag m) (x : Int) :
    (Dbl.sval s m < x * unit1 → Dbl.sval s m ≤ roundI x * unit1) ∧
    (x * unit1 < Dbl.sval s m → roundI x * unit1 ≤ Dbl.sval s m) ∧
    (Dbl.sval s m = x * unit1 → Dbl.sval s m = roundI x * unit1) := by
  -- `m` is a fixed point of rounding, and rounding commutes with the unit scale
  have hfix : Dbl.round53 m = m := by
    obtain ⟨k, e, hk, _, rfl⟩ := hm; exact round53_of_rep _ _ hk
  have hsc : Dbl.round53 (x.natAbs * unit1) = Dbl.round53 x.natAbs * unit1 := round53_scale _ 1074
  have hup : ∀ {a b : Nat}, a ≤ b → Dbl.round53 a ≤ Dbl.round53 b := @round53_mono
  have hu := unit1_pos
  have hx : x * unit1 = Dbl.sval (decide (x < 0)) (x.natAbs * unit1) := by
    have hxx : Dbl.sval (decide (x < 0)) x.natAbs = x := by
      unfold Dbl.sval; by_cases h : x < 0
      · simp only [h, decide_true, if_true]; omega
      · simp only [h, decide_false, Bool.false_eq_true, if_false]; omega
    rw [sval_mul, hxx]
  have hr : roundI x * unit1 = Dbl.sval (decide (x < 0)) (Dbl.round53 (x.natAbs * unit1)) := by
    rw [hsc, sval_mul]; rfl
  rw [hx, hr]
  generalize x.natAbs * unit1 = N at *
  unfold Dbl.sval
  have h1 : m ≤ N → m ≤ Dbl.round53 N := fun h => by have := hup h; omega
  have h2 : N ≤ m → Dbl.round53 N ≤ m := fun h => by have := hup h; omega
  cases s <;> by_cases hneg : x < 0 <;> simp only [hneg, decide_true, decide_false, if_true,
    if_false, Bool.false_eq_true]
  · refine ⟨fun h => ?_, fun h => ?_, fun h => ?_⟩
    · omega
    · omega
    · have : m = 0 := by omega
      have : N = 0 := by omega
      subst this; subst m; rw [round53_zero]; rfl
  · refine ⟨fun h => ?_, fun h => ?_, fun h => ?_⟩
    · have := h1 (by omega); omega
    · have := h2 (by omega); omega
    · have := h1 (by omega); have := h2 (by omega); omega
  · refine ⟨fun h => ?_, fun h => ?_, fun h => ?_⟩
    · have := h2 (by omega); omega
    · have := h1 (by omega); omega
    · have := h1 (by omega); have := h2 (by omega); omega
  · refine ⟨fun h => ?_, fun h => ?_, fun h => ?_⟩
    · omega
    · omega
    · have : m = 0 := by omega
      have : N = 0 := by omega
      subst this; subst m; rw [round53_zero]; rfl

/-! ## Double comparison -/

theorem eq_self (d : Dbl) : Dbl.eq d d = !d.isNaN := by
  cases d with
  | nan => rfl
  | inf s => simp [Dbl.eq, Dbl.cmp, Dbl.isNaN]
  | fin s m => simp [Dbl.eq, Dbl.cmp, Dbl.isNaN, Int.compare_eq_eq]

/-- `doubleCompare` on two finite doubles. -/
theorem doubleCompare_fin (a b : Bool) (m n : Nat) :
    doubleCompare (.fin a m) (.fin b n) = compareInt (Dbl.sval a m) (Dbl.sval b n) := by
  unfold doubleCompare
  rw [eq_self, eq_self]
  simp only [Dbl.isNaN, Dbl.gt, Dbl.eq, Dbl.cmp, compareInt]
  rcases Int.lt_trichotomy (Dbl.sval a m) (Dbl.sval b n) with h | h | h
  · have h1 : compare (Dbl.sval a m) (Dbl.sval b n) = .lt := Int.compare_eq_lt.2 h
    have h2 : ¬ Dbl.sval a m > Dbl.sval b n := by omega
    have h3 : ¬ Dbl.sval a m = Dbl.sval b n := by omega
    simp [h1, h2, h3]
  · have h1 : compare (Dbl.sval a m) (Dbl.sval b n) = .eq := Int.compare_eq_eq.2 h
    simp [h1, h]
  · have h1 : compare (Dbl.sval a m) (Dbl.sval b n) = .gt := Int.compare_eq_gt.2 h
    simp [h1, h]

theorem gt_fin (a b : Bool) (m n : Nat) :
    Dbl.gt (.fin a m) (.fin b n) = decide (Dbl.sval a m > Dbl.sval b n) := by
  simp only [Dbl.gt, Dbl.cmp]
  rcases Int.lt_trichotomy (Dbl.sval a m) (Dbl.sval b n) with h | h | h
  · have h2 : ¬ Dbl.sval a m > Dbl.sval b n := by omega
    simp [Int.compare_eq_lt.2 h, h2]
  · have h2 : ¬ Dbl.sval a m > Dbl.sval b n := by omega
    simp [Int.compare_eq_eq.2 h, h2]
  · simp [Int.compare_eq_gt.2 h, h]

theorem lt_fin (a b : Bool) (m n : Nat) :
    Dbl.lt (.fin a m) (.fin b n) = decide (Dbl.sval a m < Dbl.sval b n) := by
  simp only [Dbl.lt, Dbl.cmp]
  rcases Int.lt_trichotomy (Dbl.sval a m) (Dbl.sval b n) with h | h | h
  · simp [Int.compare_eq_lt.2 h, h]
  · have h2 : ¬ Dbl.sval a m < Dbl.sval b n := by omega
    simp [Int.compare_eq_eq.2 h, h2]
  · have h2 : ¬ Dbl.sval a m < Dbl.sval b n := by omega
    simp [Int.compare_eq_gt.2 h, h2]

theorem eq_fin (a b : Bool) (m n : Nat) :
    Dbl.eq (.fin a m) (.fin b n) = decide (Dbl.sval a m = Dbl.sval b n) := by
  simp only [Dbl.eq, Dbl.cmp]
  rcases Int.lt_trichotomy (Dbl.sval a m) (Dbl.sval b n) with h | h | h
  · have h2 : ¬ Dbl.sval a m = Dbl.sval b n := by omega
    simp [Int.compare_eq_lt.2 h, h2]
  · simp [Int.compare_eq_eq.2 h, h]
  · have h2 : ¬ Dbl.sval a m = Dbl.sval b n := by omega
    simp [Int.compare_eq_gt.2 h, h2]

theorem unit1_mul_le {a b : Int} (h : a ≤ b) : a * unit1 ≤ b * unit1 :=
  Int.mul_le_mul_of_nonneg_right h (by have := unit1_pos; omega)

theorem unit1_mul_lt {a b : Int} (h : a < b) : a * unit1 < b * unit1 :=
  Int.mul_lt_mul_of_pos_right h (by have := unit1_pos; omega)

/-- The early-out tests of `doubleVsInt` / `doubleVsUint` do not change the outcome. -/
theorem doubleVs_eq (v : Dbl) (o lo hi : Int) (h1 : lo ≤ o) (h2 : o ≤ hi) :
    (if Dbl.gt v (Dbl.ofInt hi) then CmpResult.greater
      else if Dbl.lt v (Dbl.ofInt lo) then .lesser
      else doubleCompare v (Dbl.ofInt o)) = doubleCompare v (Dbl.ofInt o) := by
  cases v with
  | nan => simp [Dbl.gt, Dbl.lt, Dbl.cmp, ofInt_eq]
  | inf s =>
    cases s <;>
      simp [Dbl.gt, Dbl.lt, Dbl.cmp, ofInt_eq, doubleCompare, eq_self, Dbl.isNaN, Dbl.eq]
  | fin s m =>
    rw [ofInt_eq, ofInt_eq, ofInt_eq, gt_fin, lt_fin, doubleCompare_fin, sval_ofInt, sval_ofInt,
      sval_ofInt]
    have m1 := unit1_mul_le (roundI_mono h1)
    have m2 := unit1_mul_le (roundI_mono h2)
    unfold compareInt
    by_cases c1 : Dbl.sval s m > roundI hi * unit1
    · have : Dbl.sval s m > roundI o * unit1 := by omega
      simp [c1, this]
    · by_cases c2 : Dbl.sval s m < roundI lo * unit1
      · have a1 : ¬ Dbl.sval s m > roundI o * unit1 := by omega
        have a2 : ¬ Dbl.sval s m = roundI o * unit1 := by omega
        simp [c1, c2, a1, a2]
      · simp [c1, c2]

theorem doubleVsInt_eq (v : Dbl) (o : Int) (h : InI64 o) :
    doubleVsInt v o = doubleCompare v (Dbl.ofInt o) := doubleVs_eq v o _ _ h.1 h.2

theorem doubleVsUint_eq (v : Dbl) (o : Int) (h : InU64 o) :
    doubleVsUint v o = doubleCompare v (Dbl.ofInt o) := doubleVs_eq v o _ _ h.1 h.2

/-- `uintVsInt` is exact. -/
theorem uintVsInt_eq (u i : Int) (hu : InU64 u) (hi : InI64 i) :
    uintVsInt u i = compareInt u i := by
  unfold uintVsInt
  unfold InI64 i64Min i64Max at hi
  unfold InU64 at hu
  by_cases h : u > i64Max ∨ i < 0
  · unfold i64Max at h
    have : u > i := by omega
    rw [if_pos (by unfold i64Max; exact h)]
    simp [compareInt, this]
  · have h' := h
    unfold i64Max at h'
    have e : wrapU64 i = i := by unfold wrapU64; omega
    rw [if_neg h, e]

theorem compareInt_invert (a b : Int) : (compareInt a b).invert = compareInt b a := by
  unfold compareInt
  rcases Int.lt_trichotomy a b with h | h | h
  · have h1 : ¬ a > b := by omega
    have h2 : ¬ a = b := by omega
    simp [h1, h2, h, CmpResult.invert]
  · simp [h, CmpResult.invert]
  · have h1 : ¬ b > a := by omega
    have h2 : ¬ b = a := by omega
    simp [h1, h2, h, CmpResult.invert]

theorem doubleCompare_invert (a b : Dbl) : (doubleCompare a b).invert = doubleCompare b a := by
  cases a with
  | nan => cases b <;> simp [doubleCompare, eq_self, Dbl.isNaN, CmpResult.invert]
  | inf s =>
    cases b with
    | nan => cases s <;> rfl
    | inf t => cases s <;> cases t <;> rfl
    | fin t n =>
      cases s <;> simp [doubleCompare, eq_self, Dbl.isNaN, Dbl.gt, Dbl.eq, Dbl.cmp,
        CmpResult.invert]
  | fin s m =>
    cases b with
    | nan => simp [doubleCompare, eq_self, Dbl.isNaN, CmpResult.invert]
    | inf t =>
      cases t <;> simp [doubleCompare, eq_self, Dbl.isNaN, Dbl.gt, Dbl.eq, Dbl.cmp,
        CmpResult.invert]
    | fin t n => rw [doubleCompare_fin, doubleCompare_fin, compareInt_invert]

/-- The value on which the code compares a number against a double: integers are rounded. -/
def asDbl : Number → Dbl
  | .dbl d => d
  | .int i => Dbl.ofInt i
  | .uint i => Dbl.ofInt i

/-- Both operands integral? Then their exact values. -/
def bothInt : Number → Number → Option (Int × Int)
  | .int a, .int b => some (a, b)
  | .int a, .uint b => some (a, b)
  | .uint a, .int b => some (a, b)
  | .uint a, .uint b => some (a, b)
  | _, _ => none

/-- One formula for all nine operand-type pairs. -/
theorem compare_eq (a b : Number) (ha : a.WF) (hb : b.WF) :
    a.compare b = match bothInt a b with
      | some (x, y) => compareInt x y
      | none => doubleCompare (asDbl a) (asDbl b) := by
  cases a with
  | dbl v =>
    cases b with
    | dbl o => rfl
    | uint o => exact doubleVsUint_eq v o hb
    | int o => exact doubleVsInt_eq v o hb
  | uint v =>
    cases b with
    | dbl o =>
      show (doubleVsUint o v).invert = _
      rw [doubleVsUint_eq o v ha, doubleCompare_invert]; rfl
    | uint o => rfl
    | int o => exact uintVsInt_eq v o ha hb
  | int v =>
    cases b with
    | dbl o =>
      show (doubleVsInt o v).invert = _
      rw [doubleVsInt_eq o v ha, doubleCompare_invert]; rfl
    | uint o =>
      show (uintVsInt o v).invert = _
      rw [uintVsInt_eq o v hb ha, compareInt_invert]; rfl
    | int o => rfl

end Cel.Num
