import Verif.Num.IntModel
import Verif.Num.IntSpec
import Mathlib.Tactic.Linarith
import Mathlib.Tactic.Positivity

/-!
# C01–C04, C06: integer arithmetic is exact or an error
-/

set_option linter.unusedSimpArgs false
set_option linter.unusedVariables false

namespace Cel.Num
open Cel Spec

/-! ## helpers -/

theorem wrapI64_eq_iff (x : Int) : wrapI64 x = x ↔ InI64 x := by
  unfold wrapI64 InI64 i64Min i64Max
  rw [Int.bmod_def]; omega

theorem wrapU64_eq_iff (x : Int) : wrapU64 x = x ↔ InU64 x := by
  unfold wrapU64 InU64 u64Max; omega

theorem builtinI_exact (e : Int) (s : Status) :
    ExactOr i64Min i64Max e s (if !(builtinI e).2 then .ok (builtinI e).1 else .err s) := by
  have h := wrapI64_eq_iff e
  unfold InI64 at h
  unfold builtinI ExactOr
  constructor
  · intro hr
    have := h.2 hr
    simp [this]
  · intro hr
    have : ¬ wrapI64 e = e := fun he => hr (h.1 he)
    simp [this]

theorem builtinU_exact (e : Int) (s : Status) :
    ExactOr 0 u64Max e s (if !(builtinU e).2 then .ok (builtinU e).1 else .err s) := by
  have h := wrapU64_eq_iff e
  unfold InU64 at h
  unfold builtinU ExactOr
  constructor
  · intro hr
    have := h.2 hr
    simp [this]
  · intro hr
    have : ¬ wrapU64 e = e := fun he => hr (h.1 he)
    simp [this]

/-! ## C01 -/

/-- C01: signed `+`, `-`, `*`, unary `-` are exact or the overflow error, for every operand. -/
theorem C01_int_arith_exact_or_error (x y : Int) :
    ExactOr i64Min i64Max (x + y) ⟨.outOfRange, "integer overflow"⟩ (checkedAddI x y) ∧
    ExactOr i64Min i64Max (x - y) ⟨.outOfRange, "integer overflow"⟩ (checkedSubI x y) ∧
    ExactOr i64Min i64Max (x * y) ⟨.outOfRange, "integer overflow"⟩ (checkedMulI x y) ∧
    ExactOr i64Min i64Max (-x) ⟨.outOfRange, "integer overflow"⟩ (checkedNegI x) := by
  refine ⟨builtinI_exact _ _, builtinI_exact _ _, builtinI_exact _ _, ?_⟩
  have h := builtinI_exact (x * -1) intOverflow
  have e : x * -1 = -x := by omega
  unfold checkedNegI
  rw [e] at h ⊢
  exact h

/-- both branches of C01 occur -/
example : checkedAddI 9223372036854775806 1 = .ok 9223372036854775807 ∧
    checkedAddI 9223372036854775807 1 = .err ⟨.outOfRange, "integer overflow"⟩ ∧
    checkedMulI (-4294967296) 2147483648 = .ok (-9223372036854775808) ∧
    checkedNegI (-9223372036854775808) = .err ⟨.outOfRange, "integer overflow"⟩ := by decide

/-! ## C02 -/

/-- C02: unsigned `+`, `-`, `*` are exact or the overflow error. -/
theorem C02_uint_arith_exact_or_error (x y : Int) :
    ExactOr 0 u64Max (x + y) ⟨.outOfRange, "unsigned integer overflow"⟩ (checkedAddU x y) ∧
    ExactOr 0 u64Max (x - y) ⟨.outOfRange, "unsigned integer overflow"⟩ (checkedSubU x y) ∧
    ExactOr 0 u64Max (x * y) ⟨.outOfRange, "unsigned integer overflow"⟩ (checkedMulU x y) :=
  ⟨builtinU_exact _ _, builtinU_exact _ _, builtinU_exact _ _⟩

example : checkedSubU 3 4 = .err ⟨.outOfRange, "unsigned integer overflow"⟩ ∧
    checkedMulU 4294967296 4294967295 = .ok 18446744069414584320 := by decide

/-! ## C03 -/

theorem tdiv_bound (x y : Int) (hx : InI64 x) (hy : y ≠ 0) (h : x ≠ i64Min ∨ y ≠ -1) :
    InI64 (x.tdiv y) := by
  unfold InI64 i64Min i64Max at *
  have habs : (x.tdiv y).natAbs ≤ x.natAbs := by
    rw [Int.natAbs_tdiv]; exact Nat.div_le_self _ _
  by_cases h1 : y = -1
  · subst h1
    have : x.tdiv (-1) = -x := by rw [Int.tdiv_neg, Int.tdiv_one]
    omega
  · by_cases h2 : y = 1
    · subst h2; rw [Int.tdiv_one]; omega
    · have : (x.tdiv y).natAbs ≤ x.natAbs / 2 := by
        rw [Int.natAbs_tdiv]
        apply Nat.div_le_div_left <;> omega
      omega

theorem truncDiv_tdiv_tmod (x y : Int) (hy : y ≠ 0) : TruncDiv x y (x.tdiv y) (x.tmod y) := by
  refine ⟨?_, ?_, ?_, ?_⟩
  · have := Int.tdiv_mul_add_tmod x y; omega
  · rw [Int.natAbs_tmod]; exact Nat.mod_lt _ (by omega)
  · intro h; exact Int.tmod_nonneg _ h
  · intro h
    have h2 : 0 ≤ (-x).tmod y := Int.tmod_nonneg _ (by omega)
    rw [Int.neg_tmod] at h2; omega

/-- C03 (int): for `int64_t` operands, `/` and `%` are never undefined; when the divisor is not
zero and the case is not `INT64_MIN / -1` both succeed with the truncated quotient and
remainder; the two exceptional cases give the documented errors. -/
theorem C03_int_div_mod (x y : Int) (hx : InI64 x) (hy : InI64 y) :
    (¬ (x = i64Min ∧ y = -1) → y ≠ 0 →
        ∃ q m, checkedDivI x y = .ok q ∧ checkedModI x y = .ok m ∧
               TruncDiv x y q m ∧ InI64 q ∧ InI64 m) ∧
    (x = i64Min ∧ y = -1 →
        checkedDivI x y = .err ⟨.outOfRange, "integer overflow"⟩ ∧
        checkedModI x y = .err ⟨.outOfRange, "integer overflow"⟩) ∧
    (y = 0 →
        checkedDivI x y = .err ⟨.invalidArgument, "divide by zero"⟩ ∧
        checkedModI x y = .err ⟨.invalidArgument, "modulus by zero"⟩) := by
  refine ⟨?_, ?_, ?_⟩
  · intro h1 h2
    have h3 : x ≠ i64Min ∨ y ≠ -1 := by omega
    have hq := tdiv_bound x y hx h2 h3
    have ht := truncDiv_tdiv_tmod x y h2
    refine ⟨x.tdiv y, x.tmod y, ?_, ?_, ht, hq, ?_⟩
    · simp [checkedDivI, checkRange, checkArgument, cppDivI, h2, h3, hq]
    · simp [checkedModI, checkRange, checkArgument, cppModI, h2, h3, hq]
    · obtain ⟨_, hm, hp, hn⟩ := ht
      unfold InI64 i64Min i64Max at *
      omega
  · rintro ⟨rfl, rfl⟩
    exact ⟨by decide, by decide⟩
  · rintro rfl
    simp [checkedDivI, checkedModI, checkRange, checkArgument]

example : checkedDivI (-7) 2 = .ok (-3) ∧ checkedModI (-7) 2 = .ok (-1) ∧
    TruncDiv (-7) 2 (-3) (-1) := by
  refine ⟨by decide, by decide, by unfold TruncDiv; omega⟩

/-- C03 (uint). -/
theorem C03_uint_div_mod (x y : Int) (hx : InU64 x) (hy : InU64 y) :
    (y ≠ 0 → ∃ q m, checkedDivU x y = .ok q ∧ checkedModU x y = .ok m ∧
        TruncDiv x y q m ∧ InU64 q ∧ InU64 m) ∧
    (y = 0 → checkedDivU x y = .err ⟨.invalidArgument, "divide by zero"⟩ ∧
        checkedModU x y = .err ⟨.invalidArgument, "modulus by zero"⟩) := by
  constructor
  · intro h
    have hx0 := hx.1
    have hy0 := hy.1
    have e1 : x / y = x.tdiv y := (Int.tdiv_eq_ediv_of_nonneg hx0).symm
    have e2 : x % y = x.tmod y := (Int.tmod_eq_emod_of_nonneg hx0).symm
    have ht := truncDiv_tdiv_tmod x y h
    refine ⟨x / y, x % y, ?_, ?_, ?_, ?_, ?_⟩
    · simp [checkedDivU, checkArgument, cppDivU, h]
    · simp [checkedModU, checkArgument, cppModU, h]
    · rw [e1, e2]; exact ht
    · have h1 : 0 ≤ x / y := Int.ediv_nonneg hx0 hy0
      have h2 : x / y ≤ x := Int.ediv_le_self _ hx0
      unfold InU64 at *; omega
    · have h1 : 0 ≤ x % y := Int.emod_nonneg _ h
      have h2 : x % y < y := Int.emod_lt_of_pos _ (by omega)
      unfold InU64 at *; omega
  · rintro rfl
    simp [checkedDivU, checkedModU, checkArgument]

/-! ## C04: the portable guards -/

theorem portableAddI_eq (x y : Int) (hx : InI64 x) (hy : InI64 y) :
    portableAddI x y = checkedAddI x y := by
  have h := (C01_int_arith_exact_or_error x y).1
  unfold ExactOr at h
  unfold portableAddI
  unfold InI64 i64Min i64Max at hx hy; unfold i64Min i64Max at h
  by_cases hr : (-9223372036854775808 ≤ x + y ∧ x + y ≤ 9223372036854775807)
  · rw [h.1 hr]
    by_cases hy0 : y > 0
    · have a1 : InI64 (i64Max - y) := by unfold InI64 i64Min i64Max; omega
      have a2 : x ≤ i64Max - y := by unfold i64Max; omega
      have a3 : InI64 (x + y) := hr
      simp [hy0, cppSubI, a1, checkRange, a2, cppAddI, a3]
    · have a1 : InI64 (i64Min - y) := by unfold InI64 i64Min i64Max; omega
      have a2 : i64Min - y ≤ x := by unfold i64Min; omega
      have a3 : InI64 (x + y) := hr
      simp [hy0, cppSubI, a1, checkRange, a2, cppAddI, a3]
  · rw [h.2 hr]
    by_cases hy0 : y > 0
    · have a1 : InI64 (i64Max - y) := by unfold InI64 i64Min i64Max; omega
      have a2 : ¬ x ≤ i64Max - y := by unfold i64Max; omega
      simp [hy0, cppSubI, a1, checkRange, a2]
    · have a1 : InI64 (i64Min - y) := by unfold InI64 i64Min i64Max; omega
      have a2 : ¬ i64Min - y ≤ x := by unfold i64Min; omega
      simp [hy0, cppSubI, a1, checkRange, a2]

theorem portableSubI_eq (x y : Int) (hx : InI64 x) (hy : InI64 y) :
    portableSubI x y = checkedSubI x y := by
  have h := (C01_int_arith_exact_or_error x y).2.1
  unfold ExactOr at h
  unfold portableSubI
  unfold InI64 i64Min i64Max at hx hy; unfold i64Min i64Max at h
  by_cases hr : (-9223372036854775808 ≤ x - y ∧ x - y ≤ 9223372036854775807)
  · rw [h.1 hr]
    have a3 : InI64 (x - y) := hr
    by_cases hy0 : y < 0
    · have a1 : InI64 (i64Max + y) := by unfold InI64 i64Min i64Max; omega
      have a2 : x ≤ i64Max + y := by unfold i64Max; omega
      simp [hy0, cppAddI, a1, checkRange, a2, cppSubI, a3]
    · have a1 : InI64 (i64Min + y) := by unfold InI64 i64Min i64Max; omega
      have a2 : i64Min + y ≤ x := by unfold i64Min; omega
      simp [hy0, cppAddI, a1, checkRange, a2, cppSubI, a3]
  · rw [h.2 hr]
    by_cases hy0 : y < 0
    · have a1 : InI64 (i64Max + y) := by unfold InI64 i64Min i64Max; omega
      have a2 : ¬ x ≤ i64Max + y := by unfold i64Max; omega
      simp [hy0, cppAddI, a1, checkRange, a2]
    · have a1 : InI64 (i64Min + y) := by unfold InI64 i64Min i64Max; omega
      have a2 : ¬ i64Min + y ≤ x := by unfold i64Min; omega
      simp [hy0, cppAddI, a1, checkRange, a2]

theorem portableNegI_eq (x : Int) (hx : InI64 x) : portableNegI x = checkedNegI x := by
  have h := (C01_int_arith_exact_or_error x 0).2.2.2
  unfold ExactOr at h
  unfold portableNegI
  by_cases hr : x = i64Min
  · subst hr; decide
  · have a : InI64 (-x) := by unfold InI64 i64Min i64Max at *; omega
    rw [h.1 a]
    simp [checkRange, hr, cppNegI, a]

/-- Bounds that decide the portable multiplication guard. -/
theorem tdiv_pos_le {m x y : Int} (hm : 0 ≤ m) (hy : 0 < y) : x ≤ m.tdiv y ↔ x * y ≤ m := by
  rw [Int.tdiv_eq_ediv_of_nonneg hm]
  exact Int.le_ediv_iff_mul_le hy

/-- The overflow test of `portableMulI` computes "the product is not an `int64_t`" and is never
undefined. -/
theorem portableMul_guard (x y : Int) (hx : InI64 x) (hy : InI64 y) :
    (orElse (.ok (decide (x = -1 ∧ y = i64Min))) <|
    orElse (.ok (decide (y = -1 ∧ x = i64Min))) <|
    orElse (andThen (decide (x > 0 ∧ y > 0)) (do let q ← cppDivI i64Max y; .ok (decide (x > q)))) <|
    orElse (andThen (decide (x < 0 ∧ y < 0)) (do let q ← cppDivI i64Max y; .ok (decide (x < q)))) <|
    orElse (andThen (decide (x > 0 ∧ y < 0)) (do let q ← cppDivI i64Min x; .ok (decide (y < q)))) <|
    andThen (decide (x < 0 ∧ y > 0)) (do let q ← cppDivI i64Min y; .ok (decide (x < q))))
    = .ok (decide (¬ InI64 (x * y))) := by
  have hmax : InI64 i64Max := by decide
  have hmin : InI64 i64Min := by decide
  by_cases c1 : x = -1 ∧ y = i64Min
  · obtain ⟨rfl, rfl⟩ := c1; decide
  by_cases c2 : y = -1 ∧ x = i64Min
  · obtain ⟨rfl, rfl⟩ := c2; decide
  have e1 : decide (x = -1 ∧ y = i64Min) = false := decide_eq_false c1
  have e2 : decide (y = -1 ∧ x = i64Min) = false := decide_eq_false c2
  rcases Int.lt_trichotomy x 0 with hx0 | hx0 | hx0
  · rcases Int.lt_trichotomy y 0 with hy0 | hy0 | hy0
    · -- both negative
      have hq : InI64 (i64Max.tdiv y) := tdiv_bound _ _ hmax (by omega) (Or.inl (by decide))
      have key : x < i64Max.tdiv y ↔ ¬ InI64 (x * y) := by
        have h1 : i64Max.tdiv y = -(i64Max.tdiv (-y)) := by rw [Int.tdiv_neg]; omega
        have h2 := @tdiv_pos_le i64Max (-x) (-y) (by decide) (by omega)
        have h3 : -x * -y = x * y := by rw [Int.neg_mul_neg]
        have h4 : 0 < x * y := Int.mul_pos_of_neg_of_neg hx0 hy0
        rw [h3] at h2
        unfold InI64 i64Min
        omega
      have a1 : ¬ x > 0 := by omega
      have a2 : ¬ y > 0 := by omega
      have a4 : y ≠ 0 := by omega
      simp only [e1, e2, orElse, andThen, cppDivI, hx0, hy0, a1, a2, a4, hq, Res.mbind_ok, decide_true, decide_false,
        if_true, if_false, and_true, and_false, false_and, true_and]
      by_cases hk : x < i64Max.tdiv y
      · simp [hk, key.1 hk]
      · have := mt key.2 hk; simp at this; simp [hk, this]
    · subst hy0
      have a1 : ¬ x > 0 := by omega
      have h0 : InI64 0 := by decide
      simp [e1, e2, orElse, andThen, hx0, a1, h0]
    · -- x < 0 < y
      have hq : InI64 (i64Min.tdiv y) := tdiv_bound _ _ hmin (by omega) (Or.inr (by omega))
      have key : x < i64Min.tdiv y ↔ ¬ InI64 (x * y) := by
        have h1 : i64Min.tdiv y = -((-i64Min).tdiv y) := by rw [Int.neg_tdiv]; omega
        have h2 := @tdiv_pos_le (-i64Min) (-x) y (by decide) hy0
        have h3 : -x * y = -(x * y) := by rw [Int.neg_mul]
        have h4 : x * y < 0 := Int.mul_neg_of_neg_of_pos hx0 hy0
        rw [h3] at h2
        unfold InI64 i64Min i64Max at *
        omega
      have a1 : ¬ x > 0 := by omega
      have a2 : ¬ y < 0 := by omega
      have a4 : y ≠ 0 := by omega
      simp only [e1, e2, orElse, andThen, cppDivI, hx0, hy0, a1, a2, a4, hq, Res.mbind_ok, decide_true, decide_false,
        if_true, if_false, and_true, and_false, false_and, true_and, gt_iff_lt, Bool.false_eq_true]
      by_cases hk : x < i64Min.tdiv y
      · simp [hk, key.1 hk]
      · have := mt key.2 hk; simp at this; simp [hk, this]
  · subst hx0
    have h0 : InI64 0 := by decide
    simp [e1, e2, orElse, andThen, h0]
  · rcases Int.lt_trichotomy y 0 with hy0 | hy0 | hy0
    · have hq : InI64 (i64Min.tdiv x) := tdiv_bound _ _ hmin (by omega) (Or.inr (by omega))
      have key : y < i64Min.tdiv x ↔ ¬ InI64 (x * y) := by
        have h1 : i64Min.tdiv x = -((-i64Min).tdiv x) := by rw [Int.neg_tdiv]; omega
        have h2 := @tdiv_pos_le (-i64Min) (-y) x (by decide) hx0
        have h3 : -y * x = -(x * y) := by rw [Int.neg_mul, Int.mul_comm]
        have h4 : x * y < 0 := Int.mul_neg_of_pos_of_neg hx0 hy0
        rw [h3] at h2
        unfold InI64 i64Min i64Max at *
        omega
      have a1 : ¬ x < 0 := by omega
      have a2 : ¬ y > 0 := by omega
      have a4 : x ≠ 0 := by omega
      simp only [e1, e2, orElse, andThen, cppDivI, hx0, hy0, a1, a2, a4, hq, Res.mbind_ok, decide_true, decide_false,
        if_true, if_false, and_true, and_false, false_and, true_and, gt_iff_lt, Bool.false_eq_true]
      by_cases hk : y < i64Min.tdiv x
      · simp [hk, key.1 hk]
      · have := mt key.2 hk; simp at this; simp [hk, this]
    · subst hy0
      have a1 : ¬ x < 0 := by omega
      have h0 : InI64 0 := by decide
      simp [e1, e2, orElse, andThen, hx0, a1, h0]
    · have hq : InI64 (i64Max.tdiv y) := tdiv_bound _ _ hmax (by omega) (Or.inl (by decide))
      have key : i64Max.tdiv y < x ↔ ¬ InI64 (x * y) := by
        have h2 := @tdiv_pos_le i64Max x y (by decide) hy0
        have h4 : 0 < x * y := Int.mul_pos hx0 hy0
        unfold InI64 i64Min at *
        omega
      have a1 : ¬ x < 0 := by omega
      have a2 : ¬ y < 0 := by omega
      have a4 : y ≠ 0 := by omega
      simp only [e1, e2, orElse, andThen, cppDivI, hx0, hy0, a1, a2, a4, hq, Res.mbind_ok, decide_true, decide_false,
        if_true, if_false, and_true, and_false, false_and, true_and, gt_iff_lt, Bool.false_eq_true]
      by_cases hk : i64Max.tdiv y < x
      · simp [hk, key.1 hk]
      · have := mt key.2 hk; simp at this; simp [hk, this]

theorem portableMulI_eq (x y : Int) (hx : InI64 x) (hy : InI64 y) :
    portableMulI x y = checkedMulI x y := by
  have h := (C01_int_arith_exact_or_error x y).2.2.1
  unfold ExactOr at h
  unfold portableMulI
  rw [portableMul_guard x y hx hy]
  by_cases hr : InI64 (x * y)
  · rw [h.1 hr]; simp [hr, checkRange, cppMulI]
  · rw [h.2 hr]; simp [hr, checkRange]

theorem portableU_eq (x y : Int) (hx : InU64 x) (hy : InU64 y) :
    portableAddU x y = checkedAddU x y ∧ portableSubU x y = checkedSubU x y ∧
    portableMulU x y = checkedMulU x y := by
  obtain ⟨h1, h2, h3⟩ := C02_uint_arith_exact_or_error x y
  unfold ExactOr at h1 h2 h3
  refine ⟨?_, ?_, ?_⟩
  · unfold portableAddU
    have e : wrapU64 (u64Max - y) = u64Max - y := by
      rw [wrapU64_eq_iff]; unfold InU64 u64Max at *; omega
    by_cases hr : InU64 (x + y)
    · rw [h1.1 hr, e, (wrapU64_eq_iff _).2 hr]
      have : x ≤ u64Max - y := by unfold InU64 at *; omega
      simp [checkRange, this]
    · rw [h1.2 hr, e]
      have : ¬ x ≤ u64Max - y := by unfold InU64 at *; omega
      simp [checkRange, this]
  · unfold portableSubU
    by_cases hr : InU64 (x - y)
    · rw [h2.1 hr, (wrapU64_eq_iff _).2 hr]
      have : y ≤ x := by unfold InU64 at *; omega
      simp [checkRange, this]
    · rw [h2.2 hr]
      have : ¬ y ≤ x := by unfold InU64 u64Max at *; omega
      simp [checkRange, this]
  · unfold portableMulU
    by_cases hy0 : y = 0
    · subst hy0
      have hr : InU64 (x * 0) := by unfold InU64 u64Max; omega
      rw [h3.1 hr]; simp [orElse, checkRange, wrapU64]
    · have hpos : 0 < y := by unfold InU64 at hy; omega
      have key : x ≤ u64Max / y ↔ x * y ≤ u64Max := Int.le_ediv_iff_mul_le hpos
      have hnn : 0 ≤ x * y := Int.mul_nonneg hx.1 hy.1
      by_cases hr : InU64 (x * y)
      · rw [h3.1 hr, (wrapU64_eq_iff _).2 hr]
        simp [orElse, hy0, cppDivU, checkRange, key.2 hr.2]
      · rw [h3.2 hr]
        have : ¬ x ≤ u64Max / y := by rw [key]; unfold InU64 at hr; omega
        simp [orElse, hy0, cppDivU, checkRange, this]

/-- C04: for all operands the hand-written guards used without compiler builtins give the same
outcome as the builtins, hence (C01, C02) are exact, and never reach undefined behaviour. -/
theorem C04_portable_guards_equal_builtins (x y : Int) :
    (InI64 x → InI64 y →
      portableAddI x y = checkedAddI x y ∧ portableSubI x y = checkedSubI x y ∧
      portableMulI x y = checkedMulI x y ∧ portableNegI x = checkedNegI x) ∧
    (InU64 x → InU64 y →
      portableAddU x y = checkedAddU x y ∧ portableSubU x y = checkedSubU x y ∧
      portableMulU x y = checkedMulU x y) :=
  ⟨fun hx hy => ⟨portableAddI_eq x y hx hy, portableSubI_eq x y hx hy, portableMulI_eq x y hx hy,
    portableNegI_eq x hx⟩, fun hx hy => portableU_eq x y hx hy⟩

/-- The fallbacks are really different programs: outside the type's range they differ. -/
example : InI64 3 ∧ InI64 (-9223372036854775807) ∧
    portableMulI 3 (-9223372036854775807) = .err intOverflow ∧
    portableMulI (-1) 9223372036854775807 = .ok (-9223372036854775807) := by decide

/-! ## C06 -/

/-- C06: integer narrowing conversions preserve the value or fail, and accept every
representable value. -/
theorem C06_int_conversions_exact_or_error (v : Int) :
    (InI64 v → ExactOr 0 u64Max v ⟨.outOfRange, "int64 out of uint64 range"⟩ (checkedI64ToU64 v)) ∧
    (InU64 v → ExactOr i64Min i64Max v ⟨.outOfRange, "uint64 out of int64 range"⟩
      (checkedU64ToI64 v)) ∧
    (InI64 v → ExactOr i32Min i32Max v ⟨.outOfRange, "int64 out of int32 range"⟩
      (checkedI64ToI32 v)) ∧
    (InU64 v → ExactOr 0 u32Max v ⟨.outOfRange, "uint64 out of uint32 range"⟩
      (checkedU64ToU32 v)) := by
  unfold InI64 InU64 ExactOr i64Min i64Max u64Max i32Min i32Max u32Max
  refine ⟨fun h => ⟨fun hr => ?_, fun hr => ?_⟩, fun h => ⟨fun hr => ?_, fun hr => ?_⟩,
    fun h => ⟨fun hr => ?_, fun hr => ?_⟩, fun h => ⟨fun hr => ?_, fun hr => ?_⟩⟩
  · have a : 0 ≤ v := hr.1
    have b : wrapU64 v = v := by unfold wrapU64; omega
    simp [checkedI64ToU64, checkRange, a, b]
  · have a : ¬ 0 ≤ v := by omega
    simp [checkedI64ToU64, checkRange, a]
  · have a : v ≤ i64Max := hr.2
    have b : wrapI64 v = v := (wrapI64_eq_iff v).2 hr
    simp [checkedU64ToI64, checkRange, a, b]
  · have a : ¬ v ≤ i64Max := by unfold i64Max; omega
    simp [checkedU64ToI64, checkRange, a]
  · have a : i32Min ≤ v ∧ v ≤ i32Max := hr
    have b : v.bmod 4294967296 = v := by rw [Int.bmod_def]; omega
    simp [checkedI64ToI32, checkRange, a, b]
  · have a : ¬ (i32Min ≤ v ∧ v ≤ i32Max) := hr
    simp only [checkedI64ToI32, checkRange, ge_iff_le, a]; simp
  · have a : v ≤ u32Max := hr.2
    have b : v % 4294967296 = v := by omega
    simp [checkedU64ToU32, checkRange, a, b]
  · have a : ¬ v ≤ u32Max := by unfold u32Max; omega
    simp [checkedU64ToU32, checkRange, a]

/-- C06: `int` → `uint` → `int` and `uint` → `int` → `uint` are the identity where defined. -/
theorem C06_int_uint_roundtrip (v w : Int) :
    (InI64 v → checkedI64ToU64 v = .ok w → checkedU64ToI64 w = .ok v) ∧
    (InU64 v → checkedU64ToI64 v = .ok w → checkedI64ToU64 w = .ok v) := by
  have hc := C06_int_conversions_exact_or_error
  constructor
  · intro hv h
    have h1 := (hc v).1 hv
    by_cases hr : (0 ≤ v ∧ v ≤ u64Max)
    · rw [h1.1 hr] at h
      cases h
      exact ((hc v).2.1 hr).1 hv
    · rw [h1.2 hr] at h; cases h
  · intro hv h
    have h1 := (hc v).2.1 hv
    by_cases hr : (i64Min ≤ v ∧ v ≤ i64Max)
    · rw [h1.1 hr] at h
      cases h
      exact ((hc v).1 hr).1 hv
    · rw [h1.2 hr] at h; cases h

example : checkedI64ToU64 5 = .ok 5 ∧ checkedU64ToI64 9223372036854775808 =
    .err ⟨.outOfRange, "uint64 out of int64 range"⟩ ∧
    checkedI64ToI32 (-2147483648) = .ok (-2147483648) ∧
    checkedI64ToI32 (-2147483649) = .err ⟨.outOfRange, "int64 out of int32 range"⟩ := by decide

end Cel.Num
