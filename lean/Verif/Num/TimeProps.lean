import Verif.Num.TimeModel
import Verif.Num.IntProps

set_option linter.unusedSimpArgs false
set_option linter.unusedVariables false

/-!
# C07–C09: duration and timestamp arithmetic
-/

namespace Cel.Num
open Cel Spec

namespace Spec

/-- The duration / instant of exactly `n` nanoseconds (4 abseil ticks each). -/
def durNs (n : Int) : Dur := .fin (4 * n)
def tmNs (n : Int) : Tm := .fin (4 * n)

/-- First and last nanosecond of the years 1 to 9999, counted from the Unix epoch. -/
def minTimestampNs : Int := -62135596800 * 1000000000
def maxTimestampNs : Int := 253402300799 * 1000000000 + 999999999

end Spec

theorem checkedAddI_spec (x y : Int) :
    checkedAddI x y = if InI64 (x + y) then .ok (x + y) else .err intOverflow := by
  unfold checkedAddI builtinI
  by_cases h : InI64 (x + y)
  · have := (wrapI64_eq_iff (x + y)).2 h; simp [this, h]
  · have : wrapI64 (x + y) ≠ x + y := fun k => h ((wrapI64_eq_iff _).1 k)
    simp [this, h]
theorem checkedSubI_spec (x y : Int) :
    checkedSubI x y = if InI64 (x - y) then .ok (x - y) else .err intOverflow := by
  unfold checkedSubI builtinI
  by_cases h : InI64 (x - y)
  · have := (wrapI64_eq_iff (x - y)).2 h; simp [this, h]
  · have : wrapI64 (x - y) ≠ x - y := fun k => h ((wrapI64_eq_iff _).1 k)
    simp [this, h]
theorem checkedMulI_spec (x y : Int) :
    checkedMulI x y = if InI64 (x * y) then .ok (x * y) else .err intOverflow := by
  unfold checkedMulI builtinI
  by_cases h : InI64 (x * y)
  · have := (wrapI64_eq_iff (x * y)).2 h; simp [this, h]
  · have : wrapI64 (x * y) ≠ x * y := fun k => h ((wrapI64_eq_iff _).1 k)
    simp [this, h]
theorem checkedNegI_spec (x : Int) :
    checkedNegI x = if InI64 (-x) then .ok (-x) else .err intOverflow := by
  have e : x * -1 = -x := by omega
  unfold checkedNegI builtinI
  rw [e]
  by_cases h : InI64 (-x)
  · have := (wrapI64_eq_iff (-x)).2 h; simp [this, h]
  · have : wrapI64 (-x) ≠ -x := fun k => h ((wrapI64_eq_iff _).1 k)
    simp [this, h]

theorem toInt64Nanos_durNs (n : Int) : toInt64Nanos (durNs n) = satI64 n := by
  have : Int.tdiv (4 * n) 4 = n := Int.mul_tdiv_cancel_left _ (by omega)
  simp only [toInt64Nanos, durNs, tpn, this]

theorem nanoseconds_eq (n : Int) : nanoseconds n = durNs n := by
  unfold nanoseconds durNs tpn; rw [Int.mul_comm]

theorem satI64_of_in (n : Int) (h : InI64 n) : satI64 n = n := by
  unfold satI64 InI64 at *; split
  · omega
  · split <;> omega

/-- C07 (partial): for whole-nanosecond durations of at most ±2^63 ns (±292 years) addition,
subtraction and negation yield the exact result when that is representable and an error otherwise;
infinite operands are an error. Missing: operands beyond ±2^63 ns (see the negative theorem below:
the full statement is false there), and sub-nanosecond ticks are truncated. -/
theorem C07_duration_arith_exact_or_error_partial (x y : Int) (hx : InI64 x) (hy : InI64 y) :
    checkedAddDD (durNs x) (durNs y)
      = (if InI64 (x + y) then .ok (durNs (x + y)) else .err ⟨.outOfRange, "integer overflow"⟩) ∧
    checkedSubDD (durNs x) (durNs y)
      = (if InI64 (x - y) then .ok (durNs (x - y)) else .err ⟨.outOfRange, "integer overflow"⟩) ∧
    checkedNegD (durNs x)
      = (if InI64 (-x) then .ok (durNs (-x)) else .err ⟨.outOfRange, "integer overflow"⟩) ∧
    (∀ (s : Bool) (d : Dur), checkedAddDD (.inf s) d = .err ⟨.outOfRange, "integer overflow"⟩ ∧
      checkedAddDD d (.inf s) = .err ⟨.outOfRange, "integer overflow"⟩ ∧
      checkedSubDD (.inf s) d = .err ⟨.outOfRange, "integer overflow"⟩ ∧
      checkedSubDD d (.inf s) = .err ⟨.outOfRange, "integer overflow"⟩ ∧
      checkedNegD (.inf s) = .err ⟨.outOfRange, "integer overflow"⟩) := by
  have f : ∀ n, (durNs n).isFinite = true := fun _ => rfl
  unfold checkedAddDD checkedSubDD checkedNegD
  simp only [f, Bool.and_self, if_true, toInt64Nanos_durNs, satI64_of_in x hx, satI64_of_in y hy,
    checkedAddI_spec, checkedSubI_spec, checkedNegI_spec]
  refine ⟨?_, ?_, ?_, ?_⟩
  · split <;> simp [nanoseconds_eq, intOverflow]
  · split <;> simp [nanoseconds_eq, intOverflow]
  · split <;> simp [nanoseconds_eq, intOverflow]
  · intro s d; simp [Dur.isFinite, intOverflow]

example : InI64 9223372036854775807 ∧ InI64 1 ∧
    checkedAddDD (durNs 9223372036854775807) (durNs 1) = .err ⟨.outOfRange, "integer overflow"⟩ ∧
    checkedSubDD (durNs 5) (durNs 7) = .ok (durNs (-2)) := by decide

/-- C07: whatever the (finite) operands, a *successful* addition or subtraction of whole-nanosecond
durations is exact as soon as neither operand is beyond ±2^63 ns; when an operand is beyond, the
operation behaves as if that operand were clamped to the int64 range. -/
theorem C07_duration_arith_clamps (x y : Int) :
    checkedAddDD (durNs x) (durNs y) =
      checkedAddDD (durNs (max i64Min (min x i64Max))) (durNs (max i64Min (min y i64Max))) ∧
    checkedSubDD (durNs x) (durNs y) =
      checkedSubDD (durNs (max i64Min (min x i64Max))) (durNs (max i64Min (min y i64Max))) ∧
    checkedNegD (durNs x) = checkedNegD (durNs (max i64Min (min x i64Max))) := by
  have f : ∀ n, (durNs n).isFinite = true := fun _ => rfl
  have g : ∀ n, satI64 (max i64Min (min n i64Max)) = satI64 n := by
    intro n; unfold satI64 i64Min i64Max; split <;> split <;> (try split) <;> (try split) <;> omega
  unfold checkedAddDD checkedSubDD checkedNegD
  simp only [f, Bool.and_self, if_true, toInt64Nanos_durNs, g, and_self]

/-- C07, negative part: the full statement is false of the code. `duration('315576000000s') -
duration('1s')` – both valid CEL durations (±10000 years) – succeeds with a wrong value, and so does
adding zero. -/
theorem C07_large_duration_silently_clamped :
    checkedSubDD (durNs (315576000000 * 1000000000)) (durNs 1000000000)
      = .ok (durNs (9223372036854775807 - 1000000000)) ∧
    checkedAddDD (durNs (315576000000 * 1000000000)) (durNs 0) = .ok (durNs 9223372036854775807) ∧
    (durNs (315576000000 * 1000000000)).WF := by decide

/-! ## C08 -/

theorem carry_spec (s n : Int) (h1 : -1000000000 < n) (h2 : n < 2000000000) :
    carryNanos s n =
      if 0 ≤ n ∧ n < 1000000000 then .ok (s, n)
      else if n ≥ 1000000000 then
        (if InI64 (s + 1) then .ok (s + 1, n - 1000000000) else .err intOverflow)
      else if ¬ InI64 s then .err intOverflow
      else if InI64 (s - 1) then .ok (s - 1, n + 1000000000) else .err intOverflow := by
  unfold carryNanos kOneSecondNanos
  by_cases c1 : 0 ≤ n ∧ n < 1000000000
  · rw [if_pos c1]
    rw [if_neg (by omega)]
  · rw [if_neg c1]
    rw [if_pos (by omega)]
    by_cases c2 : n ≥ 1000000000
    · have ht : n.tdiv 1000000000 = 1 := by
        rw [Int.tdiv_eq_ediv_of_nonneg (by omega)]; omega
      rw [if_pos c2, ht, checkedAddI_spec]
      split
      · simp only [Res.mbind_ok]
        rw [if_neg (by omega)]
        simp
      · rfl
    · have ht : n.tdiv 1000000000 = 0 := by
        have h := Int.neg_tdiv (-n) 1000000000
        rw [Int.neg_neg, Int.tdiv_eq_ediv_of_nonneg (show 0 ≤ -n by omega)] at h; omega
      rw [if_neg c2, ht, checkedAddI_spec, Int.add_zero]
      by_cases c3 : InI64 s
      · rw [if_pos c3, if_neg (by simpa using c3)]
        simp only [Res.mbind_ok]
        rw [if_pos (by omega), checkedAddI_spec]
        have : s + -1 = s - 1 := by omega
        rw [this]
        split
        · simp only [Res.mbind_ok, Res.ok.injEq, Prod.mk.injEq, true_and]; omega
        · rfl
      · rw [if_neg c3, if_pos c3]; rfl

/-- What the transcription computes: with `p + q` whole seconds and `n` nanoseconds. -/
theorem addTD_eq (t d : Int) (ht : (tmNs t).WF) (hd : (durNs d).WF) :
    ∃ p q n, checkedAddTD (tmNs t) (durNs d) =
        ((if InI64 (p + q) then .ok (p + q) else .err intOverflow) >>= fun s =>
          carryNanos s n >>= fun sn =>
            if sn.1 ≥ kMinUnixTime ∧ sn.1 ≤ kMaxUnixTime then
              .ok (.fin (sn.1 * tps + sn.2 * tpn)) else .err tsOverflow) ∧
      t + d = (p + q) * 1000000000 + n ∧ -1000000000 < n ∧ n < 2000000000 := by
  simp only [Tm.WF, Dur.WF, tmNs, durNs, tps] at ht hd
  have hs1 : (4 * t) / 4000000000 = t / 1000000000 := by omega
  have hns1 : nanosPast (4 * t) (4 * t / tps) = t - t / 1000000000 * 1000000000 := by
    unfold nanosPast tps tpn
    rw [hs1]
    have : 4 * t - t / 1000000000 * 4000000000 = 4 * (t - t / 1000000000 * 1000000000) := by omega
    rw [this]; exact Int.mul_tdiv_cancel_left _ (by omega)
  have hq : Int.tdiv (4 * d) 4000000000 = Int.tdiv d 1000000000 := by
    have := Int.mul_tdiv_mul_of_pos d 1000000000 (show (0:Int) < 4 by omega)
    simpa using this
  have hm : Int.tmod (4 * d) 4000000000 = 4 * Int.tmod d 1000000000 := by
    have := Int.mul_tmod_mul_of_pos d 1000000000 (show (0:Int) < 4 by omega)
    simpa using this
  have hdiv := Int.mul_tdiv_add_tmod d 1000000000
  have hmlt : Int.tmod d 1000000000 < 1000000000 := Int.tmod_lt_of_pos _ (by omega)
  have hmgt : -1000000000 < Int.tmod d 1000000000 := by
    have := Int.lt_tmod_of_pos d (show (0:Int) < 1000000000 by omega); omega
  have hns2 : toInt64Nanos (durModSec (.fin (4 * d))) = Int.tmod d 1000000000 := by
    simp only [durModSec, toInt64Nanos, tps, tpn, hm]
    rw [Int.mul_tdiv_cancel_left _ (by omega)]
    apply satI64_of_in
    unfold InI64 i64Min i64Max; omega
  have hsg : d < 0 → Int.tdiv d 1000000000 ≤ 0 := by
    intro h
    have h1 := Int.neg_tdiv (-d) 1000000000
    have h2 : 0 ≤ (-d).tdiv 1000000000 := Int.tdiv_nonneg (by omega) (by omega)
    rw [Int.neg_neg] at h1; omega
  have hsg2 : 0 ≤ d → 0 ≤ Int.tmod d 1000000000 := fun h => Int.tmod_nonneg _ h
  generalize Int.tdiv d 1000000000 = q at *
  generalize Int.tmod d 1000000000 = r at *
  have hs2 : durDivSec (.fin (4 * d)) = satI64 q := by simp only [durDivSec, tps, hq]
  have hsat : satI64 q = q := by
    apply satI64_of_in
    unfold InI64 i64Min i64Max at *; omega
  unfold checkedAddTD tmNs durNs
  simp only [toUnixSeconds, hns1, hns2, hs2, hsat]
  have : 4 * t / tps = t / 1000000000 := hs1
  rw [this, checkedAddI_spec]
  have e1 := Int.ediv_mul_le t (show (1000000000 : Int) ≠ 0 by omega)
  have e2 := Int.lt_ediv_add_one_mul_self t (show (0 : Int) < 1000000000 by omega)
  generalize t / 1000000000 = p at *
  exact ⟨p, q, r + (t - p * 1000000000), rfl, by omega, by omega, by omega⟩

/-- C08: for every finite whole-nanosecond timestamp and duration (of any size an `absl::Time` and
`absl::Duration` can hold) `t + d` is the exact instant when it lies in the years 1–9999 and an
OutOfRange error otherwise; an infinite operand is an error. -/
theorem C08_timestamp_plus_duration (t d : Int) (ht : (tmNs t).WF) (hd : (durNs d).WF) :
    (minTimestampNs ≤ t + d ∧ t + d ≤ maxTimestampNs →
      checkedAddTD (tmNs t) (durNs d) = .ok (tmNs (t + d))) ∧
    (¬ (minTimestampNs ≤ t + d ∧ t + d ≤ maxTimestampNs) →
      ∃ m, checkedAddTD (tmNs t) (durNs d) = .err ⟨.outOfRange, m⟩) ∧
    (∀ s x, checkedAddTD (.inf s) x = .err ⟨.outOfRange, "timestamp overflow"⟩) ∧
    (∀ s x, checkedAddTD x (.inf s) = .err ⟨.outOfRange, "timestamp overflow"⟩) := by
  obtain ⟨p, q, n, he, hsum, hn1, hn2⟩ := addTD_eq t d ht hd
  have hc := carry_spec (p + q) n hn1 hn2
  refine ⟨?_, ?_, fun s x => rfl, fun s x => by cases x <;> rfl⟩
  · intro hr
    unfold minTimestampNs maxTimestampNs at hr
    have hin : InI64 (p + q) := by unfold InI64 i64Min i64Max; omega
    rw [he, if_pos hin, Res.mbind_ok, hc]
    by_cases c1 : 0 ≤ n ∧ n < 1000000000
    · rw [if_pos c1, Res.mbind_ok, if_pos]
      · unfold tmNs tps tpn; simp only; congr 2; omega
      · simp only [kMinUnixTime, kMaxUnixTime]; omega
    · rw [if_neg c1]
      by_cases c2 : n ≥ 1000000000
      · rw [if_pos c2, if_pos (by unfold InI64 i64Min i64Max; omega), Res.mbind_ok, if_pos]
        · unfold tmNs tps tpn; simp only; congr 2; omega
        · simp only [kMinUnixTime, kMaxUnixTime]; omega
      · rw [if_neg c2, if_neg (by simpa using hin), if_pos (by unfold InI64 i64Min i64Max; omega),
          Res.mbind_ok, if_pos]
        · unfold tmNs tps tpn; simp only; congr 2; omega
        · simp only [kMinUnixTime, kMaxUnixTime]; omega
  · intro hr
    unfold minTimestampNs maxTimestampNs at hr
    rw [he]
    by_cases hin : InI64 (p + q)
    · rw [if_pos hin, Res.mbind_ok, hc]
      by_cases c1 : 0 ≤ n ∧ n < 1000000000
      · rw [if_pos c1, Res.mbind_ok, if_neg]
        · exact ⟨_, rfl⟩
        · simp only [kMinUnixTime, kMaxUnixTime]; omega
      · rw [if_neg c1]
        by_cases c2 : n ≥ 1000000000
        · rw [if_pos c2]
          split
          · rw [Res.mbind_ok, if_neg]
            · exact ⟨_, rfl⟩
            · simp only [kMinUnixTime, kMaxUnixTime]; omega
          · exact ⟨_, rfl⟩
        · rw [if_neg c2, if_neg (by simpa using hin)]
          split
          · rw [Res.mbind_ok, if_neg]
            · exact ⟨_, rfl⟩
            · simp only [kMinUnixTime, kMaxUnixTime]; omega
          · exact ⟨_, rfl⟩
    · rw [if_neg hin]; exact ⟨_, rfl⟩

/-- Non-vacuity: one nanosecond before the epoch plus -1.5s; and the last valid nanosecond + 1ns. -/
example : (tmNs (-1)).WF ∧ (durNs (-1500000000)).WF ∧
    checkedAddTD (tmNs (-1)) (durNs (-1500000000)) = .ok (tmNs (-1500000001)) ∧
    checkedAddTD (tmNs maxTimestampNs) (durNs 1) = .err ⟨.outOfRange, "timestamp overflow"⟩ := by
  decide

/-- C08 (partial, `t - d`): exact in the years 1–9999, error otherwise, for durations in
`(-2^63, 2^63)` ns. Missing: larger durations, for which the statement is false (next theorem). -/
theorem C08_timestamp_minus_duration_partial (t d : Int) (ht : (tmNs t).WF)
    (hd : InI64 d) (hd' : InI64 (-d)) :
    (minTimestampNs ≤ t - d ∧ t - d ≤ maxTimestampNs →
      checkedSubTD (tmNs t) (durNs d) = .ok (tmNs (t - d))) ∧
    (¬ (minTimestampNs ≤ t - d ∧ t - d ≤ maxTimestampNs) →
      ∃ m, checkedSubTD (tmNs t) (durNs d) = .err ⟨.outOfRange, m⟩) := by
  have hneg := (C07_duration_arith_exact_or_error_partial d d hd hd).2.2.1
  rw [if_pos hd'] at hneg
  unfold checkedSubTD
  rw [hneg]
  simp only [Res.mbind_ok]
  have hwf : (durNs (-d)).WF := by
    unfold Dur.WF durNs InI64 tps i64Min i64Max at *; simp only; omega
  have h := C08_timestamp_plus_duration t (-d) ht hwf
  have e : t + -d = t - d := by omega
  rw [e] at h
  exact ⟨h.1, h.2.1⟩

/-- C08, negative part: subtracting a valid duration of 315576000000 s (10000 years, the largest
CEL duration) from 9999-12-31T23:59:59Z should leave the valid range and fail; instead it
succeeds with the instant 292 years earlier, because the duration is first negated with clamping. -/
theorem C08_minus_large_duration_wrong :
    (∃ t', checkedSubTD (tmNs maxTimestampNs) (durNs (315576000000 * 1000000000)) = .ok t' ∧
      t' = tmNs (maxTimestampNs - 9223372036854775807)) ∧
    maxTimestampNs - 315576000000 * 1000000000 < minTimestampNs ∧
    -- and with an in-range exact answer, a wrong one is returned:
    (∃ t', checkedSubTD (tmNs maxTimestampNs) (durNs 10000000000000000000) = .ok t' ∧
      t' ≠ tmNs (maxTimestampNs - 10000000000000000000)) ∧
    minTimestampNs ≤ maxTimestampNs - 10000000000000000000 := by
  refine ⟨⟨_, rfl, by decide⟩, by decide, ⟨_, rfl, by decide⟩, by decide⟩

/-! ## C09 -/

theorem subTT_eq (a b : Int) (ha : (tmNs a).WF) (hb : (tmNs b).WF) :
    checkedSubTT (tmNs a) (tmNs b) =
      if InI64 (a / 1000000000 - b / 1000000000) ∧
         InI64 ((a / 1000000000 - b / 1000000000) * 1000000000) ∧ InI64 (a - b)
      then .ok (durNs (a - b)) else .err intOverflow := by
  simp only [Tm.WF, tmNs, tps] at ha hb
  have hs : ∀ t : Int, (4 * t) / tps = t / 1000000000 := by intro t; unfold tps; omega
  have hns : ∀ t : Int, nanosPast (4 * t) (t / 1000000000) = t - t / 1000000000 * 1000000000 := by
    intro t
    unfold nanosPast tps tpn
    have : 4 * t - t / 1000000000 * 4000000000 = 4 * (t - t / 1000000000 * 1000000000) := by omega
    rw [this]; exact Int.mul_tdiv_cancel_left _ (by omega)
  unfold checkedSubTT tmNs
  simp only [toUnixSeconds, hs, hns, nanoseconds_eq, toInt64Nanos_durNs]
  have e1 := Int.ediv_mul_le a (show (1000000000 : Int) ≠ 0 by omega)
  have e2 := Int.lt_ediv_add_one_mul_self a (show (0 : Int) < 1000000000 by omega)
  have e3 := Int.ediv_mul_le b (show (1000000000 : Int) ≠ 0 by omega)
  have e4 := Int.lt_ediv_add_one_mul_self b (show (0 : Int) < 1000000000 by omega)
  generalize a / 1000000000 = p at *
  generalize b / 1000000000 = q at *
  have hsat : satI64 (a - p * 1000000000 - (b - q * 1000000000)) =
      a - p * 1000000000 - (b - q * 1000000000) := by
    apply satI64_of_in; unfold InI64 i64Min i64Max; omega
  rw [hsat, checkedSubI_spec]
  by_cases h1 : InI64 (p - q)
  · simp only [h1, if_true, Res.mbind_ok, checkedMulI_spec, kOneSecondNanos, true_and]
    by_cases h2 : InI64 ((p - q) * 1000000000)
    · simp only [h2, if_true, Res.mbind_ok, checkedAddI_spec, true_and]
      have : (p - q) * 1000000000 + (a - p * 1000000000 - (b - q * 1000000000)) = a - b := by omega
      rw [this]
      by_cases h3 : InI64 (a - b)
      · simp only [h3, if_true, Res.mbind_ok]
      · simp only [h3, if_false, Res.mbind_err]
    · simp only [h2, if_false, Res.mbind_err, false_and]
  · simp only [h1, if_false, Res.mbind_err, false_and]

/-- C09: `t1 - t2` on whole-nanosecond timestamps: a success is always the exact difference; a
difference not representable in int64 nanoseconds is always an error; success is guaranteed when
the difference is at least one second inside the int64 range. Missing (`_partial`): differences within one second
of the limit may fail spuriously, see the next theorem. -/
theorem C09_timestamp_difference_partial (a b : Int) (ha : (tmNs a).WF) (hb : (tmNs b).WF) :
    (∀ r, checkedSubTT (tmNs a) (tmNs b) = .ok r → r = durNs (a - b) ∧ InI64 (a - b)) ∧
    (¬ InI64 (a - b) →
      checkedSubTT (tmNs a) (tmNs b) = .err ⟨.outOfRange, "integer overflow"⟩) ∧
    (InI64 (a - b - 1000000000) ∧ InI64 (a - b + 1000000000) →
      checkedSubTT (tmNs a) (tmNs b) = .ok (durNs (a - b))) ∧
    (∀ s x, checkedSubTT (.inf s) x = .err ⟨.outOfRange, "integer overflow"⟩ ∧
      checkedSubTT x (.inf s) = .err ⟨.outOfRange, "integer overflow"⟩) := by
  rw [subTT_eq a b ha hb]
  have e1 := Int.ediv_mul_le a (show (1000000000 : Int) ≠ 0 by omega)
  have e2 := Int.lt_ediv_add_one_mul_self a (show (0 : Int) < 1000000000 by omega)
  have e3 := Int.ediv_mul_le b (show (1000000000 : Int) ≠ 0 by omega)
  have e4 := Int.lt_ediv_add_one_mul_self b (show (0 : Int) < 1000000000 by omega)
  generalize a / 1000000000 = p at *
  generalize b / 1000000000 = q at *
  unfold InI64 i64Min i64Max
  refine ⟨?_, ?_, ?_, fun s x => ⟨rfl, by cases x <;> rfl⟩⟩
  · intro r hr
    split at hr
    · rename_i h; cases hr; exact ⟨rfl, h.2.2⟩
    · cases hr
  · intro h
    rw [if_neg (by omega)]; rfl
  · intro h
    rw [if_pos (by omega)]

example : (tmNs 1500000000).WF ∧ (tmNs (-2)).WF ∧
    checkedSubTT (tmNs 1500000000) (tmNs (-2)) = .ok (durNs 1500000002) := by decide

/-- C09, negative part: the difference -9223372036.5 s fits in int64 nanoseconds, both timestamps
are valid CEL timestamps, yet the subtraction fails: the whole seconds are scaled before the
nanoseconds are added. -/
theorem C09_spurious_overflow :
    InI64 (-9223372036500000000) ∧
    checkedSubTT (tmNs (-9223372036500000000)) (tmNs 0) = .err ⟨.outOfRange, "integer overflow"⟩ ∧
    minTimestampNs ≤ -9223372036500000000 := by decide

end Cel.Num
