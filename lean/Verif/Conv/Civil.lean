import Verif.Base

/-!
# The proleptic Gregorian calendar

Specification: `nextDay` is the day after a date by the calendar rules, and day 0 is 1970-01-01.
`dateOf` is the date of a day number (`absl::TimeZone::At` in UTC and `absl::CivilDay` are
third-party; this is their contract).  `dateOf_zero` and `dateOf_succ` pin `dateOf` down for every
day number, positive or negative, from the rules alone.
-/

set_option linter.unusedSimpArgs false

namespace Cel.Conv

/-- A date: year, month 1…12, day of the month 1… -/
structure Date where
  y : Int
  m : Int
  d : Int
  deriving DecidableEq, Repr

/-- Leap years. -/
def Leap (y : Int) : Prop := y % 4 = 0 ∧ (y % 100 ≠ 0 ∨ y % 400 = 0)

instance (y : Int) : Decidable (Leap y) := inferInstanceAs (Decidable (_ ∧ _))

/-- Days in a month. -/
def monthLen (y m : Int) : Int :=
  if m = 2 then (if Leap y then 29 else 28)
  else if m = 4 ∨ m = 6 ∨ m = 9 ∨ m = 11 then 30
  else 31

/-- A date that exists. -/
def Date.Valid (c : Date) : Prop := 1 ≤ c.m ∧ c.m ≤ 12 ∧ 1 ≤ c.d ∧ c.d ≤ monthLen c.y c.m

instance (c : Date) : Decidable c.Valid := inferInstanceAs (Decidable (_ ∧ _))

/-- The day after a date. -/
def nextDay (c : Date) : Date :=
  if c.d < monthLen c.y c.m then ⟨c.y, c.m, c.d + 1⟩
  else if c.m < 12 then ⟨c.y, c.m + 1, 1⟩
  else ⟨c.y + 1, 1, 1⟩

/-- 1970-01-01. -/
def epochDate : Date := ⟨1970, 1, 1⟩

/-! ### The day number of a date -/

/-- Days from 0001-01-01 to the first of January of year `y`. -/
def yearStart (y : Int) : Int := 365 * (y - 1) + (y - 1) / 4 - (y - 1) / 100 + (y - 1) / 400

/-- Days of the year before month `m`. -/
def monthStart (y m : Int) : Int :=
  (if m ≤ 1 then 0 else if m = 2 then 31 else if m = 3 then 59 else if m = 4 then 90
   else if m = 5 then 120 else if m = 6 then 151 else if m = 7 then 181 else if m = 8 then 212
   else if m = 9 then 243 else if m = 10 then 273 else if m = 11 then 304 else 334)
  + (if 3 ≤ m ∧ Leap y then 1 else 0)

/-- Day number of a date (day 0 is 1970-01-01). -/
def dayNumber (c : Date) : Int := yearStart c.y + monthStart c.y c.m + (c.d - 1) - 719162

/-! ### The date of a day number -/

/-- The year holding the day `n` days after 0001-01-01. -/
def yearOf (n : Int) : Int :=
  let q400 := n / 146097
  let r := n % 146097
  let q100 := if r / 36524 > 3 then 3 else r / 36524
  let r := r - 36524 * q100
  let q4 := r / 1461
  let r := r - 1461 * q4
  let q1 := if r / 365 > 3 then 3 else r / 365
  400 * q400 + 100 * q100 + 4 * q4 + q1 + 1

/-- The month holding day `k` (from 0) of a year. -/
def monthOf (y k : Int) : Int :=
  if k < monthStart y 2 then 1 else if k < monthStart y 3 then 2 else if k < monthStart y 4 then 3
  else if k < monthStart y 5 then 4 else if k < monthStart y 6 then 5 else if k < monthStart y 7 then 6
  else if k < monthStart y 8 then 7 else if k < monthStart y 9 then 8 else if k < monthStart y 10 then 9
  else if k < monthStart y 11 then 10 else if k < monthStart y 12 then 11 else 12

/-- Date of a day number. -/
def dateOf (n : Int) : Date :=
  let n := n + 719162
  let y := yearOf n
  let k := n - yearStart y
  let m := monthOf y k
  ⟨y, m, k - monthStart y m + 1⟩

theorem yearOf_spec (n : Int) : yearStart (yearOf n) ≤ n ∧ n < yearStart (yearOf n + 1) := by
  unfold yearOf
  simp only
  generalize hq : n / 146097 = q
  generalize hr : n % 146097 = r
  have h0 : n = 146097 * q + r := by omega
  have hr1 : 0 ≤ r := by omega
  have hr2 : r < 146097 := by omega
  generalize hq100 : (if r / 36524 > 3 then (3 : Int) else r / 36524) = a
  have ha : 0 ≤ a ∧ a ≤ 3 ∧ 36524 * a ≤ r ∧ (a < 3 → r < 36524 * (a + 1)) := by
    rw [← hq100]; split <;> omega
  generalize hr' : r - 36524 * a = r'
  have hr'1 : 0 ≤ r' ∧ (a < 3 → r' < 36524) ∧ r' < 36525 := by omega
  generalize hb : r' / 1461 = b
  have hb' : 0 ≤ b ∧ b ≤ 24 ∧ 1461 * b ≤ r' ∧ r' < 1461 * (b + 1) := by omega
  generalize hr'' : r' - 1461 * b = r''
  have hr''1 : 0 ≤ r'' ∧ r'' < 1461 ∧ (b = 24 → a < 3 → r'' < 1460) := by omega
  generalize hc : (if r'' / 365 > 3 then (3 : Int) else r'' / 365) = c
  have hc' : 0 ≤ c ∧ c ≤ 3 ∧ 365 * c ≤ r'' ∧ (c < 3 → r'' < 365 * (c + 1)) := by
    rw [← hc]; split <;> omega
  unfold yearStart
  generalize hy : 400 * q + 100 * a + 4 * b + c = y
  have h4 : y / 4 = 100 * q + 25 * a + b := by omega
  have h100 : y / 100 = 4 * q + a := by omega
  have h400 : y / 400 = q := by omega
  have e1 : y + 1 - 1 = y := by omega
  have e2 : y + 1 + 1 - 1 = y + 1 := by omega
  rw [e1, e2, h4, h100, h400]
  have k4 : (y + 1) / 4 = 100 * q + 25 * a + b + (if c = 3 then 1 else 0) := by split <;> omega
  have k100 : (y + 1) / 100 = 4 * q + a + (if c = 3 ∧ b = 24 then 1 else 0) := by split <;> omega
  have k400 : (y + 1) / 400 = q + (if c = 3 ∧ b = 24 ∧ a = 3 then 1 else 0) := by split <;> omega
  rw [k4, k100, k400]
  by_cases c3 : c = 3 <;> by_cases b24 : b = 24 <;> by_cases a3 : a = 3 <;>
    simp only [c3, b24, a3, true_and, and_true, and_self, if_true, false_and, and_false, if_false] <;> omega

theorem yearStart_succ (y : Int) : yearStart (y + 1) = yearStart y + (if Leap y then 366 else 365) := by
  unfold yearStart
  have e : y + 1 - 1 = y := by omega
  rw [e]
  by_cases h : Leap y
  · rw [if_pos h]; unfold Leap at h; omega
  · rw [if_neg h]; unfold Leap at h; omega

theorem monthStart_succ (y m : Int) (h1 : 1 ≤ m) (h2 : m ≤ 11) :
    monthStart y (m + 1) = monthStart y m + monthLen y m := by
  rcases (by omega : m = 1 ∨ m = 2 ∨ m = 3 ∨ m = 4 ∨ m = 5 ∨ m = 6 ∨ m = 7 ∨ m = 8 ∨ m = 9 ∨ m = 10 ∨ m = 11)
    with h | h | h | h | h | h | h | h | h | h | h <;> subst h <;> unfold monthStart monthLen <;>
    by_cases hl : Leap y <;> simp [hl]

theorem monthStart_end (y : Int) : monthStart y 12 + monthLen y 12 = if Leap y then 366 else 365 := by
  unfold monthStart monthLen
  by_cases hl : Leap y <;> simp [hl]

theorem monthStart_one (y : Int) : monthStart y 1 = 0 := by unfold monthStart; simp

theorem month_fit (y k m m' : Int) (h1 : 1 ≤ m) (h2 : m ≤ 11) (hm : m' = m + 1)
    (ha : ¬ k < monthStart y m) (hb : k < monthStart y m') :
    1 ≤ m ∧ m ≤ 12 ∧ monthStart y m ≤ k ∧ k < monthStart y m + monthLen y m := by
  subst hm
  rw [monthStart_succ y m h1 h2] at hb
  exact ⟨h1, by omega, by omega, hb⟩

theorem monthOf_spec (y k : Int) (h0 : 0 ≤ k) (h1 : k < if Leap y then 366 else 365) :
    1 ≤ monthOf y k ∧ monthOf y k ≤ 12 ∧ monthStart y (monthOf y k) ≤ k ∧
      k < monthStart y (monthOf y k) + monthLen y (monthOf y k) := by
  rw [← monthStart_end] at h1
  have s0 : ¬ k < monthStart y 1 := by rw [monthStart_one]; omega
  unfold monthOf
  by_cases c2 : k < monthStart y 2
  · rw [if_pos c2]; exact month_fit y k 1 2 (by omega) (by omega) (by omega) s0 c2
  rw [if_neg c2]
  by_cases c3 : k < monthStart y 3
  · rw [if_pos c3]; exact month_fit y k 2 3 (by omega) (by omega) (by omega) c2 c3
  rw [if_neg c3]
  by_cases c4 : k < monthStart y 4
  · rw [if_pos c4]; exact month_fit y k 3 4 (by omega) (by omega) (by omega) c3 c4
  rw [if_neg c4]
  by_cases c5 : k < monthStart y 5
  · rw [if_pos c5]; exact month_fit y k 4 5 (by omega) (by omega) (by omega) c4 c5
  rw [if_neg c5]
  by_cases c6 : k < monthStart y 6
  · rw [if_pos c6]; exact month_fit y k 5 6 (by omega) (by omega) (by omega) c5 c6
  rw [if_neg c6]
  by_cases c7 : k < monthStart y 7
  · rw [if_pos c7]; exact month_fit y k 6 7 (by omega) (by omega) (by omega) c6 c7
  rw [if_neg c7]
  by_cases c8 : k < monthStart y 8
  · rw [if_pos c8]; exact month_fit y k 7 8 (by omega) (by omega) (by omega) c7 c8
  rw [if_neg c8]
  by_cases c9 : k < monthStart y 9
  · rw [if_pos c9]; exact month_fit y k 8 9 (by omega) (by omega) (by omega) c8 c9
  rw [if_neg c9]
  by_cases c10 : k < monthStart y 10
  · rw [if_pos c10]; exact month_fit y k 9 10 (by omega) (by omega) (by omega) c9 c10
  rw [if_neg c10]
  by_cases c11 : k < monthStart y 11
  · rw [if_pos c11]; exact month_fit y k 10 11 (by omega) (by omega) (by omega) c10 c11
  rw [if_neg c11]
  by_cases c12 : k < monthStart y 12
  · rw [if_pos c12]; exact month_fit y k 11 12 (by omega) (by omega) (by omega) c11 c12
  rw [if_neg c12]
  exact ⟨by omega, by omega, by omega, h1⟩

/-- The date of a day number exists and has that day number. -/
theorem dateOf_valid (n : Int) : (dateOf n).Valid ∧ dayNumber (dateOf n) = n := by
  have hy := yearOf_spec (n + 719162)
  rw [yearStart_succ] at hy
  unfold dateOf Date.Valid dayNumber
  simp only
  generalize hY : yearOf (n + 719162) = y at *
  have hm := monthOf_spec y (n + 719162 - yearStart y) (by omega) (by omega)
  refine ⟨⟨hm.1, hm.2.1, ?_, ?_⟩, ?_⟩
  · omega
  · omega
  · omega

theorem yearStart_mono {y z : Int} (h : y < z) : yearStart y + 365 ≤ yearStart z := by
  unfold yearStart; omega

theorem monthLen_pos (y m : Int) : 28 ≤ monthLen y m := by unfold monthLen; repeat' split <;> omega

theorem monthStart_le (y m : Int) (h1 : 1 ≤ m) : ∀ (j : Nat), m + j ≤ 12 → monthStart y m ≤ monthStart y (m + j)
  | 0, _ => by simp
  | j + 1, h => by
    have ih := monthStart_le y m h1 j (by omega)
    have := monthStart_succ y (m + j) (by omega) (by omega)
    have := monthLen_pos y (m + j)
    rw [show m + ((j + 1 : Nat) : Int) = m + j + 1 by omega]
    omega

theorem monthStart_mono (y : Int) {m k : Int} (h1 : 1 ≤ m) (h : m < k) (h2 : k ≤ 12) :
    monthStart y m + monthLen y m ≤ monthStart y k := by
  rw [← monthStart_succ y m h1 (by omega)]
  have := monthStart_le y (m + 1) (by omega) (k - (m + 1)).toNat (by omega)
  rwa [show m + 1 + ((k - (m + 1)).toNat : Int) = k by omega] at this

theorem monthStart_bound {c : Date} (h : c.Valid) :
    0 ≤ monthStart c.y c.m + (c.d - 1) ∧
      monthStart c.y c.m + (c.d - 1) < if Leap c.y then 366 else 365 := by
  obtain ⟨h1, h2, h3, h4⟩ := h
  constructor
  · have := monthStart_le c.y 1 (by omega) (c.m - 1).toNat (by omega)
    rw [show 1 + ((c.m - 1).toNat : Int) = c.m by omega, monthStart_one] at this
    omega
  · rw [← monthStart_end]
    have := monthLen_pos c.y 12
    rcases Int.lt_or_eq_of_le h2 with hlt | heq
    · have := monthStart_mono c.y h1 hlt (Int.le_refl _); omega
    · rw [heq] at h4 ⊢; omega

/-- Two dates that exist and have the same day number are the same date. -/
theorem dayNumber_inj {c e : Date} (hc : c.Valid) (he : e.Valid) (h : dayNumber c = dayNumber e) : c = e := by
  have bc := monthStart_bound hc
  have be := monthStart_bound he
  have sc := yearStart_succ c.y
  have se := yearStart_succ e.y
  unfold dayNumber at h
  have hy : c.y = e.y := by
    rcases Int.lt_trichotomy c.y e.y with hlt | heq | hgt
    · have : yearStart (c.y + 1) ≤ yearStart e.y := by
        rcases Int.lt_or_eq_of_le (show c.y + 1 ≤ e.y by omega) with h | h
        · have := yearStart_mono h; omega
        · rw [h]; exact Int.le_refl _
      omega
    · exact heq
    · have : yearStart (e.y + 1) ≤ yearStart c.y := by
        rcases Int.lt_or_eq_of_le (show e.y + 1 ≤ c.y by omega) with h | h
        · have := yearStart_mono h; omega
        · rw [h]; exact Int.le_refl _
      omega
  obtain ⟨c1, c2, c3, c4⟩ := hc
  obtain ⟨e1, e2, e3, e4⟩ := he
  rw [hy] at h c4
  have hm : c.m = e.m := by
    rcases Int.lt_trichotomy c.m e.m with hlt | heq | hgt
    · have := monthStart_mono e.y c1 hlt e2; omega
    · exact heq
    · have := monthStart_mono e.y e1 hgt c2; omega
  rw [hm] at h
  cases c; cases e
  simp only at hy hm h
  subst hy hm
  congr 1
  omega

theorem nextDay_valid {c : Date} (h : c.Valid) : (nextDay c).Valid ∧ dayNumber (nextDay c) = dayNumber c + 1 := by
  obtain ⟨h1, h2, h3, h4⟩ := h
  unfold nextDay
  split
  · rename_i hd
    refine ⟨⟨h1, h2, by simp only; omega, by simp only; omega⟩, ?_⟩
    unfold dayNumber; simp only; omega
  · rename_i hd
    split
    · rename_i hm
      refine ⟨⟨by simp only; omega, by simp only; omega, by simp only; omega, ?_⟩, ?_⟩
      · simp only; have := monthLen_pos c.y (c.m + 1); omega
      · have := monthStart_succ c.y c.m h1 (by omega)
        unfold dayNumber; simp only; omega
    · rename_i hm
      refine ⟨⟨by simp only; omega, by simp only; omega, by simp only; omega, ?_⟩, ?_⟩
      · simp only; have := monthLen_pos (c.y + 1) 1; omega
      · have hm12 : c.m = 12 := by omega
        have a := monthStart_end c.y
        have b := yearStart_succ c.y
        have e := monthStart_one (c.y + 1)
        unfold dayNumber
        rw [hm12] at hd h4 ⊢
        simp only
        omega

/-- Day 0 is 1970-01-01. -/
theorem dateOf_zero : dateOf 0 = epochDate := by decide

/-- The day after the date of day `n` is the date of day `n + 1`, for every `n`. -/
theorem dateOf_succ (n : Int) : dateOf (n + 1) = nextDay (dateOf n) := by
  have h := dateOf_valid n
  have h1 := dateOf_valid (n + 1)
  have h2 := nextDay_valid h.1
  exact dayNumber_inj h1.1 h2.1 (by rw [h1.2, h2.2, h.2])

/-- Every date that exists is the date of its day number. -/
theorem dateOf_dayNumber {c : Date} (h : c.Valid) : dateOf (dayNumber c) = c :=
  dayNumber_inj (dateOf_valid _).1 h (dateOf_valid _).2

example : dateOf 11016 = ⟨2000, 2, 29⟩ := by decide
example : dateOf 11017 = ⟨2000, 3, 1⟩ := by decide
example : dateOf (-719162) = ⟨1, 1, 1⟩ := by decide
example : dateOf 2932896 = ⟨9999, 12, 31⟩ := by decide
example : dateOf (-1) = ⟨1969, 12, 31⟩ := by decide

end Cel.Conv
