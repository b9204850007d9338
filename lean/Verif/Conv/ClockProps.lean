import Verif.Conv.Clock
import Verif.Conv.DurationBack

/-!
# C67: the calendar accessors read the calendar
-/

set_option linter.unusedSimpArgs false
set_option linter.unusedVariables false

namespace Cel.Conv
open Cel Cel.Num

/-! ### Specification -/

/-- The instant `t` (ticks since the epoch) is shown in UTC as this date and time of day: the fields
are in their ranges and together they add up to exactly `t`. -/
structure Shown (t : Int) (date : Date) (h m s sub : Int) : Prop where
  valid : date.Valid
  hour : 0 ≤ h ∧ h < 24
  minute : 0 ≤ m ∧ m < 60
  second : 0 ≤ s ∧ s < 60
  subsecond : 0 ≤ sub ∧ sub < tps
  total : (dayNumber date * 86400 + h * 3600 + m * 60 + s) * tps + sub = t

/-- `dayNumber` is the only numbering of the dates that starts at 0 on 1970-01-01 and counts one
per day. -/
theorem dayNumber_only (N : Date → Int) (h0 : N epochDate = 0)
    (hs : ∀ c : Date, c.Valid → N (nextDay c) = N c + 1) (c : Date) (hc : c.Valid) : N c = dayNumber c := by
  have up : ∀ k : Nat, N (dateOf k) = k := by
    intro k
    induction k with
    | zero => exact (congrArg N dateOf_zero).trans h0
    | succ k ih =>
      have := hs _ (dateOf_valid (k : Int)).1
      rw [← dateOf_succ, ih] at this
      simpa using this
  have down : ∀ k : Nat, N (dateOf (-(k : Int))) = -(k : Int) := by
    intro k
    induction k with
    | zero => exact (congrArg N dateOf_zero).trans h0
    | succ k ih =>
      have := hs _ (dateOf_valid (-((k + 1 : Nat) : Int))).1
      rw [← dateOf_succ, show -((k + 1 : Nat) : Int) + 1 = -(k : Int) by omega, ih] at this
      omega
  rw [← dateOf_dayNumber hc, (dateOf_valid _).2]
  rcases Int.le_total 0 (dayNumber c) with h | h
  · obtain ⟨k, hk⟩ := Int.eq_ofNat_of_zero_le h
    rw [hk]; exact up k
  · obtain ⟨k, hk⟩ := Int.eq_ofNat_of_zero_le (show 0 ≤ -dayNumber c by omega)
    rw [show dayNumber c = -(k : Int) by omega]; exact down k

theorem Shown.unique {t : Int} {d e : Date} {h m s b h' m' s' b' : Int} (x : Shown t d h m s b)
    (y : Shown t e h' m' s' b') : d = e ∧ h = h' ∧ m = m' ∧ s = s' ∧ b = b' := by
  obtain ⟨v, ⟨_, _⟩, ⟨_, _⟩, ⟨_, _⟩, ⟨_, hb⟩, ht⟩ := x
  obtain ⟨v', ⟨_, _⟩, ⟨_, _⟩, ⟨_, _⟩, ⟨_, hb'⟩, ht'⟩ := y
  unfold tps at *
  have hd : dayNumber d = dayNumber e := by omega
  have := dayNumber_inj v v' hd
  subst this
  refine ⟨rfl, by omega, by omega, by omega, by omega⟩

/-- What UTC shows for every finite time. -/
theorem atUtc_shown (t : Int) :
    Shown t (atUtc (.fin t)).date (atUtc (.fin t)).hh (atUtc (.fin t)).mm (atUtc (.fin t)).ss (t % tps) := by
  have hd := dateOf_valid (t / tps / 86400)
  refine ⟨hd.1, ?_, ?_, ?_, ?_, ?_⟩
  · simp only [atUtc]; omega
  · simp only [atUtc]; omega
  · simp only [atUtc]; omega
  · unfold tps; omega
  · simp only [atUtc, hd.2]
    unfold tps
    omega

/-- **C67** (UTC). Every accessor, at every finite instant, is the field of the date and time of day
that UTC shows at that instant: months, days of the month and days of the year count from 0, the
date counts from 1, Sunday is 0, milliseconds are the whole milliseconds of the second. -/
theorem C67_accessors (load : List Nat → Option Zone) (t : Int) :
    ∃ (date : Date) (h m s sub : Int), Shown t date h m s sub ∧
      getFullYear load (.fin t) [] = .ok date.y ∧
      getMonth load (.fin t) [] = .ok (date.m - 1) ∧
      getDate load (.fin t) [] = .ok date.d ∧
      getDayOfMonth load (.fin t) [] = .ok (date.d - 1) ∧
      getDayOfYear load (.fin t) [] = .ok (dayNumber date - dayNumber ⟨date.y, 1, 1⟩) ∧
      getDayOfWeek load (.fin t) [] = .ok ((dayNumber date + 4) % 7) ∧
      getHours load (.fin t) [] = .ok h ∧
      getMinutes load (.fin t) [] = .ok m ∧
      getSeconds load (.fin t) [] = .ok s ∧
      getMilliseconds load (.fin t) [] = .ok (sub / 4000000) := by
  refine ⟨_, _, _, _, _, atUtc_shown t, ?_⟩
  have hf : ∀ f, breakdownPart load f (.fin t) [] = .ok (f (atUtc (.fin t))) := by
    intro f; unfold breakdownPart findBreakdown; simp
  refine ⟨hf _, hf _, hf _, hf _, ?_, ?_, hf _, hf _, hf _, ?_⟩
  · unfold getDayOfYear; rw [hf]; unfold yearDay; congr 1; omega
  · unfold getDayOfWeek; rw [hf]; unfold weekday; congr 1; simp only; split <;> omega
  · unfold getMilliseconds
    rw [hf]
    congr 1
    simp only [atUtc, toInt64Millis]
    have : 0 ≤ t % tps ∧ t % tps < 4000000000 := by unfold tps; omega
    rw [tdiv_nonneg_eq this.1]
    unfold satI64 i64Max i64Min
    rw [if_neg (by omega), if_neg (by omega)]

/-- The first of January 1970 was a Thursday, and the days of the week go round. -/
example (load : List Nat → Option Zone) : getDayOfWeek load (.fin 0) [] = .ok 4 := by
  unfold getDayOfWeek breakdownPart findBreakdown; rw [if_pos rfl]; decide
example (load : List Nat → Option Zone) : getDayOfYear load (.fin (951782400 * tps)) [] = .ok 59 := by
  unfold getDayOfYear breakdownPart findBreakdown; rw [if_pos rfl]; decide
example (load : List Nat → Option Zone) : getMilliseconds load (.fin (-1)) [] = .ok 999 := by
  unfold getMilliseconds breakdownPart findBreakdown; rw [if_pos rfl]; decide

/-- **C67** (database zones). With the name of a zone in the database an accessor answers what it
answers without a zone at the instant moved by the zone's offset. -/
theorem C67_named_zone (load : List Nat → Option Zone) (f : Civil → Int) (t : Int) (tz : List Nat) (z : Zone)
    (hne : tz ≠ []) (hz : load tz = some z) :
    breakdownPart load f (.fin t) tz = breakdownPart load f (.fin (t + z (t / tps) * tps)) [] := by
  unfold breakdownPart findBreakdown
  rw [if_neg hne, hz]
  simp [atZone]

/-- The texts `HH:MM`, `+HH:MM` and `-HH:MM` (any number of digits in each part), and the seconds
they denote. -/
def OffsetText (tz : List Nat) (secs : Int) : Prop :=
  ∃ (sign hs ms : List Nat) (h m : Nat), tz = sign ++ hs ++ 58 :: ms ∧
    (sign = [] ∨ sign = [43] ∨ sign = [45]) ∧ hs ≠ [] ∧ ms ≠ [] ∧
    readFrom 10 0 hs = some h ∧ readFrom 10 0 ms = some m ∧ h ≤ 1000000 ∧ m ≤ 1000000 ∧
    secs = (if sign = [45] then -1 else 1) * ((h : Int) * 3600 + m * 60)

theorem map_digits {ds : List Nat} {acc n : Nat} (h : readFrom 10 acc ds = some n) :
    ds.map (fun c => if c = 58 then 104 else c) = ds := by
  have := digits_of_read _ _ _ h
  conv => rhs; rw [← List.map_id ds]
  apply List.map_congr_left
  intro c hc
  have := this c hc
  unfold IsDigit at this
  simp only [id]
  rw [if_neg (by omega)]

theorem parseUnsigned_offset {sg : Int} (hsg : sg = 1 ∨ sg = -1) {hs ms : List Nat} {h m : Nat}
    (hh0 : hs ≠ []) (hm0 : ms ≠ []) (hh : readFrom 10 0 hs = some h) (hm : readFrom 10 0 ms = some m)
    (hb : h ≤ 1000000) (mb : m ≤ 1000000) :
    parseUnsigned sg (hs ++ 104 :: (ms ++ [109])) = some (.fin (sg * ((h : Int) * 3600 + m * 60) * tps)) := by
  unfold parseUnsigned
  rw [if_neg (by simp)]
  rw [if_neg (by
    intro e
    have := congrArg List.length e
    have := List.length_pos_iff.2 hh0
    simp at *
    omega)]
  rw [if_neg (by
    intro e
    cases hs with
    | nil => exact hh0 rfl
    | cons c cs =>
      have hd := digits_of_read _ _ _ hh c (List.mem_cons_self ..)
      have : c = 105 := by
        have := congrArg List.head? e
        simpa [asc] using this
      unfold IsDigit at hd; omega)]
  have hlen : (hs ++ 104 :: (ms ++ [109])).length = hs.length + ms.length + 1 + 1 := by simp; omega
  rw [hlen]
  have c1 := consumeNumber_whole (rest := 104 :: (ms ++ [109])) hh0 hh (by unfold i64Max; omega)
    (by unfold NoDigit IsDigit; omega) (by simp)
  have c2 := consumeNumber_whole (rest := [109]) hm0 hm (by unfold i64Max; omega)
    (by unfold NoDigit IsDigit; omega) (by simp)
  rw [parseLoop_step (by simp) c1 rfl, parseLoop_step (by simp) c2 rfl, parseLoop_nil]
  congr 1
  unfold addPart
  simp only [ne_eq, not_true_eq_false, if_false]
  have e1 : (if ¬ (h : Int) = 0 then addDur (.fin 0) (mulDur (sg * h) (3600 * tps)) else .fin 0)
      = Dur.fin (sg * h * (3600 * tps)) := by
    by_cases hz : (h : Int) = 0
    · rw [if_neg (by omega), hz]; simp
    · rw [if_pos hz]
      unfold mulDur
      rw [satDur_range (by unfold tps; rcases hsg with rfl | rfl <;> omega) (by unfold tps; rcases hsg with rfl | rfl <;> omega)]
      show satDur _ = _
      rw [satDur_range (by unfold tps; rcases hsg with rfl | rfl <;> omega) (by unfold tps; rcases hsg with rfl | rfl <;> omega)]
      simp
  rw [e1]
  by_cases hz : (m : Int) = 0
  · rw [if_neg (by omega), hz]; congr 1; unfold tps; rcases hsg with rfl | rfl <;> omega
  · rw [if_pos hz]
    unfold mulDur
    rw [satDur_range (by unfold tps; rcases hsg with rfl | rfl <;> omega) (by unfold tps; rcases hsg with rfl | rfl <;> omega)]
    show satDur _ = _
    rw [satDur_range (by unfold tps; rcases hsg with rfl | rfl <;> omega) (by unfold tps; rcases hsg with rfl | rfl <;> omega)]
    congr 1
    unfold tps; rcases hsg with rfl | rfl <;> omega

/-- **C67** (fixed offsets). With an offset `[+-]HH:MM` that is not a database name, an accessor
answers what it answers without a zone at the instant moved by the offset, for every timestamp in
range. -/
theorem C67_fixed_offset (load : List Nat → Option Zone) (f : Civil → Int) (t : Int) (tz : List Nat) (secs : Int)
    (hload : load tz = none) (htz : OffsetText tz secs) (hmin : minTsTicks ≤ t) (hmax : t ≤ maxTsTicks) :
    breakdownPart load f (.fin t) tz = breakdownPart load f (.fin (t + secs * tps)) [] := by
  obtain ⟨sign, hs, ms, h, m, rfl, hsign, hh0, hm0, hh, hm, hb, mb, hsecs⟩ := htz
  have hne : sign ++ hs ++ 58 :: ms ≠ [] := by simp
  have hmem : 58 ∈ sign ++ hs ++ 58 :: ms := by simp
  have hmap : (sign ++ hs ++ 58 :: ms ++ [109]).map (fun c => if c = 58 then 104 else c) =
      sign ++ (hs ++ 104 :: (ms ++ [109])) := by
    simp only [List.map_append, List.map_cons, List.map_nil, map_digits hh, map_digits hm]
    have : sign.map (fun c => if c = 58 then 104 else c) = sign := by
      rcases hsign with rfl | rfl | rfl <;> rfl
    rw [this]
    simp
  have hp : parseDuration (sign ++ (hs ++ 104 :: (ms ++ [109]))) = some (.fin (secs * tps)) := by
    rcases hsign with rfl | rfl | rfl
    · simp only [List.nil_append]
      have hp := parseUnsigned_offset (sg := 1) (.inl rfl) hh0 hm0 hh hm hb mb
      cases hs with
      | nil => exact absurd rfl hh0
      | cons c cs =>
        have hd := digits_of_read _ _ _ hh c (List.mem_cons_self ..)
        unfold IsDigit at hd
        unfold parseDuration
        have h45 : c ≠ 45 := by omega
        have h43 : c ≠ 43 := by omega
        simp only [List.cons_append] at hp ⊢
        split
        · rename_i heq; simp at heq; exact absurd heq.1 h45
        · rename_i heq; simp at heq; exact absurd heq.1 h43
        · rw [hp, hsecs]; simp
    · have hp := parseUnsigned_offset (sg := 1) (.inl rfl) hh0 hm0 hh hm hb mb
      show parseUnsigned 1 (hs ++ 104 :: (ms ++ [109])) = _
      rw [hp, hsecs]; simp
    · have hp := parseUnsigned_offset (sg := -1) (.inr rfl) hh0 hm0 hh hm hb mb
      show parseUnsigned (-1) (hs ++ 104 :: (ms ++ [109])) = _
      rw [hp, hsecs]; simp
  have hadd : addTm (.fin t) (.fin (secs * tps)) = .fin (t + secs * tps) := by
    simp only [addTm]
    rw [if_pos]
    unfold minTsTicks maxTsTicks tps tpn at *
    unfold InI64 i64Min i64Max
    split at hsecs <;> omega
  unfold breakdownPart findBreakdown
  rw [if_neg hne, hload]
  simp only
  rw [if_pos hmem, hmap, hp]
  simp [hadd]

example : OffsetText (asc "-07:30") (-27000) :=
  ⟨[45], asc "07", asc "30", 7, 30, rfl, by simp, by decide, by decide, by decide, by decide, by decide, by decide,
    by decide⟩

/-- **C67** (errors). A non-empty text that is neither in the database nor contains a colon is an
error. -/
theorem C67_unknown_zone (load : List Nat → Option Zone) (f : Civil → Int) (t : Tm) (tz : List Nat)
    (hne : tz ≠ []) (hload : load tz = none) (hcolon : 58 ∉ tz) :
    breakdownPart load f t tz = .err invalidTz := by
  unfold breakdownPart findBreakdown
  rw [if_neg hne, hload]
  simp only
  rw [if_neg hcolon]; rfl

/-- More than offsets is accepted: anything with a colon that becomes a duration text. -/
theorem C67_lenient_witness :
    ∃ tz : List Nat, (∀ secs, ¬ OffsetText tz secs) ∧
      ∀ (load : List Nat → Option Zone), load tz = none →
        getHours load (.fin 0) tz = .ok 2 := by
  refine ⟨asc "1.5:30", ?_, ?_⟩
  · rintro secs ⟨sign, hs, ms, h, m, heq, hsign, hh0, hm0, hh, hm, _⟩
    have hall : ∀ c ∈ hs, IsDigit c := digits_of_read _ _ _ hh
    have hall2 : ∀ c ∈ ms, IsDigit c := digits_of_read _ _ _ hm
    have h46 : (46 : Nat) ∈ sign ++ hs ++ 58 :: ms := by rw [← heq]; decide
    simp only [List.mem_append, List.mem_cons] at h46
    rcases h46 with (h | h) | h | h
    · rcases hsign with rfl | rfl | rfl <;> simp at h
    · have := hall _ h; unfold IsDigit at this; omega
    · cases h
    · have := hall2 _ h; unfold IsDigit at this; omega
  · intro load hload
    unfold getHours breakdownPart findBreakdown
    rw [if_neg (by decide), hload]
    decide

/-! ### Durations -/

/-- `q` is the number of whole units in `t`, counted toward zero. -/
def WholeUnits (t unit q : Int) : Prop := ∃ r, t = q * unit + r ∧ (0 ≤ t → 0 ≤ r ∧ r < unit) ∧ (t < 0 → -unit < r ∧ r ≤ 0)

theorem wholeUnits_tdiv {t unit : Int} (hu : 0 < unit) : WholeUnits t unit (Int.tdiv t unit) := by
  refine ⟨Int.tmod t unit, ?_, ?_, ?_⟩
  · have := Int.mul_tdiv_add_tmod t unit
    have h2 := Int.mul_comm unit (Int.tdiv t unit)
    omega
  · intro h; exact ⟨Int.tmod_nonneg _ h, Int.tmod_lt_of_pos t hu⟩
  · intro h
    have h1 := Int.tmod_nonneg unit (show 0 ≤ -t by omega)
    have h2 := Int.tmod_lt_of_pos (-t) hu
    rw [Int.neg_tmod] at h1 h2
    omega

/-- **C67** (durations). Hours, minutes and seconds of a duration in range are the whole units of the
entire duration, toward zero; milliseconds are the whole milliseconds beyond the whole seconds. -/
theorem C67_duration (t : Int) (hr : DurInRange t) :
    WholeUnits t (3600 * tps) (durHours (.fin t)) ∧
    WholeUnits t (60 * tps) (durMinutes (.fin t)) ∧
    WholeUnits t tps (durSeconds (.fin t)) ∧
    WholeUnits (t - durSeconds (.fin t) * tps) (1000000 * tpn) (durMillis (.fin t)) := by
  obtain ⟨h1, h2⟩ := hr
  unfold minDurTicks tps tpn at h1
  unfold maxDurTicks tps tpn at h2
  have hsat : ∀ u : Int, 4000000 ≤ u → satI64 (Int.tdiv t u) = Int.tdiv t u := by
    intro u hu
    have hb : (Int.tdiv t u).natAbs * 4000000 ≤ t.natAbs := by
      rw [Int.natAbs_tdiv]
      calc t.natAbs / u.natAbs * 4000000 ≤ t.natAbs / u.natAbs * u.natAbs := Nat.mul_le_mul_left _ (by omega)
        _ ≤ t.natAbs := Nat.div_mul_le_self ..
    unfold satI64 i64Min i64Max
    rw [if_neg (by omega), if_neg (by omega)]
  have hs : durSeconds (.fin t) = Int.tdiv t tps := hsat _ (by decide)
  refine ⟨?_, ?_, ?_, ?_⟩
  · show WholeUnits t _ (satI64 _)
    rw [hsat _ (by decide)]; exact wholeUnits_tdiv (by decide)
  · show WholeUnits t _ (satI64 _)
    rw [hsat _ (by decide)]; exact wholeUnits_tdiv (by decide)
  · rw [hs]; exact wholeUnits_tdiv (by decide)
  · rw [hs]
    have hm : durMillis (.fin t) = Int.tdiv (t - Int.tdiv t tps * tps) (1000000 * tpn) := by
      show Int.tmod (satI64 _) 1000 = _
      rw [hsat _ (by decide)]
      unfold tps tpn
      rcases Int.le_total 0 t with h | h
      · rw [Int.tdiv_eq_ediv_of_nonneg h, Int.tdiv_eq_ediv_of_nonneg (b := 4000000000) h,
          Int.tmod_eq_emod_of_nonneg (by omega), Int.tdiv_eq_ediv_of_nonneg (by omega)]
        omega
      · obtain ⟨a, rfl⟩ : ∃ a, t = -a := ⟨-t, by omega⟩
        have ha : 0 ≤ a := by omega
        rw [Int.neg_tdiv, Int.neg_tdiv, Int.neg_tmod, Int.tdiv_eq_ediv_of_nonneg ha,
          Int.tdiv_eq_ediv_of_nonneg (b := 4000000000) ha, Int.tmod_eq_emod_of_nonneg (by omega),
          show -a - -(a / 4000000000) * 4000000000 = -(a - a / 4000000000 * 4000000000) by omega, Int.neg_tdiv,
          Int.tdiv_eq_ediv_of_nonneg (by omega)]
        omega
    rw [hm]; exact wholeUnits_tdiv (by decide)

example : DurInRange (-5400500 * 4000000) ∧ durHours (.fin (-5400500 * 4000000)) = -1 ∧
    durMinutes (.fin (-5400500 * 4000000)) = -90 ∧ durMillis (.fin (-5400500 * 4000000)) = -500 := by
  unfold DurInRange; decide

end Cel.Conv
