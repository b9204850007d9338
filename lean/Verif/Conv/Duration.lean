import Verif.Conv.Numeral
import Verif.Num.TimeModel

/-!
# Durations as text

`absl::ParseDuration` (third-party, abseil `time/duration.cc`: modelled branch for branch because
`duration(string)` and the time-zone offsets go through it), and the repository's own
`EncodeDurationToJson` and `FormatNanos`.
-/

set_option linter.unusedSimpArgs false
set_option linter.unusedVariables false

namespace Cel.Conv
open Cel Cel.Num

/-- ASCII text as bytes. -/
def asc (s : String) : List Nat := s.toList.map Char.toNat

/-! ### absl::Duration arithmetic -/

/-- A duration of `t` ticks, saturating to ±∞ (abseil `MakeDuration…`). -/
def satDur (t : Int) : Dur := if InI64 (t / tps) then .fin t else .inf (decide (t < 0))

/-- `k * unit` (abseil `Duration::operator*=(int64_t)`), for a finite unit. -/
def mulDur (k unit : Int) : Dur := satDur (k * unit)

/-- `a + b` (abseil `Duration::operator+=`): an infinite left side stays, an infinite right side
wins, otherwise the sum saturates. -/
def addDur : Dur → Dur → Dur
  | .inf s, _ => .inf s
  | .fin _, .inf s => .inf s
  | .fin a, .fin b => satDur (a + b)

/-- `d / k` for `0 < k` (abseil `Duration::operator/=(int64_t)`: truncates, infinity stays). -/
def divDur : Dur → Int → Dur
  | .inf s, _ => .inf s
  | .fin t, k => .fin (Int.tdiv t k)

/-! ### absl::ParseDuration -/

/-- Integer part of a number: `none` on overflow of `int64_t` (abseil `ConsumeDurationNumber`). -/
def consumeInt : List Nat → Int → Option (Int × List Nat)
  | [], acc => some (acc, [])
  | c :: cs, acc =>
    if IsDigit c then
      if acc > i64Max / 10 then none
      else if acc * 10 > i64Max - ((c : Int) - 48) then none
      else consumeInt cs (acc * 10 + ((c : Int) - 48))
    else some (acc, c :: cs)

/-- Fraction digits; digits beyond the 18th are dropped (abseil `ConsumeDurationNumber`). -/
def consumeFrac : List Nat → Int → Int → Int × Int × List Nat
  | [], part, scale => (part, scale, [])
  | c :: cs, part, scale =>
    if IsDigit c then
      if scale ≤ i64Max / 10 then consumeFrac cs (part * 10 + ((c : Int) - 48)) (scale * 10)
      else consumeFrac cs part scale
    else (part, scale, c :: cs)

/-- A number: integer part, fraction part, scale of the fraction, rest of the text. -/
structure DurNum where
  int : Int
  frac : Int
  scale : Int
  rest : List Nat

/-- abseil `ConsumeDurationNumber`. -/
def consumeNumber (s : List Nat) : Option DurNum :=
  match consumeInt s 0 with
  | none => none
  | some (n, 46 :: r) =>
    let f := consumeFrac r 0 1
    if s.head? = some 46 ∧ f.2.1 = 1 then none else some ⟨n, f.1, f.2.1, f.2.2⟩
  | some (n, r) => if r.length = s.length then none else some ⟨n, 0, 1, r⟩

/-- abseil `ConsumeDurationUnit`: the unit in ticks and the rest. -/
def consumeUnit : List Nat → Option (Int × List Nat)
  | 110 :: 115 :: r => some (4, r)
  | 117 :: 115 :: r => some (4000, r)
  | 109 :: 115 :: r => some (4000000, r)
  | 115 :: r => some (tps, r)
  | 109 :: r => some (60 * tps, r)
  | 104 :: r => some (3600 * tps, r)
  | _ => none

/-- One number with its unit added to the total. -/
def addPart (sign : Int) (n : DurNum) (unit : Int) (dur : Dur) : Dur :=
  let dur := if n.int ≠ 0 then addDur dur (mulDur (sign * n.int) unit) else dur
  if n.frac ≠ 0 then addDur dur (divDur (mulDur (sign * n.frac) unit) n.scale) else dur

/-- The loop of abseil `ParseDuration`; `fuel` is at least the length of the text. -/
def parseLoop (sign : Int) : Nat → List Nat → Dur → Option Dur
  | _, [], dur => some dur
  | 0, _ :: _, _ => none
  | fuel + 1, s, dur =>
    match consumeNumber s with
    | none => none
    | some n =>
      match consumeUnit n.rest with
      | none => none
      | some (u, r) => parseLoop sign fuel r (addPart sign n u dur)

/-- After the sign (abseil `ParseDuration`). -/
def parseUnsigned (sign : Int) (s : List Nat) : Option Dur :=
  if s = [] then none
  else if s = [48] then some (.fin 0)
  else if s = asc "inf" then some (.inf (decide (sign < 0)))
  else parseLoop sign s.length s (.fin 0)

/-- abseil `ParseDuration`. -/
def parseDuration (s : List Nat) : Option Dur :=
  match s with
  | 45 :: r => parseUnsigned (-1) r
  | 43 :: r => parseUnsigned 1 r
  | s => parseUnsigned 1 s

example : parseDuration (asc "1h30m") = some (.fin (5400 * tps)) := by decide
example : parseDuration (asc "-1.5s") = some (.fin (-6000000000)) := by decide
example : parseDuration (asc "1") = none := by decide
example : parseDuration (asc ".5m") = some (.fin (30 * tps)) := by decide
example : parseDuration (asc "") = none := by decide
example : parseDuration (asc ".s") = none := by decide
example : parseDuration (asc "9223372036854775808s") = none := by decide
example : parseDuration (asc "9223372036854775807h") = some (.inf false) := by decide

/-! ### Range, and the repository's encoders -/

/-- `MaxDuration()` / `MinDuration()` (`internal/time.cc` lines 39-58, with protobuf's
`TimeUtil::kDurationMaxSeconds = 315576000000` and `kDurationMaxNanoseconds = 999999999`). -/
def maxDurTicks : Int := 315576000000 * tps + 999999999 * tpn
def minDurTicks : Int := -(315576000000 * tps + 999999999 * tpn)

/-- `a < b` on durations. -/
def durLt : Dur → Dur → Bool
  | .inf true, .inf true => false
  | .inf true, _ => true
  | _, .inf true => false
  | .inf false, _ => false
  | .fin _, .inf false => true
  | .fin a, .fin b => decide (a < b)

/-- `ValidateDuration` (`internal/time.cc` lines 74-88); the message's texts are not modelled. -/
def validateDuration (d : Dur) : Option Status :=
  if durLt d (.fin minDurTicks) then some ⟨.invalidArgument, "Duration below minimum allowed duration"⟩
  else if durLt (.fin maxDurTicks) d then some ⟨.invalidArgument, "Duration above maximum allowed duration"⟩
  else none

/-- `FormatNanos` (`internal/time.cc` lines 138-148); `nanos` is in `[0, 10^9)`. -/
def formatNanos (nanos : Int) : List Nat :=
  if nanos.tmod 1000000 = 0 then padded 3 (nanos.tdiv 1000000).toNat
  else if nanos.tmod 1000 = 0 then padded 6 (nanos.tdiv 1000).toNat
  else padded 9 nanos.toNat

/-- `EncodeDurationToJson` (`internal/time.cc` lines 150-172). -/
def encodeDuration (d : Dur) : Res (List Nat) :=
  match validateDuration d with
  | some s => .err s
  | none =>
    match d with
    | .inf _ => .ub
    | .fin t =>
      let seconds := Int.tdiv t tps
      let nanos := Int.tdiv (Int.tmod t tps) tpn
      let neg := seconds < 0 ∨ nanos < 0
      let seconds' := if neg then -seconds else seconds
      let nanos' := if neg then -nanos else nanos
      .ok ((if neg then [minus] else []) ++ signedNumeral 10 seconds' ++
        (if nanos' ≠ 0 then 46 :: formatNanos nanos' else []) ++ [115])

/-- `CreateDurationFromString` (`runtime/standard/type_conversion_functions.cc` lines 359-371):
`duration(string)`. -/
def durationOfString (s : List Nat) : Res Dur :=
  match parseDuration s with
  | none => .err ⟨.invalidArgument, "String to Duration conversion failed"⟩
  | some d =>
    match validateDuration d with
    | some st => .err st
    | none => .ok d

example : encodeDuration (.fin 6000000000) = .ok (asc "1.500s") := by decide
example : encodeDuration (.fin (-4)) = .ok (asc "-0.000000001s") := by decide
example : encodeDuration (.fin 0) = .ok (asc "0s") := by decide
example : durationOfString (asc "inf") = .err ⟨.invalidArgument, "Duration above maximum allowed duration"⟩ := by
  decide

/-! ### What a duration text means -/

/-- Specification: `text` is an optional minus sign, a canonical whole number of seconds, an
optional fraction of 3, 6 or 9 digits, and `s`; the ticks it denotes are exactly `t`. -/
def SecondsText (text : List Nat) (t : Int) : Prop :=
  ∃ (neg : Bool) (whole frac : List Nat) (w f : Nat),
    text = (if neg then [minus] else []) ++ whole ++ (if frac = [] then [] else 46 :: frac) ++ [115] ∧
    Reads 10 whole w ∧
    (frac = [] ∧ f = 0 ∨ (frac.length = 3 ∨ frac.length = 6 ∨ frac.length = 9) ∧ readFrom 10 0 frac = some f) ∧
    t * 10 ^ frac.length = (if neg then -1 else 1) * (((w : Int) * 10 ^ frac.length + f) * tps)

theorem tdiv_nonneg_eq {a b : Int} (ha : 0 ≤ a) : Int.tdiv a b = a / b := Int.tdiv_eq_ediv_of_nonneg ha
theorem tmod_nonneg_eq {a b : Int} (ha : 0 ≤ a) : Int.tmod a b = a % b := Int.tmod_eq_emod_of_nonneg ha

/-- The digits `FormatNanos` writes denote the nanoseconds as a fraction of a second. -/
theorem formatNanos_spec {n : Int} (h0 : 0 < n) (h1 : n < 1000000000) :
    ∃ f : Nat, ((formatNanos n).length = 3 ∨ (formatNanos n).length = 6 ∨ (formatNanos n).length = 9) ∧
      readFrom 10 0 (formatNanos n) = some f ∧ 0 < f ∧
      n * 10 ^ (formatNanos n).length = (f : Int) * 1000000000 := by
  unfold formatNanos
  rw [tmod_nonneg_eq (by omega), tmod_nonneg_eq (by omega), tdiv_nonneg_eq (by omega), tdiv_nonneg_eq (by omega)]
  split
  · rename_i h
    have hl : (padded 3 (n / 1000000).toNat).length = 3 := padded_length (by omega) (by omega)
    refine ⟨(n / 1000000).toNat, .inl hl, padded_value _ _, by omega, ?_⟩
    rw [hl]; omega
  · split
    · have hl : (padded 6 (n / 1000).toNat).length = 6 := padded_length (by omega) (by omega)
      refine ⟨(n / 1000).toNat, .inr (.inl hl), padded_value _ _, by omega, ?_⟩
      rw [hl]; omega
    · have hl : (padded 9 n.toNat).length = 9 := padded_length (by omega) (by omega)
      refine ⟨n.toNat, .inr (.inr hl), padded_value _ _, by omega, ?_⟩
      rw [hl]; omega

/-- `encodeDuration` in terms of the magnitude. -/
theorem encodeDuration_eq (t : Int) (hmin : minDurTicks ≤ t) (hmax : t ≤ maxDurTicks) :
    encodeDuration (.fin t) =
      (let a := t.natAbs
       let s := a / 4000000000
       let n := a % 4000000000 / 4
       .ok ((if t < 0 ∧ (s ≠ 0 ∨ n ≠ 0) then [minus] else []) ++ numeral 10 s ++
         (if n ≠ 0 then 46 :: formatNanos n else []) ++ [115])) := by
  have hv : validateDuration (.fin t) = none := by
    unfold validateDuration durLt
    simp only [decide_eq_true_eq]
    rw [if_neg (by omega), if_neg (by omega)]
  unfold encodeDuration
  rw [hv]
  simp only
  have hsn : ∀ k : Nat, signedNumeral 10 (k : Int) = numeral 10 k := by
    intro k; unfold signedNumeral; rw [if_neg (by omega)]; simp
  by_cases hneg : t < 0
  · obtain ⟨a, rfl⟩ : ∃ a : Nat, t = -(a : Int) := ⟨t.natAbs, by omega⟩
    have hna : (-(a : Int)).natAbs = a := by omega
    rw [hna]
    have e1 : Int.tdiv (-(a : Int)) tps = -((a / 4000000000 : Nat) : Int) := by
      rw [Int.neg_tdiv, tdiv_nonneg_eq (by omega)]; unfold tps; omega
    have e2 : Int.tdiv (Int.tmod (-(a : Int)) tps) tpn = -((a % 4000000000 / 4 : Nat) : Int) := by
      rw [Int.neg_tmod, Int.neg_tdiv, tmod_nonneg_eq (by omega), tdiv_nonneg_eq (by unfold tps; omega)]
      unfold tps tpn; omega
    rw [e1, e2]
    generalize a / 4000000000 = s
    generalize a % 4000000000 / 4 = n
    by_cases hz : s ≠ 0 ∨ n ≠ 0
    · simp only [if_pos (show -(s : Int) < 0 ∨ -(n : Int) < 0 by omega)]
      rw [if_pos (show -(a : Int) < 0 ∧ (s ≠ 0 ∨ n ≠ 0) from ⟨hneg, hz⟩)]
      simp only [Int.neg_neg, hsn]
      by_cases hn : n = 0
      · subst hn; simp
      · rw [if_pos (show (n : Int) ≠ 0 by omega), if_pos hn]
    · simp only [if_neg (show ¬ (-(s : Int) < 0 ∨ -(n : Int) < 0) by omega)]
      rw [if_neg (show ¬ (-(a : Int) < 0 ∧ (s ≠ 0 ∨ n ≠ 0)) from fun h => hz h.2)]
      have hs : s = 0 := by omega
      have hn : n = 0 := by omega
      subst hs hn; simp [signedNumeral]
  · obtain ⟨a, rfl⟩ : ∃ a : Nat, t = (a : Int) := ⟨t.natAbs, by omega⟩
    have hna : ((a : Int)).natAbs = a := by omega
    rw [hna]
    have e1 : Int.tdiv ((a : Int)) tps = ((a / 4000000000 : Nat) : Int) := by
      rw [tdiv_nonneg_eq (by omega)]; unfold tps; omega
    have e2 : Int.tdiv (Int.tmod ((a : Int)) tps) tpn = ((a % 4000000000 / 4 : Nat) : Int) := by
      rw [tmod_nonneg_eq (by omega), tdiv_nonneg_eq (by unfold tps; omega)]
      unfold tps tpn; omega
    rw [e1, e2]
    generalize a / 4000000000 = s
    generalize a % 4000000000 / 4 = n
    simp only [if_neg (show ¬ ((s : Int) < 0 ∨ (n : Int) < 0) by omega)]
    rw [if_neg (show ¬ ((a : Int) < 0 ∧ (s ≠ 0 ∨ n ≠ 0)) from fun h => hneg h.1)]
    simp only [hsn]
    by_cases hn : n = 0
    · subst hn; simp
    · rw [if_pos (show (n : Int) ≠ 0 by omega), if_pos hn]

theorem formatNanos_ne {n : Int} (h0 : 0 < n) (h1 : n < 1000000000) : formatNanos n ≠ [] := by
  obtain ⟨f, hl, _⟩ := formatNanos_spec h0 h1
  intro h; rw [h] at hl; simp at hl

/-- `string(duration)` denotes exactly the duration, for every duration in range made of whole
nanoseconds. -/
theorem encodeDuration_spec (t : Int) (hmin : minDurTicks ≤ t) (hmax : t ≤ maxDurTicks) (hns : t % 4 = 0) :
    ∃ text, encodeDuration (.fin t) = .ok text ∧ SecondsText text t := by
  rw [encodeDuration_eq t hmin hmax]
  refine ⟨_, rfl, ?_⟩
  have hs : t.natAbs / 4000000000 * 4000000000 + t.natAbs % 4000000000 / 4 * 4 = t.natAbs := by omega
  have hn9 : t.natAbs % 4000000000 / 4 < 1000000000 := by omega
  generalize t.natAbs / 4000000000 = s at *
  generalize t.natAbs % 4000000000 / 4 = n at *
  by_cases hn : n = 0
  · subst hn
    refine ⟨decide (t < 0), numeral 10 s, [], s, 0, ?_, numeral_reads (by omega) (by omega) s, .inl ⟨rfl, rfl⟩, ?_⟩
    · by_cases ht : t < 0
      · rw [if_pos ⟨ht, .inl (by omega)⟩]; simp [ht]
      · rw [if_neg (fun h => ht h.1)]; simp [ht]
    · by_cases ht : t < 0
      · simp [ht, tps]; omega
      · simp [ht, tps]; omega
  · obtain ⟨f, hl, hv, hf, he⟩ := formatNanos_spec (n := n) (by omega) (by omega)
    have hne := formatNanos_ne (n := n) (by omega) (by omega)
    refine ⟨decide (t < 0), numeral 10 s, formatNanos n, s, f, ?_, numeral_reads (by omega) (by omega) s, .inr ⟨hl, hv⟩, ?_⟩
    · rw [if_pos hn, if_neg hne]
      by_cases ht : t < 0
      · rw [if_pos ⟨ht, .inr hn⟩]; simp [ht]
      · rw [if_neg (fun h => ht h.1)]; simp [ht]
    · rcases hl with hl | hl | hl <;> rw [hl] at he ⊢ <;> by_cases ht : t < 0 <;> simp [ht, tps] <;> omega

end Cel.Conv
