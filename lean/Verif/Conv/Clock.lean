import Verif.Conv.Civil
import Verif.Conv.Duration

/-!
# Timestamps: calendar accessors and texts

`runtime/standard/time_functions.cc` (the accessors `getFullYear()` … `getMilliseconds()`, with and
without a time zone) and `internal/time.cc` (texts).  `absl::TimeZone::At` in UTC is third-party;
its contract is the calendar of `Civil.lean` plus the clock below.
-/

set_option linter.unusedSimpArgs false
set_option linter.unusedVariables false

namespace Cel.Conv
open Cel Cel.Num

/-- `absl::TimeZone::CivilInfo`: the civil second and the subsecond. -/
structure Civil where
  date : Date
  hh : Int
  mm : Int
  ss : Int
  sub : Dur
  deriving DecidableEq, Repr

/-- `absl::TimeZone::At` in UTC (third-party contract); infinite times have their own readings. -/
def atUtc : Tm → Civil
  | .inf true => ⟨⟨i64Min, 1, 1⟩, 0, 0, 0, .inf true⟩
  | .inf false => ⟨⟨i64Max, 12, 31⟩, 23, 59, 59, .inf false⟩
  | .fin t =>
    let s := t / tps
    ⟨dateOf (s / 86400), s % 86400 / 3600, s % 3600 / 60, s % 60, .fin (t % tps)⟩

/-- `t + d` on `absl::Time` (saturating). -/
def addTm : Tm → Dur → Tm
  | .inf s, _ => .inf s
  | .fin _, .inf s => .inf s
  | .fin a, .fin b => if InI64 ((a + b) / tps) then .fin (a + b) else .inf (decide (a + b < 0))

/-- A time zone from the database: the offset from UTC, in seconds, in force at a Unix second. -/
abbrev Zone := Int → Int

/-- `time_zone.At(timestamp)` for a loaded zone. -/
def atZone (z : Zone) : Tm → Civil
  | .fin t => atUtc (.fin (t + z (t / tps) * tps))
  | t => atUtc t

def invalidTz : Status := ⟨.invalidArgument, "Invalid timezone"⟩

/-- `FindTimeBreakdown` (`runtime/standard/time_functions.cc` lines 40-71); `load` is
`absl::LoadTimeZone`. -/
def findBreakdown (load : List Nat → Option Zone) (t : Tm) (tz : List Nat) : Res Civil :=
  if tz = [] then .ok (atUtc t)
  else
    match load tz with
    | some z => .ok (atZone z t)
    | none =>
      if 58 ∈ tz then
        match parseDuration ((tz ++ [109]).map fun c => if c = 58 then 104 else c) with
        | some d => .ok (atUtc (addTm t d))
        | none => .err invalidTz
      else .err invalidTz

/-- `GetTimeBreakdownPart` (`runtime/standard/time_functions.cc` lines 73-86). -/
def breakdownPart (load : List Nat → Option Zone) (f : Civil → Int) (t : Tm) (tz : List Nat) : Res Int := do
  let c ← findBreakdown load t tz
  .ok (f c)

/-- `absl::GetYearDay`: 1 for the first of January (third-party). -/
def yearDay (d : Date) : Int := dayNumber d - dayNumber ⟨d.y, 1, 1⟩ + 1

/-- `absl::GetWeekday` as the value of its enum: Monday is 0 (third-party); day 0 was a Thursday. -/
def weekday (d : Date) : Int := (dayNumber d + 3) % 7

/-- `absl::ToInt64Milliseconds`: truncates, saturates (third-party). -/
def toInt64Millis : Dur → Int
  | .inf true => i64Min
  | .inf false => i64Max
  | .fin t => satI64 (Int.tdiv t 4000000)

/-- `GetFullYear` (lines 88-93). -/
def getFullYear (load : List Nat → Option Zone) := breakdownPart load fun c => c.date.y
/-- `GetMonth` (lines 95-100). -/
def getMonth (load : List Nat → Option Zone) := breakdownPart load fun c => c.date.m - 1
/-- `GetDayOfYear` (lines 102-107). -/
def getDayOfYear (load : List Nat → Option Zone) := breakdownPart load fun c => yearDay c.date - 1
/-- `GetDayOfMonth` (lines 109-114). -/
def getDayOfMonth (load : List Nat → Option Zone) := breakdownPart load fun c => c.date.d - 1
/-- `GetDate` (lines 116-121). -/
def getDate (load : List Nat → Option Zone) := breakdownPart load fun c => c.date.d
/-- `GetDayOfWeek` (lines 123-134). -/
def getDayOfWeek (load : List Nat → Option Zone) :=
  breakdownPart load fun c => let w := weekday c.date; if w = 6 then 0 else w + 1
/-- `GetHours` (lines 136-141). -/
def getHours (load : List Nat → Option Zone) := breakdownPart load fun c => c.hh
/-- `GetMinutes` (lines 143-148). -/
def getMinutes (load : List Nat → Option Zone) := breakdownPart load fun c => c.mm
/-- `GetSeconds` (lines 150-155). -/
def getSeconds (load : List Nat → Option Zone) := breakdownPart load fun c => c.ss
/-- `GetMilliseconds` (lines 157-162). -/
def getMilliseconds (load : List Nat → Option Zone) := breakdownPart load fun c => toInt64Millis c.sub

/-! ### Texts -/

/-- Range of timestamps (`MinTimestamp`, `MaxTimestamp`, `internal/time.cc` lines 60-72). -/
def minTsTicks : Int := -62135596800 * tps
def maxTsTicks : Int := 253402300799 * tps + 999999999 * tpn

/-- `ValidateTimestamp` (`internal/time.cc` lines 107-121); the texts in the message are not
modelled. -/
def validateTimestamp : Tm → Option Status
  | .inf true => some ⟨.invalidArgument, "Timestamp below minimum allowed timestamp"⟩
  | .inf false => some ⟨.invalidArgument, "Timestamp above maximum allowed timestamp"⟩
  | .fin t =>
    if t < minTsTicks then some ⟨.invalidArgument, "Timestamp below minimum allowed timestamp"⟩
    else if t > maxTsTicks then some ⟨.invalidArgument, "Timestamp above maximum allowed timestamp"⟩
    else none

/-- `absl::FormatTime("-%m-%dT%H:%M:%S", …)` (third-party contract: two-digit fields). -/
def clockText (c : Civil) : List Nat :=
  45 :: padded 2 c.date.m.toNat ++ 45 :: padded 2 c.date.d.toNat ++ 84 :: padded 2 c.hh.toNat ++
    58 :: padded 2 c.mm.toNat ++ 58 :: padded 2 c.ss.toNat

/-- `EncodeTimestampToJson` (`internal/time.cc` lines 174-193): `%E4Y` pads the year to four digits.
Years in range are positive. -/
def encodeTimestamp (t : Tm) : Res (List Nat) :=
  match validateTimestamp t with
  | some s => .err s
  | none =>
    match t with
    | .inf _ => .ub
    | .fin t =>
      let secs := t / tps
      let n := nanosPast t secs
      let c := atUtc (.fin (secs * tps))
      .ok (padded 4 c.date.y.toNat ++ clockText c ++ (if n > 0 then 46 :: formatNanos n else []) ++ [90])

/-- Digits with trailing zeros removed. -/
def stripZeros (ds : List Nat) : List Nat := (ds.reverse.dropWhile (· = 48)).reverse

/-- `RawFormatTimestamp` (`internal/time.cc` lines 32-35) for a finite time in a positive year:
`%Y` does not pad the year, `%E*S` prints the exact fraction without trailing zeros (third-party
contract; a tick is 250000 femtoseconds). -/
def rawTimestamp (t : Int) : List Nat :=
  let c := atUtc (.fin t)
  let frac := stripZeros (padded 15 ((t % tps) * 250000).toNat)
  signedNumeral 10 c.date.y ++ clockText c ++ (if frac = [] then [] else 46 :: frac) ++ [90]

example : encodeTimestamp (.fin (1234567890 * tps + 500000000)) = .ok (asc "2009-02-13T23:31:30.125Z") := by decide
example : encodeTimestamp (.fin minTsTicks) = .ok (asc "0001-01-01T00:00:00Z") := by decide
example : rawTimestamp minTsTicks = asc "1-01-01T00:00:00Z" := by decide
example : rawTimestamp (1234567890 * tps + 500000000) = asc "2009-02-13T23:31:30.125Z" := by decide

/-! ### Accessors of durations (`runtime/standard/time_functions.cc` 453-481) -/

/-- `absl::ToInt64Hours` and friends: truncated toward zero, saturating (abseil contract). -/
def durCount (unit : Int) : Dur → Int
  | .inf true => i64Min
  | .inf false => i64Max
  | .fin t => satI64 (Int.tdiv t unit)

/-- `getHours` of a duration (lines 457-460). -/
def durHours (d : Dur) : Int := durCount (3600 * tps) d
/-- `getMinutes` of a duration (lines 462-466). -/
def durMinutes (d : Dur) : Int := durCount (60 * tps) d
/-- `getSeconds` of a duration (lines 468-472). -/
def durSeconds (d : Dur) : Int := durCount tps d
/-- `getMilliseconds` of a duration (lines 474-479): the milliseconds modulo 1000. -/
def durMillis (d : Dur) : Int := Int.tmod (durCount (1000000 * tpn) d) 1000

end Cel.Conv
