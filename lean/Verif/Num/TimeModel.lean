import Verif.Num.IntModel

/-!
# absl::Duration / absl::Time and `CheckedAdd/Sub/Negation` on them (`internal/overflow.cc`)

`absl::Duration` is `±∞` or a whole number of *ticks* of a quarter nanosecond (third-party
behaviour, abseil `time/duration.cc`: `kTicksPerNanosecond = 4`, seconds in an `int64_t`).
`absl::Time` is a duration since the Unix epoch.
-/

namespace Cel.Num
open Cel

/-- `absl::Duration`. -/
inductive Dur where
  | inf (neg : Bool)
  | fin (ticks : Int)
  deriving DecidableEq, Repr

/-- `absl::Time`: a `Duration` since the epoch. -/
inductive Tm where
  | inf (neg : Bool)
  | fin (ticks : Int)
  deriving DecidableEq, Repr

/-- Ticks per nanosecond / per second. -/
def tpn : Int := 4
def tps : Int := 4000000000

/-- The finite durations that exist: whole seconds (rounded down) fit an `int64_t`. -/
def Dur.WF : Dur → Prop
  | .fin t => InI64 (t / tps)
  | .inf _ => True
def Tm.WF : Tm → Prop
  | .fin t => InI64 (t / tps)
  | .inf _ => True

instance (d : Dur) : Decidable d.WF := by cases d <;> unfold Dur.WF <;> infer_instance
instance (d : Tm) : Decidable d.WF := by cases d <;> unfold Tm.WF <;> infer_instance

/-- Saturation of abseil's integer quotient (`IDivDuration` with `satq`). -/
def satI64 (x : Int) : Int := if x > i64Max then i64Max else if x < i64Min then i64Min else x

/-- `absl::ToInt64Nanoseconds`: truncates toward zero, saturates (abseil contract). -/
def toInt64Nanos : Dur → Int
  | .inf true => i64Min
  | .inf false => i64Max
  | .fin t => satI64 (Int.tdiv t tpn)

/-- `d / absl::Seconds(1)` : truncated, saturating. -/
def durDivSec : Dur → Int
  | .inf true => i64Min
  | .inf false => i64Max
  | .fin t => satI64 (Int.tdiv t tps)
/-- `d % absl::Seconds(1)` (remainder with the sign of `d`; infinite for an infinite `d`). -/
def durModSec : Dur → Dur
  | .inf s => .inf s
  | .fin t => .fin (Int.tmod t tps)

/-- `absl::Nanoseconds(n)`. -/
def nanoseconds (n : Int) : Dur := .fin (n * tpn)

/-- `absl::ToUnixSeconds`: rounds toward minus infinity. -/
def toUnixSeconds : Tm → Int
  | .inf true => i64Min
  | .inf false => i64Max
  | .fin t => t / tps

/-- `(t - absl::FromUnixSeconds(s)) / absl::Nanoseconds(1)` for finite `t`. -/
def nanosPast (t : Int) (s : Int) : Int := Int.tdiv (t - s * tps) tpn

/-- `IsFinite` – `internal/overflow.cc:67-75`. -/
def Dur.isFinite : Dur → Bool
  | .fin _ => true
  | .inf _ => false
def Tm.isFinite : Tm → Bool
  | .fin _ => true
  | .inf _ => false

def kOneSecondNanos : Int := 1000000000
/-- `internal/overflow.cc:45-51`: seconds of MinTimestamp / MaxTimestamp
(`internal/time.cc` with protobuf's `TimeUtil::kTimestamp{Min,Max}Seconds`). -/
def kMinUnixTime : Int := -62135596800
def kMaxUnixTime : Int := 253402300799

def tsOverflow : Status := ⟨.outOfRange, "timestamp overflow"⟩

/-- `CheckedAdd(Duration, Duration)` – `internal/overflow.cc:203-220`. -/
def checkedAddDD (x y : Dur) : Res Dur :=
  if x.isFinite && y.isFinite then do
    let nanos ← checkedAddI (toInt64Nanos x) (toInt64Nanos y)
    .ok (nanoseconds nanos)
  else .err intOverflow

/-- `CheckedSub(Duration, Duration)` – `internal/overflow.cc:222-228`. -/
def checkedSubDD (x y : Dur) : Res Dur :=
  if x.isFinite && y.isFinite then do
    let nanos ← checkedSubI (toInt64Nanos x) (toInt64Nanos y)
    .ok (nanoseconds nanos)
  else .err intOverflow

/-- `CheckedNegation(Duration)` – `internal/overflow.cc:230-235`. -/
def checkedNegD (v : Dur) : Res Dur :=
  if v.isFinite then do
    let nanos ← checkedNegI (toInt64Nanos v)
    .ok (nanoseconds nanos)
  else .err intOverflow

/-- The carry block of `CheckedAdd(Time, Duration)` – `internal/overflow.cc:256-265`. `ns` is in
nanoseconds (the C++ keeps it as a whole-nanosecond `absl::Duration`). -/
def carryNanos (s ns : Int) : Res (Int × Int) :=
  if ns < 0 ∨ ns ≥ kOneSecondNanos then do
    let s ← checkedAddI s (Int.tdiv ns kOneSecondNanos)
    let ns := ns - Int.tdiv ns kOneSecondNanos * kOneSecondNanos
    if ns < 0 then do
      let s ← checkedAddI s (-1)
      .ok (s, ns + kOneSecondNanos)
    else .ok (s, ns)
  else .ok (s, ns)

/-- `CheckedAdd(Time, Duration)` – `internal/overflow.cc:237-273`. -/
def checkedAddTD (t : Tm) (d : Dur) : Res Tm :=
  match t, d with
  | .fin tt, .fin dt => do
    let s1 := toUnixSeconds (.fin tt)
    let ns1 := nanosPast tt s1
    let s2 := durDivSec (.fin dt)
    let ns2 := toInt64Nanos (durModSec (.fin dt))
    let s ← checkedAddI s1 s2
    let (s, ns) ← carryNanos s (ns2 + ns1)
    if s ≥ kMinUnixTime ∧ s ≤ kMaxUnixTime then
      .ok (.fin (s * tps + ns * tpn))
    else .err tsOverflow
  | _, _ => .err tsOverflow

/-- `CheckedSub(Time, Duration)` – `internal/overflow.cc:275-278`. -/
def checkedSubTD (t : Tm) (d : Dur) : Res Tm := do
  let n ← checkedNegD d
  checkedAddTD t n

/-- `CheckedSub(Time, Time)` – `internal/overflow.cc:280-300`. -/
def checkedSubTT (t1 t2 : Tm) : Res Dur :=
  match t1, t2 with
  | .fin a, .fin b => do
    let s1 := toUnixSeconds (.fin a)
    let ns1 := nanosPast a s1
    let s2 := toUnixSeconds (.fin b)
    let ns2 := nanosPast b s2
    let s ← checkedSubI s1 s2
    let ns := nanoseconds (ns1 - ns2)
    let t ← checkedMulI s kOneSecondNanos
    let v ← checkedAddI t (toInt64Nanos ns)
    .ok (nanoseconds v)
  | _, _ => .err intOverflow

end Cel.Num
