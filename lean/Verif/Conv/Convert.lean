import Verif.Conv.Clock
import Verif.Conv.DurationBack
import Verif.Text.Utf8Model

/-!
# Conversions between strings and other values

`runtime/standard/type_conversion_functions.cc`: `int(string)`, `uint(string)`, `bool(string)`,
`bytes(string)`, `duration(string)`, `timestamp(string)`, `timestamp(int)`, `int(timestamp)` and
`string(…)` of bool, int, uint, bytes, duration and timestamp.
Not modelled here: `string(double)` and `double(string)` (`std::to_chars`, `absl::SimpleAtod`);
the numeric conversions are C05 and C06.
-/

set_option linter.unusedSimpArgs false
set_option linter.unusedVariables false

namespace Cel.Conv
open Cel Cel.Num

/-- `absl::ascii_isspace`. -/
def IsSpace (c : Nat) : Prop := (9 ≤ c ∧ c ≤ 13) ∨ c = 32

instance (c : Nat) : Decidable (IsSpace c) := inferInstanceAs (Decidable (_ ∨ _))

/-- Space removed from both ends (abseil `safe_parse_sign_and_base`). -/
def trim (s : List Nat) : List Nat :=
  ((s.dropWhile fun c => decide (IsSpace c)).reverse.dropWhile fun c => decide (IsSpace c)).reverse

/-- abseil `safe_parse_positive_int`, base 10. -/
def parsePos (vmax : Int) : List Nat → Int → Option Int
  | [], v => some v
  | c :: cs, v =>
    if ¬ IsDigit c then none
    else if v > vmax / 10 then none
    else if v * 10 > vmax - ((c : Int) - 48) then none
    else parsePos vmax cs (v * 10 + ((c : Int) - 48))

/-- abseil `safe_parse_negative_int`, base 10. -/
def parseNeg (vmin : Int) : List Nat → Int → Option Int
  | [], v => some v
  | c :: cs, v =>
    if ¬ IsDigit c then none
    else if v < Int.tdiv vmin 10 then none
    else if v * 10 < vmin + ((c : Int) - 48) then none
    else parseNeg vmin cs (v * 10 - ((c : Int) - 48))

/-- abseil `SimpleAtoi` to `int64_t` (`safe_int_internal`; third-party, modelled branch for
branch). -/
def simpleAtoi64 (s : List Nat) : Option Int :=
  match trim s with
  | [] => none
  | 45 :: r => if r = [] then none else parseNeg i64Min r 0
  | 43 :: r => if r = [] then none else parsePos i64Max r 0
  | r => parsePos i64Max r 0

/-- abseil `SimpleAtoi` to `uint64_t` (`safe_uint_internal`): a minus sign is refused. -/
def simpleAtoiU64 (s : List Nat) : Option Int :=
  match trim s with
  | [] => none
  | 45 :: _ => none
  | 43 :: r => if r = [] then none else parsePos u64Max r 0
  | r => parsePos u64Max r 0

/-- `int(string)` (`type_conversion_functions.cc` lines 135-149). -/
def intOfString (s : List Nat) : Res Int :=
  match simpleAtoi64 s with
  | none => .err ⟨.invalidArgument, "cannot convert string to int"⟩
  | some i => .ok i

/-- `uint(string)` (lines 294-308). -/
def uintOfString (s : List Nat) : Res Int :=
  match simpleAtoiU64 s with
  | none => .err ⟨.invalidArgument, "cannot convert string to uint"⟩
  | some i => .ok i

/-- `bool(string)` (lines 92-106). -/
def boolOfString (s : List Nat) : Res Bool :=
  if s = asc "true" ∨ s = asc "True" ∨ s = asc "TRUE" ∨ s = asc "t" ∨ s = asc "1" then .ok true
  else if s = asc "false" ∨ s = asc "FALSE" ∨ s = asc "False" ∨ s = asc "f" ∨ s = asc "0" then .ok false
  else .err ⟨.invalidArgument, "Type conversion error from 'string' to 'bool'"⟩

/-- `string(bool)` (lines 196-202). -/
def stringOfBool (b : Bool) : List Nat := if b then asc "true" else asc "false"

/-- `string(int)` (lines 213-219) and `string(uint)` (lines 230-236). -/
def stringOfInt (i : Int) : List Nat := signedNumeral 10 i
def stringOfUint (u : Int) : List Nat := signedNumeral 10 u

/-- `string(bytes)` (lines 178-193). -/
def stringOfBytes (b : List Nat) : Res (List Nat) := do
  let valid ← Text.utf8IsValid b
  if ¬ valid then .err ⟨.invalidArgument, "malformed UTF-8 bytes"⟩ else .ok b

/-- `bytes(string)` (lines 322-328). -/
def bytesOfString (s : List Nat) : List Nat := s

/-- `string(duration)` (lines 238-249). -/
def stringOfDuration (d : Dur) : Res (List Nat) := encodeDuration d

/-- `string(timestamp)` (lines 251-262). -/
def stringOfTimestamp (t : Tm) : Res (List Nat) := encodeTimestamp t

/-- The range check shared by the conversions to timestamp (lines 387-391 and 426-430). -/
def checkTs (overflowErrors : Bool) (t : Tm) : Res Tm :=
  if overflowErrors ∧ (validateTimestamp t).isSome then .err tsOverflow else .ok t

/-- `timestamp(int)` (lines 381-395); `absl::FromUnixSeconds` does not saturate. -/
def timestampOfInt (overflowErrors : Bool) (s : Int) : Res Tm := checkTs overflowErrors (.fin (s * tps))

/-- `timestamp(string)` (lines 416-434); `parse` is `absl::ParseTime(absl::RFC3339_full, …)`. -/
def timestampOfString (parse : List Nat → Option Tm) (overflowErrors : Bool) (s : List Nat) : Res Tm :=
  match parse s with
  | none => .err ⟨.invalidArgument, "String to Timestamp conversion failed"⟩
  | some t => checkTs overflowErrors t

/-- `int(timestamp)` (lines 152-155). -/
def intOfTimestamp (t : Tm) : Int := toUnixSeconds t

example : intOfString (asc " -42\n") = .ok (-42) := by decide
example : intOfString (asc "-9223372036854775808") = .ok i64Min := by decide
example : (intOfString (asc "9223372036854775808")) = .err ⟨.invalidArgument, "cannot convert string to int"⟩ := by decide
example : uintOfString (asc "18446744073709551615") = .ok u64Max := by decide
example : uintOfString (asc "-0") = .err ⟨.invalidArgument, "cannot convert string to uint"⟩ := by decide

end Cel.Conv
