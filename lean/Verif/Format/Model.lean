import Verif.Conv.Clock
import Verif.Conv.Convert
import Verif.Num.Double

/-!
# `string.format` (`extensions/formatting.cc`)

Text is bytes.  Error messages are modelled without the type names they embed.
Third-party number printing (`absl::StrAppend`, `absl::StrFormat`) is modelled by its contract:
canonical numerals for whole numbers, and correctly rounded decimals for doubles.
-/

set_option linter.unusedSimpArgs false
set_option exponentiation.threshold 3000
set_option linter.unusedVariables false

namespace Cel.Format
open Cel Cel.Num Cel.Conv

/-- The values `format` looks at (`common/value.h`); `other` is every kind it refuses (structs,
opaque values, errors, unknowns). -/
inductive FVal where
  | null
  | bool (b : Bool)
  | int (i : Int)
  | uint (u : Nat)
  | dbl (d : Dbl)
  | str (s : List Nat)
  | bytes (s : List Nat)
  | dur (d : Dur)
  | ts (t : Int)
  | typ (name : List Nat)
  | list (l : List FVal)
  | map (m : List (FVal × FVal))
  | other

def invalid (msg : String) : Status := ⟨.invalidArgument, msg⟩

/-! ### Doubles (third-party printing) -/

/-- Quotient rounded to the nearest whole number, ties to even. -/
def roundDiv (a b : Nat) : Nat :=
  let q := a / b
  let r := a % b
  if 2 * r < b then q else if 2 * r > b then q + 1 else if q % 2 = 0 then q else q + 1

/-- `%.pf` of the finite double `± mag * 2^-1074`. -/
def fixedText (p : Nat) (neg : Bool) (mag : Nat) : List Nat :=
  let q := roundDiv (mag * 10 ^ p) unit1
  (if neg then [minus] else []) ++ numeral 10 (q / 10 ^ p) ++ (if p = 0 then [] else 46 :: padded p (q % 10 ^ p))

/-- Least `k` with `unit1 ≤ mag * 10^k`, searched from `k`. -/
def negExp (mag : Nat) : Nat → Nat → Nat
  | 0, k => k
  | fuel + 1, k => if unit1 ≤ mag * 10 ^ k then k else negExp mag fuel (k + 1)

/-- Decimal exponent of a positive magnitude. -/
def decExp (mag : Nat) : Int :=
  if unit1 ≤ mag then ((numeral 10 (mag / unit1)).length : Int) - 1 else -(negExp mag 400 0 : Int)

/-- `p + 1` significant digits and the decimal exponent. -/
def sigDigits (p mag : Nat) : Nat × Int :=
  let e := decExp mag
  let q := if e ≤ p then roundDiv (mag * 10 ^ (p - e).toNat) unit1 else roundDiv mag (unit1 * 10 ^ (e - p).toNat)
  if q = 10 ^ (p + 1) then (10 ^ p, e + 1) else (q, e)

/-- `e±XX`. -/
def expText (e : Int) : List Nat := 101 :: (if e < 0 then 45 else 43) :: padded 2 e.natAbs

/-- `%.pe` of the finite double `± mag * 2^-1074`. -/
def sciText (p : Nat) (neg : Bool) (mag : Nat) : List Nat :=
  let (q, e) := if mag = 0 then (0, 0) else sigDigits p mag
  (if neg then [minus] else []) ++ numeral 10 (q / 10 ^ p) ++ (if p = 0 then [] else 46 :: padded p (q % 10 ^ p))
    ++ expText e

/-- `absl::StrAppend(double)`: six significant digits, as `%g`. -/
def sixText (neg : Bool) (mag : Nat) : List Nat :=
  (if neg then [minus] else []) ++
  if mag = 0 then [48]
  else
    let (q, e) := sigDigits 5 mag
    let ds := padded 6 q
    if e < -4 ∨ 6 ≤ e then
      let tail := stripZeros (ds.drop 1)
      ds.take 1 ++ (if tail = [] then [] else 46 :: tail) ++ expText e
    else if 0 ≤ e then
      let tail := stripZeros (ds.drop (e.toNat + 1))
      ds.take (e.toNat + 1) ++ (if tail = [] then [] else 46 :: tail)
    else [48, 46] ++ List.replicate ((-e).toNat - 1) 48 ++ stripZeros ds

example : fixedText 2 true (unit1 * 3 / 2) = asc "-1.50" := by decide
example : fixedText 0 false (unit1 * 5 / 2) = asc "2" := by decide
example : sciText 6 false (unit1 * 1234) = asc "1.234000e+03" := by decide
example : sixText false (unit1 * 1234567) = asc "1.23457e+06" := by decide
example : sixText false (unit1 / 8) = asc "0.125" := by decide
example : sixText true (unit1 * 100) = asc "-100" := by decide

/-- `FormatDouble` (lines 114-135). -/
def formatDouble (d : Dbl) (precision : Option Nat) (scientific : Bool) : List Nat :=
  match d with
  | .nan => asc "NaN"
  | .inf false => asc "Infinity"
  | .inf true => asc "-Infinity"
  | .fin neg mag =>
    if scientific then sciText (precision.getD 6) neg mag else fixedText (precision.getD 6) neg mag

/-! ### Durations -/

/-- `absl::AbsDuration`. -/
def absDur : Dur → Dur
  | .inf _ => .inf false
  | .fin t => .fin (if t < 0 then -t else t)

/-- `absl::ToInt64Seconds`. -/
def toInt64Seconds (d : Dur) : Int := durDivSec d

/-- `duration - absl::Seconds(seconds)`. -/
def subSeconds : Dur → Int → Dur
  | .inf s, _ => .inf s
  | .fin t, s => .fin (t - s * tps)

/-- `FormatDuration` (lines 88-112) on a cleared scratch buffer. -/
def formatDuration (d : Dur) : List Nat :=
  if d = .fin 0 then asc "0s"
  else
    let neg := durLt d (.fin 0)
    let scratch := if neg then [minus] else []
    let d := if neg then absDur d else d
    let seconds := toInt64Seconds d
    let scratch := scratch ++ signedNumeral 10 seconds
    let nanos := toInt64Nanos (subSeconds d seconds)
    let scratch :=
      if nanos ≠ 0 then
        scratch ++ [46] ++
          (if nanos.tmod 1000000 = 0 then padded 3 (nanos.tdiv 1000000).toNat
           else if nanos.tmod 1000 = 0 then padded 6 (nanos.tdiv 1000).toNat
           else padded 9 nanos.toNat)
      else scratch
    scratch ++ [115]

/-! ### `%s` -/

/-- Lexicographic order of `std::string` (bytes). -/
def bytesLt : List Nat → List Nat → Bool
  | [], [] => false
  | [], _ :: _ => true
  | _ :: _, [] => false
  | a :: as, b :: bs => if a < b then true else if b < a then false else bytesLt as bs

/-- `btree_map::emplace`: inserts at the place of the key, keeps an entry that is already there. -/
def emplace {α : Type} (k : List Nat) (v : α) : List (List Nat × α) → List (List Nat × α)
  | [] => [(k, v)]
  | (k', v') :: r =>
    if bytesLt k k' then (k, v) :: (k', v') :: r
    else if bytesLt k' k then (k', v') :: emplace k v r
    else (k', v') :: r

/-- Keys `FormatMap` accepts (lines 178-185). -/
def keyKindOk : FVal → Bool
  | .str _ => true
  | .bool _ => true
  | .int _ => true
  | .uint _ => true
  | _ => false

/-- `scratch.resize(scratch.size() - 2)` if anything was appended (lines 159-161, 204-206). -/
def dropTail (scratch : List Nat) : List Nat :=
  if scratch.length > 1 then scratch.take (scratch.length - 2) else scratch

/-- The `ForEach` of `FormatMap` (lines 176-192): key texts with the (not yet used) text of the
value, in the order of the tree.  Formatting a value has no effect, so it may be written down
before it is needed. -/
def collect : List (FVal × Res (List Nat) × Res (List Nat)) → List (List Nat × Res (List Nat)) →
    Res (List (List Nat × Res (List Nat)))
  | [], tree => .ok tree
  | (key, ktext, vtext) :: r, tree =>
    if keyKindOk key then do
      let k ← ktext
      collect r (emplace k vtext tree)
    else .err (invalid "map keys must be strings, booleans, integers, or unsigned integers, was given ")

/-- The second loop of `FormatMap` (lines 196-203). -/
def appendEntries : List (List Nat × Res (List Nat)) → List Nat → Res (List Nat)
  | [], scratch => .ok scratch
  | (k, vtext) :: r, scratch => do
    let v ← vtext
    appendEntries r (scratch ++ k ++ asc ": " ++ v ++ asc ", ")

mutual
/-- `FormatString` (lines 212-262), with `FormatList` (137-165) and `FormatMap` (167-210). -/
def formatString : FVal → Res (List Nat)
  | .null => .ok (asc "null")
  | .bool b => .ok (if b then asc "true" else asc "false")
  | .int i => .ok (signedNumeral 10 i)
  | .uint u => .ok (numeral 10 u)
  | .dbl .nan => .ok (asc "NaN")
  | .dbl (.inf false) => .ok (asc "Infinity")
  | .dbl (.inf true) => .ok (asc "-Infinity")
  | .dbl (.fin neg mag) => .ok (sixText neg mag)
  | .str s => .ok s
  | .bytes s => .ok s
  | .dur d => .ok (formatDuration d)
  | .ts t => .ok (rawTimestamp t)
  | .typ n => .ok n
  | .list l => do
    let scratch ← formatItems l [91]
    .ok (dropTail scratch ++ [93])
  | .map m => do
    let tree ← collect (entryTexts m) []
    let scratch ← appendEntries tree [123]
    .ok (dropTail scratch ++ [125])
  | .other => .err (invalid "could not convert argument to string")
/-- The loop of `FormatList` (lines 148-158). -/
def formatItems : List FVal → List Nat → Res (List Nat)
  | [], scratch => .ok scratch
  | v :: vs, scratch =>
    match formatString v with
    | .ok t => formatItems vs (scratch ++ t ++ asc ", ")
    | .err s => .err s
    | .ub => .ub
/-- The texts of the keys and values of a map, in iteration order. -/
def entryTexts : List (FVal × FVal) → List (FVal × Res (List Nat) × Res (List Nat))
  | [] => []
  | (k, v) :: r => (k, formatString k, formatString v) :: entryTexts r
end

/-! ### The other clauses -/

/-- `FormatDecimal` (lines 264-283). -/
def formatDecimal : FVal → Res (List Nat)
  | .int i => .ok (signedNumeral 10 i)
  | .uint u => .ok (numeral 10 u)
  | .dbl d => .ok (formatDouble d none false)
  | _ => .err (invalid "decimal clause can only be used on numbers, was given ")

/-- `-static_cast<uint64_t>(tmp)` for a negative `tmp`: arithmetic modulo 2^64. -/
def negU64 (i : Int) : Nat := ((-(i % 18446744073709551616)) % 18446744073709551616).toNat

/-- `absl::bit_width` (third-party). -/
def bitWidth (n : Nat) : Nat := if n = 0 then 0 else n.log2 + 1

/-- The loop of `FormatBinary` (lines 323-331): writes positions `i-1, …, 0` of the buffer. -/
def binLoop : Nat → Nat → List Nat → List Nat
  | 0, _, scratch => scratch
  | i + 1, v, scratch => binLoop i (v / 2) (scratch.set i (if v % 2 = 1 then 49 else 48))

/-- The tail of `FormatBinary` (lines 316-336). -/
def binText (v : Nat) (sign : Bool) : List Nat :=
  if v = 0 then asc "0"
  else
    let size := bitWidth v + (if sign then 1 else 0)
    let scratch := binLoop size v (List.replicate size 0)
    if sign then scratch.set 0 minus else scratch

/-- `FormatBinary` (lines 285-337). -/
def formatBinary : FVal → Res (List Nat)
  | .int i => .ok (if i < 0 then binText (negU64 i) true else binText i.toNat false)
  | .uint u => .ok (binText u false)
  | .bool b => .ok (if b then asc "1" else asc "0")
  | _ => .err (invalid "binary clause can only be used on integers and bools, was given ")

/-- `absl::BytesToHexString` (third-party): two digits a byte. -/
def hexBytes (s : List Nat) : List Nat := s.flatMap fun b => [digitByte (b / 16), digitByte (b % 16)]

/-- `absl::AsciiStrToUpper`. -/
def upper (s : List Nat) : List Nat := s.map fun c => if 97 ≤ c ∧ c ≤ 122 then c - 32 else c

/-- `FormatHex` (lines 339-378). -/
def formatHex (v : FVal) (useUpper : Bool) : Res (List Nat) := do
  let scratch ← match v with
    | .str s => .ok (hexBytes s)
    | .bytes s => .ok (hexBytes s)
    | .int i => .ok (if i < 0 then minus :: numeral 16 (negU64 i) else numeral 16 i.toNat)
    | .uint u => .ok (numeral 16 u)
    | _ => Res.err (invalid "hex clause can only be used on integers, byte buffers, and strings, was given ")
  .ok (if useUpper then upper scratch else scratch)

/-- `FormatOctal` (lines 380-407). -/
def formatOctal : FVal → Res (List Nat)
  | .int i => .ok (if i < 0 then minus :: numeral 8 (negU64 i) else numeral 8 i.toNat)
  | .uint u => .ok (numeral 8 u)
  | _ => .err (invalid "octal clause can only be used on integers, was given ")

/-- `GetDouble` (lines 409-437). -/
def getDouble : FVal → Res Dbl
  | .str s =>
    if s = asc "NaN" then .ok .nan
    else if s = asc "Infinity" then .ok (.inf false)
    else if s = asc "-Infinity" then .ok (.inf true)
    else .err (invalid "only \"NaN\", \"Infinity\", and \"-Infinity\" are supported for conversion to double: ")
  | .int i => .ok (Dbl.ofInt i)
  | .uint u => .ok (Dbl.ofInt u)
  | .dbl d => .ok d
  | _ => .err (invalid "expected a double but got a ")

/-- `FormatFixed` and `FormatScientific` (lines 439-453). -/
def formatFloat (v : FVal) (precision : Option Nat) (scientific : Bool) : Res (List Nat) := do
  let d ← getDouble v
  .ok (formatDouble d precision scientific)

/-! ### The template -/

/-- `SimpleAtoi` to `int` of text that is digits only (lines 76-79). -/
def atoi32 (ds : List Nat) : Option Int := if ds = [] then none else parsePos 2147483647 ds 0

/-- `ParsePrecision` (lines 65-86): how many bytes were read, and the precision. -/
def parsePrecision (fmt : List Nat) (maxPrecision : Nat) : Res (Nat × Option Nat) :=
  match fmt with
  | 46 :: r =>
    let ds := r.takeWhile fun c => decide (IsDigit c)
    if ds.length = r.length then .err (invalid "unable to find end of precision specifier")
    else
      match atoi32 ds with
      | none => .err (invalid "unable to convert precision specifier to integer")
      | some p =>
        if p > maxPrecision then .err (invalid "precision specifier exceeds maximum of ")
        else .ok (1 + ds.length, some p.toNat)
  | _ => .ok (0, none)

/-- The `switch` of `ParseAndFormatClause` (lines 463-512). -/
def formatClause (c : Nat) (v : FVal) (precision : Option Nat) : Res (List Nat) :=
  if c = 115 then formatString v
  else if c = 100 then formatDecimal v
  else if c = 102 then formatFloat v precision false
  else if c = 101 then formatFloat v precision true
  else if c = 98 then formatBinary v
  else if c = 120 ∨ c = 88 then formatHex v (decide (c = 88))
  else if c = 111 then formatOctal v
  else .err (invalid "unrecognized formatting clause ")

/-- `ParseAndFormatClause` (lines 455-513); reading past the end of the text is undefined
behaviour. -/
def parseAndFormat (fmt : List Nat) (v : FVal) (maxPrecision : Nat) : Res (Nat × List Nat) := do
  let (read, precision) ← parsePrecision fmt maxPrecision
  match fmt[read]? with
  | none => .ub
  | some c => do
    let t ← formatClause c v precision
    .ok (read, t)

/-- The loop of `Format` (lines 527-559); `fuel` is at least the length of what is left. -/
def formatLoop (args : List FVal) (maxPrecision : Nat) : Nat → List Nat → Nat → List Nat → Res (List Nat)
  | _, [], _, result => .ok result
  | 0, _ :: _, _, _ => .ub
  | fuel + 1, c :: rest, argIndex, result =>
    if c ≠ 37 then formatLoop args maxPrecision fuel rest argIndex (result ++ [c])
    else
      match rest with
      | [] => .err (invalid "unexpected end of format string")
      | d :: rest' =>
        if d = 37 then formatLoop args maxPrecision fuel rest' argIndex (result ++ [37])
        else
          match args[argIndex]? with
          | none => .err (invalid "index out of range")
          | some v => do
            let (read, t) ← parseAndFormat (d :: rest') v maxPrecision
            formatLoop args maxPrecision fuel ((d :: rest').drop (read + 1)) (argIndex + 1) (result ++ t)

/-- `Format` (lines 515-561): `format.format(args)`. -/
def format (fmt : List Nat) (args : List FVal) (maxPrecision : Nat) : Res (List Nat) :=
  formatLoop args maxPrecision fmt.length fmt 0 []

/-- The limit in force (`RegisterStringFormattingFunctions`, lines 565-570). -/
def effectiveMax (option : Int) : Nat := (if option < 0 then 0 else if option > 1000 then 1000 else option).toNat

example : format (asc "%d of %s%%: %.2f %x") [.int (-3), .list [.str (asc "a"), .null], .dbl (.fin false (unit1 / 4)), .uint 255] 1000
    = .ok (asc "-3 of [a, null]%: 0.25 ff") := by decide
example : format (asc "%b") [.int i64Min] 1000 = .ok (45 :: 49 :: List.replicate 63 48) := by decide
example : format (asc "%s") [.map [(.str (asc "b"), .int 1), (.str (asc "a"), .int 2)]] 1000 = .ok (asc "{a: 2, b: 1}") := by decide
example : format (asc "%.s") [.int 1] 1000 = .err (invalid "unable to convert precision specifier to integer") := by decide

end Cel.Format
