import Verif.Text.Utf8Model

/-!
# Model of the strings extension

`extensions/strings.cc` and the `StringValue` methods it calls (`common/values/string_value.cc`), on the bytes of a string.  A
string is held flat (inline or reference counted: the same code after `GetSmall()`/`GetMedium()`) or in an `absl::Cord`, for which
the code is written a second time; both are modelled.  An `ErrorValue` is `err`.  Loops carry fuel, `ub` when it runs out; the
theorems show that this never happens.  Contents of `absl` functions (`string_view::find`, `Cord::Find`, `Subcord`, `StartsWith`,
comparison) are taken from their documentation.  Strings have fewer than 2^63 bytes, so counters do not overflow.
-/

namespace Cel.Ext.Strings
open Cel Cel.Text

/-- How the bytes are held (`common/internal/byte_string.h`, `ByteStringKind`): flat, or a Cord with its chunks. -/
inductive Str where
  | flat (bytes : List Nat)
  | cord (chunks : CordIt)

/-- The contents. -/
def Str.bytes : Str → List Nat
  | .flat b => b
  | .cord c => c.flatten

/-- `Utf8Decode(string_view)` or `Utf8Decode(cord.char_begin())`. -/
def Str.decode : Str → Res (Nat × Nat)
  | .flat b => utf8Decode b
  | .cord c => utf8DecodeCord c

/-- `remove_prefix(n)`, `RemovePrefix(n)`, `Cord::Advance(&it, n)`. -/
def Str.advance : Str → Nat → Str
  | .flat b, n => .flat (b.drop n)
  | .cord c, n => .cord (cordAdvance c n)

def Str.size (s : Str) : Nat := s.bytes.length

/-- `StringValue::Size` (string_value.cc:141-145): code points.  `cap` is the initial capacity of the reader's buffer (see
`Utf8Model`). -/
def codePointCount (cap : Nat) : Str → Res Nat
  | .flat b => utf8CodePointCount b
  | .cord c => utf8CodePointCountCord cap c.flatten

def invalid (msg : String) : Status := ⟨.invalidArgument, msg⟩

/-! ## indexOf, lastIndexOf -/

/-- The loops of `IndexOf` (string_value.cc:233-313 and, with a position, 315-404; the four copies differ in how flat and Cord
contents are compared). `here` is the extra condition `code_points >= pos`. -/
def indexOfLoop (needle : List Nat) (here : Nat → Bool) : Nat → Str → Nat → Res (Option Nat)
  | 0, _, _ => .ub
  | fuel + 1, lhs, codePoints =>
    if lhs.size ≥ needle.length then
      if here codePoints && needle.isPrefixOf lhs.bytes then .ok (some codePoints)
      else if lhs.size = needle.length then .ok none
      else do
        let r ← lhs.decode
        indexOfLoop needle here fuel (lhs.advance r.2) (codePoints + 1)
    else .ok none

/-- `StringValue::IndexOf(string)` (string_value.cc:233-313). -/
def indexOf (s needle : Str) : Res (Option Nat) :=
  indexOfLoop needle.bytes (fun _ => true) (s.size + 1) s 0

/-- `StringValue::IndexOf(string, pos)` (string_value.cc:315-404). -/
def indexOfAt (s needle : Str) (pos : Int) : Res (Option Nat) :=
  let pos := if pos < 0 then 0 else pos
  indexOfLoop needle.bytes (fun cp => decide ((cp : Int) ≥ pos)) (s.size + 1) s 0

/-- `.value_or(-1)`. -/
def orMinusOne : Option Nat → Int
  | some i => i
  | none => -1

/-- `IndexOf2` (strings.cc:118-120). -/
def indexOf2 (s needle : Str) : Res Int := do
  let r ← indexOf s needle
  .ok (orMinusOne r)

/-- The value of an `int64_t` converted to `size_t` for a comparison with one. -/
def asSize (x : Int) : Int := x % 2 ^ 64

/-- `IndexOf3` (strings.cc:122-129); `pos > haystack.Size()` compares as unsigned. -/
def indexOf3 (cap : Nat) (s needle : Str) (pos : Int) : Res Int := do
  let n ← codePointCount cap s
  if asSize pos > n then .err (invalid "index out of range")
  else do
    let r ← indexOfAt s needle pos
    .ok (orMinusOne r)

/-- The loops of `LastIndexOf` (string_value.cc:406-497 and, with a position, 499-596); `stop` is the extra condition
`code_points >= pos` for leaving the loop, `last` the variable `last_index` (`none` for -1). -/
def lastIndexOfLoop (needle : List Nat) (stop : Nat → Bool) : Nat → Str → Nat → Option Nat → Res (Option Nat)
  | 0, _, _, _ => .ub
  | fuel + 1, lhs, codePoints, last =>
    if lhs.size ≥ needle.length then
      let last := if needle.isPrefixOf lhs.bytes then some codePoints else last
      if stop codePoints || decide (lhs.size = needle.length) then .ok last
      else do
        let r ← lhs.decode
        lastIndexOfLoop needle stop fuel (lhs.advance r.2) (codePoints + 1) last
    else .ok last

/-- `StringValue::LastIndexOf(string)` (string_value.cc:406-497). -/
def lastIndexOf (s needle : Str) : Res (Option Nat) :=
  lastIndexOfLoop needle.bytes (fun _ => false) (s.size + 1) s 0 none

/-- `StringValue::LastIndexOf(string, pos)` (string_value.cc:499-596). -/
def lastIndexOfAt (s needle : Str) (pos : Int) : Res (Option Nat) :=
  if pos < 0 then .ok none
  else lastIndexOfLoop needle.bytes (fun cp => decide ((cp : Int) ≥ pos)) (s.size + 1) s 0 none

/-- `LastIndexOf2` (strings.cc:131-133). -/
def lastIndexOf2 (s needle : Str) : Res Int := do
  let r ← lastIndexOf s needle
  .ok (orMinusOne r)

/-- `LastIndexOf3` (strings.cc:135-142). -/
def lastIndexOf3 (cap : Nat) (s needle : Str) (pos : Int) : Res Int :=
  if pos < 0 then .err (invalid "index out of range")
  else do
    let n ← codePointCount cap s
    if asSize pos > n then .err (invalid "index out of range")
    else do
      let r ← lastIndexOfAt s needle pos
      .ok (orMinusOne r)

/-! ## substring, charAt -/

def startTooLarge : Status := invalid "<string>.substring(<start>): <start> is greater than <string>.size()"
def rangeTooLarge : Status := invalid "<string>.substring(<start>, <end>): <start> or <end> is greater than <string>.size()"

/-- `SubstringImpl(string, start)` (string_value.cc:600-645): the number of code units before the start. -/
def substringLoop1 (start : Nat) : Nat → Str → Nat → Nat → Res Nat
  | 0, _, _, _ => .ub
  | fuel + 1, s, codePoints, codeUnits =>
    if s.bytes ≠ [] then do
      let r ← s.decode
      if codePoints = start then .ok codeUnits
      else substringLoop1 start fuel (s.advance r.2) (codePoints + 1) (codeUnits + r.2)
    else if codePoints = start then .ok codeUnits
    else .err startTooLarge

/-- The bytes from `first` up to `second`: `memcpy`, pointer arithmetic or `Subcord`, undefined outside the string. -/
def slice (b : List Nat) (first second : Nat) : Res (List Nat) :=
  if first ≤ second ∧ second ≤ b.length then .ok ((b.take second).drop first) else .ub

/-- `StringValue::Substring(start)` (string_value.cc:647-702). -/
def substring1 (s : Str) (start : Int) : Res (List Nat) :=
  if start < 0 then .err (invalid "<string>.substring(<start>): <start> is less than 0")
  else if start > s.size then .err rangeTooLarge
  else if start = 0 then .ok s.bytes
  else do
    let i ← substringLoop1 start.toNat (s.size + 1) s 0 0
    slice s.bytes i s.size

/-- `SubstringImpl(string, start, end)` (string_value.cc:705-761); `first` is `start_code_units`, not set at the beginning. -/
def substringLoop2 (start stop : Nat) : Nat → Str → Nat → Nat → Option Nat → Res (Nat × Nat)
  | 0, _, _, _, _ => .ub
  | fuel + 1, s, codePoints, codeUnits, first =>
    if s.bytes ≠ [] then
      let first := if codePoints = start then some codeUnits else first
      if codePoints = stop then
        match first with
        | some f => .ok (f, codeUnits)
        | none => .ub
      else do
        let r ← s.decode
        substringLoop2 start stop fuel (s.advance r.2) (codePoints + 1) (codeUnits + r.2) first
    else if codePoints = start ∧ start = stop then .ok (codeUnits, codeUnits)
    else .err rangeTooLarge

/-- `StringValue::Substring(start, end)` (string_value.cc:763-820). -/
def substring2 (s : Str) (start stop : Int) : Res (List Nat) :=
  if start < 0 then .err (invalid "<string>.substring(<start>, <end>): <start> is less than 0")
  else if stop < start then .err (invalid "<string>.substring(<start>, <end>): <end> is less than <start>")
  else if start > s.size ∨ stop > s.size then .err rangeTooLarge
  else do
    let r ← substringLoop2 start.toNat stop.toNat (s.size + 1) s 0 0 none
    slice s.bytes r.1 r.2

/-- The loops of `CharAt` (string_value.cc:1456-1516). -/
def charAtLoop : Nat → Str → Int → Res (List Nat)
  | 0, _, _ => .ub
  | fuel + 1, s, pos =>
    if s.bytes ≠ [] then do
      let r ← s.decode
      if pos = 0 then .ok (utf8Encode r.1) else charAtLoop fuel (s.advance r.2) (pos - 1)
    else if pos = 0 then .ok []
    else .err (invalid "<string>.charAt(<pos>): <pos> is greater than <string>.size()")

/-- `StringValue::CharAt` (string_value.cc:1456-1516). -/
def charAt (s : Str) (pos : Int) : Res (List Nat) :=
  if pos < 0 then .err (invalid "<string>.charAt(<pos>): <pos> is less than 0") else charAtLoop (s.size + 1) s pos

/-! ## lowerAscii, upperAscii -/

def asciiIsUpper (c : Nat) : Bool := 65 ≤ c && c ≤ 90
def asciiIsLower (c : Nat) : Bool := 97 ≤ c && c ≤ 122
def asciiToLower (c : Nat) : Nat := if asciiIsUpper c then c + 32 else c
def asciiToUpper (c : Nat) : Nat := if asciiIsLower c then c - 32 else c

/-- `LowerAsciiImpl`, `UpperAsciiImpl` and their callers (string_value.cc:824-972): `special` is the test for a character that
changes. A Cord keeps what comes before the first such character. -/
def caseAscii (special : Nat → Bool) (conv : Nat → Nat) : Str → List Nat
  | .flat b => if b.any special then b.map conv else b
  | .cord c =>
    let b := c.flatten
    let pos := (b.takeWhile (fun c => !special c)).length
    if b.any special then b.take pos ++ (b.drop pos).map conv else b

def lowerAscii (s : Str) : List Nat := caseAscii asciiIsUpper asciiToLower s
def upperAscii (s : Str) : List Nat := caseAscii asciiIsLower asciiToUpper s

/-! ## trim -/

/-- `IsUnicodeWhitespace` (string_value.cc:975-984). -/
def isUnicodeWhitespace (c : Nat) : Bool :=
  if c ≤ 0x20 then c == 0x20 || (9 ≤ c && c ≤ 0xd)
  else if c > 0x3000 then false
  else if c == 0x85 || c == 0xa0 || c == 0x1680 then true
  else if 0x2000 ≤ c && c ≤ 0x200a then true
  else c == 0x2028 || c == 0x2029 || c == 0x202f || c == 0x205f || c == 0x3000

/-- The first loop of `TrimImpl` (string_value.cc:988-997, 1023-1035). -/
def trimLeft : Nat → Str → Nat → Res Nat
  | 0, _, _ => .ub
  | fuel + 1, s, left =>
    if s.bytes ≠ [] then do
      let r ← s.decode
      if !isUnicodeWhitespace r.1 then .ok left else trimLeft fuel (s.advance r.2) (left + r.2)
    else .ok left

/-- The second loop (string_value.cc:1003-1014, 1047-1060): the end of the last character that is not white space. -/
def trimRight : Nat → Str → Nat → Nat → Res Nat
  | 0, _, _, _ => .ub
  | fuel + 1, s, pos, last =>
    if s.bytes ≠ [] then do
      let r ← s.decode
      trimRight fuel (s.advance r.2) (pos + r.2) (if !isUnicodeWhitespace r.1 then pos + r.2 else last)
    else .ok last

/-- `StringValue::Trim` with `TrimImpl` (string_value.cc:986-1092). -/
def trim (s : Str) : Res (List Nat) := do
  let left ← trimLeft (s.size + 1) s 0
  match s with
  | .flat b =>
    if left = b.length then slice b left (b.length - 0)
    else do
      let last ← trimRight (s.size + 1) s 0 0
      let right := b.length - last
      slice b left (b.length - right)
  | .cord c =>
    if left = c.flatten.length then .ok []
    else do
      let l := (Str.cord c).advance left
      let last ← trimRight (s.size + 1) l 0 0
      slice l.bytes 0 last

/-! ## quote, reverse -/

/-- `AppendQuoteCodePoint` (string_value.cc:1097-1130). -/
def quoteCodePoint (c : Nat) : List Nat :=
  if c = 7 then [92, 97]
  else if c = 8 then [92, 98]
  else if c = 12 then [92, 102]
  else if c = 10 then [92, 110]
  else if c = 13 then [92, 114]
  else if c = 9 then [92, 116]
  else if c = 11 then [92, 118]
  else if c = 92 then [92, 92]
  else if c = 34 then [92, 34]
  else utf8Encode c

def quoteLoop : Nat → Str → List Nat → Res (List Nat)
  | 0, _, _ => .ub
  | fuel + 1, s, out =>
    if s.bytes ≠ [] then do
      let r ← s.decode
      quoteLoop fuel (s.advance r.2) (out ++ quoteCodePoint r.1)
    else .ok out

/-- `StringValue::Quote` (string_value.cc:1134-1164). -/
def quote (s : Str) : Res (List Nat) := do
  let out ← quoteLoop (s.size + 1) s [34]
  .ok (out ++ [34])

/-- The inner loop of `Reverse` on a flat string (string_value.cc:1176-1180): step back over continuation bytes. -/
def backUp (b : List Nat) : Nat → Nat
  | 0 => 0
  | ptr + 1 => if (b.getD (ptr + 1) 0) &&& 0xC0 = 0x80 then backUp b ptr else ptr + 1

/-- The outer loop (string_value.cc:1174-1182); `ptr` is the offset of the pointer. -/
def reverseFlat (b : List Nat) : Nat → Nat → List Nat → Res (List Nat)
  | 0, _, _ => .ub
  | fuel + 1, ptr, out =>
    if ptr > 0 then
      let p := backUp b (ptr - 1)
      reverseFlat b fuel p (out ++ (b.take ptr).drop p)
    else .ok out

/-- The first loop on a Cord (string_value.cc:1192-1198). -/
def codePointsLoop : Nat → Str → List Nat → Res (List Nat)
  | 0, _, _ => .ub
  | fuel + 1, s, out =>
    if s.bytes ≠ [] then do
      let r ← s.decode
      codePointsLoop fuel (s.advance r.2) (out ++ [r.1])
    else .ok out

/-- `StringValue::Reverse` (string_value.cc:1166-1208). -/
def reverse : Str → Res (List Nat)
  | .flat b => if b = [] then .ok [] else reverseFlat b (b.length + 1) b.length []
  | .cord c =>
    if c.flatten = [] then .ok []
    else do
      let cps ← codePointsLoop (c.flatten.length + 1) (.cord c) []
      .ok (cps.reverse.flatMap utf8Encode)

/-! ## join, split, replace -/

def noJoin : Status := ⟨.unknown, "No matching overloads found : join"⟩

/-- The loop of `Join` (string_value.cc:1247-1262). -/
def joinLoop (sep : List Nat) : List (Option (List Nat)) → List Nat → Res (List Nat)
  | [], joined => .ok joined
  | some e :: rest, joined => joinLoop sep rest (joined ++ sep ++ e)
  | none :: _, _ => .err noJoin

/-- `StringValue::Join` (string_value.cc:1221-1271) on the elements of a list, `none` for one that is no string. -/
def join (sep : List Nat) : List (Option (List Nat)) → Res (List Nat)
  | [] => .ok []
  | some e :: rest => joinLoop sep rest e
  | none :: _ => .err noJoin

/-- First occurrence: `string_view::find(needle)`, `Cord::Find`. -/
def firstOcc (needle : List Nat) : List Nat → Option Nat
  | [] => if needle = [] then some 0 else none
  | b :: r => if needle.isPrefixOf (b :: r) then some 0 else (firstOcc needle r).map (· + 1)

/-- `lhs.find(needle, pos)`. -/
def findFrom (lhs needle : List Nat) (pos : Nat) : Option Nat := (firstOcc needle (lhs.drop pos)).map (· + pos)

/-- The scan for a fragmented needle in a flat string (byte_string.cc:351-362). -/
def fragmentLoop (lhs first rest : List Nat) : Nat → Nat → Res (Option Nat)
  | 0, _ => .ub
  | fuel + 1, current =>
    match findFrom lhs first current with
    | none => .ok none
    | some found =>
      if found > lhs.length - (first.length + rest.length) then .ok none
      else if (lhs.drop (found + first.length)).take rest.length = rest then .ok (some found)
      else fragmentLoop lhs first rest fuel (found + 1)

/-- `ByteString::Find` (byte_string.cc:302-375); a position past the end is undefined (`DCHECK`). -/
def find (s needle : Str) (pos : Nat) : Res (Option Nat) :=
  if pos > s.size then .ub
  else match s, needle with
    | .flat lhs, .flat n => .ok (findFrom lhs n pos)
    | .flat lhs, .cord [] => .ok (findFrom lhs [] pos)
    | .flat lhs, .cord [n] => .ok (findFrom lhs n pos)
    | .flat lhs, .cord (first :: rest) =>
      if pos + (first ++ rest.flatten).length > lhs.length then .ok none
      else if (first ++ rest.flatten).length = 0 then .ok (some pos)
      else fragmentLoop lhs first rest.flatten (lhs.length + 2) pos
    | .cord c, n => .ok (findFrom c.flatten n.bytes pos)

/-- `limit = INT64_MAX` for a negative limit. -/
def unlimited (limit : Int) : Int := if limit < 0 then i64Max else limit

/-- The loop of `Split` for an empty delimiter (string_value.cc:1317-1337). -/
def splitEmptyLoop (s : Str) : Nat → Nat → Int → List (Nat × Nat) → Res (Nat × List (Nat × Nat))
  | 0, _, _, _ => .ub
  | fuel + 1, pos, limit, splits =>
    if pos < s.size ∧ limit > 1 then do
      let r ← (s.advance pos).decode
      splitEmptyLoop s fuel (pos + r.2) (limit - 1) (splits ++ [(pos, pos + r.2)])
    else .ok (pos, splits)

/-- The loop of `Split` otherwise (string_value.cc:1339-1349). -/
def splitLoop (s d : Str) : Nat → Nat → Int → List (Nat × Nat) → Res (Nat × List (Nat × Nat))
  | 0, _, _, _ => .ub
  | fuel + 1, pos, limit, splits =>
    if pos < s.size ∧ limit > 1 then do
      match ← find s d pos with
      | none => .ok (pos, splits)
      | some next => splitLoop s d fuel (next + d.size) (limit - 1) (splits ++ [(pos, next)])
    else .ok (pos, splits)

def slices (b : List Nat) : List (Nat × Nat) → Res (List (List Nat))
  | [] => .ok []
  | p :: ps => do
    let x ← slice b p.1 p.2
    let xs ← slices b ps
    .ok (x :: xs)

/-- `StringValue::Split` (string_value.cc:1294-1358). -/
def split (s d : Str) (limit : Int) : Res (List (List Nat)) :=
  if limit = 0 then .ok []
  else do
    let r ← (if d.bytes = [] then splitEmptyLoop s (s.size + 1) 0 (unlimited limit) []
             else splitLoop s d (s.size + 1) 0 (unlimited limit) [])
    let splits := if r.2 = [] ∨ d.bytes ≠ [] ∨ r.1 < s.size then r.2 ++ [(r.1, s.size)] else r.2
    slices s.bytes splits

/-- The loop of `Replace` for an empty needle (string_value.cc:1405-1427). -/
def replaceEmptyLoop (s : Str) (replacement : List Nat) : Nat → Nat → Int → List Nat → Res (Nat × Int × List Nat)
  | 0, _, _, _ => .ub
  | fuel + 1, pos, limit, out =>
    if pos < s.size ∧ limit > 0 then do
      let r ← (s.advance pos).decode
      let x ← slice s.bytes pos (pos + r.2)
      replaceEmptyLoop s replacement fuel (pos + r.2) (limit - 1) (out ++ replacement ++ x)
    else .ok (pos, limit, out)

/-- The loop of `Replace` otherwise (string_value.cc:1432-1443). -/
def replaceLoop (s needle : Str) (replacement : List Nat) : Nat → Nat → Int → List Nat → Res (Nat × List Nat)
  | 0, _, _, _ => .ub
  | fuel + 1, pos, limit, out =>
    if pos < s.size ∧ limit > 0 then do
      match ← find s needle pos with
      | none => .ok (pos, out)
      | some next => do
        let x ← slice s.bytes pos next
        replaceLoop s needle replacement fuel (next + needle.size) (limit - 1) (out ++ x ++ replacement)
    else .ok (pos, out)

/-- The end of `Replace` (string_value.cc:1446-1448). -/
def replaceRest (s : Str) (pos : Nat) (out : List Nat) : Res (List Nat) :=
  if pos < s.size then do
    let x ← slice s.bytes pos s.size
    .ok (out ++ x)
  else .ok out

/-- `StringValue::Replace` (string_value.cc:1383-1455). -/
def replace (s needle replacement : Str) (limit : Int) : Res (List Nat) :=
  if limit = 0 then .ok s.bytes
  else if needle.bytes = [] then do
    let r ← replaceEmptyLoop s replacement.bytes (s.size + 1) 0 (unlimited limit) []
    let out := if r.2.1 > 0 then r.2.2 ++ replacement.bytes else r.2.2
    replaceRest s r.1 out
  else do
    let r ← replaceLoop s needle replacement.bytes (s.size + 1) 0 (unlimited limit) []
    replaceRest s r.1 r.2

end Cel.Ext.Strings
