import Verif.Text.Utf8Model

/-!
# Model of `internal/strings.cc`: escaping, unescaping, string and bytes literals

Bytes are naturals below 256; character constants are written as their ASCII codes.
Simplifications: error *texts* are not modelled (every failure is one `InvalidArgument` status, as
the callers build it); pointer comparisons such as `p + 2 >= end` are comparisons of the number of
remaining bytes (the code forms pointers past one-past-the-end, which compilers accept).
-/

namespace Cel.Text
open Cel

def badLiteral : Status := ⟨.invalidArgument, "Invalid literal"⟩

/-- `absl::ascii_isprint`. -/
def isPrint (c : Nat) : Bool := 32 ≤ c && c ≤ 126
/-- `absl::ascii_isxdigit`. -/
def isXDigit (c : Nat) : Bool := (48 ≤ c && c ≤ 57) || (65 ≤ c && c ≤ 70) || (97 ≤ c && c ≤ 102)
/-- `IsOctalDigit` – strings.cc:44. -/
def isOctalDigit (c : Nat) : Bool := 48 ≤ c && c ≤ 55
/-- `HexDigitToInt` – strings.cc:37-42 (applied to ASCII characters only). -/
def hexDigitToInt (x : Nat) : Nat := (if x > 57 then x + 9 else x) &&& 0xf
/-- `kHexTable[i]` – strings.cc:35; also the digits of `absl::BytesToHexString`. -/
def hexTable (i : Nat) : Nat := [48, 49, 50, 51, 52, 53, 54, 55, 56, 57, 97, 98, 99, 100, 101, 102].getD i 0

/-! ## CheckForClosingString – strings.cc:53-87 -/

/-- The loop of strings.cc:62-79. `rem` is `[p, end)`. -/
def closingLoop (closing : List Nat) : Nat → List Nat → Bool → Res Bool
  | 0, _, _ => .ub
  | fuel + 1, rem, isClosed =>
    if closing.length ≤ rem.length then
      match rem with
      | [] => .ub
      | b :: r =>
        if b ≠ 92 then
          let isClosing := closing.isPrefixOf rem
          if isClosing = true ∧ closing.length < rem.length then .ok false
          else closingLoop closing fuel r (isClosing && decide (closing.length = rem.length))
        else closingLoop closing fuel (rem.drop 2) isClosed
    else .ok isClosed

/-- `CheckForClosingString` – strings.cc:53-87. -/
def checkForClosingString (source closing : List Nat) : Res Bool :=
  if closing = [] then .ok true else closingLoop closing (source.length + 1) source false

/-! ## UnescapeInternal – strings.cc:109-441 -/

/-- Reading `n` hexadecimal digits: the loops of strings.cc:264-279, 317-331 and 371-397. With
`limit`, exceeding U+10FFFF is an error at once (strings.cc:375). Result: value and rest. -/
def readHex (limit : Bool) : Nat → Nat → List Nat → Res (Nat × List Nat)
  | 0, acc, r => .ok (acc, r)
  | n + 1, acc, r =>
    match r with
    | [] => .err badLiteral
    | d :: r =>
      if isXDigit d = true then
        let acc := (acc <<< 4) + hexDigitToInt d
        if limit = true ∧ acc > 0x10FFFF then .err badLiteral else readHex limit n acc r
      else .err badLiteral

/-- Reading `n` octal digits: strings.cc:222-236. -/
def readOctal : Nat → Nat → List Nat → Res (Nat × List Nat)
  | 0, acc, r => .ok (acc, r)
  | n + 1, acc, r =>
    match r with
    | [] => .err badLiteral
    | d :: r => if isOctalDigit d = true then readOctal n (acc * 8 + (d - 48)) r else .err badLiteral

/-- Emit a value read from an octal or hex escape: strings.cc:238-242, 281-285. -/
def emitCode (isBytes : Bool) (ch : Nat) : List Nat := if isBytes then [ch % 256] else utf8Encode ch

/-- The `switch (*p)` of strings.cc:166-434: `e` is the character after the backslash, `r` what
follows. Result: bytes pushed and the rest. The length pre-checks (`p + 2 >= end` …) fail exactly
when the digit readers run out of input, with the same outcome. -/
def escapeSeq (isBytes : Bool) (e : Nat) (r : List Nat) : Res (List Nat × List Nat) :=
  if e = 97 then .ok ([7], r)          -- \a
  else if e = 98 then .ok ([8], r)     -- \b
  else if e = 102 then .ok ([12], r)   -- \f
  else if e = 110 then .ok ([10], r)   -- \n
  else if e = 114 then .ok ([13], r)   -- \r
  else if e = 116 then .ok ([9], r)    -- \t
  else if e = 118 then .ok ([11], r)   -- \v
  else if e = 92 then .ok ([92], r)    -- \\
  else if e = 63 then .ok ([63], r)    -- \?
  else if e = 39 then .ok ([39], r)    -- \'
  else if e = 34 then .ok ([34], r)    -- \"
  else if e = 96 then .ok ([96], r)    -- \`
  else if 48 ≤ e ∧ e ≤ 51 then         -- \ooo, strings.cc:202-244
    match readOctal 3 0 (e :: r) with
    | .ok (ch, r) => .ok (emitCode isBytes ch, r)
    | .err s => .err s
    | .ub => .ub
  else if e = 120 ∨ e = 88 then        -- \xhh, strings.cc:245-287
    match readHex false 2 0 r with
    | .ok (ch, r) => .ok (emitCode isBytes ch, r)
    | .err s => .err s
    | .ub => .ub
  else if e = 117 then                 -- \uhhhh, strings.cc:288-342
    if isBytes = true then .err badLiteral
    else match readHex false 4 0 r with
      | .ok (cp, r) => if unicodeIsValid cp = true then .ok (utf8Encode cp, r) else .err badLiteral
      | .err s => .err s
      | .ub => .ub
  else if e = 85 then                  -- \Uhhhhhhhh, strings.cc:343-407
    if isBytes = true then .err badLiteral
    else match readHex true 8 0 r with
      | .ok (cp, r) => if unicodeIsValid cp = true then .ok (utf8Encode cp, r) else .err badLiteral
      | .err s => .err s
      | .ub => .ub
  else .err badLiteral                 -- newline or unknown, strings.cc:408-433

/-- The loop of strings.cc:139-436. -/
def unescapeLoop (raw isBytes : Bool) : Nat → List Nat → List Nat → Res (List Nat)
  | 0, _, _ => .ub
  | fuel + 1, rem, dest =>
    match rem with
    | [] => .ok dest
    | b :: r =>
      if b ≠ 92 then
        if b ≠ 13 then unescapeLoop raw isBytes fuel r (dest ++ [b])
        else
          match r with
          | [] => unescapeLoop raw isBytes fuel [] (dest ++ [10])
          | c :: r' => if c = 10 then unescapeLoop raw isBytes fuel r' (dest ++ [10])
                       else unescapeLoop raw isBytes fuel (c :: r') (dest ++ [10])
      else
        match r with
        | [] => .err badLiteral
        | e :: r' =>
          if raw = true then unescapeLoop raw isBytes fuel r' (dest ++ [92, e])
          else
            match escapeSeq isBytes e r' with
            | .ok (out, r'') => unescapeLoop raw isBytes fuel r'' (dest ++ out)
            | .err s => .err s
            | .ub => .ub

/-- `UnescapeInternal` – strings.cc:109-441. -/
def unescapeInternal (source closing : List Nat) (raw isBytes : Bool) : Res (List Nat) := do
  let closed ← checkForClosingString source closing
  if closed = false then .err badLiteral
  else if source = [] then .ok []
  else
    let source := source.take (source.length - closing.length)
    let valid ← if isBytes = true then (Res.ok true) else utf8IsValid source
    if valid = false then .err badLiteral
    else unescapeLoop raw isBytes (source.length + 1) source []

/-! ## Escaping -/

/-- `EscapeInternal` – strings.cc:444-497. `q` is `escape_quote_char` (0: escape every quote). -/
def escapeInternal (escapeAllBytes : Bool) (q : Nat) : List Nat → Bool → List Nat
  | [], _ => []
  | c :: r, last =>
    if c = 10 then [92, 110] ++ escapeInternal escapeAllBytes q r false
    else if c = 13 then [92, 114] ++ escapeInternal escapeAllBytes q r false
    else if c = 9 then [92, 116] ++ escapeInternal escapeAllBytes q r false
    else if c = 92 then [92, 92] ++ escapeInternal escapeAllBytes q r false
    else if c = 39 ∨ c = 34 ∨ c = 96 then
      (if q = 0 ∨ c = q then [92, c] else [c]) ++ escapeInternal escapeAllBytes q r false
    else if (escapeAllBytes = false ∨ c < 0x80) ∧
        (isPrint c = false ∨ (last = true ∧ isXDigit c = true)) then
      [92, 120, hexTable (c / 16), hexTable (c % 16)] ++ escapeInternal escapeAllBytes q r true
    else [c] ++ escapeInternal escapeAllBytes q r false

/-- `EscapeString` – strings.cc:552-554. -/
def escapeString (s : List Nat) : List Nat := escapeInternal true 0 s false

/-- `EscapeBytes` – strings.cc:556-589. -/
def escapeBytes (escapeAllBytes : Bool) (q : Nat) : List Nat → List Nat
  | [] => []
  | c :: r =>
    (if escapeAllBytes = true ∨ isPrint c = false then [92, 120, hexTable (c / 16), hexTable (c % 16)]
     else if c = 92 then [92, 92]
     else if c = 39 ∨ c = 34 ∨ c = 96 then (if q = 0 ∨ c = q then [92, c] else [c])
     else [c]) ++ escapeBytes escapeAllBytes q r

/-! ## Literals -/

/-- `str[i]`; an index outside the string is guarded by the size tests. -/
def chr (s : List Nat) (i : Nat) : Nat := s.getD i 0
def isQuote (c : Nat) : Bool := c = 39 || c = 34
def isB (c : Nat) : Bool := c = 98 || c = 66
def isR (c : Nat) : Bool := c = 114 || c = 82

/-- `MayBeTripleQuotedString` – strings.cc:499-503. -/
def mayBeTripleQuoted (s : List Nat) : Bool :=
  decide (s.length ≥ 6) &&
    (([34, 34, 34].isPrefixOf s && [34, 34, 34].isSuffixOf s) ||
     ([39, 39, 39].isPrefixOf s && [39, 39, 39].isSuffixOf s))
/-- `MayBeStringLiteral` – strings.cc:505-508. -/
def mayBeStringLiteral (s : List Nat) : Bool :=
  decide (s.length ≥ 2) && decide (chr s 0 = chr s (s.length - 1)) && isQuote (chr s 0)
/-- `MayBeBytesLiteral` – strings.cc:510-513. -/
def mayBeBytesLiteral (s : List Nat) : Bool :=
  decide (s.length ≥ 3) && isB (chr s 0) && decide (chr s 1 = chr s (s.length - 1)) && isQuote (chr s 1)
/-- `MayBeRawStringLiteral` – strings.cc:515-518. -/
def mayBeRawStringLiteral (s : List Nat) : Bool :=
  decide (s.length ≥ 3) && isR (chr s 0) && decide (chr s 1 = chr s (s.length - 1)) && isQuote (chr s 1)
/-- `MayBeRawBytesLiteral` – strings.cc:520-525. -/
def mayBeRawBytesLiteral (s : List Nat) : Bool :=
  decide (s.length ≥ 4) &&
    ((isR (chr s 0) && isB (chr s 1)) || (isB (chr s 0) && isR (chr s 1))) &&
    decide (chr s 2 = chr s (s.length - 1)) && isQuote (chr s 2)

/-- `UnescapeString` – strings.cc:532-540. -/
def unescapeString (s : List Nat) : Res (List Nat) := unescapeInternal s [] false false
/-- `UnescapeBytes` – strings.cc:542-550. -/
def unescapeBytes (s : List Nat) : Res (List Nat) := unescapeInternal s [] false true

/-- Common tail of `ParseStringLiteral` and `ParseBytesLiteral` – strings.cc:604-616, 637-648. -/
def parseQuoted (copy : List Nat) (raw isBytes : Bool) : Res (List Nat) :=
  let quotesLength := if mayBeTripleQuoted copy = true then 3 else 1
  unescapeInternal (copy.drop quotesLength) (copy.take quotesLength) raw isBytes

/-- `ParseStringLiteral` – strings.cc:591-617. -/
def parseStringLiteral (s : List Nat) : Res (List Nat) :=
  let isRaw := mayBeRawStringLiteral s
  if mayBeStringLiteral s = false ∧ isRaw = false then .err badLiteral
  else parseQuoted (if isRaw then s.drop 1 else s) isRaw false

/-- `ParseBytesLiteral` – strings.cc:619-649. -/
def parseBytesLiteral (s : List Nat) : Res (List Nat) :=
  let isRaw := mayBeRawBytesLiteral s
  if mayBeBytesLiteral s = false ∧ isRaw = false then .err badLiteral
  else parseQuoted (if isRaw then s.drop 2 else s.drop 1) isRaw true

/-- The choice of quote in `FormatStringLiteral`/`FormatBytesLiteral` – strings.cc:652-653, 673-674. -/
def pickQuote (s : List Nat) : Nat := if 34 ∈ s ∧ 39 ∉ s then 39 else 34

/-- `FormatStringLiteral` – strings.cc:651-655. -/
def formatStringLiteral (s : List Nat) : List Nat :=
  let q := pickQuote s
  [q] ++ escapeInternal true q s false ++ [q]
/-- `FormatSingleQuotedStringLiteral` – strings.cc:664-666. -/
def formatSingleQuotedString (s : List Nat) : List Nat := [39] ++ escapeInternal true 39 s false ++ [39]
/-- `FormatDoubleQuotedStringLiteral` – strings.cc:668-670. -/
def formatDoubleQuotedString (s : List Nat) : List Nat := [34] ++ escapeInternal true 34 s false ++ [34]
/-- `FormatBytesLiteral` – strings.cc:672-676. -/
def formatBytesLiteral (s : List Nat) : List Nat :=
  let q := pickQuote s
  [98, q] ++ escapeBytes false q s ++ [q]
/-- `FormatSingleQuotedBytesLiteral` – strings.cc:678-680. -/
def formatSingleQuotedBytes (s : List Nat) : List Nat := [98, 39] ++ escapeBytes false 39 s ++ [39]
/-- `FormatDoubleQuotedBytesLiteral` – strings.cc:682-684. -/
def formatDoubleQuotedBytes (s : List Nat) : List Nat := [98, 34] ++ escapeBytes false 34 s ++ [34]

end Cel.Text
