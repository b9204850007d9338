import Verif.Base

/-!
# Model of `internal/utf8.cc` and `internal/unicode.h`

Bytes are natural numbers below 256.  The C++ loops are templates over a reader
(`StringReader`, `CordReader`); the model is generic over a `Reader` in the same way.
Loops carry fuel; running out of fuel is the outcome `ub`, shown unreachable with the fuel used.
`ABSL_ASSERT`/`ABSL_DCHECK` (debug only) are not modelled, but violating their condition
where the release code would read out of bounds is `ub`.
-/

namespace Cel.Text
open Cel

/-- utf8.cc:39-63. -/
def kUtf8RuneSelf : Nat := 0x80
def kUtf8Max : Nat := 4
def kLow : Nat := 0x80
def kHigh : Nat := 0xbf
def kMaskX : Nat := 0x3f
def kMask2 : Nat := 0x1f
def kMask3 : Nat := 0xf
def kMask4 : Nat := 0x7
def kTX : Nat := 0x80
def kT2 : Nat := 0xc0
def kT3 : Nat := 0xe0
def kT4 : Nat := 0xf0
def kXX : Nat := 0xf1
def kAS : Nat := 0xf0
def kS1 : Nat := 0x02
def kS2 : Nat := 0x13
def kS3 : Nat := 0x03
def kS4 : Nat := 0x23
def kS5 : Nat := 0x34
def kS6 : Nat := 0x04
def kS7 : Nat := 0x44

/-- utf8.cc:67-86. -/
def kLeadingTable : List Nat := [
  kAS, kAS, kAS, kAS, kAS, kAS, kAS, kAS, kAS, kAS, kAS, kAS, kAS, kAS, kAS, kAS,
  kAS, kAS, kAS, kAS, kAS, kAS, kAS, kAS, kAS, kAS, kAS, kAS, kAS, kAS, kAS, kAS,
  kAS, kAS, kAS, kAS, kAS, kAS, kAS, kAS, kAS, kAS, kAS, kAS, kAS, kAS, kAS, kAS,
  kAS, kAS, kAS, kAS, kAS, kAS, kAS, kAS, kAS, kAS, kAS, kAS, kAS, kAS, kAS, kAS,
  kAS, kAS, kAS, kAS, kAS, kAS, kAS, kAS, kAS, kAS, kAS, kAS, kAS, kAS, kAS, kAS,
  kAS, kAS, kAS, kAS, kAS, kAS, kAS, kAS, kAS, kAS, kAS, kAS, kAS, kAS, kAS, kAS,
  kAS, kAS, kAS, kAS, kAS, kAS, kAS, kAS, kAS, kAS, kAS, kAS, kAS, kAS, kAS, kAS,
  kAS, kAS, kAS, kAS, kAS, kAS, kAS, kAS, kAS, kAS, kAS, kAS, kAS, kAS, kAS, kAS,
  kXX, kXX, kXX, kXX, kXX, kXX, kXX, kXX, kXX, kXX, kXX, kXX, kXX, kXX, kXX, kXX,
  kXX, kXX, kXX, kXX, kXX, kXX, kXX, kXX, kXX, kXX, kXX, kXX, kXX, kXX, kXX, kXX,
  kXX, kXX, kXX, kXX, kXX, kXX, kXX, kXX, kXX, kXX, kXX, kXX, kXX, kXX, kXX, kXX,
  kXX, kXX, kXX, kXX, kXX, kXX, kXX, kXX, kXX, kXX, kXX, kXX, kXX, kXX, kXX, kXX,
  kXX, kXX, kS1, kS1, kS1, kS1, kS1, kS1, kS1, kS1, kS1, kS1, kS1, kS1, kS1, kS1,
  kS1, kS1, kS1, kS1, kS1, kS1, kS1, kS1, kS1, kS1, kS1, kS1, kS1, kS1, kS1, kS1,
  kS2, kS3, kS3, kS3, kS3, kS3, kS3, kS3, kS3, kS3, kS3, kS3, kS3, kS4, kS3, kS3,
  kS5, kS6, kS6, kS6, kS7, kXX, kXX, kXX, kXX, kXX, kXX, kXX, kXX, kXX, kXX, kXX]

/-- `kLeading[b]`. (An index above 255 is impossible for a `uint8_t`; the default is never used.) -/
def kLeading (b : Nat) : Nat := kLeadingTable.getD b kXX

/-- utf8.cc:90-95. -/
def kAcceptTable : List (Nat × Nat) :=
  [(kLow, kHigh), (0xa0, kHigh), (kLow, 0x9f), (0x90, kHigh), (kLow, 0x8f), (0, 0), (0, 0), (0, 0),
   (0, 0), (0, 0), (0, 0), (0, 0), (0, 0), (0, 0), (0, 0), (0, 0)]
def kAccept (i : Nat) : Nat × Nat := kAcceptTable.getD i (0, 0)

/-- unicode.h:20. -/
def kUnicodeReplacementCharacter : Nat := 0xfffd
/-- unicode.h:22-24. -/
def unicodeIsValid (c : Nat) : Bool := c < 0xd800 || (c > 0xdfff && c ≤ 0x10ffff)

/-! ## Readers -/

/-- The interface the templates use. -/
structure Reader (σ : Type) where
  remaining : σ → Nat
  peek : σ → Nat → Res (List Nat × σ)
  read : σ → Res (Nat × σ)
  advance : σ → Nat → Res σ

/-- `StringReader` – utf8.cc:97-126. State: the unread suffix. -/
def stringReader : Reader (List Nat) where
  remaining s := s.length
  peek s n := if n ≤ s.length then .ok (s.take n, s) else .ub
  read s := match s with
    | [] => .ub
    | b :: r => .ok (b, r)
  advance s n := if n ≤ s.length then .ok (s.drop n) else .ub

/-- State of `CordReader` – utf8.cc:199-204. The `absl::Cord` is represented by its bytes
(`Subcord`, `CopyCordToString`, `RemovePrefix` are byte-level operations by contract). `cap` is
`buffer_.capacity()`. -/
structure CordSt where
  input : List Nat
  size : Nat
  buffer : List Nat
  index : Nat
  cap : Nat
  deriving DecidableEq, Repr

/-- `CordReader` constructor – utf8.cc:130-131. `cap0` is the capacity of an empty `std::string`. -/
def CordSt.init (cap0 : Nat) (bs : List Nat) : CordSt := ⟨bs, bs.length, [], 0, cap0⟩

/-- `CordReader::Peek` – utf8.cc:137-163.  `absl::CopyCordToString` *replaces* the destination's
contents. Reading outside the buffer is `ub`; `Cord::RemovePrefix` beyond the end aborts (`ub`). -/
def CordSt.peek (s : CordSt) (n : Nat) : Res (List Nat × CordSt) :=
  if n = 0 then .ok ([], s)
  else if s.index > s.buffer.length then
    -- `buffer_.size() - index_` wraps to a huge value, the read is outside the buffer
    .ub
  else if n ≤ s.buffer.length - s.index then
    .ok ((s.buffer.drop s.index).take n, s)
  else
    let s := if s.cap ≥ n then
        (if s.cap - s.buffer.length < n ∧ s.index ≠ 0 then
          { s with buffer := s.buffer.drop s.index, index := 0 } else s)
      else s
    let cap := max s.cap (max (s.buffer.length + n) kUtf8Max)
    let toCopy := n - (s.buffer.length - s.index)
    if toCopy > s.input.length then .ub
    else
      let buffer := s.input.take toCopy
      let s := { s with buffer := buffer, input := s.input.drop toCopy, cap := cap }
      if s.index + n ≤ buffer.length then .ok ((buffer.drop s.index).take n, s) else .ub

/-- `CordReader::Advance` – utf8.cc:171-190. -/
def CordSt.advance (s : CordSt) (n : Nat) : Res CordSt :=
  if n = 0 then .ok s
  else if s.index < s.buffer.length then
    let count := min n (s.buffer.length - s.index)
    let index := s.index + count
    let n := n - count
    let size := s.size - count
    if index < s.buffer.length then .ok { s with index := index, size := size }
    else if n ≤ s.input.length then
      .ok { s with buffer := [], index := 0, input := s.input.drop n, size := size - n }
    else .ub
  else if n ≤ s.input.length then
    .ok { s with input := s.input.drop n, size := s.size - n }
  else .ub

/-- `CordReader::Read` – utf8.cc:165-169. -/
def CordSt.read (s : CordSt) : Res (Nat × CordSt) := do
  let (v, s) ← s.peek 1
  match v with
  | [] => .ub
  | b :: _ => do
    let s ← s.advance 1
    .ok (b, s)

/-- `CordReader` – utf8.cc:128-204. -/
def cordReader : Reader CordSt where
  remaining s := s.size
  peek := CordSt.peek
  read := CordSt.read
  advance := CordSt.advance

/-! ## The loops -/

/-- `segment[i]` on a `string_view`: out of bounds is undefined. -/
def at' (seg : List Nat) (i : Nat) : Res Nat :=
  match seg[i]? with
  | some b => .ok b
  | none => .ub

/-- The nested range checks on the continuation bytes, shared text of utf8.cc:222-234, 258-270 and
294-310: true when all `size` bytes are acceptable. -/
def segmentOk (accept : Nat × Nat) (size : Nat) (seg : List Nat) : Res Bool := do
  let b1 ← at' seg 0
  if b1 < accept.1 ∨ b1 > accept.2 then .ok false
  else if size = 1 then .ok true
  else do
    let b2 ← at' seg 1
    if b2 < kLow ∨ b2 > kHigh then .ok false
    else if size = 2 then .ok true
    else do
      let b3 ← at' seg 2
      if b3 < kLow ∨ b3 > kHigh then .ok false else .ok true

/-- `Utf8IsValidImpl` – utf8.cc:206-238. -/
def isValidImpl {σ : Type} (R : Reader σ) : Nat → σ → Res Bool
  | 0, _ => .ub
  | fuel + 1, s =>
    if R.remaining s = 0 then .ok true
    else do
      let (b, s) ← R.read s
      if b < kUtf8RuneSelf then isValidImpl R fuel s
      else
        let leading := kLeading b
        if leading = kXX then .ok false
        else
          let size := (leading &&& 7) - 1
          if size > R.remaining s then .ok false
          else do
            let (segment, s) ← R.peek s size
            let ok ← segmentOk (kAccept (leading >>> 4)) size segment
            if ok then do
              let s ← R.advance s size
              isValidImpl R fuel s
            else .ok false

/-- `Utf8CodePointCountImpl` – utf8.cc:240-274. -/
def countImpl {σ : Type} (R : Reader σ) : Nat → Nat → σ → Res Nat
  | 0, _, _ => .ub
  | fuel + 1, count, s =>
    if R.remaining s = 0 then .ok count
    else do
      let count := count + 1
      let (b, s) ← R.read s
      if b < kUtf8RuneSelf then countImpl R fuel count s
      else
        let leading := kLeading b
        if leading = kXX then countImpl R fuel count s
        else
          let size := (leading &&& 7) - 1
          if size > R.remaining s then countImpl R fuel count s
          else do
            let (segment, s) ← R.peek s size
            let ok ← segmentOk (kAccept (leading >>> 4)) size segment
            let size := if ok then size else 0
            let s ← R.advance s size
            countImpl R fuel count s

/-- `Utf8ValidateImpl` – utf8.cc:276-314. -/
def validateImpl {σ : Type} (R : Reader σ) : Nat → Nat → σ → Res (Nat × Bool)
  | 0, _, _ => .ub
  | fuel + 1, count, s =>
    if R.remaining s = 0 then .ok (count, true)
    else do
      let (b, s) ← R.read s
      if b < kUtf8RuneSelf then validateImpl R fuel (count + 1) s
      else
        let leading := kLeading b
        if leading = kXX then .ok (count, false)
        else
          let size := (leading &&& 7) - 1
          if size > R.remaining s then .ok (count, false)
          else do
            let (segment, s) ← R.peek s size
            let ok ← segmentOk (kAccept (leading >>> 4)) size segment
            if ok then do
              let s ← R.advance s size
              validateImpl R fuel (count + 1) s
            else .ok (count, false)

/-- `Utf8IsValid`, `Utf8CodePointCount`, `Utf8Validate` on `string_view` and `Cord` –
utf8.cc:318-354. -/
def utf8IsValid (bs : List Nat) : Res Bool := isValidImpl stringReader (bs.length + 1) bs
def utf8CodePointCount (bs : List Nat) : Res Nat := countImpl stringReader (bs.length + 1) 0 bs
def utf8Validate (bs : List Nat) : Res (Nat × Bool) :=
  validateImpl stringReader (bs.length + 1) 0 bs
def utf8IsValidCord (cap0 : Nat) (bs : List Nat) : Res Bool :=
  isValidImpl cordReader (bs.length + 1) (CordSt.init cap0 bs)
def utf8CodePointCountCord (cap0 : Nat) (bs : List Nat) : Res Nat :=
  countImpl cordReader (bs.length + 1) 0 (CordSt.init cap0 bs)
def utf8ValidateCord (cap0 : Nat) (bs : List Nat) : Res (Nat × Bool) :=
  validateImpl cordReader (bs.length + 1) 0 (CordSt.init cap0 bs)

/-! ## Decode and encode -/

/-- `Utf8DecodeImpl` – utf8.cc:358-407. Result: (code point, code units). -/
def utf8DecodeImpl (b leading size : Nat) (str : List Nat) : Res (Nat × Nat) :=
  let accept := kAccept (leading >>> 4)
  match str with
  | [] => .ub
  | b1 :: str =>
    if b1 < accept.1 ∨ b1 > accept.2 then .ok (kUnicodeReplacementCharacter, 1)
    else if size ≤ 1 then .ok (((b &&& kMask2) <<< 6) ||| (b1 &&& kMaskX), 2)
    else match str with
      | [] => .ub
      | b2 :: str =>
        if b2 < kLow ∨ b2 > kHigh then .ok (kUnicodeReplacementCharacter, 1)
        else if size ≤ 2 then
          .ok (((b &&& kMask3) <<< 12) ||| ((b1 &&& kMaskX) <<< 6) ||| (b2 &&& kMaskX), 3)
        else match str with
          | [] => .ub
          | b3 :: _ =>
            if b3 < kLow ∨ b3 > kHigh then .ok (kUnicodeReplacementCharacter, 1)
            else .ok (((b &&& kMask4) <<< 18) ||| ((b1 &&& kMaskX) <<< 12) |||
              ((b2 &&& kMaskX) <<< 6) ||| (b3 &&& kMaskX), 4)

/-- `Utf8Decode(string_view)` – utf8.cc:411-436. Empty input is undefined (`DCHECK`). -/
def utf8Decode (str : List Nat) : Res (Nat × Nat) :=
  match str with
  | [] => .ub
  | b :: str =>
    if b < kUtf8RuneSelf then .ok (b, 1)
    else
      let leading := kLeading b
      if leading = kXX then .ok (kUnicodeReplacementCharacter, 1)
      else
        let size := (leading &&& 7) - 1
        if size > str.length then .ok (kUnicodeReplacementCharacter, 1)
        else utf8DecodeImpl b leading size str

/-- Position in a Cord: the unread part of the current chunk, then the following chunks. The chunks
of an `absl::Cord` are never empty; an iterator at the end has nothing left. -/
abbrev CordIt := List (List Nat)

/-- `Cord::Advance(&it, n)`. -/
def cordAdvance : CordIt → Nat → CordIt
  | [], _ => []
  | c :: cs, n => if n < c.length then c.drop n :: cs else cordAdvance cs (n - c.length)

/-- The copy loop of utf8.cc:466-478: fill up to 3 bytes from following chunks until `size` bytes
are present. `none`: the Cord ended (utf8.cc:468-473; `ChunkRemaining` at the end is taken to be
empty, as the code assumes). -/
def fillBuffer (size : Nat) : Nat → CordIt → List Nat → Res (Option (List Nat))
  | 0, _, _ => .ub
  | fuel + 1, cur, buf =>
    if buf.length < size then
      match cur with
      | [] => .ok none
      | c :: cs =>
        if c = [] then .ok none
        else
          let toCopy := min (3 - buf.length) c.length
          fillBuffer size fuel (cordAdvance (c :: cs) toCopy) (buf ++ c.take toCopy)
    else .ok (some buf)

/-- `Utf8Decode(Cord::CharIterator)` – utf8.cc:438-481. -/
def utf8DecodeCord (it : CordIt) : Res (Nat × Nat) :=
  match it with
  | [] => .ub
  | [] :: _ => .ub
  | (b :: str) :: rest =>
    if b < kUtf8RuneSelf then .ok (b, 1)
    else
      let leading := kLeading b
      if leading = kXX then .ok (kUnicodeReplacementCharacter, 1)
      else
        let size := (leading &&& 7) - 1
        if size ≤ str.length then utf8DecodeImpl b leading size str
        else do
          let r ← fillBuffer size 4 (cordAdvance ((b :: str) :: rest) 1) []
          match r with
          | none => .ok (kUnicodeReplacementCharacter, 1)
          | some buf => utf8DecodeImpl b leading size buf

/-- `Utf8Encode` – utf8.cc:492-524. `static_cast<uint8_t>` is reduction modulo 256. -/
def utf8Encode (codePoint : Nat) : List Nat :=
  let c := if unicodeIsValid codePoint then codePoint else kUnicodeReplacementCharacter
  if c ≤ 0x7f then [c % 256]
  else if c ≤ 0x7ff then
    [kT2 ||| ((c >>> 6) % 256), kTX ||| ((c % 256) &&& kMaskX)]
  else if c ≤ 0xffff then
    [kT3 ||| ((c >>> 12) % 256), kTX ||| (((c >>> 6) % 256) &&& kMaskX),
     kTX ||| ((c % 256) &&& kMaskX)]
  else
    [kT4 ||| ((c >>> 18) % 256), kTX ||| (((c >>> 12) % 256) &&& kMaskX),
     kTX ||| (((c >>> 6) % 256) &&& kMaskX), kTX ||| ((c % 256) &&& kMaskX)]

end Cel.Text
