import Verif.Text.Utf8Props

/-!
# Model of `common/source.cc`: source texts, positions and locations

Code units, code points and positions are natural numbers or integers; `int32_t` arithmetic that overflows is
`ub`.  Only the `string_view` constructor is modelled (the `Cord` one differs in how bytes are fetched, C15).
-/

namespace Cel.Source
open Cel Cel.Text

/-- The four representations of a source's text (`common/source.cc` lines 183-245). -/
inductive Content where
  | ascii (text : List Nat)
  | latin1 (text : List Nat)
  | basic (text : List Nat)
  | supplemental (text : List Nat)

/-- The stored units. -/
def Content.units : Content → List Nat
  | .ascii t => t
  | .latin1 t => t
  | .basic t => t
  | .supplemental t => t

/-- `SourceContentView::size` (`common/source.cc` lines 47-55). -/
def Content.size (c : Content) : Nat := c.units.length

/-- `SourceContentView::at` (`common/source.cc` lines 67-89); outside the text is undefined. -/
def Content.at (c : Content) (i : Nat) : Res Nat :=
  match c.units[i]? with
  | some u => .ok u
  | none => .ub

/-- `SourceContentView::ToString(begin, end)` (`common/source.cc` lines 91-138): bytes of an ASCII text are copied,
code points of the others encoded.  Ranges excluded by the `DCHECK`s are `ub`. -/
def Content.toStringRange (c : Content) (b e : Nat) : Res (List Nat) :=
  if b ≤ e ∧ e ≤ c.size then
    match c with
    | .ascii t => .ok ((t.drop b).take (e - b))
    | .latin1 t => .ok (((t.drop b).take (e - b)).flatMap utf8Encode)
    | .basic t => .ok (((t.drop b).take (e - b)).flatMap utf8Encode)
    | .supplemental t => .ok (((t.drop b).take (e - b)).flatMap utf8Encode)
  else .ub

/-- `static_cast<char32_t>(char)` with a signed `char`. -/
def signExtend (b : Nat) : Nat := if b < 0x80 then b else b + 0xFFFFFF00

/-- Storing a decoded code point, switching representation if needed (`common/source.cc` lines 337-371, 388-416,
433-449, 466): in the ASCII phase nothing is stored and the prefix `text[0, index)` is copied on a switch. -/
def store (text : List Nat) (index : Nat) (c : Content) (cp : Nat) : Content :=
  match c with
  | .ascii t =>
    if cp ≤ 0x7f then .ascii t
    else if cp ≤ 0xff then .latin1 (text.take index ++ [cp % 256])
    else if cp ≤ 0xffff then .basic (text.take index ++ [cp % 65536])
    else .supplemental ((text.take index).map signExtend ++ [cp])
  | .latin1 t =>
    if cp ≤ 0xff then .latin1 (t ++ [cp % 256])
    else if cp ≤ 0xffff then .basic (t ++ [cp % 65536])
    else .supplemental (t ++ [cp])
  | .basic t =>
    if cp ≤ 0xffff then .basic (t ++ [cp % 65536])
    else .supplemental (t ++ [cp])
  | .supplemental t => .supplemental (t ++ [cp])

/-- Largest `int32_t`. -/
def posMax : Nat := 2147483647

/-- `line_offsets.push_back(offset + 1)`: signed overflow is undefined. -/
def pushOffset (offs : List Nat) (offset : Nat) : Res (List Nat) :=
  if offset + 1 ≤ posMax then .ok (offs ++ [offset + 1]) else .ub

/-- A source: its text and the offsets following each newline, plus one past the end. -/
structure Src where
  content : Content
  lineOffsets : List Nat

/-- The decoding loops of `NewSourceImpl` (`common/source.cc` lines 326-473); the four loops differ only in `store`. -/
def srcLoop (text : List Nat) : Nat → Content → Nat → List Nat → Nat → List Nat → Res Src
  | 0, _, _, _, _, _ => .ub
  | fuel + 1, c, index, it, offset, offs =>
    if index < text.length then do
      let (cp, units) ← utf8Decode it
      if cp = kUnicodeReplacementCharacter ∧ units = 1 then
        .err ⟨.invalidArgument, "cannot parse malformed UTF-8 input"⟩
      else do
        let offs ← if cp = 10 then pushOffset offs offset else .ok offs
        srcLoop text fuel (store text index c cp) (index + units) (it.drop units) (offset + 1) offs
    else do
      let offs ← pushOffset offs offset
      match c with
      | .ascii _ => .ok ⟨.ascii text, offs⟩
      | c => .ok ⟨c, offs⟩

/-- `NewSource(string_view)` (`common/source.cc` lines 309-325, 634-638). -/
def newSource (text : List Nat) : Res Src :=
  if text.length > posMax then .err ⟨.invalidArgument, "expression larger than 2GiB limit"⟩
  else srcLoop text (text.length + 1) (.ascii []) 0 text 0 []

/-- `Source::FindLinePosition` (`common/source.cc` lines 556-568). -/
def Src.findLinePosition (s : Src) (line : Int) : Option Int :=
  if line < 1 then none
  else if line = 1 then some 0
  else if line ≤ s.lineOffsets.length then (s.lineOffsets[(line - 2).toNat]?).map (fun o => (o : Int))
  else none

/-- The loop of `FindLine` (`common/source.cc` lines 577-582). -/
def findLineLoop (position : Int) : List Nat → Nat → Nat
  | [], line => line
  | o :: os, line => if (o : Int) > position then line else findLineLoop position os (line + 1)

/-- `Source::FindLine` (`common/source.cc` lines 570-587). -/
def Src.findLine (s : Src) (position : Int) : Res (Option (Nat × Int)) :=
  if position < 0 then .ok none
  else
    let line := findLineLoop position s.lineOffsets 1
    if line = 1 then .ok (some (line, 0))
    else match s.lineOffsets[line - 2]? with
      | some o => .ok (some (line, (o : Int)))
      | none => .ub

/-- `Source::GetLocation` (`common/source.cc` lines 480-488). -/
def Src.getLocation (s : Src) (position : Int) : Res (Option (Int × Int)) := do
  match ← s.findLine position with
  | none => .ok none
  | some (line, off) => .ok (some ((line : Int), position - off))

/-- `Source::GetPosition` (`common/source.cc` lines 490-500); the column is not compared with the line's length, and
the `int32_t` sum may overflow. -/
def Src.getPosition (s : Src) (line column : Int) : Res (Option Int) :=
  if line < 1 ∨ column < 0 then .ok none
  else match s.findLinePosition line with
    | none => .ok none
    | some p => if p + column ≤ posMax then .ok (some (p + column)) else .ub

/-- `Source::Snippet` (`common/source.cc` lines 502-513). -/
def Src.snippet (s : Src) (line : Int) : Res (Option (List Nat)) :=
  match s.findLinePosition line with
  | none => .ok none
  | some b =>
    if s.content.units = [] then .ok none
    else match s.findLinePosition (line + 1) with
      | some e => (s.content.toStringRange b.toNat (e - 1).toNat).bind fun x => .ok (some x)
      | none => (s.content.toStringRange b.toNat s.content.size).bind fun x => .ok (some x)

/-- The marker loop of `DisplayErrorLocation` (`common/source.cc` lines 531-541). -/
def markLoop : Nat → List Nat → List Nat → Res (List Nat × List Nat)
  | 0, view, acc => .ok (view, acc)
  | n + 1, view, acc =>
    if view = [] then .ok (view, acc)
    else (utf8Decode view).bind fun p =>
      markLoop n (view.drop p.2) (acc ++ (if p.2 > 1 then utf8Encode 0xff0e else utf8Encode 46))

/-- `Source::DisplayErrorLocation` (`common/source.cc` lines 515-554); `"\n | "` is `[10, 32, 124, 32]`. -/
def Src.displayErrorLocation (s : Src) (line column : Int) : Res (List Nat) :=
  (s.snippet line).bind fun sn =>
    match sn with
    | none => .ok []
    | some [] => .ok []
    | some sn =>
      let sn := sn.map (fun b => if b = 9 then 32 else b)
      (markLoop column.toNat sn []).bind fun p =>
        let hat : Res (List Nat) :=
          if p.1 = [] then .ok (utf8Encode 94)
          else (utf8Decode p.1).bind fun q => .ok (if q.2 > 1 then utf8Encode 0xff3e else utf8Encode 94)
        hat.bind fun h => .ok ([10, 32, 124, 32] ++ sn ++ [10, 32, 124, 32] ++ p.2 ++ h)

/-- `SourceSubrange` (`common/source.cc` lines 589-632) after its range has been clamped to the text. -/
def Src.subrange (s : Src) (b e : Nat) : Src :=
  let b := min b s.content.size
  let e := min (max e b) s.content.size
  let slice := fun t : List Nat => (t.drop b).take (e - b)
  let content := if s.content.units = [] ∨ b ≥ e then .ascii []
    else match s.content with
      | .ascii t => .ascii (slice t)
      | .latin1 t => .latin1 (slice t)
      | .basic t => .basic (slice t)
      | .supplemental t => .supplemental (slice t)
  ⟨content, (s.lineOffsets.filter (fun o => decide (o > b ∧ o ≤ e))).map (fun o => o - b) ++ [e - b + 1]⟩

end Cel.Source
