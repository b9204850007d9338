set_option linter.unusedVariables false

/-!
# Line and column of an expression

`eval/public/source_position.cc`: where an expression is, from the `SourceInfo` of its AST.
-/

namespace Cel.Position

/-- `cel.expr.SourceInfo`: `line_offsets` and `positions`. Offsets are numbers without bound (int32 in C++). -/
structure Info where
  offsets : List Int
  positions : Int → Option Int

/-- The loop of `GetLineAndLineOffset` – `source_position.cc:34-42`. -/
def go (line off p : Int) : List Int → Int × Int
  | [] => (line, off)
  | o :: os => if o > p then (line, off) else go (line + 1) o p os

/-- `GetLineAndLineOffset` – `:29-47`; `none` is a null pointer. -/
def lineAndOffset (info : Option Info) (p : Int) : Int × Int :=
  let r := match info with
    | none => (0, 0)
    | some i => go 0 0 p i.offsets
  (if r.1 = 0 then r.1 + 1 else r.1, r.2)

/-- `SourcePosition::character_offset` – `:62-69`. -/
def characterOffset (info : Option Info) (id : Int) : Int :=
  match info with
  | none => 0
  | some i => (i.positions id).getD 0

/-- `SourcePosition::line` – `:51-53`. -/
def line (info : Option Info) (id : Int) : Int := (lineAndOffset info (characterOffset info id)).1

/-- `SourcePosition::column` – `:55-60`. -/
def column (info : Option Info) (id : Int) : Int :=
  1 + (characterOffset info id - (lineAndOffset info (characterOffset info id)).2)

end Cel.Position
