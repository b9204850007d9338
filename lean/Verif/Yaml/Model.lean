set_option linter.unusedVariables false

/-!
# Finding the text of a YAML string

`policy/internal/yaml_string_element_scanner.cc`: where in the source of a policy the text of a
string element is, given where the element starts and its decoded value.
-/

namespace Cel.Yaml

/-- `YamlStringElement` – `yaml_string_element_scanner.h:25-29`; a range is begin and end. -/
structure Element where
  start : Int
  range : Option (Int × Int)
  quoted : Bool
  deriving DecidableEq, Repr

/-- The loop of `ScanDoubleQuotedExpression` – `.cc:29-40`: how far it goes in the rest of the view.
After a backslash two characters are skipped, even if there is only one. -/
def double : List Nat → Nat
  | [] => 0
  | [92] => 2
  | 92 :: _ :: rest => 2 + double rest
  | c :: rest => if c = 34 then 0 else 1 + double rest

/-- The loop of `ScanSingleQuotedExpression` – `:48-59`. -/
def single : List Nat → Nat
  | [] => 0
  | 39 :: 39 :: rest => 2 + single rest
  | c :: rest => if c = 39 then 0 else 1 + single rest

/-- `:91-94`: up to and including the next `c`, and what is left. -/
def find (c : Nat) : List Nat → Nat × List Nat
  | [] => (0, [])
  | x :: xs => if x = c then (1, xs) else ((find c xs).1 + 1, (find c xs).2)

/-- `:87-95`: the characters of the value, blanks passed over. -/
def seek : List Nat → List Nat → Nat
  | [], _ => 0
  | c :: cs, rest =>
    if c = 32 ∨ c = 9 ∨ c = 10 then seek cs rest
    else (find c rest).1 + seek cs (find c rest).2

/-- `:73-75`: to the end of the line. -/
def line : List Nat → Nat
  | [] => 0
  | c :: rest => if c = 10 then 0 else 1 + line rest

/-- `:79-82`. -/
def blanks : List Nat → Nat
  | [] => 0
  | c :: rest => if c = 32 ∨ c = 9 then 1 + blanks rest else 0

/-- `:71-83`: the header of a block, `0` if there is none. -/
def header (view : List Nat) : Nat :=
  match view with
  | c :: _ =>
    if c = 124 ∨ c = 62 then
      let a := line view
      let b := if a < view.length then a + 1 else a
      b + blanks (view.drop b)
    else 0
  | [] => 0

/-- `ScanPlainOrBlockExpression` – `:63-97`, on the view from `pos`. -/
def plain (pos : Int) (view val : List Nat) : Int × Int :=
  if val = [] then (pos, pos)
  else (pos + header view, pos + header view + seek val (view.drop (header view)))

/-- `ScanYamlStringElement` – `:109-125`; the view and the value are code points (the value is valid
UTF-8). -/
def scan (view : List Nat) (pos : Int) (val : List Nat) : Element :=
  if pos < 0 then ⟨pos, none, false⟩
  else
    match view.drop pos.toNat with
    | [] => ⟨pos, none, false⟩
    | c :: rest =>
      if c = 34 then ⟨pos, some (pos + 1, pos + 1 + double rest), true⟩
      else if c = 39 then ⟨pos, some (pos + 1, pos + 1 + single rest), true⟩
      else ⟨pos, some (plain pos (c :: rest) val), false⟩

end Cel.Yaml
