import Verif.Json.Model
import Verif.Data.EqualSpec

/-! # Specification vocabulary for JSON conversion -/

set_option linter.dupNamespace false

namespace Cel.Json.Spec
open Cel Cel.Num Cel.Eval Cel.Data Cel.Data.Spec Cel.Json

/-- Values without protobuf messages inside. -/
def NoMessage : Value → Prop
  | .struct _ _ => False
  | _ => True

/-- Values that have a JSON form, as far as the value itself is concerned: everything but types,
optionals and other opaque values, errors and unknowns; the keys of maps are strings. -/
def HasJson : Value → Prop
  | .typ _ => False
  | .opt _ => False
  | .opaq _ _ => False
  | .error _ => False
  | .unknown _ => False
  | .map m => ∀ e ∈ m, ∃ s, e.1 = .str s
  | _ => True

/-- Values JSON represents exactly: null, booleans, strings, doubles other than NaN, integers of at
most 53 bits, lists, and maps with string keys. -/
def Native : Value → Prop
  | .null => True
  | .bool _ => True
  | .str _ => True
  | .dbl d => d ≠ .nan
  | .int i => -(2 ^ 53) < i ∧ i < 2 ^ 53
  | .uint i => i < 2 ^ 53
  | .list _ => True
  | .map m => ∀ e ∈ m, ∃ s, e.1 = .str s
  | _ => False

/-- A JSON message that exists: doubles exist, and no name occurs twice in an object. -/
inductive WF : Json → Prop where
  | unset : WF .unset
  | null : WF .null
  | bool (b : Bool) : WF (.bool b)
  | num (d : Dbl) : d.WF → WF (.num d)
  | str (s : String) : WF (.str s)
  | arr (l : List Json) : (∀ j ∈ l, WF j) → WF (.arr l)
  | obj (f : List (String × Json)) : (f.map Prod.fst).Nodup → (∀ e ∈ f, WF e.2) → WF (.obj f)

mutual
/-- The JSON message with every unset message in it replaced by `null`. -/
def normal : Json → Json
  | .unset => .null
  | .null => .null
  | .bool b => .bool b
  | .num d => .num d
  | .str s => .str s
  | .arr l => .arr (normalList l)
  | .obj f => .obj (normalMap f)
def normalList : List Json → List Json
  | [] => []
  | j :: l => normal j :: normalList l
def normalMap : List (String × Json) → List (String × Json)
  | [] => []
  | (s, j) :: f => (s, normal j) :: normalMap f
end

end Cel.Json.Spec
