set_option linter.unusedVariables false

/-!
# The names of types in messages of the checker

`checker/internal/format_type_name.cc`: a type is printed with an explicit stack.
-/

namespace Cel.TypeName

/-- Types without parameters that have a fixed text (`common/type_kind.h`). -/
inductive Basic where
  | dyn | any | bool | bytes | double | duration | enum | int | null | string | timestamp | uint
  | unknown | error | function
  deriving DecidableEq, Repr

/-- What can be wrapped. -/
inductive Prim where
  | bool | bytes | double | int | string | uint
  deriving DecidableEq, Repr

abbrev Name := List Char

/-- `cel::Type` – `common/type.h`. A `TypeType` has no parameter or one (`common/types/type_type.h`). -/
inductive Ty where
  | basic (b : Basic)
  | wrapper (p : Prim)
  | list (e : Ty)
  | map (k v : Ty)
  | opaque (n : Name) (ps : List Ty)
  | struct (n : Name)
  | type0
  | type (t : Ty)
  | param (n : Name)

/-- The texts of `:39-79`, `:97-99`, `:124-133`, `:148-160`. -/
def Basic.text : Basic → Name
  | .dyn => ['d', 'y', 'n']
  | .any => ['a', 'n', 'y']
  | .bool => ['b', 'o', 'o', 'l']
  | .bytes => ['b', 'y', 't', 'e', 's']
  | .double => ['d', 'o', 'u', 'b', 'l', 'e']
  | .duration => ['g', 'o', 'o', 'g', 'l', 'e', '.', 'p', 'r', 'o', 't', 'o', 'b', 'u', 'f', '.', 'D', 'u', 'r', 'a', 't', 'i', 'o', 'n']
  | .enum => ['i', 'n', 't']
  | .int => ['i', 'n', 't']
  | .null => ['n', 'u', 'l', 'l', '_', 't', 'y', 'p', 'e']
  | .string => ['s', 't', 'r', 'i', 'n', 'g']
  | .timestamp => ['g', 'o', 'o', 'g', 'l', 'e', '.', 'p', 'r', 'o', 't', 'o', 'b', 'u', 'f', '.', 'T', 'i', 'm', 'e', 's', 't', 'a', 'm', 'p']
  | .uint => ['u', 'i', 'n', 't']
  | .unknown => ['*', 'u', 'n', 'k', 'n', 'o', 'w', 'n', '*']
  | .error => ['*', 'e', 'r', 'r', 'o', 'r', '*']
  | .function => ['*', 'e', 'r', 'r', 'o', 'r', '*']

/-- The texts of the wrappers, `:48-75`, `:127`, `:154`. -/
def Prim.text : Prim → Name
  | .bool => ['w', 'r', 'a', 'p', 'p', 'e', 'r', '(', 'b', 'o', 'o', 'l', ')']
  | .bytes => ['w', 'r', 'a', 'p', 'p', 'e', 'r', '(', 'b', 'y', 't', 'e', 's', ')']
  | .double => ['w', 'r', 'a', 'p', 'p', 'e', 'r', '(', 'd', 'o', 'u', 'b', 'l', 'e', ')']
  | .int => ['w', 'r', 'a', 'p', 'p', 'e', 'r', '(', 'i', 'n', 't', ')']
  | .string => ['w', 'r', 'a', 'p', 'p', 'e', 'r', '(', 's', 't', 'r', 'i', 'n', 'g', ')']
  | .uint => ['w', 'r', 'a', 'p', 'p', 'e', 'r', '(', 'u', 'i', 'n', 't', ')']

/-- `FormatImpl` – `:34-162`: what is appended and what is pushed, the top first. -/
def emit : Ty → Nat → Name × List (Ty × Nat)
  | .basic b, _ => (b.text, [])
  | .wrapper p, _ => (p.text, [])
  | .list e, o => if o = 0 then (['l', 'i', 's', 't', '('], [(e, 0), (.list e, 1)]) else ([')'], [])
  | .map k v, o =>
    if o = 0 then (['m', 'a', 'p', '('], [(k, 0), (.map k v, 1)])
    else if o = 1 then ([',', ' '], [(v, 0), (.map k v, 2)])
    else ([')'], [])
  | .opaque n ps, o =>
    if o = 0 then
      match ps with
      | [] => (n, [])
      | p :: ps' => (n ++ ['('], [(p, 0), (.opaque n (p :: ps'), 1)])
    else
      match ps[o]? with
      | none => ([')'], [])
      | some p => ([',', ' '], [(p, 0), (.opaque n ps, o + 1)])
  | .struct n, _ => (n, [])
  | .type0, o => if o = 0 then (['t', 'y', 'p', 'e'], []) else ([')'], [])
  | .type t, o => if o = 0 then (['t', 'y', 'p', 'e'] ++ ['('], [(t, 0), (.type t, 1)]) else ([')'], [])
  | .param n, _ => (n, [])

/-- The loop of `FormatTypeName` – `:166-172`, `none` if it takes more than the given number of rounds. -/
def run : Nat → Name → List (Ty × Nat) → Option Name
  | _, out, [] => some out
  | 0, _, _ :: _ => none
  | n + 1, out, (t, o) :: st => run n (out ++ (emit t o).1) ((emit t o).2 ++ st)

end Cel.TypeName
