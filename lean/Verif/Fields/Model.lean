set_option linter.unusedVariables false

/-!
# The fields an expression uses

`tools/cel_field_extractor.cc`: the paths of selected fields that start at a variable.
-/

namespace Cel.Fields

abbrev Name := List Char

/-- The variables of a comprehension. -/
structure Vars where
  iter : Name
  iter2 : Name
  accu : Name
  deriving DecidableEq, Repr

/-- `cel.expr.Expr`. Constants, calls, lists, structs and maps are all `other`: what the extractor sees of
them is the order of their children (`common/ast_traverse.cc`, target before arguments, key before value). -/
inductive Expr where
  | ident (n : Name)
  | select (e : Expr) (f : Name)
  | other (cs : List Expr)
  | comp (v : Vars) (range init cond step result : Expr)

/-- What the loop looks at in a node. -/
inductive Node where
  | ident (n : Name) (defined : Bool)
  | select (f : Name)
  | other
  deriving DecidableEq, Repr

/-- `IsComprehensionDefinedField` – `cel_field_extractor.cc:30-56`; `up` has the comprehensions above. -/
def defined (n : Name) (up : List Vars) : Bool :=
  up.any fun v => n == v.iter || n == v.iter2 || n == v.accu

mutual
/-- `DescendantsPreorder` – `:72`. -/
def nodes (up : List Vars) : Expr → List Node
  | .ident n => [.ident n (defined n up)]
  | .select e f => .select f :: nodes up e
  | .other cs => .other :: nodesAll up cs
  | .comp v range init cond step result =>
    .other :: (nodes (v :: up) range ++ nodes (v :: up) init ++ nodes (v :: up) cond ++ nodes (v :: up) step ++ nodes (v :: up) result)

def nodesAll (up : List Vars) : List Expr → List Node
  | [] => []
  | e :: es => nodes up e ++ nodesAll up es
end

/-- The state of the loop: `fields_in_scope` and `field_paths`. -/
structure State where
  scope : List Name
  paths : List Name

/-- The body of the loop – `:72-84`. -/
def step (s : State) : Node → State
  | .select f => ⟨s.scope ++ [f], s.paths⟩
  | .ident n false => ⟨[], s.paths ++ [List.intercalate ['.'] (s.scope ++ [n]).reverse]⟩
  | .ident _ true => ⟨[], s.paths⟩
  | .other => ⟨[], s.paths⟩

/-- `ExtractFieldPaths` – `:60-87`; the set as a list. -/
def extract (e : Expr) : List Name :=
  ((nodes [] e).foldl step ⟨[], []⟩).paths

end Cel.Fields
