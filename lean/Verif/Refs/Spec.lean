import Verif.Refs.Model

set_option linter.unusedSimpArgs false
set_option linter.unusedVariables false

/-!
# What resolving references means

No traversal and no set of rewritten ids: each node is looked at together with its reference.
-/

namespace Cel.Refs
open Cel Cel.Proto Cel.Walk Cel.Rewrite Cel.Runtime

/-- The reference of a node; id 0 has none. -/
def refOf {F : Type} (env : Env F) (id : Int) : Option Reference :=
  if id = 0 then none else env.refs id

/-- A node the checker found to be a constant: an integer (an enum value) whatever the node is,
another constant only at an identifier, and not `NULL_VALUE` as null. -/
def constantOf {F : Type} (env : Env F) (l : NNode) : Option Const :=
  match refOf env l.id with
  | some ⟨_, _, some (.int i)⟩ => some (.int i)
  | some ⟨_, _, some v⟩ =>
    match l.kind with
    | .ident name => if v = .null ∧ name = "google.protobuf.NullValue.NULL_VALUE" then none else some v
    | _ => none
  | _ => none

/-- A node the checker found to be a variable under another name: an identifier, or a selection that
is no presence test. -/
def variableOf {F : Type} (env : Env F) (l : NNode) : Option String :=
  match refOf env l.id with
  | some ⟨name, _, none⟩ =>
    if name = "" then none
    else match l.kind with
      | .ident n => if name = n then none else some name
      | .select _ false => some name
      | _ => none
  | _ => none

/-- The dotted name an expression spells, if it is made of identifiers and selections none of which
the checker found to be a constant or a renamed variable. -/
def dotted {F : Type} (env : Env F) : NExpr → Option String
  | .absent => none
  | .node l ks =>
    if (constantOf env l).isSome || (variableOf env l).isSome then none
    else match l.kind, ks with
      | .ident name, _ => some name
      | .select field false, k :: _ =>
        match dotted env k with
        | none => none
        | some ns => some (ns ++ "." ++ field)
      | _, _ => none

/-- Some overload that takes so many arguments is registered under one of the names that the name
stands for in the container. -/
def Known {F : Type} (env : Env F) (receiver : Bool) (argc : Nat) (name : String) : Prop :=
  ∃ n ∈ names env name,
    (∃ d f, (d, f) ∈ env.functions.findStaticByArity n receiver argc) ∨
    (∃ d, d ∈ env.functions.findLazyByArity n receiver argc)

open Classical in
/-- The function a name stands for: the operators stand for themselves, other names for the first
candidate of the container that is known; a name with a leading dot is kept. -/
noncomputable def functionFor {F : Type} (env : Env F) (name : String) (argc : Nat) : Option String :=
  if isSpecialFunction name then some name
  else match (names env name).find? (fun n => decide (Known env false argc n)) with
    | none => none
    | some n => if name.toList.head? = some '.' then some name else some n

/-- A call whose target spells a namespace of a known function is a call of that function; a call
without target is a call of the function its name stands for; other calls stay. -/
noncomputable def callFor {F : Type} (env : Env F) (l : NNode) (function : String) (target : NExpr)
    (target' : NExpr) (args' : List NExpr) : NExpr :=
  let same := Tree.node l (target' :: args')
  if target.present then
    match dotted env target with
    | some ns =>
      match functionFor env (ns ++ "." ++ function) args'.length with
      | some f => .node ⟨l.id, .call f⟩ (.absent :: args')
      | none => same
    | none => same
  else match functionFor env function args'.length with
    | some f => .node ⟨l.id, .call f⟩ (target' :: args')
    | none => same

/-- A node that is neither a constant nor a renamed variable, from its children and these resolved. -/
noncomputable def nodeFor {F : Type} (env : Env F) (l : NNode) (ks ks' : List NExpr) : NExpr :=
  match l.kind, ks, ks' with
  | .call f, target :: _, target' :: args' => callFor env l f target target' args'
  | _, _, _ => .node l ks'

mutual
/-- The expression with its references resolved. -/
noncomputable def resolved {F : Type} (env : Env F) : NExpr → NExpr
  | .absent => .absent
  | .node l ks =>
    match constantOf env l, variableOf env l with
    | some c, _ => .node ⟨l.id, .const c⟩ []
    | none, some name => .node ⟨l.id, .ident name⟩ []
    | none, none => nodeFor env l ks (resolvedKids env (readsUnset l.kind) ks)
/-- The children; unset list elements and comprehension parts are created. -/
noncomputable def resolvedKids {F : Type} (env : Env F) (create : Bool) : List NExpr → List NExpr
  | [] => []
  | .absent :: cs => (if create then .node NNode.dflt [] else .absent) :: resolvedKids env create cs
  | .node l ks :: cs => resolved env (.node l ks) :: resolvedKids env create cs
end

/-! ## Warnings -/

/-- A reference for id 0 is reported. -/
def idWarning {F : Type} (env : Env F) (id : Int) : List Issue :=
  if id = 0 ∧ (env.refs id).isSome then [.idZero] else []

/-- A reference at a presence test is reported. -/
def testWarning {F : Type} (env : Env F) (l : NNode) : List Issue :=
  match refOf env l.id, l.kind with
  | some ⟨_, _, none⟩, .select _ true => [.presenceTest]
  | _, _ => []

open Classical in
/-- A call without a function it could be is reported. -/
noncomputable def targetWarnings {F : Type} (env : Env F) (function : String) (target : NExpr)
    (argc : Nat) : List Issue :=
  if target.present then
    if ((dotted env target).bind fun ns => functionFor env (ns ++ "." ++ function) argc).isSome then []
    else if isSpecialFunction function = true ∨ Known env true (argc + 1) function then []
    else [.noMatchingOverload function]
  else if (functionFor env function argc).isSome then [] else [.noMatchingOverload function]

/-- A call with a reference that lists no overloads is reported. -/
def overloadWarnings (function : String) : Option Reference → List Issue
  | some r => if r.overloads = [] then [.noOverloadIds function] else []
  | none => []

/-- What is reported about a call, once its children are resolved. -/
noncomputable def callWarnings {F : Type} (env : Env F) (l : NNode) (function : String) (target : NExpr)
    (argc : Nat) : List Issue :=
  overloadWarnings function (refOf env l.id) ++ targetWarnings env function target argc

/-- What is reported about a node after its children. -/
noncomputable def afterWarnings {F : Type} (env : Env F) (l : NNode) (ks : List NExpr) : List Issue :=
  match l.kind, ks with
  | .call f, target :: args => callWarnings env l f target args.length
  | _, _ => []

mutual
/-- The warnings for an expression, in the order they are made. -/
noncomputable def warnings {F : Type} (env : Env F) : NExpr → List Issue
  | .absent => []
  | .node l ks =>
    idWarning env l.id ++
    (match constantOf env l, variableOf env l with
      | some _, _ => idWarning env l.id
      | none, some _ => idWarning env l.id
      | none, none =>
        testWarning env l ++ warningsKids env (readsUnset l.kind) ks ++ idWarning env l.id ++
        afterWarnings env l ks)
noncomputable def warningsKids {F : Type} (env : Env F) (create : Bool) : List NExpr → List Issue
  | [] => []
  | .absent :: cs =>
    (if create then idWarning env 0 ++ idWarning env 0 else []) ++ warningsKids env create cs
  | .node l ks :: cs => warnings env (.node l ks) ++ warningsKids env create cs
end

mutual
/-- The ids of an expression, without 0. -/
def ids : NExpr → List Int
  | .absent => []
  | .node l ks => (if l.id = 0 then [] else [l.id]) ++ idsKids ks
def idsKids : List NExpr → List Int
  | [] => []
  | c :: cs => ids c ++ idsKids cs
end

/-- No id other than 0 is used twice. -/
def DistinctIds (t : NExpr) : Prop := (ids t).Nodup

end Cel.Refs
