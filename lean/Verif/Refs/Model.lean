import Verif.Rewrite.Main
import Verif.Names.Props
import Verif.Runtime.Registry

set_option linter.unusedSimpArgs false
set_option linter.unusedVariables false

/-!
# Resolving references before planning – `eval/compiler/qualified_reference_resolver.cc`

A rewriter run by `AstRewrite` (C83) over the expression with the reference map of the type checker:
identifiers and selections that name a variable become that variable, constants are folded, and a
call whose target only names a namespace becomes a call of the qualified function.
-/

namespace Cel.Refs
open Cel Cel.Proto Cel.Walk Cel.Rewrite Cel.Runtime

/-- `Reference` – `common/ast/metadata.h:751-817`. -/
structure Reference where
  name : String
  overloads : List String
  value : Option Const

/-- What the resolver is built with: the container and the functions of the `Resolver`
(`eval/compiler/resolver.h`), the reference map. -/
structure Env (F : Type) where
  container : String
  functions : Registry F
  refs : Int → Option Reference

/-- A warning; all are `RuntimeIssue::CreateWarning`. -/
inductive Issue where
  | idZero
  | noOverloadIds (function : String)
  | noMatchingOverload (function : String)
  | presenceTest
  deriving DecidableEq

/-- `kOptionalOr` and so on: `IsSpecialFunction` – `eval/compiler/qualified_reference_resolver.cc:55-71`;
the names are in `base/builtins.h`. -/
def isSpecialFunction (f : String) : Bool :=
  f == "_&&_" || f == "_||_" || f == "_[_]" || f == "_?_:_" || f == "or" || f == "orValue" ||
  f == "_==_" || f == "_!=_" || f == "!_" || f == "@not_strictly_false" ||
  f == "__not_strictly_false__" || f == "@in" || f == "_in_" || f == "in" || f == "cel.@block"

/-- `Resolver::FullyQualifiedNames` – `eval/compiler/resolver.cc:79-93`, on strings. -/
def names {F : Type} (env : Env F) (name : String) : List String :=
  (Names.fullyQualifiedNames env.container.toList name.toList).map String.ofList

/-- `ArgumentsMatcher` – `eval/compiler/resolver.h:117-123`. -/
def argumentsMatcher (n : Nat) : List Kind := List.replicate n kAny

/-- The loop of `Resolver::FindOverloads` by types – `eval/compiler/resolver.cc:134-153`. -/
def findOverloads {F : Type} (env : Env F) (receiver : Bool) (types : List Kind) :
    List String → List (Desc × F)
  | [] => []
  | n :: ns =>
    let funcs := env.functions.findStatic n receiver types
    if funcs.isEmpty then findOverloads env receiver types ns else funcs

/-- The loop of `Resolver::FindLazyOverloads` by types – `eval/compiler/resolver.cc:176-190`. -/
def findLazyOverloads {F : Type} (env : Env F) (receiver : Bool) (types : List Kind) :
    List String → List Desc
  | [] => []
  | n :: ns =>
    let funcs := env.functions.findLazy n receiver types
    if funcs.isEmpty then findLazyOverloads env receiver types ns else funcs

/-- `OverloadExists` – `eval/compiler/qualified_reference_resolver.cc:73-80`. -/
def overloadExists {F : Type} (env : Env F) (name : String) (types : List Kind) (receiver : Bool) :
    Bool :=
  !(findOverloads env receiver types (names env name)).isEmpty ||
  !(findLazyOverloads env receiver types (names env name)).isEmpty

/-- The loop of `BestOverloadMatch` – `eval/compiler/qualified_reference_resolver.cc:93-101`. -/
def bestLoop {F : Type} (env : Env F) (base : String) (types : List Kind) : List String → Option String
  | [] => none
  | n :: ns =>
    if overloadExists env n types false then
      if base.toList.head? = some '.' then some base else some n
    else bestLoop env base types ns

/-- `BestOverloadMatch` – `eval/compiler/qualified_reference_resolver.cc:84-103`. -/
def bestOverloadMatch {F : Type} (env : Env F) (base : String) (argc : Nat) : Option String :=
  if isSpecialFunction base then some base
  else bestLoop env base (argumentsMatcher argc) (names env base)

/-- The members of `ReferenceResolver` that change – `qualified_reference_resolver.cc:345-348`:
`rewritten_reference_`, the issues collected, `progress_status_`. -/
structure State where
  rewritten : List Int
  issues : List Issue
  status : Option Issue

/-- `UpdateStatus(issues_.AddIssue(..))` – `qualified_reference_resolver.cc:335-341` with
`runtime/internal/issue_collector.h:46-52`; `strict`: a warning reaches the severity limit. -/
def addIssue (strict : Bool) (i : Issue) (s : State) : State :=
  { s with issues := s.issues ++ [i],
           status := if s.status.isNone && strict then some i else s.status }

/-- `GetReferenceForId` – `qualified_reference_resolver.cc:321-333`. -/
def getReference {F : Type} (env : Env F) (strict : Bool) (id : Int) (s : State) :
    Option Reference × State :=
  match env.refs id with
  | none => (none, s)
  | some r => if id = 0 then (none, addIssue strict .idZero s) else (some r, s)

/-- `MaybeUpdateIdentNode` – `qualified_reference_resolver.cc:281-290`. -/
def maybeUpdateIdent (id : Int) (name : String) (ks : List NExpr) (r : Reference) (s : State) :
    State × NExpr × Bool :=
  if r.name ≠ "" ∧ r.name ≠ name then
    ({ s with rewritten := id :: s.rewritten }, .node ⟨id, .ident r.name⟩ [], true)
  else (s, .node ⟨id, .ident name⟩ ks, false)

/-- `MaybeUpdateSelectNode` – `qualified_reference_resolver.cc:267-279`. -/
def maybeUpdateSelect (strict : Bool) (id : Int) (field : String) (test : Bool) (ks : List NExpr)
    (r : Reference) (s : State) : State × NExpr × Bool :=
  if test then (addIssue strict .presenceTest s, .node ⟨id, .select field test⟩ ks, false)
  else if r.name ≠ "" then
    ({ s with rewritten := id :: s.rewritten }, .node ⟨id, .ident r.name⟩ [], true)
  else (s, .node ⟨id, .select field test⟩ ks, false)

/-- `ReferenceResolver::PreVisitRewrite` – `qualified_reference_resolver.cc:131-169`. -/
def preVisit {F : Type} (env : Env F) (strict : Bool) : NExpr → State → State × NExpr × Bool
  | .absent, s => (s, .absent, false)
  | .node l ks, s =>
    match getReference env strict l.id s with
    | (none, s) => (s, .node l ks, false)
    | (some r, s) =>
      match r.value with
      | some (.int i) => (s, .node ⟨l.id, .const (.int i)⟩ [], true)
      | some v =>
        match l.kind with
        | .ident name =>
          if v = .null ∧ name = "google.protobuf.NullValue.NULL_VALUE" then (s, .node l ks, false)
          else (s, .node ⟨l.id, .const v⟩ [], true)
        | _ => (s, .node l ks, false)
      | none =>
        match l.kind with
        | .ident name => maybeUpdateIdent l.id name ks r s
        | .select field test => maybeUpdateSelect strict l.id field test ks r s
        | _ => (s, .node l ks, false)

/-- `ToNamespace` – `qualified_reference_resolver.cc:295-316`; `operand()` of a selection without
one is the default expression. -/
def toNamespace (rewritten : List Int) : NExpr → Option String
  | .absent => none
  | .node l ks =>
    if l.id ∈ rewritten then none
    else match l.kind, ks with
      | .ident name, _ => some name
      | .select field test, k :: _ =>
        if test then none
        else match toNamespace rewritten k with
          | none => none
          | some ns => some (ns ++ "." ++ field)
      | _, _ => none

/-- The check of the overload ids in `MaybeUpdateCallNode` – `qualified_reference_resolver.cc:196-201`. -/
def checkOverloads (strict : Bool) (function : String) (r : Option Reference) (s : State) : State :=
  match r with
  | some r => if r.overloads = [] then addIssue strict (.noOverloadIds function) s else s
  | none => s

/-- The last check of `MaybeUpdateCallNode`, when nothing was rewritten –
`qualified_reference_resolver.cc:250-262`. -/
def lastCheck {F : Type} (env : Env F) (strict : Bool) (function : String) (target : NExpr)
    (argc : Nat) (s : State) : State :=
  if target.present = true ∧ ¬ isSpecialFunction function = true ∧
      ¬ overloadExists env function (argumentsMatcher (argc + 1)) true = true then
    addIssue strict (.noMatchingOverload function) s
  else s

/-- `MaybeUpdateCallNode` – `qualified_reference_resolver.cc:192-263`; the children are the target
and the arguments. -/
def maybeUpdateCall {F : Type} (env : Env F) (strict : Bool) (id : Int) (function : String)
    (target : NExpr) (args : List NExpr) (r : Option Reference) (s : State) : State × NExpr × Bool :=
  if target.present then
    match toNamespace s.rewritten target with
    | some ns =>
      match bestOverloadMatch env (ns ++ "." ++ function) args.length with
      | some f => (checkOverloads strict function r s, .node ⟨id, .call f⟩ (.absent :: args), true)
      | none =>
        (lastCheck env strict function target args.length (checkOverloads strict function r s),
          .node ⟨id, .call function⟩ (target :: args), false)
    | none =>
      (lastCheck env strict function target args.length (checkOverloads strict function r s),
        .node ⟨id, .call function⟩ (target :: args), false)
  else
    match bestOverloadMatch env function args.length with
    | none =>
      (lastCheck env strict function target args.length
        (addIssue strict (.noMatchingOverload function) (checkOverloads strict function r s)),
        .node ⟨id, .call function⟩ (target :: args), false)
    | some f =>
      if f ≠ function then
        (checkOverloads strict function r s, .node ⟨id, .call f⟩ (target :: args), true)
      else
        (lastCheck env strict function target args.length (checkOverloads strict function r s),
          .node ⟨id, .call function⟩ (target :: args), false)

/-- `ReferenceResolver::PostVisitRewrite` – `qualified_reference_resolver.cc:171-178`. -/
def postVisit {F : Type} (env : Env F) (strict : Bool) : NExpr → State → State × NExpr × Bool
  | .absent, s => (s, .absent, false)
  | .node l ks, s =>
    match getReference env strict l.id s with
    | (r, s) =>
      match l.kind, ks with
      | .call f, target :: args => maybeUpdateCall env strict l.id f target args r s
      | _, _ => (s, .node l ks, false)

/-- `ReferenceResolver` – `qualified_reference_resolver.cc:113-349`; the other methods do nothing. -/
def resolver {F : Type} (env : Env F) (strict : Bool) : Rewriter State where
  pre := preVisit env strict
  post := postVisit env strict
  visit _ _ s := s
  path _ s := s

/-- `ResolveReferences(resolver, issues, ast)` – `qualified_reference_resolver.cc:371-384`: the
issues collected, the expression, and the result (an error status or whether anything was
rewritten). -/
def resolveReferences {F : Type} (env : Env F) (strict : Bool) (t : NExpr) (fuel : Nat) :
    Option (List Issue × NExpr × Except Issue Bool) :=
  match astRewrite (resolver env strict) false t ⟨[], [], none⟩ fuel with
  | none => none
  | some (t', s, b) =>
    some (s.issues, t', match s.status with | some i => .error i | none => .ok b)

/-- `ReferenceResolverExtension::UpdateAst` – `qualified_reference_resolver.cc:351-366`;
`checkedOnly`: the option is `kCheckedOnly`, `mapEmpty`: the reference map is empty. -/
def updateAst {F : Type} (env : Env F) (strict checkedOnly mapEmpty : Bool) (t : NExpr) (fuel : Nat) :
    Option (List Issue × NExpr × Except Issue Unit) :=
  if checkedOnly && mapEmpty then some ([], t, .ok ())
  else match resolveReferences env strict t fuel with
    | none => none
    | some (is, t', .error e) => some (is, t', .error e)
    | some (is, t', .ok _) => some (is, t', .ok ())

/-- The overloads planned for a call – `AddResolvedFunctionStep`, `eval/compiler/flat_expr_builder.cc:1633-1660`:
the lazy ones, or else the static ones, looked up by the number of arguments (`Resolver::FindLazyOverloads`,
`Resolver::FindOverloads`, `eval/compiler/resolver.cc:155-206`). -/
def planned {F : Type} (env : Env F) (function : String) (receiver : Bool) (argc : Nat) :
    List Desc × List (Desc × F) :=
  let lz := Names.findLazyOverloads env.container.toList function.toList
    (fun n => env.functions.findLazyByArity (String.ofList n) receiver argc)
  if lz.isEmpty then
    ([], Names.findOverloads env.container.toList function.toList
      (fun n => env.functions.findStaticByArity (String.ofList n) receiver argc))
  else (lz, [])

end Cel.Refs
