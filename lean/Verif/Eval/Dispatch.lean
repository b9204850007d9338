import Verif.Eval.Logic

/-!
# Function calls: overload resolution and invocation (`eval/eval/function_step.cc`)
-/

namespace Cel.Eval
open Cel

/-- `cel::FunctionOverloadReference`: a descriptor and an implementation
(`runtime/function_overload_reference.h`).  Implementations are arbitrary functions of the arguments
and of a host state `σ` (side effects); they return a value or a status. -/
structure Overload (σ : Type) where
  desc : FnDesc
  impl : List Value → σ → Res Value × σ

/-- `ArgumentKindsMatch` loop (`eval/eval/function_step.cc` lines 68-74). -/
def kindsMatchLoop : List Nat → List Value → Bool
  | k :: ks, v :: vs => if v.kind ≠ k ∧ k ≠ kAny then false else kindsMatchLoop ks vs
  | _, _ => true

/-- `ArgumentKindsMatch` (`eval/eval/function_step.cc` lines 60-77). -/
def argumentKindsMatch (d : FnDesc) (args : List Value) : Bool :=
  if d.kinds.length ≠ args.length then false else kindsMatchLoop d.kinds args

/-- `ShouldAcceptOverload` (`eval/eval/function_step.cc` lines 49-58). -/
def shouldAcceptOverload (d : FnDesc) : List Value → Bool
  | [] => true
  | v :: vs => if v.isUnknown ∨ v.isError then !d.strict else shouldAcceptOverload d vs

/-- `CheckForPartialUnknowns` (`eval/eval/function_step.cc` lines 110-128). -/
def checkPartialUnknowns (pats : List Pattern) : List VA → List Value
  | [] => []
  | x :: xs =>
    (match (if checkUnknown pats x.t true = true then x.t else none) with
     | some a => .unknown (unknownOf a)
     | none => x.v) :: checkPartialUnknowns pats xs

/-- `ToLegacyKindName` (`eval/eval/function_step.cc` lines 82-88). -/
def legacyKindName (n : String) : String := if n = "int" ∨ n = "uint" then n ++ "64" else n

/-- `CallArgTypeString` (`eval/eval/function_step.cc` lines 90-103). -/
def callArgTypeString (args : List Value) : String :=
  "(" ++ String.intercalate ", " (args.map fun a => legacyKindName (kindName a.kind)) ++ ")"

/-- First loop of `NoOverloadResult` (`eval/eval/function_step.cc` lines 209-214). -/
def firstError : List Value → Option Value
  | [] => none
  | .error e :: _ => some (.error e)
  | _ :: vs => firstError vs

/-- `NoOverloadResult` (`eval/eval/function_step.cc` lines 202-242). -/
def noOverloadResult (name : String) (args : List Value) (receiver unknowns : Bool) : Value :=
  match firstError args with
  | some e => e
  | none =>
    match (if unknowns then mergeUnknowns args else none) with
    | some u => .unknown u
    | none =>
      if receiver then
        match args with
        | [] => .error (noOverload ("()." ++ name ++ "()"))
        | a :: rest => .error (noOverload ("(" ++ legacyKindName (kindName a.kind) ++ ")." ++ name ++ callArgTypeString rest))
      else .error (noOverload (name ++ callArgTypeString args))

/-- `ResolveStatic` (`eval/eval/function_step.cc` lines 286-295). -/
def resolveStatic {σ : Type} (args : List Value) : List (Overload σ) → Option (Overload σ)
  | [] => none
  | o :: os => if argumentKindsMatch o.desc args then some o else resolveStatic args os

/-- A lazy provider (`runtime/function_registry.h` `LazyOverload`): the descriptor it was registered
with, and what it returns when asked for a function of the given shape
(`provider.GetFunction(matcher, activation)`). -/
structure LazyProvider (σ : Type) where
  desc : FnDesc
  get : FnDesc → Res (Option (Overload σ))

/-- `ResolveLazy` loop (`eval/eval/function_step.cc` lines 313-332). -/
def resolveLazyLoop {σ : Type} (matcher : FnDesc) (args : List Value) :
    List (LazyProvider σ) → Option (Overload σ) → Res (Option (Overload σ))
  | [], r => .ok r
  | p :: ps, r =>
    if !argumentKindsMatch p.desc args then resolveLazyLoop matcher args ps r
    else match p.get matcher with
      | .err s => .err s
      | .ub => .ub
      | .ok none => resolveLazyLoop matcher args ps r
      | .ok (some o) =>
        match r with
        | some _ => .err ⟨.internal, "Cannot resolve overloads"⟩
        | none => resolveLazyLoop matcher args ps (some o)

/-- `ResolveLazy` (`eval/eval/function_step.cc` lines 297-335). -/
def resolveLazy {σ : Type} (name : String) (receiver : Bool) (ps : List (LazyProvider σ))
    (args : List Value) : Res (Option (Overload σ)) :=
  resolveLazyLoop ⟨name, receiver, args.map Value.kind, true⟩ args ps none

/-- How a call site resolves: `EagerFunctionStep` or `LazyFunctionStep`
(`eval/eval/function_step.cc` lines 337-378). -/
inductive Resolver (σ : Type) where
  | eager (overloads : List (Overload σ))
  | lazy (providers : List (LazyProvider σ))

/-- A call step (`AbstractFunctionStep`, lines 152-180). -/
structure CallSite (σ : Type) where
  name : String
  receiver : Bool
  exprId : Int
  resolver : Resolver σ

/-- `ResolveFunction` of either class. -/
def CallSite.resolve {σ : Type} (c : CallSite σ) (args : List Value) : Res (Option (Overload σ)) :=
  match c.resolver with
  | .eager os => .ok (resolveStatic args os)
  | .lazy ps => resolveLazy c.name c.receiver ps args

/-- Options that matter to calls. -/
structure CallOpts where
  unknowns : Bool
  unknownFnResults : Bool
  pats : List Pattern

/-- `Invoke` (`eval/eval/function_step.cc` lines 182-200). -/
def invoke {σ : Type} (opts : CallOpts) (o : Overload σ) (exprId : Int) (args : List Value) (s : σ) :
    Res Value × σ :=
  match o.impl args s with
  | (.ok v, s') =>
    match v with
    | .error st =>
      if opts.unknownFnResults ∧ st.code = .unknownFunctionResult then
        (.ok (.unknown ⟨[], [⟨o.desc, exprId⟩]⟩), s')
      else (.ok v, s')
    | _ => (.ok v, s')
  | r => r

/-- `AbstractFunctionStep::DoEvaluate` and `DirectFunctionStepImpl::Evaluate` after the arguments are
evaluated (`eval/eval/function_step.cc` lines 244-269, 440-463). -/
def evalCall {σ : Type} (opts : CallOpts) (c : CallSite σ) (xs : List VA) (s : σ) : Res Value × σ :=
  let args := if opts.unknowns then checkPartialUnknowns opts.pats xs else xs.map (·.v)
  match c.resolve args with
  | .err e => (.err e, s)
  | .ub => (.ub, s)
  | .ok none => (.ok (noOverloadResult c.name args c.receiver opts.unknowns), s)
  | .ok (some o) =>
    if shouldAcceptOverload o.desc args then invoke opts o c.exprId args s
    else (.ok (noOverloadResult c.name args c.receiver opts.unknowns), s)

end Cel.Eval
