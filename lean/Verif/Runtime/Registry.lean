import Verif.Base

/-!
# Model of overload registration and dispatch

`common/function_descriptor.cc`, `runtime/function_registry.cc`, the functions of `runtime/activation.cc`, the overload
resolution of `eval/eval/function_step.cc` and the choice between lazy and static overloads in
`eval/compiler/flat_expr_builder.cc`.  An implementation is an element of a type `F`.  Kinds are the numbers of the
enumeration in `common/kind.h`.
-/

namespace Cel.Runtime
open Cel

abbrev Kind := Nat

/-- `Kind::kAny` (`common/kind.h` line 42): a parameter of this kind takes any argument. -/
def kAny : Kind := 15

/-- `FunctionDescriptor` (`common/function_descriptor.h`); `is_contextual` and `is_pure` are not modelled. -/
structure Desc where
  name : String
  receiver : Bool
  types : List Kind
  strict : Bool
  deriving DecidableEq

/-- The loop of `ShapeMatches` (`common/function_descriptor.cc` lines 36-43). -/
def kindsMatch : List Kind → List Kind → Bool
  | a :: as, b :: bs => if a ≠ kAny ∧ b ≠ kAny ∧ a ≠ b then false else kindsMatch as bs
  | _, _ => true

/-- `FunctionDescriptor::ShapeMatches` (`common/function_descriptor.cc` lines 26-45). -/
def Desc.shapeMatches (d : Desc) (receiver : Bool) (types : List Kind) : Bool :=
  if d.receiver ≠ receiver then false
  else if d.types.length ≠ types.length then false
  else kindsMatch d.types types

/-- `RegistryEntry` (`runtime/function_registry.h` lines 140-143). -/
structure Entry (F : Type) where
  statics : List (Desc × F) := []
  lazies : List Desc := []

/-- The hash map `functions_`. -/
abbrev Registry (F : Type) := String → Option (Entry F)

/-- `FunctionRegistry::DescriptorRegistered` (`runtime/function_registry.cc` lines 220-238). -/
def Registry.descriptorRegistered {F : Type} (r : Registry F) (d : Desc) : Bool :=
  match r d.name with
  | none => false
  | some e => e.statics.any (fun o => o.1.shapeMatches d.receiver d.types) || e.lazies.any (fun o => o.shapeMatches d.receiver d.types)

/-- `FunctionRegistry::ValidateNonStrictOverload` (`runtime/function_registry.cc` lines 240-261): only the first overload
of each list is examined. -/
def Registry.validateNonStrict {F : Type} (r : Registry F) (d : Desc) : Bool :=
  match r d.name with
  | none => true
  | some e =>
    if !d.strict then false
    else (match e.statics with | [] => true | o :: _ => o.1.strict) && (match e.lazies with | [] => true | o :: _ => o.strict)

/-- Replacing one name's entry. -/
def Registry.set {F : Type} (r : Registry F) (name : String) (e : Entry F) : Registry F :=
  fun n => if n = name then some e else r n

/-- `FunctionRegistry::Register` (`runtime/function_registry.cc` lines 79-96): whether the status is OK, and the registry
afterwards. -/
def Registry.register {F : Type} (r : Registry F) (d : Desc) (f : F) : Bool × Registry F :=
  if r.descriptorRegistered d then (false, r)
  else if !(r.validateNonStrict d) then (false, r)
  else
    let e := (r d.name).getD {}
    (true, r.set d.name { e with statics := e.statics ++ [(d, f)] })

/-- `FunctionRegistry::RegisterLazyFunction` (`runtime/function_registry.cc` lines 98-115). -/
def Registry.registerLazy {F : Type} (r : Registry F) (d : Desc) : Bool × Registry F :=
  if r.descriptorRegistered d then (false, r)
  else if !(r.validateNonStrict d) then (false, r)
  else
    let e := (r d.name).getD {}
    (true, r.set d.name { e with lazies := e.lazies ++ [d] })

/-- `FunctionRegistry::FindStaticOverloads` (`runtime/function_registry.cc` lines 118-136). -/
def Registry.findStatic {F : Type} (r : Registry F) (name : String) (receiver : Bool) (types : List Kind) : List (Desc × F) :=
  match r name with
  | none => []
  | some e => e.statics.filter (fun o => o.1.shapeMatches receiver types)

/-- `FunctionRegistry::FindStaticOverloadsByArity` (`runtime/function_registry.cc` lines 138-156). -/
def Registry.findStaticByArity {F : Type} (r : Registry F) (name : String) (receiver : Bool) (arity : Nat) : List (Desc × F) :=
  match r name with
  | none => []
  | some e => e.statics.filter (fun o => o.1.receiver == receiver && o.1.types.length == arity)

/-- `FunctionRegistry::FindLazyOverloads` (`runtime/function_registry.cc` lines 158-175). -/
def Registry.findLazy {F : Type} (r : Registry F) (name : String) (receiver : Bool) (types : List Kind) : List Desc :=
  match r name with
  | none => []
  | some e => e.lazies.filter (fun o => o.shapeMatches receiver types)

/-- `FunctionRegistry::FindLazyOverloadsByArity` (`runtime/function_registry.cc` lines 177-195). -/
def Registry.findLazyByArity {F : Type} (r : Registry F) (name : String) (receiver : Bool) (arity : Nat) : List Desc :=
  match r name with
  | none => []
  | some e => e.lazies.filter (fun o => o.receiver == receiver && o.types.length == arity)

/-- `FunctionRegistry::ListFunctions` (`runtime/function_registry.cc` lines 198-218), for one name. -/
def Registry.list {F : Type} (r : Registry F) (name : String) : List Desc :=
  match r name with
  | none => []
  | some e => e.statics.map (·.1) ++ e.lazies

/-! ## Functions of an activation -/

/-- `Activation::functions_`. -/
abbrev ActFuns (F : Type) := String → List (Desc × F)

/-- `Activation::InsertFunction` (`runtime/activation.cc` lines 116-127). -/
def ActFuns.insert {F : Type} (a : ActFuns F) (d : Desc) (f : F) : Bool × ActFuns F :=
  if (a d.name).any (fun o => o.1.shapeMatches d.receiver d.types) then (false, a)
  else (true, fun n => if n = d.name then a n ++ [(d, f)] else a n)

/-- `ActivationFunctionProviderImpl::GetFunction` (`runtime/function_registry.cc` lines 46-66). -/
def getFunction {F : Type} (a : ActFuns F) (matcher : Desc) : Res (Option (Desc × F)) :=
  go (a matcher.name) none
where
  go : List (Desc × F) → Option (Desc × F) → Res (Option (Desc × F))
    | [], m => .ok m
    | o :: os, m =>
      if o.1.shapeMatches matcher.receiver matcher.types then
        match m with
        | some _ => .err ⟨.invalidArgument, "Couldn't resolve function."⟩
        | none => go os (some o)
      else go os m

/-! ## Dispatch -/

/-- `ArgumentKindsMatch` (`eval/eval/function_step.cc` lines 60-78). -/
def argumentKindsMatch (d : Desc) (args : List Kind) : Bool :=
  if d.types.length ≠ args.length then false
  else (d.types.zip args).all (fun p => !(p.2 != p.1 && p.1 != kAny))

/-- `ResolveStatic` (`eval/eval/function_step.cc` lines 286-295). -/
def resolveStatic {F : Type} (overloads : List (Desc × F)) (args : List Kind) : Option (Desc × F) :=
  overloads.find? (fun o => argumentKindsMatch o.1 args)

/-- `ResolveLazy` (`eval/eval/function_step.cc` lines 297-335). -/
def resolveLazy {F : Type} (a : ActFuns F) (name : String) (receiver : Bool) (providers : List Desc) (args : List Kind) :
    Res (Option (Desc × F)) :=
  go providers none
where
  go : List Desc → Option (Desc × F) → Res (Option (Desc × F))
    | [], r => .ok r
    | p :: ps, r =>
      if !(argumentKindsMatch p args) then go ps r
      else (getFunction a ⟨name, receiver, args, true⟩).bind fun o =>
        match o with
        | none => go ps r
        | some o =>
          match r with
          | some _ => .err ⟨.internal, "Cannot resolve overloads"⟩
          | none => go ps (some o)

/-- The overload a call is dispatched to: the planner takes the lazy overloads of the call's style and number of arguments
if there are any, and otherwise the static ones (`eval/compiler/flat_expr_builder.cc` lines 1632-1688; containers are
left to C38), and the step resolves among those by the arguments' kinds. -/
def dispatch {F : Type} (r : Registry F) (a : ActFuns F) (name : String) (receiver : Bool) (args : List Kind) :
    Res (Option (Desc × F)) :=
  if r.findLazyByArity name receiver args.length ≠ [] then
    resolveLazy a name receiver (r.findLazyByArity name receiver args.length) args
  else .ok (resolveStatic (r.findStaticByArity name receiver args.length) args)

end Cel.Runtime
