/-!
# Model of type inference in the type checker

`checker/internal/type_inference_context.{h,cc}` and the parts of `common/type.h` it uses.  A type is a type parameter or a head with
its parameters (`GetParameters()`); the head stands for `kind()` and `name()` together.  Loops and recursion carry fuel, `none` when it
runs out: the C++ has no such bound, and C36 proves that enough fuel always exists.  The hash maps are functions from names.
Identifiers of type variables are unbounded (`int64_t` in the code); log messages are dropped.
-/

namespace Cel.Checker

/-- The name of a type parameter: `T%<id>` (type_inference_context.h:160-166), or any other string. -/
inductive Name where
  | var (id : Nat)
  | other (s : String)
  deriving DecidableEq

/-- Types with neither name nor parameters (common/type_kind.h:34-70). -/
inductive Base where
  | null | bool | int | uint | double | string | bytes | duration | timestamp
  | any | dyn | error | unknown
  | boolWrapper | intWrapper | uintWrapper | doubleWrapper | stringWrapper | bytesWrapper
  deriving DecidableEq

/-- `kind()` and `name()` of a type other than a type parameter. -/
inductive Head where
  | base (b : Base)
  | struct (name : String)
  | enum (name : String)
  | type
  | list
  | map
  | opaque (name : String)
  | function
  deriving DecidableEq

/-- `cel::Type` (common/type.h): a list has one parameter, a map two, `type` at most one. -/
inductive Ty where
  | param (x : Name)
  | con (h : Head) (params : List Ty)

def Ty.b (b : Base) : Ty := .con (.base b) []
def dyn : Ty := .b .dyn

mutual
/-- `operator==` on types (common/type.cc:131-139, common/type.h:1242-1281): any two `type(…)` are equal
(common/types/type_type.h:71-73). -/
def Ty.eq : Ty → Ty → Bool
  | .param x, .param y => decide (x = y)
  | .con h ps, .con k qs => if h = .type then decide (k = .type) else decide (h = k) && Ty.eqAll ps qs
  | _, _ => false

def Ty.eqAll : List Ty → List Ty → Bool
  | [], [] => true
  | p :: ps, q :: qs => Ty.eq p q && Ty.eqAll ps qs
  | _, _ => false
end

def Ty.isParam : Ty → Bool
  | .param _ => true
  | .con _ _ => false

def Ty.head? : Ty → Option Head
  | .param _ => none
  | .con h _ => some h

def Ty.params : Ty → List Ty
  | .param _ => []
  | .con _ ps => ps

/-- `type.IsNull()` and the like. -/
def Ty.is (t : Ty) (b : Base) : Bool := decide (t.head? = some (.base b))

/-- `IsWildCardType` (type_inference_context.cc:40-49). -/
def isWildCard (t : Ty) : Bool := t.is .any || t.is .dyn || t.is .error

def isStruct : Option Head → Bool
  | some (.struct _) => true
  | _ => false
def isOpaque : Option Head → Bool
  | some (.opaque _) => true
  | _ => false
def isEnum : Option Head → Bool
  | some (.enum _) => true
  | _ => false

/-- `IsLegacyNullable` (type_inference_context.cc:58-69). -/
def isLegacyNullable (t : Ty) : Bool :=
  isStruct t.head? || t.is .duration || t.is .timestamp || t.is .any || isOpaque t.head?

/-- `IsTypeVar` (type_inference_context.cc:71). -/
def isTypeVar : Name → Bool
  | .var _ => true
  | .other s => "T%".isPrefixOf s

/-- `IsUnionType` (type_inference_context.cc:73-87). -/
def isUnion (t : Ty) : Bool :=
  t.is .any || t.is .boolWrapper || t.is .bytesWrapper || t.is .dyn || t.is .doubleWrapper || t.is .intWrapper || t.is .stringWrapper ||
    t.is .uintWrapper

/-- `IsSubsetOf` (type_inference_context.cc:91-112). -/
def isSubsetOf (a b : Ty) : Bool :=
  match b.head? with
  | some (.base .any) => true
  | some (.base .boolWrapper) => a.is .bool || a.is .null
  | some (.base .bytesWrapper) => a.is .bytes || a.is .null
  | some (.base .doubleWrapper) => a.is .double || a.is .null
  | some (.base .dyn) => true
  | some (.base .intWrapper) => a.is .int || a.is .null
  | some (.base .stringWrapper) => a.is .string || a.is .null
  | some (.base .uintWrapper) => a.is .uint || a.is .null
  | _ => false

/-- `WrapperToPrimitive` (type_inference_context.cc:137-154). -/
def wrapperToPrimitive (t : Ty) : Option Ty :=
  match t.head? with
  | some (.base .boolWrapper) => some (.b .bool)
  | some (.base .bytesWrapper) => some (.b .bytes)
  | some (.base .doubleWrapper) => some (.b .double)
  | some (.base .stringWrapper) => some (.b .string)
  | some (.base .intWrapper) => some (.b .int)
  | some (.base .uintWrapper) => some (.b .uint)
  | _ => none

/-! ## State -/

/-- `SubstitutionMap` (type_inference_context.h:57). -/
abbrev Sub := Name → Option Ty

/-- `type_parameter_bindings_` (type_inference_context.h:221): absent, free (`some none`), or bound. -/
abbrev Bindings := Name → Option (Option Ty)

/-- `TypeInferenceContext`: the bindings, the last identifier used, and `enable_legacy_null_assignment_`. -/
structure Ctx where
  bindings : Bindings
  nextId : Nat
  legacyNull : Bool

/-- Prospective substitutions. `widened` is not in the code: it records that the widening branch replaced a binding. -/
structure Pro where
  map : Sub
  widened : Bool

def Pro.empty : Pro := ⟨fun _ => none, false⟩

def Pro.bind (P : Pro) (x : Name) (t : Ty) : Pro := { P with map := fun y => if y = x then some t else P.map y }

/-- Where `Substitute` and `OccursWithin` look a name up (type_inference_context.cc:361-373, 471-486): first among the prospective
substitutions, then among the bindings. -/
def look (B : Bindings) (P : Sub) : Sub := fun x =>
  match P x with
  | some t => some t
  | none =>
    match B x with
    | some (some t) => some t
    | _ => none

/-- `Substitute` (type_inference_context.cc:357-376). -/
def substitute (σ : Sub) : Nat → Ty → Option Ty
  | 0, _ => none
  | _ + 1, .con h ps => some (.con h ps)
  | n + 1, .param x =>
    match σ x with
    | some t => substitute σ n t
    | none => some (.param x)

/-- Does any element satisfy `f`? Left to right, stopping at the first. -/
def anyOf (f : Ty → Option Bool) : List Ty → Option Bool
  | [] => some false
  | t :: ts =>
    match f t with
    | some true => some true
    | some false => anyOf f ts
    | none => none

/-- `OccursWithin` (type_inference_context.cc:453-496). -/
def occursWithin (σ : Sub) (x : Name) : Nat → Ty → Option Bool
  | 0, _ => none
  | n + 1, .param y =>
    if y = x then some true
    else
      match σ y with
      | some t => occursWithin σ x n t
      | none => some false
  | n + 1, .con _ ps => anyOf (occursWithin σ x n) ps

/-- `RelativeGenerality` (type_inference_context.h:152-158). -/
inductive Generality where
  | more | less | equivalent
  deriving DecidableEq

/-- How generalities of parameters combine: less wins, then more. -/
def Generality.both : Generality → Generality → Generality
  | .less, _ => .less
  | _, .less => .less
  | .more, _ => .more
  | _, .more => .more
  | .equivalent, .equivalent => .equivalent

def compareAll (f : Ty → Ty → Option Generality) : List Ty → List Ty → Option Generality
  | p :: ps, q :: qs => do
    let g ← f p q
    let r ← compareAll f ps qs
    some (g.both r)
  | _, _ => some .equivalent

/-- Lists, maps, and opaque types of the same name and number of parameters are compared by their parameters. -/
def comparable (f t : Ty) : Bool :=
  (decide (f.head? = some .list) && decide (t.head? = some .list)) ||
  (decide (f.head? = some .map) && decide (t.head? = some .map)) ||
  (isOpaque f.head? && decide (f.head? = t.head?) && decide (f.params.length = t.params.length))

/-- `CompareGenerality` (type_inference_context.cc:378-451). The three cases for parameters are one here: they combine alike. -/
def compareGenerality (legacy : Bool) (σ : Sub) : Nat → Ty → Ty → Option Generality
  | 0, _, _ => none
  | n + 1, src, dst => do
    let f ← substitute σ n src
    let t ← substitute σ n dst
    if f.eq t then some .equivalent
    else if isUnion f && isSubsetOf t f then some .more
    else if isUnion t then some .less
    else if legacy && isLegacyNullable f && t.is .null then some .more
    else if comparable f t then compareAll (compareGenerality legacy σ n) f.params t.params
    else some .equivalent

/-- `IsAssignableWithConstraints` (type_inference_context.cc:498-533). -/
def assignWithConstraints (B : Bindings) (n : Nat) (src dst : Ty) (P : Pro) : Option (Bool × Pro) :=
  match dst, src with
  | .param y, .param x => if y ≠ x then some (true, P.bind x (.param y)) else some (true, P)
  | .param y, .con h ps => do
    if !(← occursWithin (look B P.map) y n (.con h ps)) then some (true, P.bind y (.con h ps))
    else some (isWildCard (.con h ps), P)
  | .con h ps, .param x => do
    if !(← occursWithin (look B P.map) x n (.con h ps)) then some (true, P.bind x (.con h ps))
    else some (isWildCard (.con h ps), P)
  | .con h ps, .con k qs => some (isWildCard (.con k qs) || isWildCard (.con h ps), P)

/-- The loop over parameters (type_inference_context.cc:348-353): what a failed check has bound stays. -/
def assignAll (f : Ty → Ty → Pro → Option (Bool × Pro)) : List Ty → List Ty → Pro → Option (Bool × Pro)
  | p :: ps, q :: qs, P =>
    match f p q P with
    | some (true, P') => assignAll f ps qs P'
    | some (false, P') => some (false, P')
    | none => none
  | _, _, P => some (true, P)

/-- The widening step (type_inference_context.cc:268-287): `some none` to continue with the normal check. -/
def tryWiden (legacy : Bool) (B : Bindings) (n : Nat) (f : Ty → Ty → Pro → Option (Bool × Pro)) (src dst to : Ty) (P : Pro) :
    Option (Option Pro) :=
  match to with
  | .con _ _ => some none
  | .param x =>
    if (P.map x).isSome then do
      let g ← compareGenerality legacy (look B P.map) n src dst
      if g = .more then do
        let r ← f dst src P
        if r.1 then do
          if !(← occursWithin (look B r.2.map) x n src) then some (some { r.2.bind x src with widened := true })
          else some none
        else some none
      else some none
    else some none

/-- The rest of `IsAssignableInternal` (type_inference_context.cc:289-354), for two types that are no type parameters. -/
def assignConcrete (legacy : Bool) (f : Ty → Ty → Pro → Option (Bool × Pro)) (src dst : Ty) (P : Pro) : Option (Bool × Pro) :=
  match wrapperToPrimitive dst with
  | some p => if src.is .null then some (true, P) else f p src P
  | none =>
    match wrapperToPrimitive src with
    | some p => f p dst P
    | none =>
      if legacy && src.is .null && isLegacyNullable dst then some (true, P)
      else if legacy && dst.is .null && isLegacyNullable src then some (true, P)
      else if decide (src.head? = some .type) && decide (dst.head? = some .type) then some (true, P)
      else if isEnum dst.head? && src.is .int then some (true, P)
      else if isEnum src.head? && dst.is .int then some (true, P)
      else if isWildCard src || isWildCard dst then some (true, P)
      else if dst.head? ≠ src.head? then some (false, P)
      else if dst.params.length ≠ src.params.length then some (false, P)
      else assignAll f src.params dst.params P

/-- `IsAssignableInternal` (type_inference_context.cc:249-355). -/
def assign (legacy : Bool) (B : Bindings) : Nat → Ty → Ty → Pro → Option (Bool × Pro)
  | 0, _, _, _ => none
  | n + 1, src, to, P => do
    let dst ← substitute (look B P.map) n to
    let f ← substitute (look B P.map) n src
    if dst.eq f then some (true, P)
    else if dst.isParam || f.isParam then assignWithConstraints B n f dst P
    else
      match ← tryWiden legacy B n (assign legacy B n) f dst to P with
      | some P' => some (true, P')
      | none => assignConcrete legacy (assign legacy B n) f dst P

/-- `UpdateTypeParameterBindings` (type_inference_context.cc:590-604): names that were never instantiated are skipped. -/
def Ctx.update (c : Ctx) (P : Pro) : Ctx :=
  { c with bindings := fun x =>
      match c.bindings x with
      | none => none
      | some t =>
        match P.map x with
        | some t' => some (some t')
        | none => some t }

/-- `TypeInferenceContext::IsAssignable` (type_inference_context.cc:240-247). -/
def isAssignable (c : Ctx) (n : Nat) (src dst : Ty) : Option (Bool × Ctx) := do
  let r ← assign c.legacyNull c.bindings n src dst .empty
  some (r.1, if r.1 then c.update r.2 else c)

/-! ## Full substitution -/

def mapAll (f : Ty → Option Ty) : List Ty → Option (List Ty)
  | [] => some []
  | t :: ts => do
    let r ← f t
    let rs ← mapAll f ts
    some (r :: rs)

/-- Heads whose parameters are substituted and instantiated: `type`, `list`, `map`, opaque types. -/
def hasTypeParams : Head → Bool
  | .type | .list | .map | .opaque _ => true
  | _ => false

/-- `FullySubstitute` (type_inference_context.cc:610-649); `FinalizeType` (type_inference_context.h:116-118) is the case `toDyn`. -/
def fullySubstitute (σ : Sub) (toDyn : Bool) : Nat → Ty → Option Ty
  | 0, _ => none
  | n + 1, .param x => do
    match ← substitute σ n (.param x) with
    | .param y => some (if toDyn then dyn else .param y)
    | .con h ps => fullySubstitute σ toDyn n (.con h ps)
  | n + 1, .con h ps =>
    if hasTypeParams h then do
      let rs ← mapAll (fullySubstitute σ toDyn n) ps
      some (.con h rs)
    else some (.con h ps)

/-- The bindings as a substitution. -/
def Ctx.sub (c : Ctx) : Sub := look c.bindings (fun _ => none)

def Ctx.fullySubstitute (c : Ctx) (n : Nat) (t : Ty) : Option Ty := Checker.fullySubstitute c.sub false n t
def Ctx.finalizeType (c : Ctx) (n : Nat) (t : Ty) : Option Ty := Checker.fullySubstitute c.sub true n t

/-! ## Instantiation -/

/-- `NewTypeVar` (type_inference_context.h:160-166). -/
def Ctx.newVar (c : Ctx) : Name × Ctx :=
  let x := Name.var (c.nextId + 1)
  (x, { c with nextId := c.nextId + 1
               bindings := fun y => if y = x then (match c.bindings y with | none => some none | some t => some t) else c.bindings y })

/-- `InstanceMap` (type_inference_context.h:45). -/
abbrev Instances := Name → Option Name

/-- The case of a type parameter (type_inference_context.cc:188-200). -/
def instantiateParam (x : Name) (s : Instances × Ctx) : Ty × (Instances × Ctx) :=
  if isTypeVar x then (.param x, s)
  else
    match s.1 x with
    | some y => (.param y, s)
    | none =>
      let r := s.2.newVar
      (.param r.1, (fun y => if y = x then some r.1 else s.1 y, r.2))

mutual
/-- `InstantiateTypeParams` (type_inference_context.cc:158-238). -/
def instantiate : Ty → Instances × Ctx → Ty × (Instances × Ctx)
  | .param x, s => instantiateParam x s
  | .con h ps, s =>
    match h with
    | .base .unknown => (.b .error, s)
    | .base b => (.con (.base b) ps, s)
    | .struct n => (.con (.struct n) ps, s)
    | .enum _ => (.b .error, s)
    | .function => (.b .error, s)
    | .type =>
      if ps.length > 1 then (.b .error, s)
      else
        let r := instantiateAll ps s
        (.con .type r.1, r.2)
    | .list =>
      let r := instantiateAll ps s
      (.con .list r.1, r.2)
    | .map =>
      let r := instantiateAll ps s
      (.con .map r.1, r.2)
    | .opaque n =>
      let r := instantiateAll ps s
      (.con (.opaque n) r.1, r.2)

def instantiateAll : List Ty → Instances × Ctx → List Ty × (Instances × Ctx)
  | [], s => ([], s)
  | t :: ts, s =>
    let r := instantiate t s
    let rs := instantiateAll ts r.2
    (r.1 :: rs.1, rs.2)
end

/-! ## Overloads -/

/-- `OverloadDecl`: the parts overload resolution reads. -/
structure Overload where
  id : String
  member : Bool
  args : List Ty
  result : Ty

structure FunctionDecl where
  name : String
  overloads : List Overload

/-- `InstantiateFunctionOverload` (type_inference_context.cc:119-133): the result first, then the parameters. -/
def instantiateOverload (c : Ctx) (o : Overload) : Ty × List Ty × Ctx :=
  let r := instantiate o.result (fun _ => none, c)
  let a := instantiateAll o.args r.2
  (r.1, a.1, a.2.2)

/-- `argument_types.size() >= 2` and the name is that of `&&` or `||` (type_inference_context.cc:541-543). -/
def isLogicalOp (name : String) (args : List Ty) : Bool := (name == "_&&_" || name == "_||_") && decide (args.length ≥ 2)

/-- The checks of one overload's arguments (type_inference_context.cc:557-566); for a logical operator all against the first
parameter (an overload of `&&` without parameters, which the code would read out of bounds, gets `dyn`). -/
def assignArgs (f : Ty → Ty → Pro → Option (Bool × Pro)) (logical : Bool) (args params : List Ty) (P : Pro) : Option (Bool × Pro) :=
  assignAll f args (if logical then List.replicate args.length (params.headD dyn) else params) P

/-- One turn of the loop over overloads (type_inference_context.cc:546-579). -/
def resolveOne (c : Ctx) (n : Nat) (logical : Bool) (args : List Ty) (receiver : Bool) (o : Overload) (found : Option Ty × List Overload) :
    Option (Ctx × Option Ty × List Overload) :=
  if o.member ≠ receiver ∨ (logical = false ∧ args.length ≠ o.args.length) then some (c, found)
  else do
    let (result, params, c') := instantiateOverload c o
    let r ← assignArgs (assign c'.legacyNull c'.bindings n) logical args params .empty
    if r.1 then
      let t := match found.1 with
        | none => result
        | some t => if t.eq result then t else dyn
      some (c'.update r.2, some t, found.2 ++ [o])
    else some (c', found)

def resolveLoop (n : Nat) (logical : Bool) (args : List Ty) (receiver : Bool) :
    List Overload → Ctx → Option Ty × List Overload → Option (Ctx × Option Ty × List Overload)
  | [], c, found => some (c, found)
  | o :: os, c, found => do
    let r ← resolveOne c n logical args receiver o found
    resolveLoop n logical args receiver os r.1 r.2

/-- `ResolveOverload` (type_inference_context.cc:535-588): the result type and the matching overloads, `none` inside if there is no
match. -/
def resolveOverload (c : Ctx) (n : Nat) (decl : FunctionDecl) (args : List Ty) (receiver : Bool) :
    Option (Ctx × Option (Ty × List Overload)) := do
  let r ← resolveLoop n (isLogicalOp decl.name args) args receiver decl.overloads c (none, [])
  match r.2.1 with
  | none => some (r.1, none)
  | some t => do
    let t' ← r.1.fullySubstitute n t
    some (r.1, some (t', r.2.2))

/-! ## Assignability contexts -/

/-- `AssignabilityContext::IsAssignable` (type_inference_context.cc:651-655). -/
def Pro.isAssignable (P : Pro) (c : Ctx) (n : Nat) (src dst : Ty) : Option (Bool × Pro) := assign c.legacyNull c.bindings n src dst P

/-- `UpdateInferredTypeAssignments` (type_inference_context.cc:670-674). -/
def Pro.updateInferred (P : Pro) (c : Ctx) : Ctx × Pro := (c.update P, .empty)

/-- `TypeInferenceContext(arena, enable_legacy_null_assignment)`. -/
def Ctx.new (legacyNull : Bool) : Ctx := ⟨fun _ => none, 0, legacyNull⟩

end Cel.Checker
