set_option linter.unusedVariables false

/-!
# Masks on message types

`checker/internal/proto_type_mask_registry.cc`, `checker/internal/proto_type_mask.h`,
`checker/internal/field_path.h`.
-/

namespace Cel.Mask

/-- What the code asks a descriptor pool.  A descriptor is its full name: `FindMessageTypeByName`
gives the descriptor with the name asked for. -/
structure Pool where
  /-- `FindMessageTypeByName` finds something. -/
  message : String → Bool
  /-- `FindFieldByName`: `none` if there is no such field; then the message type of the field, `none`
  if its type is not a message type (`GetMessage` fails: scalars, lists, maps, well-known types) –
  `proto_type_mask_registry.cc:51-61`. -/
  field : String → String → Option (Option String)

/-- `ProtoTypeMask` – `proto_type_mask.h:41-100`: the type and the field paths, each split at its
dots (`field_path.h`); the paths in any order, the code keeps them in an ordered set. -/
structure Mask where
  type : String
  paths : List (List String)

/-- `TypeMap` – `proto_type_mask_registry.cc:46-47`; sets of names as lists. -/
abbrev TypeMap := String → Option (List String)

def TypeMap.set (m : TypeMap) (t : String) (s : List String) : TypeMap := fun u => if u = t then some s else m u

/-- `AddAllHiddenFields` – `:65-79`; `none` is an error status. -/
def addAllHidden (m : TypeMap) (t : String) : Option TypeMap :=
  match m t with
  | some s => if s ≠ [] then none else some m
  | none => some (m.set t [])

/-- `AddVisibleField` – `:83-101`. -/
def addVisible (m : TypeMap) (t f : String) : Option TypeMap :=
  match m t with
  | some s => if s = [] then none else some (m.set t (f :: s))
  | none => some (m.set t [f])

/-- The loop over the names of a path – `:124-136`. -/
def addPath (pool : Pool) : String → List String → TypeMap → Option TypeMap
  | _, [], m => some m
  | t, f :: rest, m =>
    match pool.field t f with
    | none => none
    | some target =>
      match addVisible m t f with
      | none => none
      | some m' =>
        if rest = [] then some m'
        else
          match target with
          | none => none
          | some t' => addPath pool t' rest m'

/-- The loop over the paths of a mask – `:121-137`. -/
def addPaths (pool : Pool) (t : String) : List (List String) → TypeMap → Option TypeMap
  | [], m => some m
  | p :: ps, m => (addPath pool t p m).bind (addPaths pool t ps)

/-- One mask – `:112-138`. -/
def addMask (pool : Pool) (k : Mask) (m : TypeMap) : Option TypeMap :=
  if pool.message k.type then
    if k.paths = [] then addAllHidden m k.type else addPaths pool k.type k.paths m
  else none

def addMasks (pool : Pool) : List Mask → TypeMap → Option TypeMap
  | [], m => some m
  | k :: ks, m => (addMask pool k m).bind (addMasks pool ks)

/-- `ProtoTypeMaskRegistry::Create` – `:108-156`. -/
def create (pool : Pool) (ks : List Mask) : Option TypeMap := addMasks pool ks fun _ => none

/-- `FieldIsVisible` – `:158-166`. -/
def visible (m : TypeMap) (t f : String) : Bool :=
  match m t with
  | some s => s.contains f
  | none => true

/-- `TypeCheckEnv::LookupStructField` – `checker/internal/type_check_env.cc:98-116`: the registry, if
there is one, then the type providers in order; `none` is "no such field".  Providers do not fail
here. -/
def lookupField {F : Type} (registry : Option TypeMap) (providers : List (String → String → Option F)) (t f : String) :
    Option F :=
  if (match registry with | some m => !visible m t f | none => false) then none
  else providers.findSome? fun p => p t f

end Cel.Mask
