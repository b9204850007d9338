set_option linter.unusedVariables false

/-!
# The three representations of types

* `Type`, what the checker works with; `TypeSpec`, what an AST holds; `Config::TypeInfo`, what an
  environment configuration holds
* `ConvertTypeSpecToType`, `ConvertTypeToTypeSpec` – `common/type_spec_resolver.cc:34-299`
* `TypeInfoToType`, `TypeInfoToTypeSpec`, `TypeSpecToTypeInfo` – `env/type_info.cc:38-408`
* `Type::Message`, `Type::Enum` – `common/type.cc:39-83`
-/

namespace Cel.TypeConv

/-- `PrimitiveType` – `common/ast/metadata.h`; `unspecified` stands for every other enumerator. -/
inductive Prim where
  | unspecified | bool | int | uint | double | string | bytes
  deriving DecidableEq

/-- `WellKnownTypeSpec` – `common/ast/metadata.h`. -/
inductive Known where
  | unspecified | any | timestamp | duration
  deriving DecidableEq

/-- `TypeSpec` – `common/ast/metadata.h:325-740`.  A null child is `unset`: `elem_type()`,
`key_type()`, … (`common/ast/metadata.cc:160-205`) read it as the default `TypeSpec`. -/
inductive Spec where
  | unset
  | dyn
  | null
  | prim (p : Prim)
  | wrap (p : Prim)
  | known (k : Known)
  | list (e : Spec)
  | map (k v : Spec)
  | function (r : Spec) (args : List Spec)
  | message (name : String)
  | param (name : String)
  | type (t : Spec)
  | error
  | abstract (name : String) (ps : List Spec)

/-- `Descriptor::well_known_type()` as `Type::Message` distinguishes it. -/
inductive Wkt where
  | none | bool | int32 | int64 | uint32 | uint64 | float | double | bytes | string | any | duration | timestamp
  | value | listValue | struct
  deriving DecidableEq

/-- A message or enum descriptor; `tag` stands for its identity, as two pools may have different
descriptors of one name. -/
structure Desc where
  name : String
  wkt : Wkt := .none
  tag : Nat := 0
  deriving DecidableEq

/-- `cel::Type`: the alternatives of `TypeVariant` (`common/types/types.h:83-90`); primitive and
wrapper types are grouped (`BoolType`, … are `prim .bool`, …; `prim .unspecified` is no type). A
`TypeType` without data is `bareType`. -/
inductive Ty where
  | dyn | any | timestamp | duration | null | error | unknown
  | prim (p : Prim)
  | wrap (p : Prim)
  | enum (d : Desc)
  | message (d : Desc)
  | basicStruct (name : String)
  | list (e : Ty)
  | map (k v : Ty)
  | function (r : Ty) (args : List Ty)
  | opaque (name : String) (ps : List Ty)
  | param (name : String)
  | type (t : Ty)
  | bareType

/-- `google::protobuf::DescriptorPool`: what the two look-ups find. -/
structure Pool where
  message : String → Option Desc
  enum : String → Option Desc

/-- `Type::Message` – `common/type.cc:39-74`. -/
def ofMessage (d : Desc) : Ty :=
  match d.wkt with
  | .bool => .wrap .bool
  | .int32 => .wrap .int
  | .int64 => .wrap .int
  | .uint32 => .wrap .uint
  | .uint64 => .wrap .uint
  | .float => .wrap .double
  | .double => .wrap .double
  | .bytes => .wrap .bytes
  | .string => .wrap .string
  | .any => .any
  | .duration => .duration
  | .timestamp => .timestamp
  | .value => .dyn
  | .listValue => .list .dyn
  | .struct => .map (.prim .string) .dyn
  | .none => .message d

/-- `Type::Enum` – `common/type.cc:76-83`. -/
def ofEnum (d : Desc) : Ty := if d.name = "google.protobuf.NullValue" then .prim .int else .enum d

mutual
/-- `ConvertTypeSpecToType` – `common/type_spec_resolver.cc:34-207`; `none` is an error status. -/
def specToType (pool : Pool) : Spec → Option Ty
  | .null => some .null
  | .dyn => some .dyn
  | .prim p => if p = .unspecified then none else some (.prim p)
  | .known .any => some .any
  | .known .timestamp => some .timestamp
  | .known .duration => some .duration
  | .known .unspecified => none
  | .wrap p => if p = .unspecified then none else some (.wrap p)
  | .list e => (childToType pool e).map .list
  | .map k v =>
    match childToType pool k with
    | none => none
    | some k' => (childToType pool v).map (.map k')
  | .function r args =>
    match childToType pool r with
    | none => none
    | some r' => (specsToTypes pool args).map (.function r')
  | .param n => some (.param n)
  | .message n => (pool.message n).map ofMessage
  | .abstract n ps =>
    match pool.message n with
    | some d => if ps.isEmpty then some (ofMessage d) else none
    | none =>
      match pool.enum n with
      | some d => if ps.isEmpty then some (ofEnum d) else none
      | none => (specsToTypes pool ps).map (.opaque n)
  | .type t => (specToType pool t).map .type
  | .error => some .error
  | .unset => none
/-- `Type t; if (spec.is_specified()) t = …` (`:86-93`, `:96-110`, `:114-119`): the default is dyn. -/
def childToType (pool : Pool) : Spec → Option Ty
  | .unset => some .dyn
  | s => specToType pool s
def specsToTypes (pool : Pool) : List Spec → Option (List Ty)
  | [] => some []
  | s :: ss =>
    match specToType pool s with
    | none => none
    | some t => (specsToTypes pool ss).map (t :: ·)
end

mutual
/-- `ConvertTypeToTypeSpec` – `common/type_spec_resolver.cc:209-299`. -/
def typeToSpec : Ty → Option Spec
  | .null => some .null
  | .dyn => some .dyn
  | .prim p => some (.prim p)
  | .any => some (.known .any)
  | .timestamp => some (.known .timestamp)
  | .duration => some (.known .duration)
  | .wrap p => some (.wrap p)
  | .list e => (typeToSpec e).map .list
  | .map k v =>
    match typeToSpec k with
    | none => none
    | some k' => (typeToSpec v).map (.map k')
  | .function r args =>
    match typeToSpec r with
    | none => none
    | some r' => (typesToSpecs args).map (.function r')
  | .param n => some (.param n)
  | .message d => some (.message d.name)
  | .basicStruct _ => none
  | .opaque n ps => (typesToSpecs ps).map (.abstract n)
  | .type t => (typeToSpec t).map .type
  | .bareType => some (.type .dyn)
  | .error => some .error
  | .enum d => some (.abstract d.name [])
  | .unknown => none
def typesToSpecs : List Ty → Option (List Spec)
  | [] => some []
  | t :: ts =>
    match typeToSpec t with
    | none => none
    | some s => (typesToSpecs ts).map (s :: ·)
end

/-- `Config::TypeInfo` – `env/config.h:111-115`. -/
inductive Info where
  | mk (name : String) (params : List Info) (isParam : Bool)

/-- The `TypeKind`s of `TypeNameToTypeKind`. -/
inductive Kind where
  | null | timestamp | duration | list | map | dyn | any | type
  | prim (p : Prim)
  | wrap (p : Prim)
  deriving DecidableEq

/-- `TypeNameToTypeKind` – `env/type_info.cc:38-88`. -/
def kindOf (name : String) : Option Kind :=
  if name = "null" then some .null
  else if name = "bool" then some (.prim .bool)
  else if name = "int" then some (.prim .int)
  else if name = "uint" then some (.prim .uint)
  else if name = "double" then some (.prim .double)
  else if name = "string" then some (.prim .string)
  else if name = "bytes" then some (.prim .bytes)
  else if name = "timestamp" then some .timestamp
  else if name = "google.protobuf.Timestamp" then some .timestamp
  else if name = "duration" then some .duration
  else if name = "google.protobuf.Duration" then some .duration
  else if name = "list" then some .list
  else if name = "map" then some .map
  else if name = "" then some .dyn
  else if name = "any" then some .any
  else if name = "dyn" then some .dyn
  else if name = "google.protobuf.BoolValue" then some (.wrap .bool)
  else if name = "bool_wrapper" then some (.wrap .bool)
  else if name = "google.protobuf.Int64Value" then some (.wrap .int)
  else if name = "int_wrapper" then some (.wrap .int)
  else if name = "google.protobuf.UInt64Value" then some (.wrap .uint)
  else if name = "uint_wrapper" then some (.wrap .uint)
  else if name = "google.protobuf.DoubleValue" then some (.wrap .double)
  else if name = "double_wrapper" then some (.wrap .double)
  else if name = "google.protobuf.StringValue" then some (.wrap .string)
  else if name = "string_wrapper" then some (.wrap .string)
  else if name = "google.protobuf.BytesValue" then some (.wrap .bytes)
  else if name = "bytes_wrapper" then some (.wrap .bytes)
  else if name = "type" then some .type
  else none

/-- A parameter that may be missing (`:127-157`, `:176-183`): dyn. -/
def orDyn (ts : List Ty) (i : Nat) : Ty := (ts[i]?).getD .dyn

mutual
/-- `TypeInfoToType` – `env/type_info.cc:91-189`; the pool is there.  It never fails.  All parameters
are converted here, the code converts those it uses. -/
def infoToType (pool : Pool) : Info → Ty
  | .mk name ps isParam =>
    if isParam then .param name
    else
      match kindOf name with
      | none =>
        if ps.isEmpty then
          (match pool.message name with
          | some d => ofMessage d
          | none => .opaque name (infosToTypes pool ps))
        else .opaque name (infosToTypes pool ps)
      | some (.prim p) => .prim p
      | some (.wrap p) => .wrap p
      | some .null => .null
      | some .timestamp => .timestamp
      | some .duration => .duration
      | some .dyn => .dyn
      | some .any => .any
      | some .list => .list (orDyn (infosToTypes pool ps) 0)
      | some .map => .map (orDyn (infosToTypes pool ps) 0) (orDyn (infosToTypes pool ps) 1)
      | some .type => .type (orDyn (infosToTypes pool ps) 0)
def infosToTypes (pool : Pool) : List Info → List Ty
  | [] => []
  | i :: is => infoToType pool i :: infosToTypes pool is
end

mutual
/-- `TypeInfoToTypeSpec` – `env/type_info.cc:190-283`.  It never fails. -/
def infoToSpec : Info → Spec
  | .mk name ps isParam =>
    if isParam then .param name
    else
      match kindOf name with
      | none => if ps.isEmpty then .message name else .abstract name (infosToSpecs ps)
      | some (.prim p) => .prim p
      | some (.wrap p) => .wrap p
      | some .null => .null
      | some .timestamp => .known .timestamp
      | some .duration => .known .duration
      | some .dyn => .dyn
      | some .any => .known .any
      | some .list => .list (((infosToSpecs ps)[0]?).getD .unset)
      | some .map => .map (((infosToSpecs ps)[0]?).getD .unset) (((infosToSpecs ps)[1]?).getD .unset)
      | some .type => .type (((infosToSpecs ps)[0]?).getD .dyn)
def infosToSpecs : List Info → List Spec
  | [] => []
  | i :: is => infoToSpec i :: infosToSpecs is
end

def plainInfo (name : String) : Info := .mk name [] false

/-- `:292-314` -/
def primName : Prim → Option String
  | .bool => some "bool"
  | .int => some "int"
  | .uint => some "uint"
  | .double => some "double"
  | .string => some "string"
  | .bytes => some "bytes"
  | .unspecified => none

/-- `:315-337` -/
def wrapName : Prim → Option String
  | .bool => some "bool_wrapper"
  | .int => some "int_wrapper"
  | .uint => some "uint_wrapper"
  | .double => some "double_wrapper"
  | .string => some "string_wrapper"
  | .bytes => some "bytes_wrapper"
  | .unspecified => none

def specified : Spec → Bool
  | .unset => false
  | _ => true

mutual
/-- `TypeSpecToTypeInfo` – `env/type_info.cc:285-406`. -/
def specToInfo : Spec → Option Info
  | .dyn => some (plainInfo "dyn")
  | .null => some (plainInfo "null")
  | .prim p => (primName p).map plainInfo
  | .wrap p => (wrapName p).map plainInfo
  | .known .any => some (plainInfo "any")
  | .known .timestamp => some (plainInfo "timestamp")
  | .known .duration => some (plainInfo "duration")
  | .known .unspecified => none
  | .list e =>
    if specified e then (specToInfo e).map fun i => .mk "list" [i] false
    else some (plainInfo "list")
  | .map k v =>
    if specified k || specified v then
      match (if specified k then specToInfo k else some (plainInfo "dyn")) with
      | none => none
      | some i =>
        match (if specified v then specToInfo v else some (plainInfo "dyn")) with
        | none => none
        | some j => some (.mk "map" [i, j] false)
    else some (plainInfo "map")
  | .message n => some (plainInfo n)
  | .param n => some (.mk n [] true)
  | .type t => (specToInfo t).map fun i => .mk "type" [i] false
  | .abstract n ps => (specsToInfos ps).map fun is => .mk n is false
  | .error => none
  | .function _ _ => none
  | .unset => none
def specsToInfos : List Spec → Option (List Info)
  | [] => some []
  | s :: ss =>
    match specToInfo s with
    | none => none
    | some i => (specsToInfos ss).map (i :: ·)
end

end Cel.TypeConv
