import Verif.Json.Model

/-!
# Protocol buffer messages to JSON

`MessageToJsonState` (`internal/json.cc` lines 176-1010).  A message is given by what reflection
shows of it: the fields that are set, in the order of `ListFields`, with their JSON names.
-/

set_option linter.dupNamespace false

namespace Cel.Json.Message
open Cel Cel.Num Cel.Eval Cel.Data Cel.Json

/-- What the conversion takes from libraries, beyond `Lib`: `TimeUtil::ToString` of the two fields
of a duration or timestamp message, and the name protobuf makes up for an enum number that has none
(`FindValueByNumberCreatingIfUnknown`, used by `Reflection::GetEnum`). -/
structure MLib extends Lib where
  durationText : Int → Int → String
  timestampText : Int → Int → String
  unknownEnum : String → Int → String

/-- An enum type: its name and `FindValueByNumber`. -/
structure EnumType where
  name : String
  names : Int → Option String

/-- A field value that is not a message.  `flt` is a `float` (every float is a double); `nul` is
an enum of type `google.protobuf.NullValue`, whatever its number. -/
inductive Scalar where
  | dbl (d : Dbl)
  | flt (d : Dbl)
  | i32 (i : Int)
  | i64 (i : Int)
  | u32 (i : Int)
  | u64 (i : Int)
  | bool (b : Bool)
  | str (s : String)
  | bytes (b : List Nat)
  | enm (t : EnumType) (n : Int)
  | nul (n : Int)

/-- A map key (`google::protobuf::MapKey`). -/
inductive Key where
  | bool (b : Bool)
  | int (i : Int)
  | uint (i : Int)
  | str (s : String)

mutual
/-- A message.  The well-known types are those `ToJson` treats specially; `wrapper` is one of the nine
wrapper messages; `any` holds the message it packs and `badAny` the status `AdaptAny` gives for an
`Any` that cannot be unpacked (`internal/well_known_types.cc` lines 1945-2007). -/
inductive Msg where
  | wrapper (name : String) (s : Scalar)
  | any (m : Msg)
  | badAny (s : Status)
  | fieldMask (paths : List String)
  | duration (s n : Int)
  | timestamp (s n : Int)
  | value (j : Json)
  | listValue (l : List Json)
  | struct (f : List (String × Json))
  | plain (name : String) (fields : List (String × FieldVal))
/-- The contents of a set field. -/
inductive FieldVal where
  | one (e : Elem)
  | rep (l : List Elem)
  | map (m : List (Key × Elem))
inductive Elem where
  | scalar (s : Scalar)
  | msg (m : Msg)
end

/-- `SetNumberValue` of a value widened to `double` (`internal/json.cc` lines 956-975: `float`,
`int32` and `uint32` overloads). -/
def setDouble (i : Int) : Json := .num (Dbl.ofInt i)

/-- The scalar cases of `MessageFieldToJson` (`internal/json.cc` lines 846-903) and of the
`Repeated...FieldToValue` functions (lines 613-790), which agree. -/
def scalarJson (O : MLib) : Scalar → Json
  | .dbl d => .num d
  | .flt d => .num d
  | .i32 i => setDouble i
  | .i64 i => setInt i
  | .u32 i => setDouble i
  | .u64 i => setUint i
  | .bool b => .bool b
  | .str s => .str s
  | .bytes b => setBytes O.toLib b
  | .enm t n => match t.names n with
    | some s => .str s
    | none => .str (O.unknownEnum t.name n)
  | .nul _ => .null

/-- The scalar cases of the `Map...FieldToValue` functions (`internal/json.cc` lines 424-562): an
enum number without a name is written as a number here (lines 533-548). -/
def mapScalarJson (O : MLib) : Scalar → Json
  | .enm t n => match t.names n with
    | some s => .str s
    | none => setDouble n
  | s => scalarJson O s

/-- The map key functions (`internal/json.cc` lines 126-149). -/
def keyName : Key → String
  | .bool b => if b then "true" else "false"
  | .int i => decimal i
  | .uint i => decimal i
  | .str s => s

/-- `absl::ascii_isupper`, `ascii_islower`, `ascii_toupper`. -/
def isUpper (c : Char) : Bool := 65 ≤ c.toNat && c.toNat ≤ 90
def isLower (c : Char) : Bool := 97 ≤ c.toNat && c.toNat ≤ 122
def toUpper (c : Char) : Char := if isLower c then Char.ofNat (c.toNat - 32) else c

def upperError : Status := ⟨.invalidArgument, "field mask path name contains uppercase letters"⟩
def underscoreError : Status :=
  ⟨.invalidArgument, "field mask path contains '_' not followed by a lowercase letter"⟩
def trailingError : Status := ⟨.invalidArgument, "field mask path contains trailing '_'"⟩

/-- `SnakeCaseToCamelCaseImpl` (`internal/json.cc` lines 77-108); on characters instead of bytes:
the bytes of other characters are none of those tested. -/
def camelLoop : List Char → Bool → List Char → Res (List Char)
  | [], after, out => if after then .err trailingError else .ok out
  | c :: l, after, out =>
    if isUpper c then .err upperError
    else if after then
      if isLower c then camelLoop l false (out ++ [toUpper c]) else .err underscoreError
    else if c = '_' then camelLoop l true out
    else camelLoop l false (out ++ [c])

def snakeToCamel (s : String) : Res String :=
  (camelLoop s.toList false []).bind fun l => .ok (String.ofList l)

/-- Loop over the paths of a field mask (`internal/json.cc` lines 283-289). -/
def maskPaths : List String → List String → Res (List String)
  | [], acc => .ok acc
  | p :: l, acc => (snakeToCamel p).bind fun s => maskPaths l (acc ++ [s])

/-- `absl::StrJoin(paths, ",")`. -/
def join : List String → String
  | [] => ""
  | [s] => s
  | s :: t :: l => s ++ "," ++ join (t :: l)

/-- The members of the object, if `MutableStructValue` finds one there; else a new object
(`internal/well_known_types.h`, `MutableStructValue`; setting a oneof member clears the others). -/
def objOf : Json → List (String × Json)
  | .obj f => f
  | _ => []

/-- Likewise `MutableListValue`. -/
def arrOf : Json → List Json
  | .arr l => l
  | _ => []

/-- `descriptor->full_name()`. -/
def typeName : Msg → String
  | .wrapper n _ => n
  | .any _ => "google.protobuf.Any"
  | .badAny _ => "google.protobuf.Any"
  | .fieldMask _ => "google.protobuf.FieldMask"
  | .duration _ _ => "google.protobuf.Duration"
  | .timestamp _ _ => "google.protobuf.Timestamp"
  | .value _ => "google.protobuf.Value"
  | .listValue _ => "google.protobuf.ListValue"
  | .struct _ => "google.protobuf.Struct"
  | .plain n _ => n

/-- The types the inner `switch` for the content of an `Any` writes under `"value"`
(`internal/json.cc` lines 240-272). -/
def isLeaf : Msg → Bool
  | .plain _ _ => false
  | .any _ => false
  | .badAny _ => false
  | _ => true

/-- The cases of `ToJson` that do not recur (`internal/json.cc` lines 191-228, 283-342).  A JSON
message is copied by serializing and parsing, which clears the target. -/
def leafJson (O : MLib) : Msg → Res Json
  | .wrapper _ s => .ok (scalarJson O s)
  | .fieldMask ps => (maskPaths ps []).bind fun l => .ok (.str (join l))
  | .duration s n => .ok (.str (O.durationText s n))
  | .timestamp s n => .ok (.str (O.timestampText s n))
  | .value j => .ok j
  | .listValue l => .ok (.arr l)
  | .struct f => .ok (.obj f)
  | _ => .ub

mutual
/-- `MessageToJsonState::ToJson` (`internal/json.cc` lines 187-345).  The second argument is what
the target held.  An `Any` inside an `Any` is unpacked, too, before anything is written
(`AdaptAny`, `internal/well_known_types.cc` lines 1955-2006). -/
def toJson (O : MLib) : Msg → Json → Res Json
  | .plain _ fs, prev => (fieldsJson O fs (objOf prev)).bind fun f => .ok (.obj f)
  | .badAny s, _ => .err s
  | .any (.badAny s), _ => .err s
  | .any (.any m), prev => toJson O (.any m) prev
  | .any (.plain n fs), prev =>
    let acc := setField (objOf prev) "@type" (.str ("type.googleapis.com/" ++ n))
    if n = "google.protobuf.Empty" then
      .ok (.obj (setField acc "value" (.obj (objOf (field acc "value")))))
    else (fieldsJson O fs acc).bind fun f => .ok (.obj f)
  | .any m, prev =>
    let acc := setField (objOf prev) "@type" (.str ("type.googleapis.com/" ++ typeName m))
    (leafJson O m).bind fun j => .ok (.obj (setField acc "value" j))
  | m, _ => leafJson O m
/-- `MessageToJson` (`internal/json.cc` lines 907-920). -/
def fieldsJson (O : MLib) : List (String × FieldVal) → List (String × Json) →
    Res (List (String × Json))
  | [], acc => .ok acc
  | (k, v) :: fs, acc =>
    (fieldJson O v (field acc k)).bind fun j => fieldsJson O fs (setField acc k j)
/-- `MessageFieldToJson` (`internal/json.cc` lines 835-905). -/
def fieldJson (O : MLib) : FieldVal → Json → Res Json
  | .one e, prev => elemJson O e prev
  | .rep l, prev => (repJson O l (arrOf prev)).bind fun a => .ok (.arr a)
  | .map m, prev => (mapJson O m (objOf prev)).bind fun f => .ok (.obj f)
def elemJson (O : MLib) : Elem → Json → Res Json
  | .scalar s, _ => .ok (scalarJson O s)
  | .msg m, prev => toJson O m prev
def mapElemJson (O : MLib) : Elem → Json → Res Json
  | .scalar s, _ => .ok (mapScalarJson O s)
  | .msg m, prev => toJson O m prev
/-- `MessageRepeatedFieldToJson` (`internal/json.cc` lines 818-833). -/
def repJson (O : MLib) : List Elem → List Json → Res (List Json)
  | [], acc => .ok acc
  | e :: l, acc => (elemJson O e .unset).bind fun j => repJson O l (acc ++ [j])
/-- `MessageMapFieldToJson` (`internal/json.cc` lines 793-816). -/
def mapJson (O : MLib) : List (Key × Elem) → List (String × Json) → Res (List (String × Json))
  | [], acc => .ok acc
  | (k, e) :: m, acc =>
    (mapElemJson O e (field acc (keyName k))).bind fun j =>
      mapJson O m (setField acc (keyName k) j)
end

/-- `ParsedMessageValue::ConvertToJson` (`common/values/parsed_message_value.cc` lines 108-125): the
target is made an object and the *fields* are written to it, also for field masks, the one
well-known type of `ToJson` whose messages are struct values of their own (the others are refused by
the constructor's assertion, `parsed_message_value.h` line 68; here `ub`). -/
def messageConvert (O : MLib) : Msg → Json → Res Json
  | .plain _ fs, prev => (fieldsJson O fs (objOf prev)).bind fun f => .ok (.obj f)
  | .fieldMask ps, prev =>
    (fieldsJson O (if ps.isEmpty then [] else
      [("paths", .rep (ps.map fun p => .scalar (.str p)))]) (objOf prev)).bind fun f => .ok (.obj f)
  | _, _ => .ub

/-- `ParsedRepeatedFieldValue::ConvertToJson` and `ParsedMapFieldValue::ConvertToJson`
(`parsed_repeated_field_value.cc` lines 64-87, `parsed_map_field_value.cc` lines 77-97). -/
def fieldConvert (O : MLib) (v : FieldVal) (prev : Json) : Res Json := fieldJson O v prev

/-- `ParsedRepeatedFieldValue::ConvertToJsonArray` (`parsed_repeated_field_value.cc` lines 89-110):
this one clears the target. -/
def repConvertArray (O : MLib) (l : List Elem) (_prev : List Json) : Res (List Json) :=
  repJson O l []

/-- `ParsedMapFieldValue::ConvertToJsonObject` (`parsed_map_field_value.cc` lines 99-116): this one
does not. -/
def mapConvertObject (O : MLib) (m : List (Key × Elem)) (prev : List (String × Json)) :
    Res (List (String × Json)) := mapJson O m prev

/-- What `ParsedRepeatedFieldValue::SerializeTo` and `ParsedMapFieldValue::SerializeTo` write
(`parsed_repeated_field_value.cc` lines 46-62, `parsed_map_field_value.cc` lines 53-75): the field is
converted to a new `google.protobuf.Value` and its `list_value()` serialized — in both. -/
def serialized (O : MLib) (v : FieldVal) : Res Json :=
  (fieldJson O v .unset).bind fun j => .ok (.arr (arrOf j))

/-- The CEL value of a scalar field (`ValueFromField`-style conversions, `common/value.cc`;
`Verif/Data`): enums are integers, `NullValue` is null. -/
def scalarValue : Scalar → Value
  | .dbl d => .dbl d
  | .flt d => .dbl d
  | .i32 i => .int i
  | .i64 i => .int i
  | .u32 i => .uint i
  | .u64 i => .uint i
  | .bool b => .bool b
  | .str s => .str s
  | .bytes b => .bytes b
  | .enm _ n => .int n
  | .nul _ => .null

end Cel.Json.Message
