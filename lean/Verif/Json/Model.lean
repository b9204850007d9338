import Verif.Data.Steps
import Verif.Conv.Numeral

/-!
# JSON values and conversion to and from JSON

`google.protobuf.Value` messages as data, `Value::ConvertToJson`, and the view of a JSON message
as a CEL value.  A `ConvertToJson` call writes into a message supplied by the caller, so the
functions below take what that message held before.
-/

set_option linter.dupNamespace false

namespace Cel.Json
open Cel Cel.Num Cel.Eval Cel.Data

/-- A `google.protobuf.Value` message.  `unset` is `KIND_NOT_SET`; an object is its map field in
iteration order (protobuf map keys are distinct: `Spec.WF`). -/
inductive Json where
  | unset
  | null
  | bool (b : Bool)
  | num (d : Dbl)
  | str (s : String)
  | arr (l : List Json)
  | obj (f : List (String × Json))

/-- What the conversions take from libraries: `absl::Base64Escape`, `TimeUtil::ToString` of a
duration and of a timestamp, and the conversion of messages (`internal/json.cc`; it is given what
the target held, see `Verif/Json/Message.lean`). -/
structure Lib where
  base64 : List Nat → String
  durText : Dur → String
  tsText : Tm → String
  message : String → Nat → Json → Res Json

/-- `kJsonMaxInt`, `kJsonMinInt`, `kJsonMaxUint` (`common/json.h` lines 24-31). -/
def jsonMaxInt : Int := 2 ^ 53 - 1
def jsonMinInt : Int := -jsonMaxInt
def jsonMaxUint : Int := 2 ^ 53 - 1

/-- `absl::StrCat` of an integer: its decimal digits. -/
def decimal (i : Int) : String := String.ofList ((Conv.signedNumeral 10 i).map Char.ofNat)

/-- `ValueReflection::SetNumberValue(int64_t)` (`internal/well_known_types.cc` lines 1390-1398). -/
def setInt (i : Int) : Json :=
  if i < jsonMinInt ∨ i > jsonMaxInt then .str (decimal i) else .num (Dbl.ofInt i)

/-- `ValueReflection::SetNumberValue(uint64_t)` (`internal/well_known_types.cc` lines 1400-1408). -/
def setUint (u : Int) : Json :=
  if u > jsonMaxUint then .str (decimal u) else .num (Dbl.ofInt u)

/-- `ValueReflection::SetStringValueFromBytes` (`internal/well_known_types.cc` lines 1430-1456). -/
def setBytes (O : Lib) (b : List Nat) : Json :=
  if b.isEmpty then .str "" else .str (O.base64 b)

/-- The message `StructReflection::InsertField` returns (`internal/well_known_types.cc` lines
1698-1714, `InsertOrLookupMapValue`): the one stored under the name, or a new one. -/
def field : List (String × Json) → String → Json
  | [], _ => .unset
  | (k, j) :: f, s => if k = s then j else field f s

/-- Writing to that message. -/
def setField : List (String × Json) → String → Json → List (String × Json)
  | [], s, v => [(s, v)]
  | (k, j) :: f, s, v => if k = s then (k, v) :: f else (k, j) :: setField f s v

/-- `GetTypeName()` of the values that have no JSON form (`common/values/type_value.h`,
`optional_value.h`, `error_value.h`, `unknown_value.h`). -/
def typeNameOf : Value → String
  | .typ _ => "type"
  | .opt _ => "optional_type"
  | .opaq n _ => n
  | .error _ => "*error*"
  | _ => "*unknown*"

/-- The refusal of `type_value.cc` line 50, `opaque_value.cc` line 121, `error_value.cc` line 130,
`unknown_value.cc` line 49. -/
def notConvertable (v : Value) : Status :=
  ⟨.failedPrecondition, typeNameOf v ++ " is not convertable to JSON"⟩

/-- The status of `ValueToJsonString` (`common/values/value_builder.cc` lines 794-802) for a key
that is not a string. -/
def badKey (k : Value) : Status :=
  typeConversionError (kindName k.kind) "string"

mutual
/-- `Value::ConvertToJson` (`common/value.cc` lines 149-163) and the functions it dispatches to:
`null_value.cc` 48, `bool_value.cc` 62, `int_value.cc` 64, `uint_value.cc` 63, `double_value.cc` 90,
`string_value.cc` 100, `bytes_value.cc` 84, `duration_value.cc` 68, `timestamp_value.cc` 68,
`ListValueToJson`/`MapValueToJson` (`value_builder.cc` lines 109-121, 833-845).  The second argument
is what the target message held; setting a member of the oneof discards it, and lists and maps
clear it (`json->Clear()`). -/
def convert (O : Lib) : Value → Json → Res Json
  | .null, _ => .ok .null
  | .bool b, _ => .ok (.bool b)
  | .int i, _ => .ok (setInt i)
  | .uint u, _ => .ok (setUint u)
  | .dbl d, _ => .ok (.num d)
  | .str s, _ => .ok (.str s)
  | .bytes b, _ => .ok (setBytes O b)
  | .dur d, _ => .ok (.str (O.durText d))
  | .ts t, _ => .ok (.str (O.tsText t))
  | .list l, _ => (convertList O l []).bind fun a => .ok (.arr a)
  | .map m, _ => (convertMap O m []).bind fun f => .ok (.obj f)
  | .struct n i, p => O.message n i p
  | .typ n, _ => .err (notConvertable (.typ n))
  | .opt o, _ => .err (notConvertable (.opt o))
  | .opaq n i, _ => .err (notConvertable (.opaq n i))
  | .error e, _ => .err (notConvertable (.error e))
  | .unknown u, _ => .err (notConvertable (.unknown u))
/-- Loop of `ListValueToJsonArray` (`common/values/value_builder.cc` lines 100-104): every element
is written to a new message added to the array. -/
def convertList (O : Lib) : List Value → List Json → Res (List Json)
  | [], acc => .ok acc
  | v :: l, acc => (convert O v .unset).bind fun j => convertList O l (acc ++ [j])
/-- Loop of `MapValueToJsonObject` (`common/values/value_builder.cc` lines 825-829). -/
def convertMap (O : Lib) : List (Value × Value) → List (String × Json) → Res (List (String × Json))
  | [], acc => .ok acc
  | (k, v) :: m, acc =>
    match k with
    | .str s => (convert O v (field acc s)).bind fun j => convertMap O m (setField acc s j)
    | _ => .err (badKey k)
end

mutual
/-- `ParsedJsonValue` (`common/values/parsed_json_value.cc` lines 54-101): the CEL value a JSON
message denotes.  Lists and maps backed by a JSON message produce their elements by the same
function on demand (`parsed_json_list_value.cc` line 225, `parsed_json_map_value.cc` line 228); here
they are produced at once. -/
def fromJson : Json → Value
  | .unset => .null
  | .null => .null
  | .bool b => .bool b
  | .num d => .dbl d
  | .str s => .str s
  | .arr l => .list (fromJsonList l)
  | .obj f => .map (fromJsonMap f)
def fromJsonList : List Json → List Value
  | [] => []
  | j :: l => fromJson j :: fromJsonList l
def fromJsonMap : List (String × Json) → List (Value × Value)
  | [] => []
  | (s, j) :: f => (.str s, fromJson j) :: fromJsonMap f
end

/-- `ParsedJsonListValue::ConvertToJson`, `ParsedJsonMapValue::ConvertToJson`
(`parsed_json_list_value.cc` lines 83-117, `parsed_json_map_value.cc` lines 83-117): the message is
cleared and the backing message copied. -/
def convertBacked (j : Json) (_prev : Json) : Json := j

/-- `rhs_accessor_->FindField` (`internal/json.cc` line 1835). -/
def findField : List (String × Json) → String → Option Json
  | [], _ => none
  | (k, j) :: f, s => if k = s then some j else findField f s

mutual
/-- `JsonEqualsState::ValueEqual` (`internal/json.cc` lines 1782-1822). -/
def jsonEquals : Json → Json → Bool
  | .unset, .unset => true
  | .unset, .null => true
  | .null, .unset => true
  | .null, .null => true
  | .bool a, .bool b => a == b
  | .num a, .num b => Dbl.eq a b
  | .str a, .str b => a == b
  | .arr a, .arr b => a.length == b.length && jsonEqualsList a b
  | .obj a, .obj b => a.length == b.length && (a.isEmpty || jsonEqualsMap a b)
  | _, _ => false
/-- `ListValueEqual` (`internal/json.cc` lines 1824-1838). -/
def jsonEqualsList : List Json → List Json → Bool
  | x :: l, y :: r => jsonEquals x y && jsonEqualsList l r
  | _, _ => true
/-- `StructEqual` (`internal/json.cc` lines 1840-1876). -/
def jsonEqualsMap : List (String × Json) → List (String × Json) → Bool
  | [], _ => true
  | (k, x) :: f, r =>
    match findField r k with
    | none => false
    | some y => jsonEquals x y && jsonEqualsMap f r
end

/-- `ParsedJsonMapValue::Find` (`parsed_json_map_value.cc` lines 242-278): `none` is "not found".
For an error or unknown key the key itself is the result (`findResult`). -/
def backedFind (f : List (String × Json)) (key : Value) : Option Value :=
  match key with
  | .str s => (findField f s).map fromJson
  | _ => none

/-- `ParsedJsonMapValue::Has` (`parsed_json_map_value.cc` lines 280-311). -/
def backedHas (f : List (String × Json)) (key : Value) : Value :=
  match key with
  | .error e => .error e
  | .unknown u => .unknown u
  | .str s => .bool (findField f s).isSome
  | _ => .bool false

/-- `ParsedJsonListValue::Get` (`parsed_json_list_value.cc` lines 206-228). -/
def backedGet (l : List Json) (i : Nat) : Value :=
  if h : i < l.length then fromJson l[i]
  else .error ⟨.invalidArgument, "index out of bounds: " ++ decimal i⟩

/-- `ParsedJsonListValue::Contains` (`parsed_json_list_value.cc` lines 372-468).  `Equal` of a list
or map argument with a JSON element is `Value::Equal` on the denoted values (`backed_equal` in
`Verif/Json/Backed.lean` justifies this when the argument is JSON-backed, too). -/
def backedContains (l : List Json) (x : Value) : Value :=
  match x with
  | .error e => .error e
  | .unknown u => .unknown u
  | .null => .bool (l.any fun e => match e with | .unset => true | .null => true | _ => false)
  | .bool b => .bool (l.any fun e => match e with | .bool c => c == b | _ => false)
  | .int i => .bool (l.any fun e => match e with | .num d => (Number.dbl d).eq (.int i) | _ => false)
  | .uint i => .bool (l.any fun e => match e with | .num d => (Number.dbl d).eq (.uint i) | _ => false)
  | .dbl c => .bool (l.any fun e => match e with | .num d => (Number.dbl d).eq (.dbl c) | _ => false)
  | .str s => .bool (l.any fun e => match e with | .str t => s == t | _ => false)
  | .list y => .bool (l.any fun e => match e with | .arr a => cEqual (.list y) (fromJson (.arr a)) | _ => false)
  | .map y => .bool (l.any fun e => match e with | .obj a => cEqual (.map y) (fromJson (.obj a)) | _ => false)
  | _ => .bool false

/-- `operator==` of JSON-backed lists and maps (`parsed_json_list_value.cc` lines 472-484,
`parsed_json_map_value.cc` lines 426-437): two handles with the same address are equal without
looking at the contents. -/
def handleEquals (p q : Nat) (a b : Json) : Bool := if p = q then true else jsonEquals a b

end Cel.Json
