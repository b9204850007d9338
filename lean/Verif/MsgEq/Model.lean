import Verif.Json.Model

/-!
# Equality of protocol buffer fields and messages

`internal/message_equality.cc`: `MessageEquals` and `MessageFieldEquals`, which decide `Value::Equal`
for lists, maps and structs that are backed by protocol buffer messages
(`common/values/parsed_repeated_field_value.cc`, `parsed_map_field_value.cc`,
`parsed_message_value.cc`).
-/

set_option linter.dupNamespace false

namespace Cel.MsgEq
open Cel Cel.Num Cel.Eval Cel.Data Cel.Json

/-- The message types the comparison distinguishes (`Descriptor::WellKnownType`); `other` is any
other message type. -/
inductive MKind where
  | boolW | fltW | dblW | i32W | u32W | i64W | u64W | bytesW | strW
  | value | listValue | struct | any | duration | timestamp
  | other (name : String)
  deriving DecidableEq

/-- The type of a field (or of a map value, or of the elements of a repeated field); `nul` is the
enum `google.protobuf.NullValue`. -/
inductive FType where
  | i32 | i64 | u32 | u64 | dbl | flt | bool | enm | nul | str | bytes
  | msg (k : MKind)
  deriving DecidableEq

/-- The type of a map key. -/
inductive KType where
  | bool | i32 | i64 | u32 | u64 | str
  deriving DecidableEq

/-- `google::protobuf::MapKey`. -/
inductive Key where
  | bool (b : Bool)
  | i32 (i : Int)
  | i64 (i : Int)
  | u32 (i : Int)
  | u64 (i : Int)
  | str (s : String)
  deriving DecidableEq

mutual
/-- A message.  A message that is no well-known type is compared by `MessageDifferencer::Equals`,
which is not modelled: it is represented by its type and a token that is the same for messages the
differencer finds equal (the differencer is an equivalence on messages without NaN).  An `any` has its
two fields and what unpacking it once gives. -/
inductive Msg where
  | boolW (b : Bool)
  | fltW (d : Dbl)
  | dblW (d : Dbl)
  | i32W (i : Int)
  | u32W (i : Int)
  | i64W (i : Int)
  | u64W (i : Int)
  | bytesW (b : List Nat)
  | strW (s : String)
  | value (j : Json)
  | listValue (l : List Json)
  | struct (f : List (String × Json))
  | any (url : String) (value : List Nat) (c : Content)
  | duration (s n : Int)
  | timestamp (s n : Int)
  | other (name : String) (id : Nat)
/-- What unpacking the value bytes of an `Any` gives: the descriptor pool does not have the type,
parsing the bytes fails, or a message. -/
inductive Content where
  | unresolved
  | corrupt
  | packed (m : Msg)
end

/-- One value of a field. -/
inductive Elem where
  | i32 (i : Int)
  | i64 (i : Int)
  | u32 (i : Int)
  | u64 (i : Int)
  | dbl (d : Dbl)
  | flt (d : Dbl)
  | bool (b : Bool)
  | enm (i : Int)
  | nul (i : Int)
  | str (s : String)
  | bytes (b : List Nat)
  | msg (m : Msg)

/-- `GetDescriptor()->well_known_type()`. -/
def Msg.kind : Msg → MKind
  | .boolW _ => .boolW
  | .fltW _ => .fltW
  | .dblW _ => .dblW
  | .i32W _ => .i32W
  | .u32W _ => .u32W
  | .i64W _ => .i64W
  | .u64W _ => .u64W
  | .bytesW _ => .bytesW
  | .strW _ => .strW
  | .value _ => .value
  | .listValue _ => .listValue
  | .struct _ => .struct
  | .any _ _ _ => .any
  | .duration _ _ => .duration
  | .timestamp _ _ => .timestamp
  | .other n _ => .other n

/-- `GetDescriptor()->full_name()`. -/
def MKind.name : MKind → String
  | .boolW => "google.protobuf.BoolValue"
  | .fltW => "google.protobuf.FloatValue"
  | .dblW => "google.protobuf.DoubleValue"
  | .i32W => "google.protobuf.Int32Value"
  | .u32W => "google.protobuf.UInt32Value"
  | .i64W => "google.protobuf.Int64Value"
  | .u64W => "google.protobuf.UInt64Value"
  | .bytesW => "google.protobuf.BytesValue"
  | .strW => "google.protobuf.StringValue"
  | .value => "google.protobuf.Value"
  | .listValue => "google.protobuf.ListValue"
  | .struct => "google.protobuf.Struct"
  | .any => "google.protobuf.Any"
  | .duration => "google.protobuf.Duration"
  | .timestamp => "google.protobuf.Timestamp"
  | .other n => n

/-- `ConsumePrefix` of one of the two known prefixes of type URLs
(`internal/well_known_types.cc` lines 1961-1962, `internal/message_equality.cc` lines 1150-1151). -/
def stripPrefix (p s : List Char) : Option (List Char) :=
  if p.isPrefixOf s then some (s.drop p.length) else none

def stripUrl (url : String) : Option String :=
  match stripPrefix "type.googleapis.com/".toList url.toList with
  | some n => some (String.ofList n)
  | none => (stripPrefix "type.googleprod.com/".toList url.toList).map String.ofList

def unpackError (name : String) : Status :=
  ⟨.invalidArgument, "failed to unpack protocol buffer message: " ++ name⟩

mutual
/-- `AdaptAny` with `error_if_unresolveable = false`, behind `UnpackAnyIfResolveable`
(`internal/well_known_types.cc` lines 1945-2007): the loop unpacks an `Any` inside an `Any`; it
stops with the last message unpacked (`none`: no message was unpacked) when it meets one that is not
resolvable. -/
def adaptAny (url : String) (c : Content) (unwrapped : Option Msg) : Res (Option Msg) :=
  match stripUrl url with
  | none => .ok unwrapped
  | some name => adaptContent name c unwrapped
def adaptContent (name : String) (c : Content) (unwrapped : Option Msg) : Res (Option Msg) :=
  match c with
  | .unresolved => .ok unwrapped
  | .corrupt => .err (unpackError name)
  | .packed m => adaptPacked m
def adaptPacked (m : Msg) : Res (Option Msg) :=
  match m with
  | .any url b c =>
    match stripUrl url with
    | none => .ok (some (.any url b c))
    | some name =>
      match c with
      | .unresolved => .ok (some (.any url b .unresolved))
      | .corrupt => .err (unpackError name)
      | .packed m' => adaptPacked m'
  | m => .ok (some m)
end

/-- `EquatableValue` (`internal/message_equality.cc` lines 88-92). -/
inductive EV where
  | null
  | bool (b : Bool)
  | int (i : Int)
  | uint (i : Int)
  | dbl (d : Dbl)
  | bytes (b : List Nat)
  | str (s : String)
  | dur (d : Dur)
  | ts (t : Tm)
  | list (l : List Json)
  | struct (f : List (String × Json))
  | any (url : String) (value : List Nat)
  | msg (name : String) (id : Nat)

def durSecondsError : Status := ⟨.invalidArgument, "invalid duration seconds"⟩
def durNanosError : Status := ⟨.invalidArgument, "invalid duration nanoseconds"⟩
def durSignError : Status := ⟨.invalidArgument, "duration sign mismatch"⟩
def tsSecondsError : Status := ⟨.invalidArgument, "invalid timestamp seconds"⟩
def tsNanosError : Status := ⟨.invalidArgument, "invalid timestamp nanoseconds"⟩

/-- `DurationReflection::ToAbslDuration` (`internal/well_known_types.cc` lines 1080-1101), without
the number in the message of the error.  The limits are those of `TimeUtil`. -/
def toAbslDuration (s n : Int) : Res Dur :=
  if s < -315576000000 ∨ s > 315576000000 then .err durSecondsError
  else if n < -999999999 ∨ n > 999999999 then .err durNanosError
  else if (s < 0 ∧ n > 0) ∨ (s > 0 ∧ n < 0) then .err durSignError
  else .ok (.fin (s * tps + n * tpn))

/-- `TimestampReflection::ToAbslTime` (`internal/well_known_types.cc` lines 1221-1236). -/
def toAbslTime (s n : Int) : Res Tm :=
  if s < -62135596800 ∨ s > 253402300799 then .err tsSecondsError
  else if n < 0 ∨ n > 999999999 then .err tsNanosError
  else .ok (.fin (s * tps + n * tpn))

/-- `AsEquatableValue` of a message (`internal/message_equality.cc` lines 305-403). -/
def msgAsEV : Msg → Res EV
  | .dblW d => .ok (.dbl d)
  | .fltW d => .ok (.dbl d)
  | .i64W i => .ok (.int i)
  | .u64W i => .ok (.uint i)
  | .i32W i => .ok (.int i)
  | .u32W i => .ok (.uint i)
  | .strW s => .ok (.str s)
  | .bytesW b => .ok (.bytes b)
  | .boolW b => .ok (.bool b)
  | .value .unset => .ok .null
  | .value .null => .ok .null
  | .value (.bool b) => .ok (.bool b)
  | .value (.num d) => .ok (.dbl d)
  | .value (.str s) => .ok (.str s)
  | .value (.arr l) => .ok (.list l)
  | .value (.obj f) => .ok (.struct f)
  | .listValue l => .ok (.list l)
  | .struct f => .ok (.struct f)
  | .duration s n => (toAbslDuration s n).bind fun d => .ok (.dur d)
  | .timestamp s n => (toAbslTime s n).bind fun t => .ok (.ts t)
  | .any url b _ => .ok (.any url b)
  | .other n i => .ok (.msg n i)

/-- `AsEquatableValue` of a field (`internal/message_equality.cc` lines 405-447); the message case
does not unpack `Any`. -/
def fieldAsEV : Elem → Res EV
  | .i32 i => .ok (.int i)
  | .i64 i => .ok (.int i)
  | .u32 i => .ok (.uint i)
  | .u64 i => .ok (.uint i)
  | .dbl d => .ok (.dbl d)
  | .flt d => .ok (.dbl d)
  | .bool b => .ok (.bool b)
  | .enm i => .ok (.int i)
  | .nul _ => .ok .null
  | .str s => .ok (.str s)
  | .bytes b => .ok (.bytes b)
  | .msg m => msgAsEV m

/-- `MapValueAsEquatableValue` (`internal/message_equality.cc` lines 462-517) and
`RepeatedFieldAsEquatableValue` (lines 519-579), which are alike: an `Any` is unpacked first. -/
def elemAsEV : Elem → Res EV
  | .msg (.any url b c) =>
    (adaptAny url c none).bind fun u =>
      match u with
      | some m => msgAsEV m
      | none => msgAsEV (.any url b c)
  | e => fieldAsEV e

/-- `EquatableValueEquals` with the visitors (`internal/message_equality.cc` lines 94-287,
581-591).  `JsonListEquals` and `JsonMapEquals` are `jsonEquals` (`internal/json.cc`). -/
def evEquals : EV → EV → Bool
  | .null, .null => true
  | .bool a, .bool b => a == b
  | .bytes a, .bytes b => a == b
  | .int a, .int b => a == b
  | .int a, .uint b => (Number.int a).eq (.uint b)
  | .int a, .dbl b => (Number.int a).eq (.dbl b)
  | .uint a, .int b => (Number.uint a).eq (.int b)
  | .uint a, .uint b => a == b
  | .uint a, .dbl b => (Number.uint a).eq (.dbl b)
  | .dbl a, .int b => (Number.dbl a).eq (.int b)
  | .dbl a, .uint b => (Number.dbl a).eq (.uint b)
  | .dbl a, .dbl b => Dbl.eq a b
  | .str a, .str b => a == b
  | .dur a, .dur b => decide (a = b)
  | .ts a, .ts b => decide (a = b)
  | .list a, .list b => jsonEquals (.arr a) (.arr b)
  | .struct a, .struct b => jsonEquals (.obj a) (.obj b)
  | .any u a, .any v b => u == v && a == b
  | .msg n i, .msg m j => n == m && i == j
  | _, _ => false

/-- `CoalesceMapKey` (`internal/message_equality.cc` lines 594-720). -/
def coalesce (src : Key) (dest : KType) : Option Key :=
  match src with
  | .bool b => if dest = .bool then some (.bool b) else none
  | .i32 i =>
    match dest with
    | .i32 => some (.i32 i)
    | .i64 => some (.i64 i)
    | .u32 => if i < 0 then none else some (.u32 i)
    | .u64 => if i < 0 then none else some (.u64 i)
    | _ => none
  | .i64 i =>
    match dest with
    | .i32 => if i < -(2 ^ 31) ∨ i > 2 ^ 31 - 1 then none else some (.i32 i)
    | .i64 => some (.i64 i)
    | .u32 => if i < 0 ∨ i > 2 ^ 32 - 1 then none else some (.u32 i)
    | .u64 => if i < 0 then none else some (.u64 i)
    | _ => none
  | .u32 i =>
    match dest with
    | .i32 => if i > 2 ^ 31 - 1 then none else some (.i32 i)
    | .i64 => some (.i64 i)
    | .u32 => some (.u32 i)
    | .u64 => some (.u64 i)
    | _ => none
  | .u64 i =>
    match dest with
    | .i32 => if i > 2 ^ 31 - 1 then none else some (.i32 i)
    | .i64 => if i > 2 ^ 63 - 1 then none else some (.i64 i)
    | .u32 => if i > 2 ^ 32 - 1 then none else some (.u32 i)
    | .u64 => some (.u64 i)
    | _ => none
  | .str s => if dest = .str then some (.str s) else none

/-- `EquatableCategory` (`internal/message_equality.cc` lines 725-742). -/
def kNullLike : Nat := 1
def kBoolLike : Nat := 2
def kNumericLike : Nat := 4
def kBytesLike : Nat := 8
def kStringLike : Nat := 16
def kList : Nat := 32
def kMap : Nat := 64
def kMessage : Nat := 128
def kDuration : Nat := 256
def kTimestamp : Nat := 512
def kAny : Nat := 1023
def kValue : Nat := 119

/-- `GetEquatableCategory` (`internal/message_equality.cc` lines 757-798). -/
def msgCategory : MKind → Nat
  | .boolW => kBoolLike
  | .fltW | .dblW | .i32W | .u32W | .i64W | .u64W => kNumericLike
  | .bytesW => kBytesLike
  | .strW => kStringLike
  | .value => kValue
  | .listValue => kList
  | .struct => kMap
  | .any => kAny
  | .duration => kDuration
  | .timestamp => kTimestamp
  | .other _ => kAny

/-- `GetEquatableFieldCategory` (`internal/message_equality.cc` lines 800-832). -/
def fieldCategory : FType → Nat
  | .enm => kNumericLike
  | .nul => kNullLike
  | .bool => kBoolLike
  | .flt | .dbl | .i32 | .u32 | .i64 | .u64 => kNumericLike
  | .bytes => kBytesLike
  | .str => kStringLike
  | .msg k => msgCategory k

def keyCategory : KType → Nat
  | .bool => kBoolLike
  | .str => kStringLike
  | _ => kNumericLike

/-- A field of a message: which field it is (the address of its descriptor), its type, and what it
contains; a map field in the order of iteration.  A singular field has its value or default. -/
structure Rep where
  id : Nat
  type : FType
  elems : List Elem
structure MapF where
  id : Nat
  key : KType
  val : FType
  entries : List (Key × Elem)
structure One where
  id : Nat
  type : FType
  elem : Elem

/-- An operand of `FieldEquals`: a field of a message, or (a null field) the message. -/
inductive Operand where
  | rep (r : Rep)
  | map (m : MapF)
  | one (o : One)
  | msg (m : Msg)

/-- `LookupMapValue`. -/
def lookup : List (Key × Elem) → Key → Option Elem
  | [], _ => none
  | (k, v) :: m, key => if k = key then some v else lookup m key

/-- Loop of `MapFieldEquals` (`internal/message_equality.cc` lines 955-977). -/
def mapLoop (dest : KType) (rhs : List (Key × Elem)) : List (Key × Elem) → Res Bool
  | [] => .ok true
  | (k, v) :: m =>
    match coalesce k dest with
    | none => .ok false
    | some k' =>
      match lookup rhs k' with
      | none => .ok false
      | some w =>
        (elemAsEV v).bind fun x => (elemAsEV w).bind fun y =>
          if evEquals x y then mapLoop dest rhs m else .ok false

/-- `MapFieldEquals` (`internal/message_equality.cc` lines 914-979). -/
def mapFieldEquals (l r : MapF) : Res Bool :=
  if l.id ≠ r.id ∧ (keyCategory l.key &&& keyCategory r.key = 0 ∨
      fieldCategory l.val &&& fieldCategory r.val = 0) then .ok false
  else if l.entries.length ≠ r.entries.length then .ok false
  else mapLoop r.key r.entries l.entries

/-- Loop of `RepeatedFieldEquals` (`internal/message_equality.cc` lines 1010-1024). -/
def repLoop : List Elem → List Elem → Res Bool
  | v :: a, w :: b =>
    (elemAsEV v).bind fun x => (elemAsEV w).bind fun y =>
      if evEquals x y then repLoop a b else .ok false
  | _, _ => .ok true

/-- `RepeatedFieldEquals` (`internal/message_equality.cc` lines 982-1026). -/
def repFieldEquals (l r : Rep) : Res Bool :=
  if l.id ≠ r.id ∧ fieldCategory l.type &&& fieldCategory r.type = 0 then .ok false
  else if l.elems.length ≠ r.elems.length then .ok false
  else repLoop l.elems r.elems

/-- A singular operand: a field, or a message. -/
inductive Single where
  | one (o : One)
  | msg (m : Msg)

def Single.category : Single → Nat
  | .one o => fieldCategory o.type
  | .msg m => msgCategory m.kind

/-- `lhs_field == rhs_field`, where null pointers are equal (`internal/message_equality.cc` line
1046). -/
def sameField : Single → Single → Bool
  | .one a, .one b => a.id == b.id
  | .msg _, .msg _ => true
  | _, _ => false

/-- Unpacking and conversion of one operand (`internal/message_equality.cc` lines 1060-1109). -/
def singleAsEV : Single → Res EV
  | .one ⟨_, _, .msg (.any url b c)⟩ =>
    (adaptAny url c none).bind fun u =>
      match u with
      | some m => msgAsEV m
      | none => fieldAsEV (.msg (.any url b c))
  | .one o => fieldAsEV o.elem
  | .msg (.any url b c) =>
    (adaptAny url c none).bind fun u =>
      match u with
      | some m => msgAsEV m
      | none => msgAsEV (.any url b c)
  | .msg m => msgAsEV m

/-- `SingularFieldEquals` (`internal/message_equality.cc` lines 1031-1112).  Both operands are
unpacked before either is converted, so the error of the right operand's unpacking comes before that
of the left one's conversion: `unpackFails`. -/
def unpackFails : Single → Option Status
  | .one ⟨_, _, .msg (.any url _ c)⟩ | .msg (.any url _ c) =>
    match adaptAny url c none with
    | .err s => some s
    | _ => none
  | _ => none

def singularFieldEquals (l r : Single) : Res Bool :=
  if sameField l r = false ∧ l.category &&& r.category = 0 then .ok false
  else
    match unpackFails l, unpackFails r with
    | some s, _ => .err s
    | none, some s => .err s
    | none, none =>
      (singleAsEV l).bind fun x => (singleAsEV r).bind fun y => .ok (evEquals x y)

/-- `MessageEqualsState::Equals` (`internal/message_equality.cc` lines 864-911), for two messages. -/
def messageEquals (l r : Msg) : Res Bool :=
  match unpackFails (.msg l), unpackFails (.msg r) with
  | some s, _ => .err s
  | none, some s => .err s
  | none, none =>
    (singleAsEV (.msg l)).bind fun x => (singleAsEV (.msg r)).bind fun y => .ok (evEquals x y)

/-- The field `values` of a `ListValue` and the field `fields` of a `Struct`, as fields. -/
def listField (l : List Json) : Rep := ⟨0, .msg .value, l.map fun j => .msg (.value j)⟩
def structField (f : List (String × Json)) : MapF :=
  ⟨1, .str, .msg .value, f.map fun e => (.str e.1, .msg (.value e.2))⟩

/-- The other operand of a container, when it is no container: only the messages matter
(`internal/message_equality.cc` lines 1132-1136, 1285-1288). -/
def asMessage : Operand → Option Msg
  | .one ⟨_, _, .msg m⟩ => some m
  | .msg m => some m
  | _ => none

/-- The message to look at for a container, `none` when the comparison ends with `false`
(`internal/message_equality.cc` lines 1137-1173 and the three copies): an `Any` is unpacked only if
its type URL names one of the types that can be equal. -/
def unpackFor (names : List String) : Msg → Res (Option Msg)
  | .any url b c =>
    match stripUrl url with
    | none => .ok none
    | some name =>
      if name ∈ names then
        (adaptAny url c none).bind fun u =>
          match u with
          | some m => .ok (some m)
          | none => .ok (some (.any url b c))
      else .ok none
  | m => .ok (some m)

def mapNames : List String := ["google.protobuf.Value", "google.protobuf.Struct", "google.protobuf.Any"]
def listNames : List String :=
  ["google.protobuf.Value", "google.protobuf.ListValue", "google.protobuf.Any"]

/-- The map field of a message that is equal to maps (`internal/message_equality.cc` lines
1174-1207). -/
def mapOf : Msg → Option MapF
  | .value (.obj f) => some (structField f)
  | .struct f => some (structField f)
  | _ => none

/-- The repeated field of a message that is equal to lists (`internal/message_equality.cc` lines
1326-1356). -/
def listOf : Msg → Option Rep
  | .value (.arr l) => some (listField l)
  | .listValue l => some (listField l)
  | _ => none

/-- A map field and something else (`internal/message_equality.cc` lines 1119-1207); the mirrored copy
is lines 1208-1283, hence the comparison is a parameter. -/
def mapAgainst (cmp : MapF → Res Bool) (o : Operand) : Res Bool :=
  match asMessage o with
  | none => .ok false
  | some m =>
    (unpackFor mapNames m).bind fun u =>
      match u.bind mapOf with
      | none => .ok false
      | some r => cmp r

/-- A repeated field and something else (`internal/message_equality.cc` lines 1288-1356, mirrored
1357-1411). -/
def repAgainst (cmp : Rep → Res Bool) (o : Operand) : Res Bool :=
  match asMessage o with
  | none => .ok false
  | some m =>
    (unpackFor listNames m).bind fun u =>
      match u.bind listOf with
      | none => .ok false
      | some r => cmp r

/-- `FieldEquals` (`internal/message_equality.cc` lines 1114-1413).  The shortcut of
`MessageFieldEquals` for the same field of the same message is `fieldEqualsAt`. -/
def fieldEquals : Operand → Operand → Res Bool
  | .map l, .map r => mapFieldEquals l r
  | .map l, o => mapAgainst (fun r => mapFieldEquals l r) o
  | o, .map r => mapAgainst (fun l => mapFieldEquals l r) o
  | .rep l, .rep r => repFieldEquals l r
  | .rep l, o => repAgainst (fun r => repFieldEquals l r) o
  | o, .rep r => repAgainst (fun l => repFieldEquals l r) o
  | .one l, .one r => singularFieldEquals (.one l) (.one r)
  | .one l, .msg r => singularFieldEquals (.one l) (.msg r)
  | .msg l, .one r => singularFieldEquals (.msg l) (.one r)
  | .msg l, .msg r => singularFieldEquals (.msg l) (.msg r)

/-- `MessageFieldEquals` (`internal/message_equality.cc` lines 1440-1458): the operands with the
address of their messages. -/
def fieldEqualsAt (p q : Nat) (sameFields : Bool) (l r : Operand) : Res Bool :=
  if p = q ∧ sameFields = true then .ok true else fieldEquals l r

end Cel.MsgEq
