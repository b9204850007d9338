import Verif.Json.Message
import Verif.Json.Spec

/-! # Specification vocabulary for the JSON form of messages -/

set_option linter.dupNamespace false

namespace Cel.Json.Message.Spec
open Cel Cel.Num Cel.Eval Cel.Data Cel.Json Cel.Json.Spec Cel.Json.Message

/-- The result of a successful call. -/
def opt {α : Type} : Res α → Option α
  | .ok a => some a
  | _ => none

/-- A field mask path that has a JSON form: no upper-case letter, and after every underscore a
lower-case letter. -/
def GoodPath (p : String) : Prop :=
  (∀ c ∈ p.toList, isUpper c = false) ∧
  ∀ i : Nat, p.toList[i]? = some '_' → ∃ c, p.toList[i + 1]? = some c ∧ isLower c = true

/-- The snake-case spelling of a camel-case name: every upper-case letter becomes an underscore and
the lower-case letter. -/
def snake (s : String) : String :=
  String.ofList (s.toList.flatMap fun c => if isUpper c then ['_', Char.ofNat (c.toNat + 32)] else [c])

/-- Strings with commas between them. -/
def commas (l : List String) : String := String.ofList (List.intercalate [','] (l.map String.toList))

mutual
/-- The JSON form of a message, as the documentation of the JSON mapping puts it: an object with one
member per set field. -/
def render (O : MLib) : Msg → Option Json
  | .plain _ fs => (renderFields O fs).map .obj
  | .badAny _ => none
  | .any m => renderAny O m
  | m => opt (leafJson O m)
/-- The JSON form of an `Any` packing the message: an object with the type of the (innermost) message
under `"@type"`, and next to it its members or, if its JSON form is not made of its fields, its JSON
form under `"value"`. -/
def renderAny (O : MLib) : Msg → Option Json
  | .badAny _ => none
  | .any m => renderAny O m
  | .plain n fs =>
    if n = "google.protobuf.Empty" then
      some (.obj [("@type", .str ("type.googleapis.com/" ++ n)), ("value", .obj [])])
    else (renderFields O fs).map fun f => .obj (("@type", .str ("type.googleapis.com/" ++ n)) :: f)
  | m => (opt (leafJson O m)).map fun j =>
      .obj [("@type", .str ("type.googleapis.com/" ++ typeName m)), ("value", j)]
def renderFields (O : MLib) : List (String × FieldVal) → Option (List (String × Json))
  | [] => some []
  | (k, v) :: fs => (renderField O v).bind fun j => (renderFields O fs).map ((k, j) :: ·)
def renderField (O : MLib) : FieldVal → Option Json
  | .one e => renderElem O e
  | .rep l => (renderReps O l).map .arr
  | .map m => (renderMap O m).map .obj
def renderElem (O : MLib) : Elem → Option Json
  | .scalar s => some (scalarJson O s)
  | .msg m => render O m
def renderReps (O : MLib) : List Elem → Option (List Json)
  | [] => some []
  | e :: l => (renderElem O e).bind fun j => (renderReps O l).map (j :: ·)
def renderMap (O : MLib) : List (Key × Elem) → Option (List (String × Json))
  | [] => some []
  | (k, .scalar s) :: m => (renderMap O m).map ((keyName k, mapScalarJson O s) :: ·)
  | (k, .msg e) :: m => (render O e).bind fun j => (renderMap O m).map ((keyName k, j) :: ·)
end

/-- Keys of one map field have one type. -/
def SameKey : Key → Key → Prop
  | .bool _, .bool _ => True
  | .int _, .int _ => True
  | .uint _, .uint _ => True
  | .str _, .str _ => True
  | _, _ => False

/-- A scalar that exists: numbers are in the range of their type. -/
def ScalarWF : Scalar → Prop
  | .dbl d => d.WF
  | .flt d => d.WF
  | .i32 i => -(2 ^ 31) ≤ i ∧ i < 2 ^ 31
  | .u32 i => 0 ≤ i ∧ i < 2 ^ 32
  | .i64 i => -(2 ^ 63) ≤ i ∧ i < 2 ^ 63
  | .u64 i => 0 ≤ i ∧ i < 2 ^ 64
  | .enm _ n => -(2 ^ 31) ≤ n ∧ n < 2 ^ 31
  | _ => True

mutual
/-- A message that exists: the JSON names of its fields differ from each other and from `"@type"`
(which no descriptor has), a map field has no key twice and keys of one type. -/
def WFM : Msg → Prop
  | .plain _ fs => (fs.map Prod.fst).Nodup ∧ WFFields fs
  | .any m => WFM m
  | .wrapper _ s => ScalarWF s
  | .value j => WF j
  | .listValue l => WF (.arr l)
  | .struct f => WF (.obj f)
  | _ => True
def WFFields : List (String × FieldVal) → Prop
  | [] => True
  | (k, v) :: fs => k ≠ "@type" ∧ WFField v ∧ WFFields fs
def WFField : FieldVal → Prop
  | .one e => WFElem e
  | .rep l => WFElems l
  | .map m => (m.map Prod.fst).Nodup ∧ m.Pairwise (fun a b => SameKey a.1 b.1) ∧ WFEntries m
def WFElem : Elem → Prop
  | .scalar s => ScalarWF s
  | .msg m => WFM m
def WFElems : List Elem → Prop
  | [] => True
  | e :: l => WFElem e ∧ WFElems l
def WFEntries : List (Key × Elem) → Prop
  | [] => True
  | (_, e) :: m => WFElem e ∧ WFEntries m
end

mutual
/-- Messages with a JSON form: every field mask in them has good paths, and every `Any` can be
unpacked (to the innermost message). -/
def Convertible : Msg → Prop
  | .plain _ fs => ConvertibleFields fs
  | .any (.plain n fs) => n = "google.protobuf.Empty" ∨ ConvertibleFields fs
  | .any m => Convertible m
  | .badAny _ => False
  | .fieldMask ps => ∀ p ∈ ps, GoodPath p
  | _ => True
def ConvertibleFields : List (String × FieldVal) → Prop
  | [] => True
  | (_, v) :: fs => ConvertibleField v ∧ ConvertibleFields fs
def ConvertibleField : FieldVal → Prop
  | .one e => ConvertibleElem e
  | .rep l => ConvertibleElems l
  | .map m => ConvertibleEntries m
def ConvertibleElem : Elem → Prop
  | .scalar _ => True
  | .msg m => Convertible m
def ConvertibleElems : List Elem → Prop
  | [] => True
  | e :: l => ConvertibleElem e ∧ ConvertibleElems l
def ConvertibleEntries : List (Key × Elem) → Prop
  | [] => True
  | (_, e) :: m => ConvertibleElem e ∧ ConvertibleEntries m
end

/-- Scalars of the same type. -/
def SameScalar : Scalar → Scalar → Prop
  | .dbl _, .dbl _ => True
  | .flt _, .flt _ => True
  | .i32 _, .i32 _ => True
  | .i64 _, .i64 _ => True
  | .u32 _, .u32 _ => True
  | .u64 _, .u64 _ => True
  | .bool _, .bool _ => True
  | .str _, .str _ => True
  | .bytes _, .bytes _ => True
  | .enm t _, .enm u _ => t = u
  | .nul _, .nul _ => True
  | _, _ => False

mutual
/-- Messages of the same type: the same well-known type, or the same name and, where both have a
field of a name, it has the same type. -/
def SameMsg : Msg → Msg → Prop
  | .wrapper n s, .wrapper n' s' => n = n' ∧ SameScalar s s'
  | .any _, .any _ => True
  | .any _, .badAny _ => True
  | .badAny _, .any _ => True
  | .badAny _, .badAny _ => True
  | .fieldMask _, .fieldMask _ => True
  | .duration _ _, .duration _ _ => True
  | .timestamp _ _, .timestamp _ _ => True
  | .value _, .value _ => True
  | .listValue _, .listValue _ => True
  | .struct _, .struct _ => True
  | .plain n fs, .plain n' gs => n = n' ∧ SameFields fs gs
  | _, _ => False
def SameFields : List (String × FieldVal) → List (String × FieldVal) → Prop
  | [], _ => True
  | (k, v) :: fs, gs => (∀ g ∈ gs, g.1 = k → SameField v g.2) ∧ SameFields fs gs
def SameField : FieldVal → FieldVal → Prop
  | .one e, .one e' => SameElem e e'
  | .rep l, .rep l' => SameElems l l'
  | .map m, .map m' => SameEntries m m'
  | _, _ => False
def SameElem : Elem → Elem → Prop
  | .scalar s, .scalar s' => SameScalar s s'
  | .msg m, .msg m' => SameMsg m m'
  | _, _ => False
def SameElems : List Elem → List Elem → Prop
  | [], _ => True
  | e :: l, l' => (∀ e' ∈ l', SameElem e e') ∧ SameElems l l'
def SameEntries : List (Key × Elem) → List (Key × Elem) → Prop
  | [], _ => True
  | (k, e) :: m, m' => (∀ e' ∈ m', SameKey k e'.1 ∧ SameElem e e'.2) ∧ SameEntries m m'
end

/-- Durations and timestamps protobuf considers valid. -/
def ValidDuration (s n : Int) : Prop :=
  s.natAbs ≤ 315576000000 ∧ n.natAbs < 1000000000 ∧ (0 < s → 0 ≤ n) ∧ (s < 0 → n ≤ 0)
def ValidTimestamp (s n : Int) : Prop :=
  -62135596800 ≤ s ∧ s ≤ 253402300799 ∧ 0 ≤ n ∧ n < 1000000000

/-- The library functions lose nothing: what is relied on of `absl::Base64Escape` and
`TimeUtil::ToString`. -/
structure Lossless (O : MLib) : Prop where
  base64 : ∀ a b : List Nat, (∀ x ∈ a, x < 256) → (∀ x ∈ b, x < 256) → O.base64 a = O.base64 b → a = b
  base64_nonempty : ∀ a : List Nat, a ≠ [] → O.base64 a ≠ ""
  duration : ∀ s n s' n', ValidDuration s n → ValidDuration s' n' →
    O.durationText s n = O.durationText s' n' → s = s' ∧ n = n'
  timestamp : ∀ s n s' n', ValidTimestamp s n → ValidTimestamp s' n' →
    O.timestampText s n = O.timestampText s' n' → s = s' ∧ n = n'

/-- Scalars JSON distinguishes: bytes are bytes, an enum value is one its type declares (under one
name), the only number of `NullValue` is 0. -/
def FaithfulScalar : Scalar → Prop
  | .bytes b => ∀ x ∈ b, x < 256
  | .enm t n => (∃ s, t.names n = some s) ∧
      ∀ a b s, t.names a = some s → t.names b = some s → a = b
  | .nul n => n = 0
  | _ => True

mutual
/-- Messages JSON distinguishes: no `Any`, valid durations and timestamps, and no field mask with an
empty path or a comma in a path. -/
def Faithful : Msg → Prop
  | .wrapper _ s => FaithfulScalar s
  | .any _ => False
  | .badAny _ => False
  | .fieldMask ps => ∀ p ∈ ps, p ≠ "" ∧ ',' ∉ p.toList
  | .duration s n => ValidDuration s n
  | .timestamp s n => ValidTimestamp s n
  | .plain _ fs => FaithfulFields fs
  | _ => True
def FaithfulFields : List (String × FieldVal) → Prop
  | [] => True
  | (_, v) :: fs => FaithfulField v ∧ FaithfulFields fs
def FaithfulField : FieldVal → Prop
  | .one e => FaithfulElem e
  | .rep l => FaithfulElems l
  | .map m => FaithfulEntries m
def FaithfulElem : Elem → Prop
  | .scalar s => FaithfulScalar s
  | .msg m => Faithful m
def FaithfulElems : List Elem → Prop
  | [] => True
  | e :: l => FaithfulElem e ∧ FaithfulElems l
def FaithfulEntries : List (Key × Elem) → Prop
  | [] => True
  | (_, e) :: m => FaithfulElem e ∧ FaithfulEntries m
end

end Cel.Json.Message.Spec
