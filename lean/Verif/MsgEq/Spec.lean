import Verif.MsgEq.Model
import Verif.Json.Spec
import Verif.Data.EqualSpec
import Mathlib.Logic.Equiv.List

/-! # Specification vocabulary for the equality of fields and messages -/

set_option linter.dupNamespace false

namespace Cel.MsgEq.Spec
open Cel Cel.Num Cel.Eval Cel.Data Cel.Data.Spec Cel.Json Cel.MsgEq

/-- The CEL value a message denotes: the value in a wrapper, the JSON value, the duration or time, the
value of the message packed in an `Any`; another message is a struct.  An `Any` that cannot be
resolved is an opaque value, which has its two fields and no more. -/
def msgVal : Msg → Value
  | .boolW b => .bool b
  | .fltW d => .dbl d
  | .dblW d => .dbl d
  | .i32W i => .int i
  | .u32W i => .uint i
  | .i64W i => .int i
  | .u64W i => .uint i
  | .bytesW b => .bytes b
  | .strW s => .str s
  | .value j => fromJson j
  | .listValue l => fromJson (.arr l)
  | .struct f => fromJson (.obj f)
  | .any _ _ (.packed m) => msgVal m
  | .any url b .unresolved => .opaq url (Encodable.encode b)
  | .any _ _ .corrupt => .error (unpackError "")
  | .duration s n => .dur (.fin (s * tps + n * tpn))
  | .timestamp s n => .ts (.fin (s * tps + n * tpn))
  | .other n i => .struct n i

/-- The CEL value of one element of a field (`common/value.cc`, `WrapRepeatedField`,
`WrapMapFieldValue`). -/
def elemVal : Elem → Value
  | .i32 i => .int i
  | .i64 i => .int i
  | .u32 i => .uint i
  | .u64 i => .uint i
  | .dbl d => .dbl d
  | .flt d => .dbl d
  | .bool b => .bool b
  | .enm i => .int i
  | .nul _ => .null
  | .str s => .str s
  | .bytes b => .bytes b
  | .msg m => msgVal m

/-- The CEL value of a map key. -/
def keyVal : Key → Value
  | .bool b => .bool b
  | .i32 i => .int i
  | .i64 i => .int i
  | .u32 i => .uint i
  | .u64 i => .uint i
  | .str s => .str s

/-- The CEL value of an operand: a list, a map, or the value of the element or message. -/
def val : Operand → Value
  | .rep r => .list (r.elems.map elemVal)
  | .map m => .map (m.entries.map fun e => (keyVal e.1, elemVal e.2))
  | .one o => elemVal o.elem
  | .msg m => msgVal m

/-- The type of an element and of a key. -/
def typeOf : Elem → FType
  | .i32 _ => .i32
  | .i64 _ => .i64
  | .u32 _ => .u32
  | .u64 _ => .u64
  | .dbl _ => .dbl
  | .flt _ => .flt
  | .bool _ => .bool
  | .enm _ => .enm
  | .nul _ => .nul
  | .str _ => .str
  | .bytes _ => .bytes
  | .msg m => .msg m.kind

def keyType : Key → KType
  | .bool _ => .bool
  | .i32 _ => .i32
  | .i64 _ => .i64
  | .u32 _ => .u32
  | .u64 _ => .u64
  | .str _ => .str

def In32 (i : Int) : Prop := -(2 ^ 31) ≤ i ∧ i < 2 ^ 31
def InU32 (i : Int) : Prop := 0 ≤ i ∧ i < 2 ^ 32

/-- A message that exists: numbers are in the range of their type, JSON objects have no name twice,
and the type URL of an `Any` names the type of what unpacking it gives. -/
def MsgWF : Msg → Prop
  | .fltW d => d.WF
  | .dblW d => d.WF
  | .i32W i => In32 i
  | .u32W i => InU32 i
  | .i64W i => InI64 i
  | .u64W i => InU64 i
  | .value j => Json.Spec.WF j
  | .listValue l => Json.Spec.WF (.arr l)
  | .struct f => Json.Spec.WF (.obj f)
  | .any url _ (.packed m) => stripUrl url = some m.kind.name ∧ MsgWF m
  | .any url _ .corrupt => ∃ n, stripUrl url = some n
  | _ => True

def ElemWF : Elem → Prop
  | .i32 i => In32 i
  | .i64 i => InI64 i
  | .u32 i => InU32 i
  | .u64 i => InU64 i
  | .dbl d => d.WF
  | .flt d => d.WF
  | .enm i => In32 i
  | .msg m => MsgWF m
  | _ => True

def KeyWF : Key → Prop
  | .i32 i => In32 i
  | .i64 i => InI64 i
  | .u32 i => InU32 i
  | .u64 i => InU64 i
  | _ => True

/-- An operand that exists: the contents of a field have the type of the field, and a map has no key
twice. -/
def WF : Operand → Prop
  | .rep r => ∀ e ∈ r.elems, ElemWF e ∧ typeOf e = r.type
  | .map m => (m.entries.map Prod.fst).Nodup ∧
      ∀ e ∈ m.entries, KeyWF e.1 ∧ keyType e.1 = m.key ∧ ElemWF e.2 ∧ typeOf e.2 = m.val
  | .one o => ElemWF o.elem ∧ typeOf o.elem = o.type
  | .msg m => MsgWF m

/-- No error is hidden in the message: the bytes of an `Any` of a known type can be parsed, and a
duration or timestamp is a valid one. -/
def MsgSound : Msg → Prop
  | .any _ _ (.packed m) => MsgSound m
  | .any _ _ .corrupt => False
  | .duration s n => -315576000000 ≤ s ∧ s ≤ 315576000000 ∧ -999999999 ≤ n ∧ n ≤ 999999999 ∧
      ¬ (s < 0 ∧ 0 < n) ∧ ¬ (0 < s ∧ n < 0)
  | .timestamp s n => -62135596800 ≤ s ∧ s ≤ 253402300799 ∧ 0 ≤ n ∧ n ≤ 999999999
  | _ => True

def ElemSound : Elem → Prop
  | .msg m => MsgSound m
  | _ => True

def Sound : Operand → Prop
  | .rep r => ∀ e ∈ r.elems, ElemSound e
  | .map m => ∀ e ∈ m.entries, ElemSound e.2
  | .one o => ElemSound o.elem
  | .msg m => MsgSound m

/-- A repeated or a map field. -/
def IsContainer : Operand → Prop
  | .rep _ => True
  | .map _ => True
  | _ => False

/-- Both operands are empty lists or both are empty maps, and at least one is a field. -/
def BothEmpty (a b : Operand) : Prop :=
  (IsContainer a ∨ IsContainer b) ∧
    (val a = .list [] ∧ val b = .list [] ∨ val a = .map [] ∧ val b = .map [])

/-- The mathematical number of an integer key. -/
def keyNum : Key → Option Int
  | .i32 i | .i64 i | .u32 i | .u64 i => some i
  | _ => none

/-- Two map keys are the same key: the same boolean or string, or integers of the same value. -/
def SameKey (a b : Key) : Prop :=
  a = b ∨ ∃ i, keyNum a = some i ∧ keyNum b = some i

/-- A key type is a signed or an unsigned integer type. -/
def Signed (k : KType) : Prop := k = .i32 ∨ k = .i64
def Unsigned (k : KType) : Prop := k = .u32 ∨ k = .u64

/-- One has signed and the other unsigned integer keys. -/
def MixedKeys (k t : KType) : Prop := Signed k ∧ Unsigned t ∨ Unsigned k ∧ Signed t

/-- Two map fields, one with signed and the other with unsigned integer keys. -/
def Mixed : Operand → Operand → Prop
  | .map l, .map r => MixedKeys l.key r.key
  | _, _ => False

end Cel.MsgEq.Spec
