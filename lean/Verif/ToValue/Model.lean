import Verif.Num.Double

set_option linter.unusedVariables false

/-!
# Legacy values as `cel.expr.Value` messages and back

`CelValueToValue`, `ValueToCelValue` – `eval/public/transform_utility.cc`.
-/

namespace Cel.ToValue
open Cel Cel.Num

/-- Keys of maps; other kinds are not valid CEL. -/
inductive Key where
  | bool (b : Bool)
  | int (i : Int)
  | uint (u : Int)
  | string (s : List Nat)
  deriving DecidableEq

/-- `CelValue`.  Durations and timestamps are quarter nanoseconds (timestamps from the Unix epoch),
infinite ones being outside all ranges.  A message is one that is not of a well-known type.  A map is
its keys and its values, in the order of `ListKeys`. -/
inductive V where
  | null
  | bool (b : Bool)
  | int (i : Int)
  | uint (u : Int)
  | double (d : Dbl)
  | string (s : List Nat)
  | bytes (s : List Nat)
  | message (m : Nat)
  | duration (t : Int)
  | timestamp (t : Int)
  | list (es : List V)
  | map (ks : List Key) (vs : List V)
  | unknown
  | type (name : List Nat)
  | error (status : Nat)

/-- What is in the `Any` of an object value; `other` is any further content – wrappers, structs,
malformed ones –, with what `CreateMessage` makes of it, `none` for an error. -/
inductive Obj where
  | duration (s n : Int)
  | timestamp (s n : Int)
  | message (m : Nat)
  | other (v : Option V)

/-- `cel.expr.Value`; a map's entries as two lists of one length. -/
inductive P where
  | unset
  | null
  | bool (b : Bool)
  | int (i : Int)
  | uint (u : Int)
  | double (d : Dbl)
  | string (s : List Nat)
  | bytes (s : List Nat)
  | enum (number : Int)
  | object (o : Obj)
  | map (ks vs : List P)
  | list (es : List P)
  | type (name : List Nat)

/-- `EncodeDuration` – `internal/proto_time_encoding.cc:65-75`, `internal/time.cc:40-86`: the limits of
`google.protobuf.Duration`; division rounds towards zero. -/
def encodeDuration (t : Int) : Option (Int × Int) :=
  let lim : Int := 4 * (315576000000 * 1000000000 + 999999999)
  if t < -lim ∨ t > lim then none
  else some (t.tdiv 4000000000, (t.tmod 4000000000).tdiv 4)

/-- `EncodeTime` – `proto_time_encoding.cc:86-92`, `internal/time.cc:105-118`: year 1 to 9999;
`ToUnixSeconds` rounds down. -/
def encodeTime (t : Int) : Option (Int × Int) :=
  if t < -62135596800 * 4000000000 ∨ t > 253402300799 * 4000000000 + 4 * 999999999 then none
  else
    let s := t / 4000000000
    some (s, (t - s * 4000000000).tdiv 4)

/-- `DecodeDuration`, `DecodeTime` – `proto_time_encoding.cc:44-63`; far from the ends of
`absl::Duration`. -/
def decode (s n : Int) : Int := s * 4000000000 + n * 4

/-- A key as a `Value` (`keyP_eq`). -/
def keyP : Key → P
  | .bool b => .bool b
  | .int i => .int i
  | .uint u => .uint u
  | .string s => .string s

/-- The bytes of `CelValue::Type::kError`. -/
def errorText : List Nat := "CelValue::Type::kError".toList.map Char.toNat

mutual
/-- `CelValueToValue` – `transform_utility.cc:30-123`; `none` is an error status. -/
def toValue : V → Option P
  | .bool b => some (.bool b)
  | .int i => some (.int i)
  | .uint u => some (.uint u)
  | .double d => some (.double d)
  | .string s => some (.string s)
  | .bytes s => some (.bytes s)
  | .duration t => (encodeDuration t).map fun e => .object (.duration e.1 e.2)
  | .timestamp t => (encodeTime t).map fun e => .object (.timestamp e.1 e.2)
  | .null => some .null
  | .message m => some (.object (.message m))
  | .list es => (toValues es).map .list
  | .map ks vs => (toValues vs).map (.map (ks.map keyP))
  | .error _ => some (.string errorText)
  | .type n => some (.type n)
  | .unknown => none
def toValues : List V → Option (List P)
  | [] => some []
  | v :: vs =>
    match toValue v with
    | none => none
    | some p => (toValues vs).map (p :: ·)
end

/-- `CheckMapKeyType` – `eval/public/cel_value.cc:169-180`. -/
def toKey : V → Option Key
  | .bool b => some (.bool b)
  | .int i => some (.int i)
  | .uint u => some (.uint u)
  | .string s => some (.string s)
  | _ => none

def toKeys : List V → Option (List Key)
  | [] => some []
  | v :: vs =>
    match toKey v with
    | none => none
    | some k => (toKeys vs).map (k :: ·)

/-- `CelProtoWrapper::CreateMessage` on the `Any` of an object value; an error value becomes an error
status – `transform_utility.cc:171-176`. -/
def unwrap : Obj → Option V
  | .duration s n => some (.duration (decode s n))
  | .timestamp s n => some (.timestamp (decode s n))
  | .message m => some (.message m)
  | .other v => v

mutual
/-- `ValueToCelValue` – `transform_utility.cc:125-187`; the keys of a map are read before its values,
and `CreateContainerBackedMap` refuses two equal keys (`container_backed_map_impl.cc:96-124`; keys of
different kinds are different). -/
def ofValue : P → Option V
  | .bool b => some (.bool b)
  | .bytes s => some (.bytes s)
  | .double d => some (.double d)
  | .enum n => some (.int n)
  | .int i => some (.int i)
  | .list es => (ofValues es).map .list
  | .map ks vs =>
    match (ofValues ks).bind toKeys with
    | none => none
    | some ks' =>
      match ofValues vs with
      | none => none
      | some vs' => if ks'.Nodup then some (.map ks' vs') else none
  | .null => some .null
  | .object o => unwrap o
  | .string s => some (.string s)
  | .type n => some (.type n)
  | .uint u => some (.uint u)
  | .unset => none
def ofValues : List P → Option (List V)
  | [] => some []
  | p :: ps =>
    match ofValue p with
    | none => none
    | some v => (ofValues ps).map (v :: ·)
end

end Cel.ToValue
