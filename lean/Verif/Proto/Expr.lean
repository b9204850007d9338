import Verif.Proto.Slots
import Verif.Num.TimeModel

set_option linter.unusedSimpArgs false
set_option linter.unusedVariables false

/-!
# `cel::Expr`, `cel.expr.Expr`, and the three conversion loops

* native to proto – `common/ast/expr_proto.cc:44-282` (`ExprToProtoState`)
* proto to native – `common/ast/expr_proto.cc:284-498` (`ExprFromProtoState`)
* deep copy – `common/expr.cc:30-141` (`CopyNode`, `CloneImpl`)
* constants – `common/ast/constant_proto.cc`, `internal/proto_time_encoding.cc`
-/

namespace Cel.Proto
open Cel Cel.Num

/-! ## Constants -/

/-- `ConstantKind` – `common/constant.h`.  A double is represented by its bit pattern. -/
inductive Const where
  | unset
  | null
  | bool (b : Bool)
  | int (i : Int)
  | uint (u : Int)
  | double (bits : Nat)
  | bytes (b : List Nat)
  | string (s : String)
  | duration (d : Dur)
  | timestamp (t : Tm)
  deriving DecidableEq

/-- `cel.expr.Constant` (`constant_kind` oneof); a `google.protobuf.Duration` / `Timestamp` is its
`seconds` and `nanos`. -/
inductive PConst where
  | notSet
  | null
  | bool (b : Bool)
  | int64 (i : Int)
  | uint64 (u : Int)
  | double (bits : Nat)
  | bytes (b : List Nat)
  | string (s : String)
  | duration (seconds nanos : Int)
  | timestamp (seconds nanos : Int)
  deriving DecidableEq

/-- `MaxDuration()` / `MinDuration()` in ticks – `internal/time.cc:40-59` with
`TimeUtil::kDurationMaxSeconds = 315576000000`. -/
def maxDurTicks : Int := 315576000000 * tps + 999999999 * tpn
def minDurTicks : Int := -315576000000 * tps - 999999999 * tpn
/-- `MaxTimestamp()` / `MinTimestamp()` in ticks – `internal/time.cc:61-71`. -/
def maxTmTicks : Int := 253402300799 * tps + 999999999 * tpn
def minTmTicks : Int := -62135596800 * tps

def invalid (m : String) : Status := ⟨.invalidArgument, m⟩

/-- `EncodeDuration` – `internal/proto_time_encoding.cc:43-53`, `:65-75`; the two
`absl::IDivDuration` truncate toward zero. -/
def encodeDuration : Dur → Except Status (Int × Int)
  | .inf true => .error (invalid "duration below min")
  | .inf false => .error (invalid "duration above max")
  | .fin t =>
    if t < minDurTicks then .error (invalid "duration below min")
    else if t > maxDurTicks then .error (invalid "duration above max")
    else
      let s := Int.tdiv t tps
      .ok (s, Int.tdiv (t - s * tps) tpn)

/-- `EncodeTime` – `internal/proto_time_encoding.cc:32-42`, `:86-92`. -/
def encodeTime : Tm → Except Status (Int × Int)
  | .inf true => .error (invalid "time below min")
  | .inf false => .error (invalid "time above max")
  | .fin t =>
    if t < minTmTicks then .error (invalid "time below min")
    else if t > maxTmTicks then .error (invalid "time above max")
    else
      let s := t / tps
      .ok (s, Int.tdiv (t - s * tps) tpn)

/-- `DecodeDuration` – `internal/proto_time_encoding.cc:56-58`; adding two finite durations whose
sum has more seconds than an `int64_t` gives an infinite one (abseil). -/
def decodeDuration (s n : Int) : Dur :=
  let t := s * tps + n * tpn
  if InI64 (t / tps) then .fin t else .inf (n < 0)

/-- `DecodeTime` – `internal/proto_time_encoding.cc:60-63`. -/
def decodeTime (s n : Int) : Tm :=
  let t := s * tps + n * tpn
  if InI64 (t / tps) then .fin t else .inf (n < 0)

/-- `ConstantToProto` – `common/ast/constant_proto.cc:35-83`. -/
def constToProto : Const → Except Status PConst
  | .unset => .ok .notSet
  | .null => .ok .null
  | .bool b => .ok (.bool b)
  | .int i => .ok (.int64 i)
  | .uint u => .ok (.uint64 u)
  | .double d => .ok (.double d)
  | .bytes b => .ok (.bytes b)
  | .string s => .ok (.string s)
  | .duration d =>
    match encodeDuration d with
    | .error e => .error e
    | .ok (s, n) => .ok (.duration s n)
  | .timestamp t =>
    match encodeTime t with
    | .error e => .error e
    | .ok (s, n) => .ok (.timestamp s n)

/-- `ConstantFromProto` – `common/ast/constant_proto.cc:85-123` (no case fails: the `default:` is
for oneof cases that do not exist). -/
def constFromProto : PConst → Const
  | .notSet => .unset
  | .null => .null
  | .bool b => .bool b
  | .int64 i => .int i
  | .uint64 u => .uint u
  | .double d => .double d
  | .bytes b => .bytes b
  | .string s => .string s
  | .duration s n => .duration (decodeDuration s n)
  | .timestamp s n => .timestamp (decodeTime s n)

/-! ## Nodes -/

/-- `StructExprField` without its value – `common/expr.h:444-500`. -/
structure NField where
  id : Int
  name : String
  optional : Bool
  deriving DecidableEq

/-- `MapExprEntry` without key and value – `common/expr.h:576-628`. -/
structure NEntry where
  id : Int
  optional : Bool
  deriving DecidableEq

/-- `ExprKind` without the sub-expressions – `common/expr.h`. -/
inductive NKind where
  | unspecified
  | const (c : Const)
  | ident (name : String)
  | select (field : String) (testOnly : Bool)
  | call (function : String)
  /-- one flag per element -/
  | list (optional : List Bool)
  | struct (name : String) (fields : List NField)
  | map (entries : List NEntry)
  | comprehension (iterVar iterVar2 accuVar : String)
  deriving DecidableEq

/-- `cel::Expr` without the sub-expressions. -/
structure NNode where
  id : Int
  kind : NKind
  deriving DecidableEq

/-- The children of a native node, in order: `select`: operand; `call`: target, then the arguments;
`list`: elements; `struct`: the field values; `map`: key, value, key, value, …;
`comprehension`: iter_range, accu_init, loop_condition, loop_step, result. -/
abbrev NExpr := Tree NNode

/-- `Entry.key_kind` – which case of the oneof is set. -/
inductive PKey where
  | notSet
  | field (name : String)
  | mapKey
  deriving DecidableEq

/-- `CreateStruct.Entry` without map key and value. -/
structure PEntry where
  id : Int
  key : PKey
  optional : Bool
  deriving DecidableEq

/-- `cel.expr.Expr.expr_kind` without the sub-expressions. -/
inductive PKind where
  | notSet
  | const (c : PConst)
  | ident (name : String)
  | select (field : String) (testOnly : Bool)
  | call (function : String)
  | list (optionalIndices : List Int)
  | create (messageName : String) (entries : List PEntry)
  | comprehension (iterVar iterVar2 accuVar : String)
  deriving DecidableEq

structure PNode where
  id : Int
  kind : PKind
  deriving DecidableEq

/-- Children as for `NExpr`; `create`: per entry its map key (absent unless `key = mapKey`), then
its value. -/
abbrev PExpr := Tree PNode

/-- A default-constructed node: `Expr()`, `cel.expr.Expr()`. -/
def NNode.dflt : NNode := ⟨0, .unspecified⟩
def PNode.dflt : PNode := ⟨0, .notSet⟩

/-! ## Slots -/

/-- A child that is visited if it is set:
`if (x.has_child()) Push(x.child(), y.mutable_child())`. -/
def slotMaybe {S L : Type} (dflt : L) : Tree S → Slot (Tree S) L
  | .absent => ⟨.absent, none⟩
  | .node l ks => ⟨.node (0, dflt) [], some (0, .node l ks)⟩

/-- A child that is created always but visited only if it is set (`add_elements()`). -/
def slotElem {S L : Type} (dflt : L) : Tree S → Slot (Tree S) L
  | .absent => ⟨.node (0, dflt) [], none⟩
  | .node l ks => ⟨.node (0, dflt) [], some (0, .node l ks)⟩

/-- A child that is created and visited always; an unset one reads as `default_instance()`
(`CopyNode` on list elements, field values, map keys and values). -/
def slotAlways {S L : Type} (sdflt : S) (dflt : L) : Tree S → Slot (Tree S) L
  | .absent => ⟨.node (0, dflt) [], some (0, .node sdflt [])⟩
  | .node l ks => ⟨.node (0, dflt) [], some (0, .node l ks)⟩

/-- The part of a `std::vector` that decides whether addresses of elements stay valid. -/
structure Vec where
  size : Nat
  cap : Nat
  gen : Nat

def Vec.empty : Vec := ⟨0, 0, 0⟩
/-- `reserve(n)`. -/
def Vec.reserve (v : Vec) (n : Nat) : Vec := if v.cap < n then ⟨v.size, n, v.gen + 1⟩ else v
/-- `emplace_back()`: reallocates when full. -/
def Vec.emplaceBack (v : Vec) : Vec :=
  if v.size < v.cap then ⟨v.size + 1, v.cap, v.gen⟩ else ⟨v.size + 1, 2 * v.cap + 1, v.gen + 1⟩
/-- `resize(n)` of an empty vector. -/
def Vec.resize (v : Vec) (n : Nat) : Vec :=
  if v.cap < n then ⟨n, n, v.gen + 1⟩ else ⟨n, v.cap, v.gen⟩

/-- The generations of the addresses returned by `n` calls of `emplace_back`, and the vector
afterwards. -/
def Vec.emplaceMany : Vec → Nat → List Nat × Vec
  | v, 0 => ([], v)
  | v, n + 1 =>
    let v' := v.emplaceBack
    let (gs, w) := v'.emplaceMany n
    (v'.gen :: gs, w)

/-- Children living in a `std::vector<Expr>`: the cells live in the final storage `g`, the pushed
addresses are those returned when each element was added (`gs`).  (An argument is never unset; if
it were, the slot would stay unset.) -/
def slotsVec {S L : Type} (dflt : L) (g : Nat) : List Nat → List (Tree S) → List (Slot (Tree S) L)
  | _, [] => []
  | gs, .absent :: ts => ⟨.absent, none⟩ :: slotsVec dflt g gs.tail ts
  | gs, .node l ks :: ts =>
    ⟨.node (g, dflt) [], some (gs.headD 0, .node l ks)⟩ :: slotsVec dflt g gs.tail ts

/-! ## Native to proto -/

/-- Is this child set? -/
def Tree.present {L : Type} : Tree L → Bool
  | .absent => false
  | .node _ _ => true

/-- `add_optional_indices(i)` for every optional element – `expr_proto.cc:164-166`. -/
def optIndices : Int → List Bool → List Int
  | _, [] => []
  | i, b :: bs => (if b then [i] else []) ++ optIndices (i + 1) bs

/-- The field slots: no map key, maybe a value – `expr_proto.cc:183-193`. -/
def fieldSlots : List NExpr → List (Slot NExpr PNode)
  | [] => []
  | v :: vs => ⟨.absent, none⟩ :: slotMaybe PNode.dflt v :: fieldSlots vs

/-- `map_key` is set exactly when the entry has a key – `expr_proto.cc:211-213`. -/
def mapEntries : List NEntry → List NExpr → List PEntry
  | [], _ => []
  | e :: es, ks =>
    ⟨e.id, if (ks.headD .absent).present then .mapKey else .notSet, e.optional⟩ ::
      mapEntries es (ks.drop 2)

/-- `ExprToProtoImpl` – `common/ast/expr_proto.cc:62-265`.  Every case starts with
`proto->Clear()`: no label or child of the target survives (`cur = []`).  Sub-messages of a proto
never move, so all pushed addresses are of generation 0. -/
def toStep : Stepper NExpr PNode := fun src _l _kids =>
  let cur : List (Cell PNode) := []
  match src with
  | .absent => .ok (finish cur PNode.dflt [])
  | .node ⟨id, k⟩ ks =>
    match k with
    | .unspecified => .ok (finish cur ⟨id, .notSet⟩ [])
    | .const c =>
      match constToProto c with
      | .error e => .error e
      | .ok p => .ok (finish cur ⟨id, .const p⟩ [])
    | .ident n => .ok (finish cur ⟨id, .ident n⟩ [])
    | .select f t => .ok (finish cur ⟨id, .select f t⟩ (ks.map (slotMaybe PNode.dflt)))
    | .call fn => .ok (finish cur ⟨id, .call fn⟩ (ks.map (slotMaybe PNode.dflt)))
    | .list opt => .ok (finish cur ⟨id, .list (optIndices 0 opt)⟩ (ks.map (slotElem PNode.dflt)))
    | .struct name fields =>
      .ok (finish cur ⟨id, .create name (fields.map fun f => ⟨f.id, .field f.name, f.optional⟩)⟩
        (fieldSlots ks))
    | .map entries =>
      .ok (finish cur ⟨id, .create "" (mapEntries entries ks)⟩ (ks.map (slotMaybe PNode.dflt)))
    | .comprehension v v2 a =>
      .ok (finish cur ⟨id, .comprehension v v2 a⟩ (ks.map (slotMaybe PNode.dflt)))

/-! ## Proto to native -/

/-- `std::find(indices, i) != end` for every element – `expr_proto.cc:376-383`. -/
def optFlags (idx : List Int) : Int → Nat → List Bool
  | _, 0 => []
  | i, n + 1 => idx.contains i :: optFlags idx (i + 1) n

/-- `StructExprFromProto`'s loop over the key kinds – `expr_proto.cc:396-417`. -/
def structFields : List PEntry → Except Status (List NField)
  | [] => .ok []
  | e :: es =>
    match e.key with
    | .mapKey => .error (invalid "encountered map entry in struct")
    | .notSet =>
      match structFields es with
      | .error x => .error x
      | .ok fs => .ok (⟨e.id, "", e.optional⟩ :: fs)
    | .field n =>
      match structFields es with
      | .error x => .error x
      | .ok fs => .ok (⟨e.id, n, e.optional⟩ :: fs)

/-- `MapExprFromProto`'s loop over the key kinds – `expr_proto.cc:430-452`. -/
def mapFields : List PEntry → Except Status (List NEntry)
  | [] => .ok []
  | e :: es =>
    match e.key with
    | .field _ => .error (invalid "encountered struct field in map")
    | .notSet | .mapKey =>
      match mapFields es with
      | .error x => .error x
      | .ok fs => .ok (⟨e.id, e.optional⟩ :: fs)

/-- The values of the entries. -/
def values {L : Type} : List (Tree L) → List (Tree L)
  | _ :: v :: rest => v :: values rest
  | _ => []

/-- The slots of a call: the target is a `std::unique_ptr<Expr>`, the arguments live in a
`std::vector<Expr>` that is reserved first – `expr_proto.cc:352-365`. -/
def callSlots : List PExpr → List (Slot PExpr NNode)
  | [] => []
  | t :: args =>
    let v := Vec.empty.reserve args.length
    let (gs, w) := v.emplaceMany args.length
    slotMaybe NNode.dflt t :: slotsVec NNode.dflt w.gen gs args

/-- `ExprFromProtoImpl` – `common/ast/expr_proto.cc:309-486`.  Every case starts with
`expr.Clear()`.  (An element of a repeated field is never unset.) -/
def fromStep : Stepper PExpr NNode := fun src _l _kids =>
  let cur : List (Cell NNode) := []
  match src with
  | .absent => .ok (finish cur NNode.dflt [])
  | .node ⟨id, k⟩ ks =>
    match k with
    | .notSet => .ok (finish cur ⟨id, .unspecified⟩ [])
    | .const c => .ok (finish cur ⟨id, .const (constFromProto c)⟩ [])
    | .ident n => .ok (finish cur ⟨id, .ident n⟩ [])
    | .select f t => .ok (finish cur ⟨id, .select f t⟩ (ks.map (slotMaybe NNode.dflt)))
    | .call fn => .ok (finish cur ⟨id, .call fn⟩ (callSlots ks))
    | .list idx =>
      .ok (finish cur ⟨id, .list (optFlags idx 0 ks.length)⟩ (ks.map (slotMaybe NNode.dflt)))
    | .create name entries =>
      if name = "" then
        match mapFields entries with
        | .error e => .error e
        | .ok es => .ok (finish cur ⟨id, .map es⟩ (ks.map (slotMaybe NNode.dflt)))
      else
        match structFields entries with
        | .error e => .error e
        | .ok fs =>
          .ok (finish cur ⟨id, .struct name fs⟩ ((values ks).map (slotMaybe NNode.dflt)))
    | .comprehension v v2 a =>
      .ok (finish cur ⟨id, .comprehension v v2 a⟩ (ks.map (slotMaybe NNode.dflt)))

/-! ## Deep copy -/

/-- The slots of a copied call: `resize`, then the address of every element –
`common/expr.cc:57-71`. -/
def copyCallSlots : List NExpr → List (Slot NExpr NNode)
  | [] => []
  | t :: args =>
    let w := Vec.empty.resize args.length
    slotMaybe NNode.dflt t :: slotsVec NNode.dflt w.gen (args.map fun _ => w.gen) args

/-- `CopyNode` – `common/expr.cc:35-131`.  There is no `Clear()` here: the target's own children
are kept (`kids`), which is why the callers only ever pass a default-constructed target.  For a
comprehension `accu_init` is pushed before `iter_range` (`common/expr.cc:105-128`). -/
def copyStep : Stepper NExpr NNode := fun src _l kids =>
  match src with
  | .absent => .ok (finish kids NNode.dflt [])
  | .node ⟨id, k⟩ ks =>
    match k with
    | .unspecified => .ok (finish kids ⟨id, .unspecified⟩ [])
    | .const c => .ok (finish kids ⟨id, .const c⟩ [])
    | .ident n => .ok (finish kids ⟨id, .ident n⟩ [])
    | .select f t => .ok (finish kids ⟨id, .select f t⟩ (ks.map (slotMaybe NNode.dflt)))
    | .call fn => .ok (finish kids ⟨id, .call fn⟩ (copyCallSlots ks))
    | .list opt =>
      .ok (finish kids ⟨id, .list opt⟩ (ks.map (slotAlways NNode.dflt NNode.dflt)))
    | .struct name fields =>
      .ok (finish kids ⟨id, .struct name fields⟩ (ks.map (slotAlways NNode.dflt NNode.dflt)))
    | .map entries =>
      .ok (finish kids ⟨id, .map entries⟩ (ks.map (slotAlways NNode.dflt NNode.dflt)))
    | .comprehension v v2 a =>
      let r := finish kids ⟨id, .comprehension v v2 a⟩ (ks.map (slotMaybe NNode.dflt))
      match ks with
      | [.node lr kr, .node li ki, _, _, _] =>
        .ok ⟨r.label, r.kids, ⟨kids.length + 1, 0, .node li ki⟩ ::
          ⟨kids.length, 0, .node lr kr⟩ :: r.pushes.drop 2⟩
      | _ => .ok r

/-- `ExprToProto(expr, proto)` – `expr_proto.cc:502-506`; `m` is what `*proto` holds before. -/
def exprToProto (e : NExpr) (m : Cell PNode) : Option (Out (Cell PNode)) :=
  run toStep e.size [⟨e, []⟩] m
/-- `ExprFromProto(proto, expr)` – `expr_proto.cc:508-511`. -/
def exprFromProto (p : PExpr) (m : Cell NNode) : Option (Out (Cell NNode)) :=
  run fromStep p.size [⟨p, []⟩] m
/-- `Expr(const Expr&)` – `common/expr.cc:202`: `CloneImpl` into a default-constructed object. -/
def cloneExpr (e : NExpr) : Option (Out (Cell NNode)) :=
  run copyStep e.size [⟨e, []⟩] (.node (0, NNode.dflt) [])

end Cel.Proto
