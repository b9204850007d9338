import Verif.Base

/-!
# The select optimization

`extensions/select_optimization.cc` (the AST rewriter and the optimized step),
`extensions/protobuf/internal/qualify.cc` (`ProtoQualifyState`),
`common/values/parsed_message_value.cc` (`Qualify`, `GetField`, `HasField`), next to the steps they
replace: `eval/eval/select_step.cc` and `eval/eval/container_access_step.cc`.
-/


namespace Cel.Select
open Cel

/-- The type of the keys of a map. -/
inductive KType where
  | bool | i32 | i64 | u32 | u64 | str
  deriving DecidableEq

/-- A map key (`google::protobuf::MapKey`); its width is that of the map. -/
inductive Key where
  | bool (b : Bool)
  | num (i : Int)
  | str (s : String)
  deriving DecidableEq

mutual
/-- A value.  `scal` stands for every value that is no message, no container, no boolean and not null
(a number, string, duration, ...): selecting from it is an error and nothing else is done to it here.
A map is a map field (with the type of its keys) or a JSON object (`KType.str`). -/
inductive Val where
  | scal (n : Nat)
  | bool (b : Bool)
  | null
  | msg (m : Msg)
  | list (l : List Val)
  | map (k : KType) (l : List (Key × Val))
  | error (s : Status)
/-- A message: its type and the fields that are set, by number. -/
inductive Msg where
  | mk (type : String) (set : List (Int × Cont))
/-- What a field holds. -/
inductive Cont where
  | one (e : Elem)
  | rep (l : List Elem)
  | map (l : List (Key × Elem))
inductive Elem where
  | scal (n : Nat)
  | msg (m : Msg)
end

/-- `Descriptor::well_known_type()`, as far as it matters: `wrapper` (`Int64Value`, ...), `time`
(`Duration`, `Timestamp`), `json` (`Struct`, `Value`, `ListValue`), `any`. -/
inductive WK where
  | none | wrapper | time | json | any
  deriving DecidableEq

/-- The type of a singular field, of the elements of a repeated field or of the values of a map;
a scalar type has its default. -/
inductive FT where
  | scalar (dflt : Nat)
  | msg (type : String)
  deriving DecidableEq

inductive Shape where
  | one (t : FT)
  | rep (t : FT)
  | map (k : KType) (t : FT)
  deriving DecidableEq

/-- `FieldDescriptor`.  Extensions are fields like others. -/
structure FDesc where
  number : Int
  name : String
  shape : Shape
  deriving DecidableEq

/-- The descriptor pool and the conversion of well-known messages to values (`Value::WrapMessage`,
`common/value.cc`), of which nothing is assumed here. -/
structure Lib where
  known : String → Bool
  fields : String → List FDesc
  wk : String → WK
  conv : Msg → Val

def Msg.type : Msg → String
  | .mk t _ => t
def Msg.set : Msg → List (Int × Cont)
  | .mk _ s => s

/-- `Descriptor::FindFieldByName` and `FindFieldByNumber`. -/
def byName (L : Lib) (t f : String) : Option FDesc := (L.fields t).find? fun d => d.name == f
def byNumber (L : Lib) (t : String) (n : Int) : Option FDesc := (L.fields t).find? fun d => d.number == n

def lookupCont : List (Int × Cont) → Int → Option Cont
  | [], _ => none
  | (n, c) :: l, i => if n = i then some c else lookupCont l i

def cont (m : Msg) (d : FDesc) : Option Cont := lookupCont m.set d.number

/-- The elements of a repeated field, the entries of a map field; `FieldSize` is their number. -/
def repElems (m : Msg) (d : FDesc) : List Elem :=
  match cont m d with
  | some (.rep l) => l
  | _ => []
def mapEntries (m : Msg) (d : FDesc) : List (Key × Elem) :=
  match cont m d with
  | some (.map l) => l
  | _ => []

/-- `Reflection::GetMessage`: the default instance when the field is not set. -/
def getMessage (m : Msg) (d : FDesc) (t : String) : Msg :=
  match cont m d with
  | some (.one (.msg m')) => m'
  | _ => .mk t []

/-- `ParsedMessageValue::HasField` (`common/values/parsed_message_value.cc` lines 400-409) and
`FieldIsPresent` (`extensions/protobuf/internal/qualify.cc` lines 150-172). -/
def hasField (m : Msg) (d : FDesc) : Bool :=
  match d.shape with
  | .map _ _ => !(mapEntries m d).isEmpty
  | .rep _ => !(repElems m d).isEmpty
  | .one _ => (cont m d).isSome

/-- `Value::WrapMessage`. -/
def wrapMsg (L : Lib) (m : Msg) : Val :=
  if L.wk m.type = .none then .msg m else L.conv m

/-- `Value::WrapRepeatedField` and `Value::WrapMapFieldValue`. -/
def wrapElem (L : Lib) : Elem → Val
  | .scal n => .scal n
  | .msg m => wrapMsg L m

/-- `Value::WrapField` (`common/value.cc` lines 1497-1620); `unsetNull` is
`ProtoWrapperTypeOptions::kUnsetNull`. -/
def wrapField (L : Lib) (unsetNull : Bool) (m : Msg) (d : FDesc) : Val :=
  match d.shape with
  | .map k _ => .map k ((mapEntries m d).map fun e => (e.1, wrapElem L e.2))
  | .rep _ => .list ((repElems m d).map (wrapElem L))
  | .one (.scalar z) =>
    match cont m d with
    | some (.one (.scal n)) => .scal n
    | _ => .scal z
  | .one (.msg t) =>
    if unsetNull = true ∧ L.wk t = .wrapper ∧ (cont m d).isSome = false then .null
    else wrapMsg L (getMessage m d t)

/-! ## Errors -/

def noSuchKey (s : String) : Status := ⟨.notFound, "Key not found in map : " ++ s⟩
def noSuchField (s : String) : Status := ⟨.notFound, "no_such_field : " ++ s⟩
def noOverload (s : String) : Status := ⟨.unknown, "No matching overloads found : " ++ s⟩
def badKeyType : Status := ⟨.invalidArgument, "Invalid map key type"⟩
def selectTarget : Status := ⟨.invalidArgument, "Applying SELECT to non-message type"⟩
def badContainer : Status := ⟨.invalidArgument, "Invalid container type"⟩
def indexType : Status := ⟨.unknown, "Index error: expected integer type"⟩
def indexRange : Status := ⟨.unknown, "Index error"⟩
def outOfBounds : Status := ⟨.invalidArgument, "index out of bounds"⟩
def negativeIndex : Status := ⟨.invalidArgument, "list index less than 0"⟩
def int32Overflow : Status := ⟨.outOfRange, "integer overflow"⟩
def uint32Overflow : Status := ⟨.outOfRange, "unsigned integer overflow"⟩
def expectedStruct : Status := ⟨.invalidArgument, "Expected struct type for select optimization."⟩
def dynamicAccess : Status := ⟨.unimplemented, "dynamic field access on message not supported"⟩
def strongAccess : Status := ⟨.unimplemented, "strong field access on container not supported"⟩
def intermediate : Status := ⟨.internal, "Unexpected qualify intermediate type"⟩
def forcedFallback : Status := ⟨.unimplemented, "Forced fallback impl"⟩
def emptyPath : Status := ⟨.invalidArgument, "invalid select qualifier path."⟩

def isError : Val → Bool
  | .error _ => true
  | _ => false

/-! ## Lookups in containers -/

/-- `cel::AttributeQualifier` as the optimizer makes it, and the map keys lookups are done with. -/
inductive AQ where
  | int (i : Int)
  | uint (i : Int)
  | bool (b : Bool)
  | str (s : String)
  deriving DecidableEq

/-- The constant of an index expression.  A double comes with its lossless conversions to `int` and
`uint` (`internal/number.h`; that they are lossless is C12). -/
inductive Const where
  | int (i : Int)
  | uint (i : Int)
  | bool (b : Bool)
  | str (s : String)
  | dbl (toInt toUint : Option Int)
  deriving DecidableEq

def keyInRange : KType → Int → Bool
  | .i32, i => decide (-(2 ^ 31) ≤ i ∧ i ≤ 2 ^ 31 - 1)
  | .i64, i => decide (-(2 ^ 63) ≤ i ∧ i ≤ 2 ^ 63 - 1)
  | .u32, i => decide (0 ≤ i ∧ i ≤ 2 ^ 32 - 1)
  | .u64, i => decide (0 ≤ i ∧ i ≤ 2 ^ 64 - 1)
  | _, _ => false

/-- `ValueToProtoMapKey` (`common/values/parsed_map_field_value.cc` lines 187-310), for the keys the
steps look up (no doubles). -/
def protoKey (k : KType) : AQ → Option Key
  | .bool b => if k = .bool then some (.bool b) else none
  | .str s => if k = .str then some (.str s) else none
  | .int i => if keyInRange k i then some (.num i) else none
  | .uint i => if keyInRange k i then some (.num i) else none

def lookupKey : List (Key × Val) → Key → Option Val
  | [], _ => none
  | (k, v) :: l, key => if k = key then some v else lookupKey l key

/-- `MapValue::Find` of a map field (`common/values/parsed_map_field_value.cc` lines 327-370) or a JSON
object (`common/values/parsed_json_map_value.cc` lines 226-256). -/
def find (k : KType) (l : List (Key × Val)) (q : AQ) : Option Val :=
  match protoKey k q with
  | none => none
  | some key => lookupKey l key

def keyText : AQ → String
  | .int i => toString i
  | .uint i => toString i ++ "u"
  | .bool b => toString b
  | .str s => s

/-- `MapValue::Get` (`common/values/parsed_map_field_value.cc` lines 314-325). -/
def get (k : KType) (l : List (Key × Val)) (q : AQ) : Val :=
  match find k l q with
  | some v => v
  | none => .error (noSuchKey (keyText q))

def i64Last : Int := 2 ^ 63 - 1

/-- `LookupInMap` (`eval/eval/container_access_step.cc` lines 91-157); `het` is
`enable_heterogeneous_equality`. -/
def lookupInMap (het : Bool) (k : KType) (l : List (Key × Val)) (c : Const) : Val :=
  match het, c with
  | true, .uint i =>
    match find k l (.uint i) with
    | some v => v
    | none =>
      match (if i ≤ i64Last then find k l (.int i) else none) with
      | some v => v
      | none => get k l (.uint i)
  | true, .int i =>
    match find k l (.int i) with
    | some v => v
    | none =>
      match (if 0 ≤ i then find k l (.uint i) else none) with
      | some v => v
      | none => .error (noSuchKey (keyText (.int i)))
  | true, .dbl a b =>
    match a.bind fun i => find k l (.int i) with
    | some v => v
    | none =>
      match b.bind fun i => find k l (.uint i) with
      | some v => v
      | none => .error (noSuchKey "")
  | false, .dbl _ _ => .error badKeyType
  | false, .int i => get k l (.int i)
  | false, .uint i => get k l (.uint i)
  | _, .bool b => get k l (.bool b)
  | _, .str s => get k l (.str s)

/-- The index of `LookupInList` (`eval/eval/container_access_step.cc` lines 159-175). -/
def listIndex (het : Bool) : Const → Option Int
  | .int i => some i
  | .uint i => if het = true ∧ i ≤ i64Last then some i else none
  | .dbl a _ => if het = true then a else none
  | _ => none

/-- The rest of `LookupInList` (lines 176-202). -/
def lookupInList (het : Bool) (l : List Val) (c : Const) : Val :=
  match listIndex het c with
  | none => .error indexType
  | some i =>
    if i < 0 ∨ i ≥ l.length then .error indexRange
    else
      match l[i.toNat]? with
      | some v => v
      | none => .error outOfBounds

/-- `PerformLookup` and `LookupInContainer` (`eval/eval/container_access_step.cc` lines 204-268), for
a constant key, without unknowns and optional values. -/
def indexStep (het : Bool) (v : Val) (c : Const) : Val :=
  match v with
  | .error s => .error s
  | .map k l => lookupInMap het k l c
  | .list l => lookupInList het l c
  | _ => .error badContainer

/-- `SelectStep::Evaluate` and `DirectSelectStep` (`eval/eval/select_step.cc` lines 133-235), without
unknowns and optional values; `GetFieldByName`, `HasFieldByName`
(`common/values/parsed_message_value.cc` lines 177-238). -/
def selectStep (L : Lib) (unsetNull : Bool) (v : Val) (f : String) (test : Bool) : Val :=
  match v with
  | .error s => .error s
  | .map k l => if test then .bool (find k l (.str f)).isSome else get k l (.str f)
  | .msg m =>
    match byName L m.type f with
    | none => .error (noSuchField f)
    | some d => if test then .bool (hasField m d) else wrapField L unsetNull m d
  | _ => .error selectTarget

/-! ## The optimized traversal -/

/-- `cel::SelectQualifier`. -/
inductive SQ where
  | field (number : Int) (name : String)
  | attr (q : AQ)
  deriving DecidableEq

/-- `static_cast` to `int` of an `int64_t`. -/
def toInt32 (i : Int) : Int := (i + 2 ^ 31) % 2 ^ 32 - 2 ^ 31

/-- `ApplyQualifier` (`extensions/select_optimization.cc` lines 269-309) with
`ListIndexFromQualifier` and `MapKeyFromQualifier`. -/
def applyQualifier (L : Lib) (v : Val) : SQ → Val
  | .field _ f =>
    match v with
    | .msg m =>
      match byName L m.type f with
      | none => .error (noSuchField f)
      | some d => wrapField L true m d
    | _ => .error (noOverload "<select>")
  | .attr q =>
    match v with
    | .list l =>
      match q with
      | .int i =>
        if i < 0 then .error negativeIndex
        else
          match l[i.toNat]? with
          | some v => v
          | none => .error outOfBounds
      | _ => .error (noOverload "_[_]")
    | .map k l => get k l q
    | _ => .error (noOverload "_[_]")

/-- The presence test of `FallbackSelect` (`extensions/select_optimization.cc` lines 334-362). -/
def fallbackHas (L : Lib) (v : Val) : SQ → Res Val
  | .field _ f =>
    match v with
    | .msg m =>
      match byName L m.type f with
      | none => .err (noSuchField f)
      | some d => .ok (.bool (hasField m d))
    | _ => .ok (.error (noOverload "<select>"))
  | .attr q =>
    match v, q with
    | .map k l, .str s => .ok (.bool (find k l (.str s)).isSome)
    | _, _ => .ok (.error (noOverload "has"))

/-- `FallbackSelect` (`extensions/select_optimization.cc` lines 311-366). -/
def fallback (L : Lib) (test : Bool) : Val → List SQ → Res Val
  | _, [] => .ub
  | v, [q] => if test then fallbackHas L v q else .ok (applyQualifier L v q)
  | v, q :: p =>
    match applyQualifier L v q with
    | .error s => .ok (.error s)
    | w => fallback L test w p

/-- State of `ProtoQualifyState`: the message and, in a container, the field. -/
structure QS where
  msg : Msg
  rep : Option FDesc

/-- What one step does: go on, set a result, or return a status. -/
inductive Step where
  | next (s : QS)
  | result (v : Val)
  | status (s : Status)

/-- `IsUnsupportedQualifyType` (`extensions/protobuf/internal/qualify.cc` lines 61-71). -/
def unsupported (L : Lib) (t : String) : Bool :=
  match L.wk t with
  | .json => true
  | .any => true
  | _ => false

/-- `MatchesMapKeyType` and `LookupMapValue` (`extensions/protobuf/internal/qualify.cc` lines 76-148). -/
def mapKeyOf (k : KType) (q : AQ) : Res Key :=
  match k, q with
  | .bool, .bool b => .ok (.bool b)
  | .i32, .int i => if i > 2 ^ 31 - 1 ∨ i < -(2 ^ 31) then .err int32Overflow else .ok (.num i)
  | .i64, .int i => .ok (.num i)
  | .u32, .uint i => if i > 2 ^ 32 - 1 then .err uint32Overflow else .ok (.num i)
  | .u64, .uint i => .ok (.num i)
  | .str, .str s => .ok (.str s)
  | _, _ => .err badKeyType

def lookupElem : List (Key × Elem) → Key → Option Elem
  | [], _ => none
  | (k, v) :: l, key => if k = key then some v else lookupElem l key

/-- `CheckMapIndex` (`extensions/protobuf/internal/qualify.cc` lines 331-350). -/
def checkMapIndex (m : Msg) (d : FDesc) (k : KType) (q : AQ) : Res Elem :=
  match mapKeyOf k q with
  | .ok key =>
    match lookupElem (mapEntries m d) key with
    | some e => .ok e
    | none => .err (noSuchKey (keyText q))
  | .err s => .err s
  | .ub => .ub

/-- `CheckListIndex` (`extensions/protobuf/internal/qualify.cc` lines 288-302): the index is converted
to `int` before it is compared with the size. -/
def checkListIndex (m : Msg) (d : FDesc) (q : AQ) : Res Elem :=
  match q with
  | .int i =>
    if toInt32 i < 0 ∨ toInt32 i ≥ (repElems m d).length then .err outOfBounds
    else
      match (repElems m d)[(toInt32 i).toNat]? with
      | some e => .ok e
      | none => .err outOfBounds
  | _ => .err (noOverload "_[_]")

/-- `ApplyFieldSpecifier` (`extensions/protobuf/internal/qualify.cc` lines 257-286). -/
def applyField (L : Lib) (m : Msg) (n : Int) (f : String) : Step :=
  match byNumber L m.type n with
  | none => .result (.error (noSuchField f))
  | some d =>
    match d.shape with
    | .rep _ => .next ⟨m, some d⟩
    | .map _ _ => .next ⟨m, some d⟩
    | .one (.scalar _) => .result (wrapField L true m d)
    | .one (.msg t) =>
      if unsupported L t then .result (wrapField L true m d) else .next ⟨getMessage m d t, none⟩

/-- `ApplyAttributeQualifer` with `ApplyAttributeQualifierList` and `ApplyAttributeQualifierMap`
(`extensions/protobuf/internal/qualify.cc` lines 304-329, 352-393). -/
def applyAttr (L : Lib) (m : Msg) (d : FDesc) (q : AQ) : Step :=
  match d.shape with
  | .rep (.scalar _) => .status intermediate
  | .one _ => .status intermediate
  | .rep (.msg t) =>
    match checkListIndex m d q with
    | .err s => .result (.error s)
    | .ok e =>
      match e with
      | .msg m' => if unsupported L t then .result (wrapElem L e) else .next ⟨m', none⟩
      | .scal _ => .status intermediate
    | .ub => .status intermediate
  | .map k t =>
    match checkMapIndex m d k q with
    | .err s => .result (.error s)
    | .ok e =>
      match t, e with
      | .msg t', .msg m' => if unsupported L t' then .result (wrapElem L e) else .next ⟨m', none⟩
      | _, _ => .result (wrapElem L e)
    | .ub => .status intermediate

/-- `ApplySelectQualifier` (`extensions/protobuf/internal/qualify.cc` lines 176-195). -/
def applySelectQualifier (L : Lib) (s : QS) : SQ → Step
  | .attr q =>
    match s.rep with
    | none => .status dynamicAccess
    | some d => applyAttr L s.msg d q
  | .field n f =>
    match s.rep with
    | some _ => .status strongAccess
    | none => applyField L s.msg n f

/-- `ApplyLastQualifierHas` and `MapHas` (`extensions/protobuf/internal/qualify.cc` lines 197-230,
395-411); the field specifier is applied to the message even in a container. -/
def lastHas (L : Lib) (s : QS) : SQ → Res Val
  | .attr q =>
    match q, s.rep with
    | .str f, some d =>
      match d.shape with
      | .map k _ =>
        match mapKeyOf k (.str f) with
        | .ok key => .ok (.bool (lookupElem (mapEntries s.msg d) key).isSome)
        | .err e => .ok (.error e)
        | .ub => .ub
      | _ => .ok (.error (noOverload "has"))
    | _, _ => .ok (.error (noOverload "has"))
  | .field n f =>
    match byNumber L s.msg.type n with
    | none => .ok (.error (noSuchField f))
    | some d => .ok (.bool (hasField s.msg d))

/-- `ApplyLastQualifierGet` with `ApplyLastQualifierMessageGet`, `ApplyLastQualifierGetList` and
`ApplyLastQualifierGetMap` (`extensions/protobuf/internal/qualify.cc` lines 232-255, 413-457). -/
def lastGet (L : Lib) (s : QS) : SQ → Res Val
  | .attr q =>
    match s.rep with
    | none => .err dynamicAccess
    | some d =>
      match d.shape with
      | .map k _ =>
        match checkMapIndex s.msg d k q with
        | .err e => .ok (.error e)
        | .ok e => .ok (wrapElem L e)
        | .ub => .ub
      | _ =>
        match checkListIndex s.msg d q with
        | .err e => .ok (.error e)
        | .ok e => .ok (wrapElem L e)
        | .ub => .ub
  | .field n f =>
    match s.rep with
    | some _ => .err strongAccess
    | none =>
      match byNumber L s.msg.type n with
      | none => .ok (.error (noSuchField f))
      | some d => .ok (wrapField L true s.msg d)

/-- The loop of `ParsedMessageValue::Qualify` (`common/values/parsed_message_value.cc` lines 337-376):
the result and how many qualifiers it has used, -1 for all. -/
def qualifyLoop (L : Lib) (test : Bool) : QS → Nat → List SQ → Res (Val × Int)
  | _, _, [] => .err emptyPath
  | s, _, [q] => (if test then lastHas L s q else lastGet L s q).bind fun v => .ok (v, -1)
  | s, i, q :: p =>
    match applySelectQualifier L s q with
    | .status e => .err e
    | .result v => .ok (v, if isError v then -1 else (i : Int) + 1)
    | .next s' => qualifyLoop L test s' (i + 1) p

/-- `OptimizedSelectImpl::ApplySelect` (`extensions/select_optimization.cc` lines 630-660); `force` is
`force_fallback_implementation`. -/
def applySelect (L : Lib) (force : Bool) (m : Msg) (p : List SQ) (test : Bool) : Res Val :=
  match (if force then .err forcedFallback else qualifyLoop L test ⟨m, none⟩ 0 p) with
  | .err s => if s.code = .unimplemented then fallback L test (.msg m) p else .err s
  | .ub => .ub
  | .ok (v, n) =>
    if n < 0 ∨ n ≥ p.length then .ok v else fallback L test v (p.drop n.toNat)

/-- `StackMachineImpl::Evaluate` and `RecursiveImpl::Evaluate` (`extensions/select_optimization.cc`
lines 701-742, 768-794), without attribute tracking (see `Marks.lean`). -/
def attributeStep (L : Lib) (force : Bool) (v : Val) (p : List SQ) (test : Bool) : Res Val :=
  match v with
  | .error s => .ok (.error s)
  | .msg m => applySelect L force m p test
  | _ => .err expectedStruct

/-! ## The rewriter -/

/-- The type the checker gave to the operand of a select, as far as the rewriter looks. -/
inductive OType where
  | message (t : String)
  | map
  | other
  deriving DecidableEq

/-- Expressions: `select` (with the checked type of its operand), `_[_]` with a constant index, the
call the rewriter makes (`cel.@attribute`, or `cel.@hasField` when `test`), and everything else: `leaf`
without and `node` with subexpressions.  The first component of `select` and `index` is the entry of
`candidates_` for that node. -/
inductive Expr where
  | leaf (n : Nat)
  | select (c : Option SQ) (t : OType) (e : Expr) (f : String) (test : Bool)
  | index (c : Option SQ) (e : Expr) (k : Const)
  | node (n : Nat) (args : List Expr)
  | attr (e : Expr) (path : List SQ) (test : Bool)

/-- `RewriterImpl::PreVisitSelect` (`extensions/select_optimization.cc` lines 404-430). -/
def candSelect (L : Lib) (t : OType) (f : String) : Option SQ :=
  match t with
  | .message t =>
    if L.known t then (byName L t f).map fun d => .field d.number d.name else none
  | .map => some (.attr (.str f))
  | .other => none

/-- `SelectInstructionFromConstant` (`extensions/select_optimization.cc` lines 191-212), for
`RewriterImpl::PreVisitCall`. -/
def candIndex : Const → Option SQ
  | .int i => some (.attr (.int i))
  | .uint i => some (.attr (.uint i))
  | .bool b => some (.attr (.bool b))
  | .str s => some (.attr (.str s))
  | .dbl (some i) _ => some (.attr (.int i))
  | .dbl none (some i) => some (.attr (.uint i))
  | .dbl none none => none

mutual
/-- The visits before the children: every candidate is entered in `candidates_`. -/
def mark (L : Lib) : Expr → Expr
  | .leaf n => .leaf n
  | .select _ t e f test => .select (candSelect L t f) t (mark L e) f test
  | .index _ e k => .index (candIndex k) (mark L e) k
  | .node n args => .node n (markAll L args)
  | .attr e p t => .attr (mark L e) p t
def markAll (L : Lib) : List Expr → List Expr
  | [] => []
  | e :: l => mark L e :: markAll L l
end

/-- `candidates_.find`. -/
def cand : Expr → Option SQ
  | .select c _ _ _ _ => c
  | .index c _ _ => c
  | _ => none

/-- `RewriterImpl::HasOptimizeableRoot` (`extensions/select_optimization.cc` lines 509-530). -/
def hasRoot (e : Expr) : SQ → Bool
  | .field _ _ => true
  | .attr _ =>
    match e with
    | .select _ _ o _ _ => (cand o).isSome
    | .index _ o _ => (cand o).isSome
    | _ => false

/-- `candidates_.erase`. -/
def erase : Expr → Expr
  | .select _ t e f test => .select none t e f test
  | .index _ e k => .index none e k
  | e => e

/-- `RewriterImpl::GetSelectPath` (`extensions/select_optimization.cc` lines 485-507), the path in the
order of evaluation. -/
def getPath : Expr → List SQ × Expr × Bool
  | .select (some q) _ e _ test =>
    let r := getPath e
    (r.1 ++ [q], r.2.1, test || r.2.2)
  | .index (some q) e _ =>
    let r := getPath e
    (r.1 ++ [q], r.2.1, r.2.2)
  | e => ([], e, false)

/-- `RewriterImpl::PostVisitRewrite` (`extensions/select_optimization.cc` lines 449-483);
`parent`: the parent is a candidate. -/
def postVisit (parent : Bool) (e : Expr) : Expr :=
  match cand e with
  | none => e
  | some q =>
    if hasRoot e q = false then erase e
    else if parent then e
    else
      let r := getPath e
      .attr r.2.1 r.1 r.2.2

mutual
/-- `AstRewrite` (`common/ast_rewrite.cc` lines 358-389): children first.  Nodes that are rewritten
keep their entry in `candidates_` in the code; their parents are no candidates, so nobody looks. -/
def visit (parent : Bool) : Expr → Expr
  | .leaf n => .leaf n
  | .select c t e f test => postVisit parent (.select c t (visit c.isSome e) f test)
  | .index c e k => postVisit parent (.index c (visit c.isSome e) k)
  | .node n args => .node n (visitAll args)
  | .attr e p t => .attr (visit false e) p t
def visitAll : List Expr → List Expr
  | [] => []
  | e :: l => visit false e :: visitAll l
end

/-- `SelectOptimizationAstUpdater::UpdateAst` (`extensions/select_optimization.cc` lines 920-926). -/
def rewrite (L : Lib) (e : Expr) : Expr := visit false (mark L e)

/-! ## Evaluation -/

/-- What evaluation depends on: the leaves, the other operations (on the outcomes of their
arguments, so they may absorb errors), and two runtime options. -/
structure Env where
  leaf : Nat → Res Val
  node : Nat → List (Res Val) → Res Val
  het : Bool
  unsetNull : Bool
  force : Bool

mutual
/-- Evaluation of an expression, plain or rewritten. -/
def eval (L : Lib) (N : Env) : Expr → Res Val
  | .leaf n => N.leaf n
  | .select _ _ e f test => (eval L N e).bind fun v => .ok (selectStep L N.unsetNull v f test)
  | .index _ e k => (eval L N e).bind fun v => .ok (indexStep N.het v k)
  | .node n args => N.node n (evalAll L N args)
  | .attr e p test => (eval L N e).bind fun v => attributeStep L N.force v p test
def evalAll (L : Lib) (N : Env) : List Expr → List (Res Val)
  | [] => []
  | e :: l => eval L N e :: evalAll L N l
end

end Cel.Select
