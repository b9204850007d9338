import Verif.Data.Equal
import Verif.Eval.Expr
import Verif.Eval.Dispatch

/-!
# Steps on data: `==`, `in`, indexing, selection, list and map construction

The iterative (stack machine) versions.  Protobuf messages are represented by two functions in
`StepCfg` that read a field.  `enable_heterogeneous_equality` is on (its default).
-/

namespace Cel.Data
open Cel Cel.Num Cel.Eval

/-- What the steps read from the runtime options, the activation and the type system. -/
structure StepCfg where
  /-- `unknown_processing != kDisabled` -/
  unknowns : Bool
  /-- `enable_missing_attribute_errors` -/
  missing : Bool
  /-- optional types are enabled -/
  optionals : Bool
  pats : List Pattern
  missingPats : List Pattern
  /-- `Value::DebugString` (any function) -/
  debugString : Value → String
  /-- `Value::GetTypeName` (any function) -/
  typeName : Value → String
  /-- `StructValue::GetFieldByName` (any function) -/
  structGet : String → Nat → String → Res Value
  /-- `StructValue::HasFieldByName` (any function) -/
  structHas : String → Nat → String → Res Bool

/-- `Accumulator::MaybeAdd(value, trail)` (`eval/eval/attribute_utility.cc` lines 240-247);
`none` is an accumulator for which `IsEmpty()`. -/
def maybeAdd (pats : List Pattern) (acc : Option UnknownSet) (x : VA) : Option UnknownSet :=
  match x.v with
  | .unknown u =>
    let c := acc.getD ⟨[], []⟩
    some ⟨attrUnion c.attrs u.attrs, fnUnion c.fns u.fns⟩
  | _ =>
    match (if checkUnknown pats x.t true = true then x.t else none) with
    | some a =>
      let c := acc.getD ⟨[], []⟩
      some ⟨attrUnion c.attrs [a], c.fns⟩
    | none => acc

/-- `Accumulator::MaybeAdd(value)` (`eval/eval/attribute_utility.cc` lines 234-238). -/
def maybeAddV (acc : Option UnknownSet) (v : Value) : Option UnknownSet :=
  match v with
  | .unknown u =>
    let c := acc.getD ⟨[], []⟩
    some ⟨attrUnion c.attrs u.attrs, fnUnion c.fns u.fns⟩
  | _ => acc

/-- `AttributeUtility::CheckForUnknowns` (`eval/eval/attribute_utility.cc` lines 153-164). -/
def checkForUnknowns (pats : List Pattern) (usePartial : Bool) : List VA → List Attr → List Attr
  | [], acc => acc
  | x :: xs, acc =>
    match (if checkUnknown pats x.t usePartial = true then x.t else none) with
    | some a => checkForUnknowns pats usePartial xs (attrUnion acc [a])
    | none => checkForUnknowns pats usePartial xs acc

/-- `AttributeUtility::IdentifyAndMergeUnknowns` (`eval/eval/attribute_utility.cc` lines 172-199). -/
def identifyAndMerge (pats : List Pattern) (usePartial : Bool) (xs : List VA) : Option UnknownSet :=
  let attrs := checkForUnknowns pats usePartial xs []
  let args := mergeUnknowns (xs.map VA.v)
  if attrs = [] then args
  else match args with
    | some u => some ⟨attrUnion attrs u.attrs, fnUnion [] u.fns⟩
    | none => some ⟨attrs, []⟩

/-- `EvaluateEquality` (`eval/eval/equality_steps.cc` lines 48-77). -/
def eqEval (c : StepCfg) (neg : Bool) (l r : VA) : Value :=
  match l.v, r.v with
  | .error e, _ => .error e
  | _, .error e => .error e
  | _, _ =>
    match (if c.unknowns then maybeAdd c.pats (maybeAdd c.pats none l) r else none) with
    | some u => .unknown u
    | none =>
      match valueEqual l.v r.v with
      | none => .error (noOverload (if neg then "_!=_" else "_==_"))
      | some b => .bool (if neg then !b else b)

/-- `IterativeEqualityStep::Evaluate` (`eval/eval/equality_steps.cc` lines 113-128). -/
def eqStep (c : StepCfg) (neg : Bool) : List VA → Res VA
  | [l, r] => .ok ⟨eqEval c neg l r, none⟩
  | _ => .err ⟨.internal, "Value stack underflow"⟩

/-- `number.LosslessConvertibleToInt()` and `Has(IntValue(number.AsInt()))`
(`eval/eval/equality_steps.cc` lines 161-168). -/
def hasInt (m : List (Value × Value)) (n : Number) : Bool :=
  match losslessInt n with
  | some i => mapHas m (.int i)
  | none => false

/-- `number.LosslessConvertibleToUint()` and `Has(UintValue(number.AsUint()))`
(`eval/eval/equality_steps.cc` lines 175-182). -/
def hasUint (m : List (Value × Value)) (n : Number) : Bool :=
  match losslessUint n with
  | some i => mapHas m (.uint i)
  | none => false

/-- `EvaluateInMap` (`eval/eval/equality_steps.cc` lines 134-183).  `Has` on a `double` key yields
an error value, which is not true, so the search goes on. -/
def inMap (item : Value) (m : List (Value × Value)) : Value :=
  match item with
  | .bool _ | .str _ => .bool (mapHas m item)
  | .int i => .bool (mapHas m item || hasUint m (.int i))
  | .uint i => .bool (mapHas m item || hasInt m (.uint i))
  | .dbl d => .bool (hasInt m (.dbl d) || hasUint m (.dbl d))
  | _ => .error (noOverload "@in")

/-- The registered `@in` overloads on maps, used when `enable_fast_builtins` is off
(`runtime/standard/container_membership_functions.cc` lines 165-289, heterogeneous equality on).
`uintKeyInSet` (lines 235-260) stores the second lookup in `has_alt` but then tests `has` again. -/
def inMapFn (item : Value) (m : List (Value × Value)) : Value :=
  match item with
  | .bool _ | .str _ => .bool (mapHas m item)
  | .int i => .bool (mapHas m item || hasUint m (.int i))
  | .uint _ => .bool (mapHas m item)
  | .dbl d => .bool (hasInt m (.dbl d) || hasUint m (.dbl d))
  | _ => .error (noOverload "@in")

/-- `EvaluateIn` (`eval/eval/equality_steps.cc` lines 185-216). -/
def inEval (c : StepCfg) (item cont : VA) : Value :=
  match item.v, cont.v with
  | .error e, _ => .error e
  | _, .error e => .error e
  | _, _ =>
    match (if c.unknowns then maybeAdd c.pats (maybeAdd c.pats none item) cont else none) with
    | some u => .unknown u
    | none =>
      match cont.v with
      | .list l => .bool (listContains l item.v)
      | .map m => inMap item.v m
      | _ => .error (noOverload "@in")

/-- `IterativeInStep::Evaluate` (`eval/eval/equality_steps.cc` lines 250-264). -/
def inStep (c : StepCfg) : List VA → Res VA
  | [item, cont] => .ok ⟨inEval c item cont, none⟩
  | _ => .err ⟨.internal, "Value stack underflow"⟩

/-- `InvalidMapKeyTypeError` (`common/values/map_value.cc` lines 41-44, also
`eval/eval/container_access_step.cc` `CheckMapKeyType` lines 62-74). -/
def badKeyKind (k : Value) : Status :=
  ⟨.invalidArgument, "Invalid map key type: '" ++ kindName k.kind ++ "'"⟩

/-- `LookupInMap` (`eval/eval/container_access_step.cc` lines 91-151). -/
def lookupInMap (c : StepCfg) (m : List (Value × Value)) (key : Value) : Value :=
  match numOf key with
  | some n =>
    match (if isUint key then mapFind m key else none) with
    | some v => v
    | none =>
      match findInt m n with
      | some v => v
      | none =>
        match findUint m n with
        | some v => v
        | none => .error (noSuchKey (c.debugString key))
  | none =>
    if keyKind key then
      match mapFind m key with
      | some v => v
      | none => .error (noSuchKey (c.debugString key))
    else .error (badKeyKind key)

/-- The index errors of `LookupInList` (`eval/eval/container_access_step.cc` lines 165-183). -/
def indexTypeError (k : Value) : Status :=
  ⟨.unknown, "Index error: expected integer type, got " ++ kindName k.kind⟩
def indexRangeError (i : Int) (size : Nat) : Status :=
  ⟨.unknown, "Index error: index=" ++ toString i ++ " size=" ++ toString size⟩

/-- `LookupInList` (`eval/eval/container_access_step.cc` lines 153-194). -/
def lookupInList (l : List Value) (key : Value) : Value :=
  match (match numOf key with | some n => losslessInt n | none => none) with
  | none => .error (indexTypeError key)
  | some i =>
    if i < 0 ∨ i ≥ l.length then .error (indexRangeError i l.length)
    else match l[i.toNat]? with
      | some v => v
      | none => .error (indexRangeError i l.length)

/-- `LookupInContainer` (`eval/eval/container_access_step.cc` lines 196-215). -/
def lookupIn (c : StepCfg) (cont key : Value) : Value :=
  match cont with
  | .map m => lookupInMap c m key
  | .list l => lookupInList l key
  | _ => .error ⟨.invalidArgument, "Invalid container type: '" ++ kindName cont.kind ++ "'"⟩

/-- `IsNoSuchKey` (`common/values/error_value.cc` lines 96-100). -/
def isNoSuchKey (s : Status) : Bool :=
  decide (s.code = .notFound) && "Key not found in map".toList.isPrefixOf s.msg.toList

/-- `AttributeQualifierFromValue` (`eval/eval/container_access_step.cc` lines 76-89) is `qualOf`. -/
def indexTrail (c : StepCfg) (cont key : VA) : Trail :=
  if c.unknowns then cont.t.step (qualOf key.v) else none

/-- `PerformLookup` (`eval/eval/container_access_step.cc` lines 217-273). -/
def indexEval (c : StepCfg) (cont key : VA) : VA :=
  match (if c.unknowns then maybeAddV (maybeAddV none cont.v) key.v else none) with
  | some u => ⟨.unknown u, none⟩
  | none =>
    let t := indexTrail c cont key
    match (if c.unknowns ∧ checkUnknown c.pats t false = true then t else none) with
    | some a => ⟨.unknown (unknownOf a), t⟩
    | none =>
      match cont.v, key.v with
      | .error e, _ => ⟨.error e, t⟩
      | _, .error e => ⟨.error e, t⟩
      | .opt o, k =>
        if c.optionals then
          match o with
          | none => ⟨.opt none, t⟩
          | some v =>
            match lookupIn c v k with
            | .error e => if isNoSuchKey e then ⟨.opt none, t⟩ else ⟨.opt (some (.error e)), t⟩
            | w => ⟨.opt (some w), t⟩
        else ⟨lookupIn c (.opt o) k, t⟩
      | v, k => ⟨lookupIn c v k, t⟩

/-- `ContainerAccessStep::Evaluate` (`eval/eval/container_access_step.cc` lines 289-309). -/
def indexStep (c : StepCfg) : List VA → Res VA
  | [cont, key] => .ok (indexEval c cont key)
  | _ => .err ⟨.internal, "Insufficient arguments supplied for ContainerAccess-type expression"⟩

/-- `InvalidSelectTargetError` (`eval/eval/select_step.cc` lines 48-51). -/
def badSelectTarget : Status := ⟨.invalidArgument, "Applying SELECT to non-message type"⟩

/-- `CheckForMarkedAttributes` (`eval/eval/select_step.cc` lines 53-76). -/
def markedAttribute (c : StepCfg) (t : Trail) : Option Value :=
  match t with
  | none => none
  | some a =>
    if c.unknowns ∧ checkUnknown c.pats t false = true then some (.unknown (unknownOf a))
    else if c.missing ∧ checkMissing c.missingPats t = true then
      match a.asString with
      | some p => some (.error (missingAttribute p))
      | none => some (.error ⟨.invalidArgument, "Only ident rooted attributes are supported."⟩)
    else none

/-- A status turned into an error value, as in `if (!status.ok()) result = ErrorValue(status)`. -/
def orError (r : Res Value) : Res Value :=
  match r with
  | .err e => .ok (.error e)
  | r => r

/-- `MapValue::Get` with the field name (`common/values/custom_map_value.cc` lines 621-645). -/
def getField (c : StepCfg) (m : List (Value × Value)) (f : String) : Value :=
  match mapFind m (.str f) with
  | some v => v
  | none => .error (noSuchKey (c.debugString (.str f)))

/-- `SelectStep::PerformTestOnlySelect` (`eval/eval/select_step.cc` lines 245-267) with
`TestOnlySelect` (lines 78-108). -/
def testOnlySelect (c : StepCfg) (f : String) : Value → Res Value
  | .map m => .ok (.bool (mapHas m (.str f)))
  | .struct n i => match c.structHas n i f with
    | .ok b => .ok (.bool b)
    | .err e => .ok (.error e)
    | .ub => .ub
  | _ => .err badSelectTarget

/-- `SelectStep::PerformSelect` (`eval/eval/select_step.cc` lines 269-299): `none` is "not found". -/
def performSelect (c : StepCfg) (f : String) : Value → Res (Option Value)
  | .struct n i => do
    let has ← c.structHas n i f
    if has then
      let v ← c.structGet n i f
      return some v
    else return none
  | .map m => .ok (mapFind m (.str f))
  | _ => .err badSelectTarget

/-- `SelectStep::Evaluate` (`eval/eval/select_step.cc` lines 140-243). -/
def selectEval (c : StepCfg) (f : String) (testOnly : Bool) (x : VA) : Res VA :=
  match x.v with
  | .unknown _ => .ok x
  | .error _ => .ok x
  | arg =>
    let t : Trail := if c.unknowns ∨ c.missing then x.t.step (.str f) else none
    let optArg : Option (Option Value) := match arg with
      | .opt o => if c.optionals then some o else none
      | _ => none
    match optArg with
    | some o =>
      match markedAttribute c t with
      | some v => .ok ⟨v, t⟩
      | none =>
        if testOnly then
          match o with
          | none => .ok ⟨.bool false, none⟩
          | some v => do return ⟨← testOnlySelect c f v, none⟩
        else
          match o with
          | none => .ok x
          | some v => do
            match ← performSelect c f v with
            | none => return ⟨.opt none, t⟩
            | some w => return ⟨.opt (some w), t⟩
    | none =>
      match arg with
      | .map m =>
        match markedAttribute c t with
        | some v => .ok ⟨v, t⟩
        | none =>
          if testOnly then do return ⟨← testOnlySelect c f (.map m), none⟩
          else .ok ⟨getField c m f, t⟩
      | .struct n i =>
        match markedAttribute c t with
        | some v => .ok ⟨v, t⟩
        | none =>
          if testOnly then do return ⟨← testOnlySelect c f (.struct n i), none⟩
          else do return ⟨← orError (c.structGet n i f), t⟩
      | _ => .ok ⟨.error badSelectTarget, t⟩

def selectStep (c : StepCfg) (f : String) (testOnly : Bool) : List VA → Res VA
  | [x] => selectEval c f testOnly x
  | _ => .err ⟨.internal, "No arguments supplied for Select-type expression"⟩

/-- `CheckListElement` / `CheckMapValue` (`common/values/value_builder.cc` lines 69-78, 634-643). -/
def checkElement : Value → Option Status
  | .error e => some e
  | .unknown _ => some ⟨.invalidArgument, "cannot add unknown value to list"⟩
  | _ => none

/-- `TypeConversionError` (`common/values/error_value.cc` lines 72-75). -/
def typeConversionError (fromTy toTy : String) : Status :=
  ⟨.invalidArgument, "type conversion error from '" ++ fromTy ++ "' to '" ++ toTy ++ "'"⟩

/-- The element loop of `CreateListStep::DoEvaluate` (`eval/eval/create_list_step.cc` lines 95-121);
`opt i` says whether element `i` is written `?e`.  `acc` is the builder's content. -/
def buildList (c : StepCfg) (opt : Nat → Bool) : Nat → List Value → List Value → Res Value
  | _, [], acc => .ok (.list acc)
  | i, v :: vs, acc =>
    if opt i then
      match v with
      | .opt none => buildList c opt (i + 1) vs acc
      | .opt (some (.error e)) => .ok (.error e)
      | .opt (some w) =>
        match checkElement w with
        | some e => .err e
        | none => buildList c opt (i + 1) vs (acc ++ [w])
      | _ => .ok (.error (typeConversionError (c.typeName v) "optional_type"))
    else
      match checkElement v with
      | some e => .err e
      | none => buildList c opt (i + 1) vs (acc ++ [v])

/-- `CreateListStep::DoEvaluate` (`eval/eval/create_list_step.cc` lines 72-122). -/
def listEval (c : StepCfg) (opt : Nat → Bool) (xs : List VA) : Res Value :=
  match firstError (xs.map VA.v) with
  | some e => .ok e
  | none =>
    match (if c.unknowns then identifyAndMerge c.pats true xs else none) with
    | some u => .ok (.unknown u)
    | none => buildList c opt 0 (xs.map VA.v) []

def listStep (c : StepCfg) (opt : Nat → Bool) (xs : List VA) : Res VA := do
  return ⟨← listEval c opt xs, none⟩

/-- `CheckMapKey` (`common/values/map_value.cc` lines 318-333). -/
def checkMapKey : Value → Option Status
  | .bool _ | .int _ | .uint _ | .str _ => none
  | .error e => some e
  | k => some (badKeyKind k)

/-- `MapValueBuilderImpl::Put` (`common/values/value_builder.cc` lines 958-966).  The builder is a
hash map; its (unspecified) iteration order is taken to be insertion order here. -/
def mapPut (m : List (Value × Value)) (k v : Value) : Res (List (Value × Value)) :=
  match checkMapKey k with
  | some e => .err e
  | none =>
    match checkElement v with
    | some e => .err e
    | none =>
      if mapHas m k then .err ⟨.alreadyExists, "duplicate key in map"⟩ else .ok (m ++ [(k, v)])

/-- The entry loop of `CreateStructStepForMap::DoEvaluate` (`eval/eval/create_map_step.cc`
lines 92-118). -/
def buildMap (c : StepCfg) (opt : Nat → Bool) : Nat → List (Value × Value) → List (Value × Value) → Res Value
  | _, [], acc => .ok (.map acc)
  | i, (k, v) :: es, acc =>
    match checkMapKey k with
    | some e => .ok (.error e)
    | none =>
      if opt i then
        match v with
        | .opt none => buildMap c opt (i + 1) es acc
        | .opt (some (.error e)) => .ok (.error e)
        | .opt (some w) =>
          match mapPut acc k w with
          | .ok acc' => buildMap c opt (i + 1) es acc'
          | .err e => .err e
          | .ub => .ub
        | _ => .ok (.error (typeConversionError (c.debugString v) "optional_type"))
      else
        match mapPut acc k v with
        | .ok acc' => buildMap c opt (i + 1) es acc'
        | .err e => .err e
        | .ub => .ub

/-- Keys and values alternate on the stack. -/
def pairUp : List Value → List (Value × Value)
  | k :: v :: r => (k, v) :: pairUp r
  | _ => []

/-- `CreateStructStepForMap::DoEvaluate` (`eval/eval/create_map_step.cc` lines 70-121). -/
def mapEval (c : StepCfg) (opt : Nat → Bool) (xs : List VA) : Res Value :=
  match firstError (xs.map VA.v) with
  | some e => .ok e
  | none =>
    match (if c.unknowns then identifyAndMerge c.pats true xs else none) with
    | some u => .ok (.unknown u)
    | none => buildMap c opt 0 (pairUp (xs.map VA.v)) []

def mapStep (c : StepCfg) (opt : Nat → Bool) (xs : List VA) : Res VA := do
  return ⟨← mapEval c opt xs, none⟩

end Cel.Data
