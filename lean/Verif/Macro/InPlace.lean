import Verif.Macro.MapMacros

/-!
# Comprehensions that update their accumulator in place

`enable_comprehension_list_append` and `enable_comprehension_mutable_map`
(`runtime/runtime_options.h` lines 83-91).  The planner recognises the loops of `map`, `filter`,
`transformList`, `transformMap` and `transformMapEntry` (`eval/compiler/flat_expr_builder.cc` lines 292-399),
initialises the accumulator with a new mutable list or map, and calls `#list_append(accu, e)` instead of
`accu + [e]`; `cel.@mapInsert` recognises the mutable map itself.  Here values that are mutable objects
are references into a heap.
-/

namespace Cel.Macro
open Cel Cel.Num Cel.Eval Cel.Data

/-- A runtime value: an ordinary one or a reference to a mutable object. -/
inductive HV where
  | val (v : Value)
  | ref (n : Nat)

/-- A mutable object (`MutableListValue`, `MutableMapValue`, `common/values/value_builder.cc`). -/
inductive Obj where
  | list (xs : List HV)
  | map (es : List (Value × HV))

abbrev Heap := List Obj

/-- A runtime value with its attribute trail. -/
structure HVA where
  v : HV
  t : Trail

/-- What the dispatcher sees of an operand: its kind, and whether it is an error or unknown.  The content of
a mutable object plays no part. -/
def shadow (H : Heap) (x : HVA) : VA :=
  match x.v with
  | .val v => ⟨v, x.t⟩
  | .ref n =>
    match H[n]? with
    | some (.list _) => ⟨.list [], x.t⟩
    | some (.map _) => ⟨.map [], x.t⟩
    | none => ⟨.null, x.t⟩

/-- Function dispatch (`eval/eval/function_step.cc` lines 244-295): `none` when an overload is called,
otherwise the value of the call. -/
def dispatch (c : StepCfg) (name : String) (ds : List FnDesc) (xs : List VA) : Option Value :=
  let args := if c.unknowns then checkPartialUnknowns c.pats xs else xs.map (·.v)
  match resolveStatic args (ds.map fun d => (⟨d, fun _ h => (.ub, h)⟩ : Overload Unit)) with
  | some o =>
    if shouldAcceptOverload o.desc args then none
    else some (noOverloadResult name args false c.unknowns)
  | none => some (noOverloadResult name args false c.unknowns)

/-- `CreateMutableListStep` and `CreateMutableMapStep` (`eval/eval/create_list_step.cc` lines 213-240,
`eval/eval/create_map_step.cc` lines 214-245): a new object. -/
def alloc (H : Heap) (o : Obj) : HVA × Heap := (⟨.ref H.length, none⟩, H ++ [o])

/-- `#list_append(accu, e)`: `AppendList` (`runtime/standard/container_functions.cc` lines 86-97). -/
def listAppend (c : StepCfg) (H : Heap) (a x : HVA) : Res (HVA × Heap) :=
  match dispatch c "#list_append" [⟨"#list_append", false, [kList, kAny], true⟩] [shadow H a, shadow H x] with
  | some v => .ok (⟨.val v, none⟩, H)
  | none =>
    match a.v with
    | .ref n =>
      match H[n]? with
      | some (.list xs) => .ok (⟨a.v, none⟩, H.set n (.list (xs ++ [x.v])))
      | _ => .err ⟨.invalidArgument, "Unexpected call to runtime list append."⟩
    | .val _ => .err ⟨.invalidArgument, "Unexpected call to runtime list append."⟩

/-- Is the key present? (`map_.find(key)`, `common/values/value_builder.cc` line 1251). -/
def cellHas : List (Value × HV) → Value → Bool
  | [], _ => false
  | (k', _) :: es, k => keyEq k' k || cellHas es k

/-- `TrivialMutableMapValueImpl::Put` (`common/values/value_builder.cc` lines 1248-1266). -/
def cellPut (es : List (Value × HV)) (k : Value) (v : HV) : Res (List (Value × HV)) :=
  match checkMapKey k with
  | some e => .err e
  | none =>
    match (match v with | .val w => checkElement w | .ref _ => none) with
    | some e => .err e
    | none =>
      if cellHas es k then .err ⟨.alreadyExists, "duplicate key in map"⟩ else .ok (es ++ [(k, v)])

/-- `value.ForEach(... mutable_map_value->Put(key, value) ...)`: the entries put so far, and the status
that stopped the loop (`extensions/comprehensions_v2_functions.cc` lines 83-93). -/
def cellPutAll : List (Value × HV) → List (Value × HV) → List (Value × HV) × Option Status
  | es, [] => (es, none)
  | es, (k, v) :: r =>
    match cellPut es k v with
    | .ok es' => cellPutAll es' r
    | .err e => (es, some e)
    | .ub => (es, none)

def mapInsertDescs : List FnDesc :=
  [⟨"cel.@mapInsert", false, [kMap, kAny, kAny], true⟩, ⟨"cel.@mapInsert", false, [kMap, kMap], true⟩]

/-- `cel.@mapInsert(accu, k, e)` on a mutable map (`extensions/comprehensions_v2_functions.cc`
lines 43-50). -/
def mapInsertKVInPlace (c : StepCfg) (H : Heap) (a : HVA) (k : VA) (x : HVA) : Res (HVA × Heap) :=
  match dispatch c "cel.@mapInsert" mapInsertDescs [shadow H a, k, shadow H x] with
  | some v => .ok (⟨.val v, none⟩, H)
  | none =>
    match a.v with
    | .ref n =>
      match H[n]? with
      | some (.map es) =>
        match cellPut es k.v x.v with
        | .ok es' => .ok (⟨a.v, none⟩, H.set n (.map es'))
        | .err e => .ok (⟨.val (.error e), none⟩, H)
        | .ub => .ub
      | _ => .ub
    | .val _ => .ub

/-- `cel.@mapInsert(accu, e)` on a mutable map (`extensions/comprehensions_v2_functions.cc`
lines 79-94), for an ordinary map `e`. -/
def mapInsertMapInPlace (c : StepCfg) (H : Heap) (a : HVA) (x : VA) : Res (HVA × Heap) :=
  match dispatch c "cel.@mapInsert" mapInsertDescs [shadow H a, x] with
  | some v => .ok (⟨.val v, none⟩, H)
  | none =>
    match a.v, x.v with
    | .ref n, .map m =>
      match H[n]? with
      | some (.map es) =>
        match cellPutAll es (m.map fun e => (e.1, .val e.2)) with
        | (es', none) => .ok (⟨a.v, none⟩, H.set n (.map es'))
        | (es', some e) => .ok (⟨.val (.error e), none⟩, H.set n (.map es'))
      | _ => .ub
    | _, _ => .ub

/-- `p ? branch : accu` around the update.  When short-circuiting is on, only the selected branch runs
(`eval/eval/jump_step.cc` lines 37-113, `ShortcircuitingDirectTernaryStep`); when it is off the update runs
in any case, before the condition is looked at (`ExhaustiveTernaryCondVisitor`,
`eval/compiler/flat_expr_builder.cc` lines 2371-2383, and `ExhaustiveDirectTernaryStep`,
`eval/eval/ternary_step.cc` lines 30-80). -/
def condInPlace (sc unknowns : Bool) (p : VA) (branch : HVA → Heap → Res (HVA × Heap)) (a : HVA) (H : Heap) :
    Res (HVA × Heap) :=
  if sc then
    match p.v with
    | .bool true => branch a H
    | .bool false => .ok (a, H)
    | .error _ => .ok (⟨.val p.v, p.t⟩, H)
    | .unknown _ => .ok (⟨.val p.v, p.t⟩, H)
    | _ => .ok (⟨.val (.error (noOverload "<jump_condition>")), none⟩, H)
  else
    match branch a H with
    | .ok (b, H') =>
      match p.v with
      | .unknown _ =>
        .ok (if unknowns then (⟨.val p.v, p.t⟩, H') else (⟨.val (.error (noOverload "_?_:_")), none⟩, H'))
      | .error _ => .ok (⟨.val p.v, p.t⟩, H')
      | .bool true => .ok (⟨b.v, none⟩, H')
      | .bool false => .ok (⟨a.v, none⟩, H')
      | _ => .ok (⟨.val (.error (noOverload "_?_:_")), none⟩, H')
    | .err e => .err e
    | .ub => .ub

/-- The loop: its condition is the constant `true`. -/
def loopInPlace (step : Item → HVA → Heap → Res (HVA × Heap)) : List Item → HVA → Heap → Res (HVA × Heap)
  | [], a, H => .ok (a, H)
  | it :: l, a, H =>
    match step it a H with
    | .ok (a', H') => loopInPlace step l a' H'
    | .err e => .err e
    | .ub => .ub

/-- `target.map(x, e)` with in-place appends; `F it a` is the value of `e` for an element when the
accumulator variable is bound to `a`. -/
def mapInPlace (c : StepCfg) (F : Item → HVA → HVA) (l : List Item) : Res (HVA × Heap) :=
  loopInPlace (fun it a H => listAppend c H a (F it a)) l (alloc [] (.list [])).1 (alloc [] (.list [])).2

/-- `target.map(x, p, e)` (and `filter`) with in-place appends. -/
def map3InPlace (c : StepCfg) (sc : Bool) (P : Item → VA) (F : Item → HVA → HVA) (l : List Item) : Res (HVA × Heap) :=
  loopInPlace (fun it a H => condInPlace sc c.unknowns (P it) (fun a H => listAppend c H a (F it a)) a H) l
    (alloc [] (.list [])).1 (alloc [] (.list [])).2

/-- `target.transformMap(x, y, e)` with in-place insertion. -/
def transformMapInPlace (c : StepCfg) (K : Item → VA) (F : Item → HVA → HVA) (l : List Item) : Res (HVA × Heap) :=
  loopInPlace (fun it a H => mapInsertKVInPlace c H a (K it) (F it a)) l (alloc [] (.map [])).1 (alloc [] (.map [])).2

/-- `target.transformMap(x, y, p, e)` with in-place insertion. -/
def transformMap4InPlace (c : StepCfg) (sc : Bool) (P K : Item → VA) (F : Item → HVA → HVA) (l : List Item) :
    Res (HVA × Heap) :=
  loopInPlace (fun it a H => condInPlace sc c.unknowns (P it) (fun a H => mapInsertKVInPlace c H a (K it) (F it a)) a H) l
    (alloc [] (.map [])).1 (alloc [] (.map [])).2

/-- `target.transformMapEntry(x, y, e)` with in-place insertion. -/
def transformEntryInPlace (c : StepCfg) (F : Item → VA) (l : List Item) : Res (HVA × Heap) :=
  loopInPlace (fun it a H => mapInsertMapInPlace c H a (F it)) l (alloc [] (.map [])).1 (alloc [] (.map [])).2

end Cel.Macro
