import Verif.Macro.Macros

/-!
# `transformMap` and `transformMapEntry`

The expansions in `extensions/comprehensions_v2_macros.cc` and the function `cel.@mapInsert` they call
(`extensions/comprehensions_v2_functions.cc`).
-/

namespace Cel.Macro
open Cel Cel.Num Cel.Eval Cel.Data

variable {σ : Type}

/-- `map.ForEach(... builder->Put(key, value) ...)`: the loop stops at the first status
(`extensions/comprehensions_v2_functions.cc` lines 60-69, 83-93, 104-122). -/
def putAll : List (Value × Value) → List (Value × Value) → Res (List (Value × Value))
  | acc, [] => .ok acc
  | acc, (k, v) :: r =>
    match mapPut acc k v with
    | .ok acc' => putAll acc' r
    | .err e => .err e
    | .ub => .ub

/-- `.With(ErrorValueReturn())`: a status becomes an error value. -/
def errorReturn : Res (List (Value × Value)) → Res Value
  | .ok m => .ok (.map m)
  | .err e => .ok (.error e)
  | .ub => .ub

/-- `MapInsertKeyValue` (`extensions/comprehensions_v2_functions.cc` lines 38-71).  `fast`: the
accumulator is the runtime's mutable map, and the entry is put into it; otherwise a new map is built.
That the mutable map is the accumulator itself, changed in place, is in `Verif/Macro/InPlace.lean`. -/
def mapInsertKV (fast : Bool) (m : List (Value × Value)) (k v : Value) : Res Value :=
  if fast then errorReturn (mapPut m k v)
  else
    match putAll [] m with
    | .ok b => errorReturn (mapPut b k v)
    | .err e => .ok (.error e)
    | .ub => .ub

/-- `MapInsertMap` (`extensions/comprehensions_v2_functions.cc` lines 73-124). -/
def mapInsertMap (fast : Bool) (m m' : List (Value × Value)) : Res Value :=
  if fast then errorReturn (putAll m m')
  else
    match putAll [] m with
    | .ok b => errorReturn (putAll b m')
    | .err e => .ok (.error e)
    | .ub => .ub

/-- The overloads of `cel.@mapInsert` (`extensions/comprehensions_v2_functions.cc` lines 128-145). -/
def mapInsertOverloads (fast : Bool) : List (Overload σ) := [
  ⟨⟨"cel.@mapInsert", false, [kMap, kAny, kAny], true⟩, fun xs h => match xs with
    | [.map m, k, v] => (mapInsertKV fast m k v, h)
    | _ => (.err ⟨.internal, "argument kinds"⟩, h)⟩,
  ⟨⟨"cel.@mapInsert", false, [kMap, kMap], true⟩, fun xs h => match xs with
    | [.map m, .map m'] => (mapInsertMap fast m m', h)
    | _ => (.err ⟨.internal, "argument kinds"⟩, h)⟩]

/-- `cel.@mapInsert(...)`. -/
def mapInsertOp (c : StepCfg) (fr fast : Bool) : Op σ :=
  callOp c fr ⟨"cel.@mapInsert", false, 0, .eager (mapInsertOverloads fast)⟩

/-- A map literal without `?` entries (`eval/eval/create_map_step.cc` lines 70-121).  When
`enable_comprehension_mutable_map` is on, the empty literal that initialises the accumulator is a new
mutable map instead, also empty (`eval/compiler/flat_expr_builder.cc` lines 1587-1600). -/
def mapOp (c : StepCfg) : Op σ := fun xs h => (mapStep c (fun _ => false) xs, h)

def args3 (a b d : Expr σ) : Exprs σ := .cons a (.cons b (.cons d .nil))

/-- `cel.@mapInsert(accu, x, e)`. -/
def insertExpr (c : StepCfg) (fr fast : Bool) (accu x : String) (e : Expr σ) : Expr σ :=
  .op (mapInsertOp c fr fast) (args3 (accuIdent accu) (.ident x false) e)

/-- `cel.@mapInsert(accu, e)`. -/
def insertMapExpr (c : StepCfg) (fr fast : Bool) (accu : String) (e : Expr σ) : Expr σ :=
  .op (mapInsertOp c fr fast) (args2 (accuIdent accu) e)

/-- `ExpandTransformMap3Macro` (`extensions/comprehensions_v2_macros.cc` lines 294-334). -/
def transformMap3 (c : StepCfg) (fr fast : Bool) (accu x y : String) (target e : Expr σ) : Expr σ :=
  .comp x (some y) accu target (.op (mapOp c) .nil) (.const (.bool true)) (insertExpr c fr fast accu x e)
    (accuIdent accu)

/-- `ExpandTransformMap4Macro` (`extensions/comprehensions_v2_macros.cc` lines 343-385). -/
def transformMap4 (c : StepCfg) (fr fast : Bool) (accu x y : String) (target p e : Expr σ) : Expr σ :=
  .comp x (some y) accu target (.op (mapOp c) .nil) (.const (.bool true))
    (.cond p (insertExpr c fr fast accu x e) (accuIdent accu)) (accuIdent accu)

/-- `ExpandTransformMapEntry3Macro` (`extensions/comprehensions_v2_macros.cc` lines 394-437). -/
def transformEntry3 (c : StepCfg) (fr fast : Bool) (accu x y : String) (target e : Expr σ) : Expr σ :=
  .comp x (some y) accu target (.op (mapOp c) .nil) (.const (.bool true)) (insertMapExpr c fr fast accu e)
    (accuIdent accu)

/-- `ExpandTransformMapEntry4Macro` (`extensions/comprehensions_v2_macros.cc` lines 446-491). -/
def transformEntry4 (c : StepCfg) (fr fast : Bool) (accu x y : String) (target p e : Expr σ) : Expr σ :=
  .comp x (some y) accu target (.op (mapOp c) .nil) (.const (.bool true))
    (.cond p (insertMapExpr c fr fast accu e) (accuIdent accu)) (accuIdent accu)

end Cel.Macro
