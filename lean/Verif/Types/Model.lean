import Verif.Checker.Model
import Verif.Data.Steps
import Verif.Direct.Model

/-!
# Model of the type checker

`checker/internal/type_checker_impl.cc`: the visitor that gives every node of an expression a type, on top of the inference context of
`Verif/Checker`. Only accepted expressions matter here, so the model stops (`none`) where the code reports an error and goes on.

Left out: resolution of names against a container and of qualified names (C38), `cel.@block`, `_?._` and optional list, map and struct
entries, source positions and issue texts.
-/

namespace Cel.Types
open Cel Cel.Eval Cel.Data Cel.Direct Cel.Checker

/-! ## Expressions -/

mutual
/-- `cel::Expr` (`common/expr.h`); every node carries an annotation. A call's receiver is its first operand. The operands of a map
literal are its keys and values in turn, those of a struct literal the values of its fields. -/
inductive Ast (α : Type) where
  | const (a : α) (v : Value)
  /-- `abs`: written with a leading dot -/
  | ident (a : α) (x : String) (abs : Bool)
  | select (a : α) (e : Ast α) (field : String) (test : Bool)
  | call (a : α) (fn : String) (recv : Bool) (args : Asts α)
  | list (a : α) (elems : Asts α)
  | map (a : α) (entries : Asts α)
  | struct (a : α) (name : String) (fields : List String) (values : Asts α)
  | comp (a : α) (iter : String) (iter2 : Option String) (accu : String) (range init cnd stp res : Ast α)
inductive Asts (α : Type) where
  | nil
  | cons (e : Ast α) (es : Asts α)
end

/-- The annotation of the root. -/
def Ast.ann {α : Type} : Ast α → α
  | .const a _ | .ident a _ _ | .select a _ _ _ | .call a _ _ _ | .list a _ | .map a _ | .struct a _ _ _ | .comp a _ _ _ _ _ _ _ _ => a

def Asts.anns {α : Type} : Asts α → List α
  | .nil => []
  | .cons e es => e.ann :: es.anns

/-! ## The environment -/

/-- `TypeCheckEnv` (`checker/internal/type_check_env.h`), with an empty container. -/
structure Decls where
  /-- `LookupVariable` and `LookupTypeConstant` -/
  vars : String → Option Ty
  /-- `LookupFunction` -/
  funcs : String → Option FunctionDecl
  /-- `LookupTypeName` -/
  types : String → Option Ty
  /-- `LookupStructField` -/
  fields : String → String → Option Ty
  /-- `IsWellKnownMessageType` (`common/types/basic_struct_type.cc` line 24) -/
  wellKnown : String → Bool

/-- `VariableScope` and its parents, innermost first. -/
abbrev Scope := List (String × Ty)

/-- `LookupLocalVariable` (`checker/internal/type_check_env.cc` lines 119-129). -/
def scopeGet : Scope → String → Option Ty
  | [], _ => none
  | (y, t) :: Γ, x => if x = y then some t else scopeGet Γ x

/-! ## Nodes -/

/-- `PostVisitConst` (type_checker_impl.cc:510-548). -/
def constTy : Value → Option Ty
  | .null => some (.b .null)
  | .bool _ => some (.b .bool)
  | .int _ => some (.b .int)
  | .uint _ => some (.b .uint)
  | .dbl _ => some (.b .double)
  | .bytes _ => some (.b .bytes)
  | .str _ => some (.b .string)
  | .dur _ => some (.b .duration)
  | .ts _ => some (.b .timestamp)
  | _ => none

/-- `InstantiateTypeParams(type)` with a fresh instance map (type_inference_context.h). -/
def inst (t : Ty) (c : Ctx) : Ty × Ctx :=
  let r := instantiate t (fun _ => none, c)
  (r.1, r.2.2)

/-- `ResolveSimpleIdentifier` (type_checker_impl.cc:997-1033), for a name that is its own only candidate. -/
def identTy (d : Decls) (Γ : Scope) (x : String) (abs : Bool) (c : Ctx) : Option (Ty × Ctx) :=
  match (if abs then none else scopeGet Γ x) with
  | some t => some (inst t c)
  | none =>
    match d.vars x with
    | some t => some (inst t c)
    | none => none

/-- The loop over elements of `PostVisitList` (type_checker_impl.cc:648-664), also over the keys in `PostVisitMap` (585-606): one session;
an element that does not fit makes the joint type `dyn`. -/
def joinLoop (c : Ctx) (n : Nat) : List Ty → Ty → Pro → Option (Ty × Pro)
  | [], t, P => some (t, P)
  | a :: as, t, P => do
    let r ← P.isAssignable c n a t
    joinLoop c n as (if r.1 then t else dyn) r.2

/-- One session over `as`: the joint type, and the context with what was inferred unless the joint type is `dyn`. -/
def join (x : String) (c : Ctx) (n : Nat) (as : List Ty) : Option (Ty × Ctx) := do
  let v := inst (.param (.other x)) c
  let r ← joinLoop v.2 n as v.1 .empty
  some (r.1, if r.1.is .dyn then v.2 else v.2.update r.2)

/-- `PostVisitList` (type_checker_impl.cc:635-672). -/
def listTy (c : Ctx) (n : Nat) (as : List Ty) : Option (Ty × Ctx) := do
  let r ← join "E" c n as
  let t ← r.2.fullySubstitute n (.con .list [r.1])
  some (t, r.2)

/-- The loop over values of `PostVisitMap` (type_checker_impl.cc:613-627): each check is committed at once. -/
def valuesLoop (n : Nat) : List Ty → Ty → Ctx → Option (Ty × Ctx)
  | [], t, c => some (t, c)
  | a :: as, t, c => do
    let r ← isAssignable c n a t
    valuesLoop n as (if r.1 then t else dyn) r.2

/-- Keys and values of a map literal. -/
def evens {α : Type} : List α → List α
  | k :: _ :: r => k :: evens r
  | _ => []
def odds {α : Type} : List α → List α
  | _ :: v :: r => v :: odds r
  | _ => []

/-- `PostVisitMap` (type_checker_impl.cc:563-633). `K` and `V` are instantiated first. An odd number of operands, which the
syntax tree cannot have, is refused. -/
def mapTy (c : Ctx) (n : Nat) (as : List Ty) : Option (Ty × Ctx) := do
  if as.length % 2 ≠ 0 then none
  let k := inst (.param (.other "K")) c
  let v := inst (.param (.other "V")) k.2
  let r ← joinLoop v.2 n (evens as) k.1 .empty
  let c1 := if r.1.is .dyn then v.2 else v.2.update r.2
  let q ← valuesLoop n (odds as) v.1 c1
  let t ← q.2.fullySubstitute n (.con .map [r.1, q.1])
  some (t, q.2)

/-- `CheckFieldType` (type_checker_impl.cc:1105-1156). -/
def fieldTy (d : Decls) (c : Ctx) (n : Nat) (field : String) : Ty → Option (Ty × Ctx)
  | .con (.base .dyn) _ => some (dyn, c)
  | .con (.base .any) _ => some (dyn, c)
  | .con (.struct s) _ =>
    match d.fields s field with
    | some t => some (if isEnum t.head? then .b .int else t, c)
    | none => none
  | .con .map [_, v] => some (v, c)
  | .param x => do
    let r ← isAssignable c n dyn (.param x)
    if r.1 then some (dyn, r.2) else none
  | _ => none

/-- `IsOptional` and `GetOptional().GetParameter()` (`common/type.h`, `common/types/optional_type.h`). -/
def optionalOf : Ty → Option Ty
  | .con (.opaque o) [t] => if o = "optional_type" then some t else none
  | _ => none

/-- `OptionalType(arena, t)`. -/
def optionalTy (t : Ty) : Ty := .con (.opaque "optional_type") [t]

/-- `ResolveSelectOperation` (type_checker_impl.cc:1158-1187). -/
def selectTy (d : Decls) (c : Ctx) (n : Nat) (field : String) (test : Bool) (t : Ty) : Option (Ty × Ctx) :=
  match optionalOf t with
  | some held => do
    let r ← fieldTy d c n field held
    some (if test then .b .bool else optionalTy r.1, r.2)
  | none => do
    let r ← fieldTy d c n field t
    some (if test then .b .bool else r.1, r.2)

/-- `ResolveFunctionCallShape` (type_checker_impl.cc:889-913) for one candidate. -/
def hasShape (fd : FunctionDecl) (recv : Bool) (count : Nat) : Bool :=
  fd.overloads.any fun o => decide (o.member = recv) &&
    (decide (o.args.length = count) || ((fd.name == "_&&_" || fd.name == "_||_") && decide (count ≥ 2)))

/-- `PostVisitCall` (type_checker_impl.cc:721-761) with `ResolveFunctionOverloads` (915-959). -/
def callTy (d : Decls) (c : Ctx) (n : Nat) (fn : String) (recv : Bool) (as : List Ty) : Option (Ty × Ctx) :=
  match d.funcs fn with
  | none => none
  | some fd =>
    if hasShape fd recv as.length then
      match resolveOverload c n fd as recv with
      | some (c', some (t, _)) => some (t, c')
      | _ => none
    else none

/-- The loop of `CheckFieldAssignments` (type_checker_impl.cc:374-408). -/
def assignFields (d : Decls) (name : String) (n : Nat) : List String → List Ty → Ctx → Option Ctx
  | [], [], c => some c
  | f :: fs, a :: as, c =>
    match d.fields name f with
    | none => none
    | some t => do
      let r ← isAssignable c n a t
      if r.1 then assignFields d name n fs as r.2 else none
  | _, _, _ => none

/-- `PostVisitStruct` (type_checker_impl.cc:674-719). -/
def structTy (d : Decls) (c : Ctx) (n : Nat) (name : String) (fs : List String) (as : List Ty) : Option (Ty × Ctx) :=
  match d.types name with
  | none => none
  | some t =>
    if isStruct t.head? || d.wellKnown name then do
      let c' ← assignFields d name n fs as c
      some (t, c')
    else none

/-- The types of the iteration variables (type_checker_impl.cc:840-864): of a single one, and of the two of a two-variable
comprehension. -/
def iterTys : Ty → Option (Ty × Ty × Ty)
  | .con .list [t] => some (t, .b .int, t)
  | .con .map [k, v] => some (k, k, v)
  | .con (.base .dyn) _ => some (dyn, dyn, dyn)
  | _ => none

/-- The innermost scope of a comprehension (type_checker_impl.cc:865-874). -/
def iterScope (iter : String) (iter2 : Option String) (ts : Ty × Ty × Ty) : Scope :=
  match iter2 with
  | none => [(iter, ts.1)]
  | some y => [(iter, ts.2.1), (y, ts.2.2)]

mutual
/-- The visitor (type_checker_impl.cc:203-1187): children before parents, left to right, the parts of a comprehension in the order range,
initial accumulator, condition, step, result (`common/ast_traverse.cc`). The condition is checked in the scope of the accumulator, outside
that of the iteration variables (type_checker_impl.cc:800-814); nothing is asked of the types of condition and step. -/
def infer (d : Decls) (n : Nat) : Ast Unit → Scope → Ctx → Option (Ast Ty × Ctx)
  | .const _ v, _, c => do
    let t ← constTy v
    some (.const t v, c)
  | .ident _ x abs, Γ, c => do
    let r ← identTy d Γ x abs c
    some (.ident r.1 x abs, r.2)
  | .select _ e f test, Γ, c => do
    let r ← infer d n e Γ c
    let q ← selectTy d r.2 n f test r.1.ann
    some (.select q.1 r.1 f test, q.2)
  | .call _ fn recv args, Γ, c => do
    let r ← inferAll d n args Γ c
    let q ← callTy d r.2 n fn recv r.1.anns
    some (.call q.1 fn recv r.1, q.2)
  | .list _ es, Γ, c => do
    let r ← inferAll d n es Γ c
    let q ← listTy r.2 n r.1.anns
    some (.list q.1 r.1, q.2)
  | .map _ es, Γ, c => do
    let r ← inferAll d n es Γ c
    let q ← mapTy r.2 n r.1.anns
    some (.map q.1 r.1, q.2)
  | .struct _ name fs vs, Γ, c => do
    let r ← inferAll d n vs Γ c
    let q ← structTy d r.2 n name fs r.1.anns
    some (.struct q.1 name fs r.1, q.2)
  | .comp _ iter iter2 accu range init cnd stp res, Γ, c => do
    let r ← infer d n range Γ c
    let ts ← iterTys r.1.ann
    let i ← infer d n init Γ r.2
    let accuScope := (accu, i.1.ann) :: Γ
    let k ← infer d n cnd accuScope i.2
    let s ← infer d n stp (iterScope iter iter2 ts ++ accuScope) k.2
    let q ← infer d n res accuScope s.2
    let t ← q.2.fullySubstitute n q.1.ann
    some (.comp t iter iter2 accu r.1 i.1 k.1 s.1 q.1, q.2)
def inferAll (d : Decls) (n : Nat) : Asts Unit → Scope → Ctx → Option (Asts Ty × Ctx)
  | .nil, _, c => some (.nil, c)
  | .cons e es, Γ, c => do
    let r ← infer d n e Γ c
    let q ← inferAll d n es Γ r.2
    some (.cons r.1 q.1, q.2)
end

mutual
/-- The type map: every type finalized (type_checker_impl.cc:1321-1333). -/
def finalize (c : Ctx) (n : Nat) : Ast Ty → Option (Ast Ty)
  | .const a v => do return .const (← c.finalizeType n a) v
  | .ident a x abs => do return .ident (← c.finalizeType n a) x abs
  | .select a e f test => do return .select (← c.finalizeType n a) (← finalize c n e) f test
  | .call a fn recv args => do return .call (← c.finalizeType n a) fn recv (← finalizeAll c n args)
  | .list a es => do return .list (← c.finalizeType n a) (← finalizeAll c n es)
  | .map a es => do return .map (← c.finalizeType n a) (← finalizeAll c n es)
  | .struct a name fs vs => do return .struct (← c.finalizeType n a) name fs (← finalizeAll c n vs)
  | .comp a iter iter2 accu range init cnd stp res => do
    return .comp (← c.finalizeType n a) iter iter2 accu (← finalize c n range) (← finalize c n init) (← finalize c n cnd)
      (← finalize c n stp) (← finalize c n res)
def finalizeAll (c : Ctx) (n : Nat) : Asts Ty → Option (Asts Ty)
  | .nil => some .nil
  | .cons e es => do return .cons (← finalize c n e) (← finalizeAll c n es)
end

/-- `AssertExpectedType` (type_checker_impl.cc:288-293), if the environment asks for a type. -/
def expect (n : Nat) (expected : Option Ty) (t : Ty) (c : Ctx) : Option Ctx :=
  match expected with
  | none => some c
  | some x => do
    let r ← isAssignable c n t x
    if r.1 then some r.2 else none

/-- `TypeCheckerImpl::CheckImpl` (type_checker_impl.cc:1352-1437) for an expression that is accepted: the expression with its type map.
`n` bounds the recursion inside type inference (C36: enough fuel exists). -/
def check (d : Decls) (legacyNull : Bool) (expected : Option Ty) (n : Nat) (e : Ast Unit) : Option (Ast Ty) := do
  let r ← infer d n e [] (.new legacyNull)
  let c ← expect n expected r.1.ann r.2
  finalize c n r.1

/-! ## What the planner makes of it -/

/-- `IsBind` (`eval/compiler/flat_expr_builder.cc` lines 401-411). -/
def isBind {α : Type} (iter : String) (iter2 : Option String) (range cnd : Ast α) : Bool :=
  (match cnd with | .const _ (.bool false) => true | _ => false) && iter == "#unused" && iter2.isNone &&
    (match range with | .list _ .nil => true | _ => false)

/-- What a program is linked with: functions by name and call style, and constructors of messages. -/
structure Impl (σ : Type) where
  call : String → Bool → Op σ
  create : String → List String → Op σ

/-- Several operands of `&&` or `||` (`eval/compiler/flat_expr_builder.cc` lines 2170-2205): from the left. -/
def chain {σ : Type} (isOr : Bool) : Expr σ → Exprs σ → Expr σ
  | e, .nil => e
  | e, .cons f fs => chain isOr (.logic isOr e f) fs

/-- A call (`eval/compiler/flat_expr_builder.cc` lines 990-1030, 2020-2145): the operators with steps of their own, and function calls. -/
def planCall {σ : Type} (r : RCfg σ) (m : Impl σ) (fn : String) (recv : Bool) (args : Exprs σ) : Expr σ :=
  if recv then .op (m.call fn true) args
  else if fn = "_&&_" then (match args with | .cons a (.cons b bs) => chain false (.logic false a b) bs | _ => .op (m.call fn false) args)
  else if fn = "_||_" then (match args with | .cons a (.cons b bs) => chain true (.logic true a b) bs | _ => .op (m.call fn false) args)
  else if fn = "_?_:_" then (match args with | .cons a (.cons b (.cons c .nil)) => .cond a b c | _ => .op (m.call fn false) args)
  else if fn = "!_" then .op (op1 (notStep r.c.unknowns r.c.pats)) args
  else if fn = "@not_strictly_false" then .op (op1 notStrictlyFalse) args
  else if fn = "_==_" then .op (opR (eqStep r.c false)) args
  else if fn = "_!=_" then .op (opR (eqStep r.c true)) args
  else if fn = "@in" then .op (opR (inStep r.c)) args
  else if fn = "_[_]" then .op (opR (indexStep r.c)) args
  else .op (m.call fn false) args

mutual
/-- The expression the evaluator runs (`eval/compiler/flat_expr_builder.cc`), in the syntax of `Verif/Eval`. -/
def plan {σ α : Type} (r : RCfg σ) (m : Impl σ) : Ast α → Expr σ
  | .const _ v => .const v
  | .ident _ x abs => .ident x abs
  | .select _ e f test => .op (opR (selectStep r.c f test)) (.cons (plan r m e) .nil)
  | .call _ fn recv args => planCall r m fn recv (planAll r m args)
  | .list _ es => .op (opR (listStep r.c fun _ => false)) (planAll r m es)
  | .map _ es => .op (opR (mapStep r.c fun _ => false)) (planAll r m es)
  | .struct _ name fs vs => .op (m.create name fs) (planAll r m vs)
  | .comp _ iter iter2 accu range init cnd stp res =>
    if isBind iter iter2 range cnd then .bind accu (plan r m init) (plan r m res)
    else .comp iter iter2 accu (plan r m range) (plan r m init) (plan r m cnd) (plan r m stp) (plan r m res)
def planAll {σ α : Type} (r : RCfg σ) (m : Impl σ) : Asts α → Exprs σ
  | .nil => .nil
  | .cons e es => .cons (plan r m e) (planAll r m es)
end

end Cel.Types
