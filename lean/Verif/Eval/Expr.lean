import Verif.Eval.Logic

/-!
# Expressions and their meaning

The abstract syntax the planner consumes (`common/expr.h`), and a recursive reading of the CEL
semantics for it.  This file does not mention stacks, program counters, jumps or slots: it is the
*specification* that the flattened program (`Verif/Eval/Machine.lean`, `Verif/Eval/Compile.lean`) and
the recursive planner (`Verif/Eval/Direct.lean`) are compared with.
-/

namespace Cel.Eval
open Cel

/-- A step that consumes the values of its operands and produces one value: function calls
(`evalCall`), `!`, `@not_strictly_false`, selection, indexing, list/map/struct creation, equality,
`in`.  It may have side effects on the host state `σ` and may fail with a status. -/
abbrev Op (σ : Type) := List VA → σ → Res VA × σ

mutual
/-- Expressions (`common/expr.h`): constants and folded values, identifiers (`abs` for a leading
dot), steps with operands, `&&`/`||`, `?:`, comprehensions with one or two iteration variables
(`common/expr.h` `ComprehensionExpr`), and `cel.bind` (a comprehension recognised by `IsBind`,
`eval/compiler/flat_expr_builder.cc` lines 401-420). -/
inductive Expr (σ : Type) where
  | const (v : Value)
  | ident (x : String) (abs : Bool)
  | op (f : Op σ) (args : Exprs σ)
  | logic (isOr : Bool) (a b : Expr σ)
  | cond (c t f : Expr σ)
  | comp (iter : String) (iter2 : Option String) (accu : String)
      (range init cnd stp res : Expr σ)
  | bind (x : String) (init body : Expr σ)
/-- Operand lists. -/
inductive Exprs (σ : Type) where
  | nil
  | cons (e : Expr σ) (es : Exprs σ)
end

/-- Number of operands. -/
def Exprs.len {σ : Type} : Exprs σ → Nat
  | .nil => 0
  | .cons _ es => es.len + 1

/-- Evaluation options (`runtime/runtime_options.h`) and the activation's variables. -/
structure Cfg (σ : Type) where
  /-- `short_circuiting` -/
  shortCircuit : Bool
  /-- `unknown_processing != kDisabled` -/
  unknowns : Bool
  /-- unknown attribute patterns of the activation -/
  pats : List Pattern
  /-- `comprehension_max_iterations` -/
  maxIter : Int
  /-- `LookupIdent` (`eval/eval/ident_step.cc` lines 38-71): the activation, with side effects of
  lazily provided variables in `σ`. -/
  global : String → σ → Res VA × σ

/-- `LookupIdent` (`eval/eval/ident_step.cc` lines 38-71) for an activation that is a finite map:
the concrete instance of `Cfg.global`. -/
def lookupIdent {σ : Type} (tracking missingErrors unknowns : Bool) (missing pats : List Pattern)
    (vars : String → Option Value) (x : String) (s : σ) : Res VA × σ :=
  let t : Trail := if tracking then some ⟨x, []⟩ else none
  if tracking ∧ missingErrors ∧ checkMissing missing t = true then
    match (Attr.mk x []).asString with
    | some p => (.ok ⟨.error (missingAttribute p), t⟩, s)
    | none => (.err ⟨.invalidArgument, "Only ident rooted attributes are supported."⟩, s)
  else if tracking ∧ unknowns ∧ checkUnknown pats t false = true then
    (.ok ⟨.unknown (unknownOf ⟨x, []⟩), t⟩, s)
  else match vars x with
    | some v => (.ok ⟨v, t⟩, s)
    | none =>
      (.ok ⟨.error ⟨.unknown, "No value with name \"" ++ x ++ "\" found in Activation"⟩, t⟩, s)

/-- `AttributeQualifierFromValue` (`eval/eval/comprehension_step.cc` lines 45-59). -/
def qualOf : Value → Qual
  | .str s => .str s
  | .int i => .int i
  | .uint u => .uint u
  | .bool b => .bool b
  | _ => .invalid 0

/-- One element of an iteration range: its key (list index or map key), its value, and what a
one-variable comprehension binds (`ValueIterator::Next1`: list element or map key). -/
structure Item where
  key : Value
  val : Value
  one : Value

/-- List items in order, keys counting up from `i`. -/
def listItems (i : Int) : List Value → List Item
  | [] => []
  | v :: vs => ⟨.int i, v, v⟩ :: listItems (i + 1) vs

/-- Map items in iteration order. -/
def mapItems : List (Value × Value) → List Item
  | [] => []
  | (k, v) :: m => ⟨k, v, k⟩ :: mapItems m

/-- What a comprehension does with its evaluated range. -/
inductive RangeRes where
  /-- iterate over these items -/
  | items (l : List Item)
  /-- the comprehension's result is this, without evaluating anything else -/
  | stop (x : VA)

/-- `ComprehensionInitStep::Evaluate` (`eval/eval/comprehension_step.cc` lines 447-484). -/
def rangeOf (unknowns : Bool) (pats : List Pattern) (x : VA) : RangeRes :=
  match x.v with
  | .error _ => .stop x
  | .unknown _ => .stop x
  | .list l => .items (listItems 0 l)
  | .map m =>
    match (if unknowns ∧ checkUnknown pats x.t true = true then x.t else none) with
    | some a => .stop ⟨.unknown (unknownOf a), none⟩
    | none => .items (mapItems m)
  | _ => .stop ⟨.error (noOverload "<iter_range>"), none⟩

/-- The iteration variable of a one-variable comprehension
(`eval/eval/comprehension_step.cc` lines 505-546); `t` is the range's trail. -/
def item1 (unknowns : Bool) (pats : List Pattern) (t : Trail) (it : Item) : VA :=
  if unknowns then
    let a := t.step (qualOf it.key)
    match (if checkUnknown pats a false = true then a else none) with
    | some at' => ⟨.unknown (unknownOf at'), a⟩
    | none => ⟨it.one, a⟩
  else ⟨it.one, none⟩

/-- The two iteration variables (`eval/eval/comprehension_step.cc` lines 583-594). -/
def item2 (unknowns : Bool) (pats : List Pattern) (t : Trail) (it : Item) : VA × VA :=
  if unknowns then
    let a := t.step (qualOf it.key)
    match (if checkUnknown pats a false = true then a else none) with
    | some at' => (⟨it.key, a⟩, ⟨.unknown (unknownOf at'), a⟩)
    | none => (⟨it.key, a⟩, ⟨it.val, a⟩)
  else (⟨it.key, none⟩, ⟨it.val, none⟩)

/-- The status of an exceeded iteration budget. -/
def budgetError : Status := ⟨.internal, "Iteration budget exceeded"⟩

/-- `IncrementIterations` (`eval/eval/evaluator_core.h` lines 272-282): the new counter, or `none`
when the budget is exceeded.  The counter is unbounded here (`int` in C++). -/
def tick (maxIter count : Int) : Option Int :=
  if maxIter = 0 then some count
  else if count + 1 ≥ maxIter then none else some (count + 1)

/-- What the loop condition decides (`eval/eval/comprehension_step.cc` lines 598-629). -/
inductive CondRes where
  | go | brk | stop (x : VA)

/-- `ComprehensionCondStep::Evaluate1` (`eval/eval/comprehension_step.cc` lines 602-628). -/
def condOf (shortCircuit : Bool) (x : VA) : CondRes :=
  match x.v with
  | .bool b => if b = false ∧ shortCircuit = true then .brk else .go
  | .error _ => .stop x
  | .unknown _ => .stop x
  | _ => .stop ⟨.error (noOverload "<loop_condition>"), none⟩

/-- What a short-circuiting `?:` does with its condition (`eval/eval/jump_step.cc` lines 95-121). -/
inductive TernRes where
  | yes | no | stop (x : VA)

/-- `BoolCheckJumpStep` followed by `CondJumpStep(false)` (`eval/eval/jump_step.cc` lines 55-121). -/
def ternOf (x : VA) : TernRes :=
  match x.v with
  | .bool true => .yes
  | .bool false => .no
  | .error _ => .stop x
  | .unknown _ => .stop x
  | _ => .stop ⟨.error (noOverload "<jump_condition>"), none⟩

/-- `TernaryStep::Evaluate` (`eval/eval/ternary_step.cc` lines 131-171). -/
def ternaryStep (unknowns : Bool) (c t f : VA) : VA :=
  match c.v with
  | .unknown _ => if unknowns then c else ⟨.error (noOverload "_?_:_"), none⟩
  | .error _ => c
  | .bool true => ⟨t.v, none⟩
  | .bool false => ⟨f.v, none⟩
  | _ => ⟨.error (noOverload "_?_:_"), none⟩

/-! ## Meaning -/

/-- State of an evaluation: host state, iteration counter, memo cells of the `cel.bind` variables in
scope (innermost last). -/
structure SS (σ : Type) where
  host : σ
  count : Int
  heap : List (Option VA)

/-- Result of an evaluation: a value and the new state, a failing status (with the host state at
that point), or undefined behaviour. -/
inductive Out (σ : Type) (α : Type) where
  | ok (a : α) (s : SS σ)
  | err (e : Status) (h : σ)
  | ub

/-- Sequencing. -/
def Out.bind {σ α β : Type} (o : Out σ α) (f : α → SS σ → Out σ β) : Out σ β :=
  match o with
  | .ok a s => f a s
  | .err e h => .err e h
  | .ub => .ub

/-- Lift the outcome of a step that can only touch the host state. -/
def lift {σ α : Type} (r : Res α × σ) (s : SS σ) : Out σ α :=
  match r with
  | (.ok a, h) => .ok a { s with host := h }
  | (.err e, h) => .err e h
  | (.ub, _) => .ub

/-- What a variable is bound to: a value, or a delayed computation with its memo cell. -/
inductive Binding (σ : Type) where
  | val (x : VA)
  | delayed (cell : Nat) (thunk : SS σ → Out σ VA)

/-- Environments: innermost binding first. -/
abbrev Env (σ : Type) := List (String × Binding σ)

/-- The innermost binding of `x`. -/
def envGet {σ : Type} : Env σ → String → Option (Binding σ)
  | [], _ => none
  | (y, b) :: ρ, x => if x = y then some b else envGet ρ x

/-- Reading a variable: a delayed computation runs once and is remembered. -/
def readBinding {σ : Type} (b : Binding σ) (s : SS σ) : Out σ VA :=
  match b with
  | .val x => .ok x s
  | .delayed c th =>
    match s.heap[c]? with
    | some (some x) => .ok x s
    | some none => (th s).bind fun x s' => .ok x { s' with heap := s'.heap.set c (some x) }
    | none => .ub

/-- How a loop ends: with a final accumulator (then the result expression is evaluated), or with a
value that is the comprehension's result. -/
inductive LoopEnd where
  | accu (x : VA)
  | stop (x : VA)

/-- The loop of a comprehension: for each item, charge the budget, evaluate the condition, then the
step, whose value is the next accumulator. -/
def loop {σ : Type} (cfg : Cfg σ)
    (condF stepF : Item → VA → SS σ → Out σ VA) : List Item → VA → SS σ → Out σ LoopEnd
  | [], accu, s => .ok (.accu accu) s
  | it :: its, accu, s =>
    match tick cfg.maxIter s.count with
    | none => .err budgetError s.host
    | some n =>
      (condF it accu { s with count := n }).bind fun c s =>
        match condOf cfg.shortCircuit c with
        | .stop x => .ok (.stop x) s
        | .brk => .ok (.accu accu) s
        | .go => (stepF it accu s).bind fun accu' s => loop cfg condF stepF its accu' s

/-- Bindings of the iteration variables for one item; `t` is the range's trail. -/
def iterBinds {σ : Type} (cfg : Cfg σ) (iter : String) (iter2 : Option String) (t : Trail)
    (it : Item) : Env σ :=
  match iter2 with
  | none => [(iter, .val (item1 cfg.unknowns cfg.pats t it))]
  | some y =>
    let p := item2 cfg.unknowns cfg.pats t it
    [(iter, .val p.1), (y, .val p.2)]

mutual
/-- The meaning of an expression. -/
def den {σ : Type} (cfg : Cfg σ) : Expr σ → Env σ → SS σ → Out σ VA
  | .const v, _, s => .ok ⟨v, none⟩ s
  | .ident x abs, ρ, s =>
    match (if abs then none else envGet ρ x) with
    | none => lift (cfg.global x s.host) s
    | some b => readBinding b s
  | .op f args, ρ, s => (denArgs cfg args ρ s).bind fun xs s => lift (f xs s.host) s
  | .logic isOr a b, ρ, s =>
    (den cfg a ρ s).bind fun x s =>
      match cfg.shortCircuit, x.v with
      | true, .bool y =>
        if y = isOr then .ok x s
        else (den cfg b ρ s).bind fun z s => .ok ⟨calcLogic isOr cfg.unknowns x.v z.v, none⟩ s
      | _, _ => (den cfg b ρ s).bind fun z s => .ok ⟨calcLogic isOr cfg.unknowns x.v z.v, none⟩ s
  | .cond c t f, ρ, s =>
    (den cfg c ρ s).bind fun x s =>
      if cfg.shortCircuit then
        match ternOf x with
        | .stop y => .ok y s
        | .yes => den cfg t ρ s
        | .no => den cfg f ρ s
      else
        (den cfg t ρ s).bind fun y s => (den cfg f ρ s).bind fun z s =>
          .ok (ternaryStep cfg.unknowns x y z) s
  | .comp iter iter2 accu range init cnd stp res, ρ, s =>
    (den cfg range ρ s).bind fun r s =>
      match rangeOf cfg.unknowns cfg.pats r with
      | .stop x => .ok x s
      | .items l =>
        (den cfg init ρ s).bind fun a s =>
          (loop cfg
            (fun it a s => den cfg cnd (iterBinds cfg iter iter2 r.t it ++ (accu, .val a) :: ρ) s)
            (fun it a s => den cfg stp (iterBinds cfg iter iter2 r.t it ++ (accu, .val a) :: ρ) s)
            l a s).bind fun e s =>
              match e with
              | .stop x => .ok x s
              | .accu a => den cfg res ((accu, .val a) :: ρ) s
  | .bind x init body, ρ, s =>
    (den cfg body ((x, .delayed s.heap.length (fun s => den cfg init ρ s)) :: ρ)
        { s with heap := s.heap ++ [none] }).bind fun y s' =>
      .ok y { s' with heap := s'.heap.take s.heap.length }
/-- Operands are evaluated from left to right. -/
def denArgs {σ : Type} (cfg : Cfg σ) : Exprs σ → Env σ → SS σ → Out σ (List VA)
  | .nil, _, s => .ok [] s
  | .cons e es, ρ, s =>
    (den cfg e ρ s).bind fun x s => (denArgs cfg es ρ s).bind fun xs s => .ok (x :: xs) s
end

/-- The outcome an embedder sees: a value, a failing status, or undefined behaviour; with the final
host state. -/
inductive Final (σ : Type) where
  | value (v : Value) (h : σ)
  | status (e : Status) (h : σ)
  | ub

/-- Forget everything internal. -/
def Out.final {σ : Type} : Out σ VA → Final σ
  | .ok x s => .value x.v s.host
  | .err e h => .status e h
  | .ub => .ub

/-- The meaning of a whole expression in a host state. -/
def meaning {σ : Type} (cfg : Cfg σ) (e : Expr σ) (h : σ) : Final σ := (den cfg e [] ⟨h, 0, []⟩).final

end Cel.Eval
