import Verif.Eval.Expr

/-!
# The stack machine (`eval/eval/evaluator_core.cc` and the iterative steps)
-/

namespace Cel.Eval
open Cel

/-- Iterative steps (`ExpressionStep` subclasses).  Jump offsets are relative to the program counter
after its increment (`eval/eval/evaluator_core.h` lines 349-366). -/
inductive Instr (σ : Type) where
  /-- `eval/eval/compiler_constant_step.cc` lines 33-37 -/
  | const (v : Value)
  /-- `eval/eval/ident_step.cc` lines 73-82 -/
  | ident (x : String)
  /-- `SlotStep`, `eval/eval/ident_step.cc` lines 94-112 -/
  | slot (x : String) (k : Nat)
  /-- `LazyInitStep`, `eval/eval/lazy_init_step.cc` lines 36-59 -/
  | lazyInit (k : Nat) (sub : Nat)
  /-- a step popping `n` operands and pushing one result -/
  | op (n : Nat) (f : Op σ)
  /-- `LogicalOpStep`, `eval/eval/logic_step.cc` lines 188-270 -/
  | logic (isOr : Bool)
  /-- `TernaryStep`, `eval/eval/ternary_step.cc` lines 123-171 -/
  | ternary
  /-- `JumpStep`, `eval/eval/jump_step.cc` lines 38-47 -/
  | jump (off : Int)
  /-- `CondJumpStep`, `eval/eval/jump_step.cc` lines 49-82 -/
  | condJump (b leave : Bool) (off : Int)
  /-- `BoolCheckJumpStep`, `eval/eval/jump_step.cc` lines 84-121 -/
  | boolCheckJump (off : Int)
  /-- `ClearSlotStep`, `eval/eval/lazy_init_step.cc` lines 127-139 -/
  | clearSlot (k : Nat)
  /-- `ComprehensionInitStep`, `eval/eval/comprehension_step.cc` lines 447-484 -/
  | compInit (errOff : Int)
  /-- `ComprehensionNextStep`, `eval/eval/comprehension_step.cc` lines 486-596 -/
  | compNext (iter : Nat) (iter2 : Option Nat) (accu : Nat) (off : Int)
  /-- `ComprehensionCondStep`, `eval/eval/comprehension_step.cc` lines 598-664 -/
  | compCond (iter : Nat) (iter2 : Option Nat) (accu : Nat) (off errOff : Int)
  /-- `ComprehensionFinishStep`, `eval/eval/comprehension_step.cc` lines 61-78 -/
  | compFinish (accu : Nat)

/-- Execution paths: the main program at index 0, extracted subexpressions after it
(`eval/compiler/flat_expr_builder.cc` `FlattenExpressionTable` lines 2511-2540). -/
abbrev Prog (σ : Type) := List (List (Instr σ))

/-- Comprehension slots (`eval/eval/comprehension_slots.h` lines 32-160): `none` is an unset slot.
The C++ array has as many slots as the planner reserved; here every index exists. -/
abbrev Slots := Nat → Option VA

/-- `ComprehensionSlots::Set` / `ClearSlot` (`eval/eval/comprehension_slots.h` lines 136-147). -/
def upd (sl : Slots) (k : Nat) (x : Option VA) : Slots := fun j => if j = k then x else sl j

/-- Clearing the second iteration variable's slot, if there is one. -/
def clearOpt (sl : Slots) : Option Nat → Slots
  | none => sl
  | some k => upd sl k none

/-- `ExecutionFrame` (`eval/eval/evaluator_core.h` lines 300-420): execution path, program counter,
value stack (top first), iterator stack, slots, call stack (return path, return pc, slot), host
state, iteration counter. -/
structure MS (σ : Type) where
  code : Nat
  pc : Nat
  stack : List VA
  iters : List (List Item)
  slots : Slots
  calls : List (Nat × Nat × Nat)
  host : σ
  count : Int

/-- Outcome of one step. -/
inductive MRes (σ : Type) where
  | next (m : MS σ)
  | fin (r : Final σ)

/-- The stack-underflow statuses of the steps. -/
def underflow : Status := ⟨.internal, "Value stack underflow"⟩

/-- `JumpTo` (`eval/eval/evaluator_core.h` lines 353-366); `size` is the length of the current
execution path. -/
def jumpTo {σ : Type} (size : Nat) (off : Int) (m : MS σ) : MRes σ :=
  if (m.pc : Int) + off < 0 ∨ (m.pc : Int) + off > size then
    .fin (.status ⟨.internal, "Jump address out of range"⟩ m.host)
  else .next { m with pc := ((m.pc : Int) + off).toNat }

/-- Setting the iteration variables' slots for one item
(`eval/eval/comprehension_step.cc` lines 500-546, 563-594). -/
def setIter (unknowns : Bool) (pats : List Pattern) (sl : Slots) (iter : Nat) (iter2 : Option Nat)
    (t : Trail) (it : Item) : Slots :=
  match iter2 with
  | none => upd sl iter (some (item1 unknowns pats t it))
  | some k2 =>
    let p := item2 unknowns pats t it
    upd (upd sl iter (some p.1)) k2 (some p.2)

/-- `ExpressionStep::Evaluate` of each step; `m.pc` is already incremented. -/
def exec {σ : Type} (cfg : Cfg σ) (size : Nat) (i : Instr σ) (m : MS σ) : MRes σ :=
  match i with
  | .const v => .next { m with stack := ⟨v, none⟩ :: m.stack }
  | .ident x =>
    match cfg.global x m.host with
    | (.ok a, h) => .next { m with stack := a :: m.stack, host := h }
    | (.err e, h) => .fin (.status e h)
    | (.ub, _) => .fin .ub
  | .slot x k =>
    match m.slots k with
    | some a => .next { m with stack := a :: m.stack }
    | none => .fin (.status ⟨.internal, "Comprehension variable accessed out of scope: " ++ x⟩ m.host)
  | .lazyInit k sub =>
    match m.slots k with
    | some a => .next { m with stack := a :: m.stack }
    | none => .next { m with code := sub, pc := 0, calls := (m.code, m.pc, k) :: m.calls }
  | .op n f =>
    if m.stack.length < n then .fin (.status underflow m.host)
    else
      match f (m.stack.take n).reverse m.host with
      | (.ok a, h) => .next { m with stack := a :: m.stack.drop n, host := h }
      | (.err e, h) => .fin (.status e h)
      | (.ub, _) => .fin .ub
  | .logic isOr =>
    match m.stack with
    | b :: a :: st => .next { m with stack := ⟨calcLogic isOr cfg.unknowns a.v b.v, none⟩ :: st }
    | _ => .fin (.status underflow m.host)
  | .ternary =>
    match m.stack with
    | f :: t :: c :: st => .next { m with stack := ternaryStep cfg.unknowns c t f :: st }
    | _ => .fin (.status underflow m.host)
  | .jump off => jumpTo size off m
  | .condJump b leave off =>
    match m.stack with
    | [] => .fin (.status underflow m.host)
    | x :: st =>
      let m' := if leave then m else { m with stack := st }
      match x.v with
      | .bool y => if b = y then jumpTo size off m' else .next m'
      | _ => .next m'
  | .boolCheckJump off =>
    match m.stack with
    | [] => .fin (.status underflow m.host)
    | x :: st =>
      match x.v with
      | .bool _ => .next m
      | .error _ => jumpTo size off m
      | .unknown _ => jumpTo size off m
      | _ => jumpTo size off
          { m with stack := ⟨.error (noOverload "<jump_condition>"), none⟩ :: st }
  | .clearSlot k => .next { m with slots := upd m.slots k none }
  | .compInit errOff =>
    match m.stack with
    | [] => .fin (.status underflow m.host)
    | x :: st =>
      match rangeOf cfg.unknowns cfg.pats x with
      | .stop y => jumpTo size errOff { m with stack := y :: st }
      | .items l => .next { m with iters := l :: m.iters }
  | .compNext iter iter2 accu off =>
    match m.stack with
    | a :: r :: st =>
      let sl := upd m.slots accu (some a)
      match m.iters with
      | [] => .fin .ub
      | [] :: _ =>
        jumpTo size off { m with stack := r :: st, slots := clearOpt (upd sl iter none) iter2 }
      | (it :: rest) :: is =>
        match tick cfg.maxIter m.count with
        | none => .fin (.status budgetError m.host)
        | some n =>
          .next { m with
            stack := r :: st, iters := rest :: is, count := n
            slots := setIter cfg.unknowns cfg.pats sl iter iter2 r.t it }
    | _ => .fin (.status underflow m.host)
  | .compCond iter iter2 accu off errOff =>
    match m.stack with
    | c :: r :: st =>
      match condOf cfg.shortCircuit c with
      | .go => .next { m with stack := r :: st }
      | .brk => jumpTo size off { m with stack := r :: st }
      | .stop x =>
        jumpTo size errOff { m with
          stack := x :: st, iters := m.iters.tail
          slots := upd (clearOpt (upd m.slots iter none) iter2) accu none }
    | _ => .fin (.status underflow m.host)
  | .compFinish accu =>
    match m.stack with
    | x :: _ :: st =>
      .next { m with stack := x :: st, slots := upd m.slots accu none, iters := m.iters.tail }
    | _ => .fin (.status underflow m.host)

/-- End of `ExecutionFrame::Evaluate` (`eval/eval/evaluator_core.cc` lines 145-155), for an
evaluation started with an empty value stack. -/
def finish {σ : Type} (m : MS σ) : MRes σ :=
  match m.stack with
  | [x] => .fin (.value x.v m.host)
  | _ => .fin (.status ⟨.internal, "Stack error during evaluation"⟩ m.host)

/-- One round of the evaluation loop: `ExecutionFrame::Next` and `Evaluate`
(`eval/eval/evaluator_core.cc` lines 42-67, 106-143). -/
def step {σ : Type} (cfg : Cfg σ) (p : Prog σ) (m : MS σ) : MRes σ :=
  match p[m.code]? with
  | none => .fin .ub
  | some code =>
    match code[m.pc]? with
    | some i => exec cfg code.length i { m with pc := m.pc + 1 }
    | none =>
      if m.pc = code.length then
        match m.calls with
        | [] => finish m
        | (rc, rp, k) :: cs =>
          match m.stack with
          | x :: _ =>
            .next { m with code := rc, pc := rp, calls := cs, slots := upd m.slots k (some x) }
          | [] => .fin .ub
      else finish m

/-- Any number of rounds. -/
inductive Steps {σ : Type} (cfg : Cfg σ) (p : Prog σ) : MS σ → MS σ → Prop where
  | refl (m) : Steps cfg p m m
  | cons {m m' m''} : step cfg p m = .next m' → Steps cfg p m' m'' → Steps cfg p m m''

/-- The machine, started in `m`, stops with outcome `r`. -/
def Halts {σ : Type} (cfg : Cfg σ) (p : Prog σ) (m : MS σ) (r : Final σ) : Prop :=
  ∃ m', Steps cfg p m m' ∧ step cfg p m' = .fin r

/-- The state in which evaluation starts (`eval/eval/evaluator_core.cc` lines 176-200: state reset,
empty stacks, cleared slots). -/
def MS.start {σ : Type} (h : σ) : MS σ := ⟨0, 0, [], [], fun _ => none, [], h, 0⟩

end Cel.Eval
