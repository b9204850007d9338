import Verif.Proto.Erase

set_option linter.unusedSimpArgs false
set_option linter.unusedVariables false

/-!
# Visiting an expression – `common/ast_traverse.cc`

`AstTraverse` and `AstTraversal` walk a `cel::Expr` with an explicit stack and call an
`AstVisitor`.  A `const Expr&` is modelled by what it refers to: a node of the expression, named
by its address (`Cel.Proto.Addr`), or the shared `Expr::default_instance()` that reading an unset
child yields.
-/

namespace Cel.Walk
open Cel Cel.Proto

/-- What a `const Expr&` refers to. -/
inductive Ref where
  /-- a node of the expression -/
  | loc (a : Addr)
  /-- `Expr::default_instance()` – `common/expr.h`, `common/expr.cc:173-176` -/
  | dflt
  deriving DecidableEq

/-- `ComprehensionArg` – `common/ast_visitor.h:25-31`. -/
inductive CArg where
  | iterRange | accuInit | loopCondition | loopStep | result
  deriving DecidableEq

/-- The value of the enumerator. -/
def CArg.num : CArg → Int
  | .iterRange => 0 | .accuInit => 1 | .loopCondition => 2 | .loopStep => 3 | .result => 4

/-- A call of a method of `AstVisitor` – `common/ast_visitor.h:44-122`; the arguments are
the expression the method is given (the further arguments are parts of it). -/
inductive Ev where
  | preExpr (r : Ref)
  | preSelect (r : Ref)
  | preCall (r : Ref)
  | preComprehension (r : Ref)
  | preSub (comp : Ref) (a : CArg)
  | postConst (r : Ref)
  | postIdent (r : Ref)
  | postSelect (r : Ref)
  | postCall (r : Ref)
  | postList (r : Ref)
  | postStruct (r : Ref)
  | postMap (r : Ref)
  | postComprehension (r : Ref)
  | postExpr (r : Ref)
  | postTarget (call : Ref)
  | postArg (call : Ref) (n : Int)
  | postSub (comp : Ref) (a : CArg)
  deriving DecidableEq

/-- `StackRecordKind` – `common/ast_traverse.cc:30-54`. -/
inductive Rec where
  | expr (r : Ref)
  | arg (r : Ref) (call : Ref) (n : Int)
  | comp (r : Ref) (call : Ref) (a : CArg)
  deriving DecidableEq

/-- `StackRecord` – `common/ast_traverse.cc:56-102`. -/
structure StackRec where
  kind : Rec
  visited : Bool
  deriving DecidableEq

/-- `StackRecord::kTarget` – `common/ast_traverse.cc:58`. -/
def kTarget : Int := -2

/-- Follow a reference; `none`: dangling. -/
def deref (t : NExpr) : Ref → Option (NNode × List NExpr)
  | .dflt => some (NNode.dflt, [])
  | .loc a =>
    match nodeAt a t with
    | some (.node l ks) => some (l, ks)
    | _ => none

/-- `x.child()`: the child if it is set, else the default instance. -/
def childRef (r : Ref) (ks : List NExpr) (i : Nat) : Ref :=
  match r, ks[i]? with
  | .loc a, some (.node _ _) => .loc (a ++ [i])
  | _, _ => .dflt

/-- `has_child()`. -/
def hasChild (ks : List NExpr) (i : Nat) : Bool := ((ks[i]?).getD .absent).present

/-- `PreVisitor::operator()(const ExprRecord&)` – `common/ast_traverse.cc:105-117`. -/
def preKind : NKind → Ref → List Ev
  | .select _ _, r => [.preSelect r]
  | .call _, r => [.preCall r]
  | .comprehension _ _ _, r => [.preComprehension r]
  | _, _ => []

/-- The handler in `PostVisitor` – `common/ast_traverse.cc:139-170`; an unspecified expression is
only logged. -/
def postKind : NKind → Ref → List Ev
  | .const _, r => [.postConst r]
  | .ident _, r => [.postIdent r]
  | .select _ _, r => [.postSelect r]
  | .call _, r => [.postCall r]
  | .list _, r => [.postList r]
  | .struct _ _, r => [.postStruct r]
  | .map _, r => [.postMap r]
  | .comprehension _ _ _, r => [.postComprehension r]
  | .unspecified, _ => []

/-- `PreVisit` – `common/ast_traverse.cc:104-132`. -/
def preVisit (t : NExpr) : Rec → Option (List Ev)
  | .expr r =>
    match deref t r with
    | some (l, _) => some (.preExpr r :: preKind l.kind r)
    | none => none
  | .arg _ _ _ => some []
  | .comp _ call a => some [.preSub call a]

/-- `PostVisit` – `common/ast_traverse.cc:134-193`. -/
def postVisit (t : NExpr) : Rec → Option (List Ev)
  | .expr r =>
    match deref t r with
    | some (l, _) => some (postKind l.kind r ++ [.postExpr r])
    | none => none
  | .arg _ call n => some (if n = kTarget then [.postTarget call] else [.postArg call n])
  | .comp _ call a => some [.postSub call a]

/-- `stack->push(StackRecord(..))`; the head of the list is the top. -/
def push (stack : List StackRec) (k : Rec) : List StackRec := ⟨k, false⟩ :: stack

/-- `PushSelectDeps` – `common/ast_traverse.cc:195-200`. -/
def pushSelectDeps (r : Ref) (ks : List NExpr) (stack : List StackRec) : List StackRec :=
  if hasChild ks 0 then push stack (.expr (childRef r ks 0)) else stack

/-- The loop of `PushCallDeps` – `common/ast_traverse.cc:207-209`; `i + 1` arguments are left. -/
def pushArgs (r : Ref) (ks : List NExpr) : Nat → List StackRec → List StackRec
  | 0, stack => stack
  | i + 1, stack => pushArgs r ks i (push stack (.arg (childRef r ks (i + 1)) r (i : Int)))

/-- `PushCallDeps` – `common/ast_traverse.cc:202-214`; child 0 is the target. -/
def pushCallDeps (r : Ref) (ks : List NExpr) (stack : List StackRec) : List StackRec :=
  let stack := pushArgs r ks (ks.length - 1) stack
  if hasChild ks 0 then push stack (.arg (childRef r ks 0) r kTarget) else stack

/-- `PushListDeps` – `common/ast_traverse.cc:216-222`. -/
def pushListDeps (r : Ref) (ks : List NExpr) : Nat → List StackRec → List StackRec
  | 0, stack => stack
  | i + 1, stack => pushListDeps r ks i (push stack (.expr (childRef r ks i)))

/-- `PushStructDeps` – `common/ast_traverse.cc:224-235`. -/
def pushStructDeps (r : Ref) (ks : List NExpr) : Nat → List StackRec → List StackRec
  | 0, stack => stack
  | i + 1, stack =>
    pushStructDeps r ks i (if hasChild ks i then push stack (.expr (childRef r ks i)) else stack)

/-- `PushMapDeps` – `common/ast_traverse.cc:237-253`; entry `i` has its key at `2 i`, its value at
`2 i + 1`. -/
def pushMapDeps (r : Ref) (ks : List NExpr) : Nat → List StackRec → List StackRec
  | 0, stack => stack
  | i + 1, stack =>
    let stack :=
      if hasChild ks (2 * i + 1) then push stack (.expr (childRef r ks (2 * i + 1))) else stack
    let stack := if hasChild ks (2 * i) then push stack (.expr (childRef r ks (2 * i))) else stack
    pushMapDeps r ks i stack

/-- The constructor of `StackRecord` for a comprehension – `common/ast_traverse.cc:66-85`. -/
def compRec (cb : Bool) (r call : Ref) (a : CArg) : Rec :=
  if cb then .comp r call a else .arg r call a.num

/-- `PushComprehensionDeps` – `common/ast_traverse.cc:255-275`. -/
def pushCompDeps (cb : Bool) (r : Ref) (ks : List NExpr) (stack : List StackRec) :
    List StackRec :=
  let iterRange := compRec cb (childRef r ks 0) r .iterRange
  let accuInit := compRec cb (childRef r ks 1) r .accuInit
  let loopCondition := compRec cb (childRef r ks 2) r .loopCondition
  let loopStep := compRec cb (childRef r ks 3) r .loopStep
  let result := compRec cb (childRef r ks 4) r .result
  let stack := push stack result
  let stack := push stack loopStep
  let stack := push stack loopCondition
  let stack := push stack accuInit
  push stack iterRange

/-- `PushDepsVisitor` – `common/ast_traverse.cc:277-321`. -/
def pushExprDeps (cb : Bool) (r : Ref) (l : NNode) (ks : List NExpr) (stack : List StackRec) :
    List StackRec :=
  match l.kind with
  | .unspecified => stack
  | .const _ => stack
  | .ident _ => stack
  | .select _ _ => pushSelectDeps r ks stack
  | .call _ => pushCallDeps r ks stack
  | .list opt => pushListDeps r ks opt.length stack
  | .struct _ fields => pushStructDeps r ks fields.length stack
  | .map entries => pushMapDeps r ks entries.length stack
  | .comprehension _ _ _ => pushCompDeps cb r ks stack

/-- `PushDependencies` – `common/ast_traverse.cc:323-327`. -/
def pushDependencies (cb : Bool) (t : NExpr) : Rec → List StackRec → Option (List StackRec)
  | .expr r, stack =>
    match deref t r with
    | some (l, ks) => some (pushExprDeps cb r l ks stack)
    | none => none
  | .arg r _ _, stack => some (push stack (.expr r))
  | .comp r _ _, stack => some (push stack (.expr r))

/-- One turn of the loop – `common/ast_traverse.cc:368-376` and `:345-354`; `none`: a dangling
reference was followed.  `record` is a reference to the top; a `std::deque` does not move its
elements when one is added, so `record.visited = true` after the pushes hits the same record. -/
def turn (cb : Bool) (t : NExpr) : List StackRec → Option (List Ev × List StackRec)
  | [] => some ([], [])
  | ⟨k, false⟩ :: rest =>
    match preVisit t k with
    | none => none
    | some evs =>
      match pushDependencies cb t k (⟨k, true⟩ :: rest) with
      | none => none
      | some stack => some (evs, stack)
  | ⟨k, true⟩ :: rest =>
    match postVisit t k with
    | none => none
    | some evs => some (evs, rest)

/-- The loop of `AstTraverse` – `common/ast_traverse.cc:362-377`; `none`: out of fuel, or a
dangling reference was followed. -/
def loop (cb : Bool) (t : NExpr) : Nat → List StackRec → Option (List Ev)
  | 0, _ => none
  | fuel + 1, stack =>
    if stack.isEmpty then some []
    else match turn cb t stack with
      | none => none
      | some (evs, stack') =>
        match loop cb t fuel stack' with
        | none => none
        | some evs' => some (evs ++ evs')

/-- `AstTraverse(expr, visitor, options)`: the visitor calls it makes. -/
def astTraverse (cb : Bool) (t : NExpr) (fuel : Nat) : Option (List Ev) :=
  loop cb t fuel [⟨.expr (.loc []), false⟩]

/-- `AstTraversal::Create(ast, options)` – `common/ast_traverse.cc:336-342`. -/
def create : List StackRec := [⟨.expr (.loc []), false⟩]

/-- `AstTraversal::Step(visitor)` – `common/ast_traverse.cc:348-365`: the visitor calls, the
result, the new state. -/
def stepOnce (cb : Bool) (t : NExpr) (stack : List StackRec) :
    Option (List Ev × Bool × List StackRec) :=
  if stack.isEmpty then some ([], false, stack)
  else match turn cb t stack with
    | none => none
    | some (evs, stack') => some (evs, !stack'.isEmpty, stack')

/-- `n` calls of `Step`: all the visitor calls, the results, the state. -/
def steps (cb : Bool) (t : NExpr) : Nat → List StackRec → Option (List Ev × List Bool × List StackRec)
  | 0, stack => some ([], [], stack)
  | n + 1, stack =>
    match stepOnce cb t stack with
    | none => none
    | some (evs, b, stack') =>
      match steps cb t n stack' with
      | none => none
      | some (evs', bs, s) => some (evs ++ evs', b :: bs, s)

/-! ## Specification -/

/-- How a sub-expression hangs below its parent. -/
inductive Edge where
  | root
  | operand
  | target
  | arg (n : Nat)
  | elem (n : Nat)
  | field (n : Nat)
  | key (n : Nat)
  | value (n : Nat)
  | part (a : CArg)
  deriving DecidableEq

/-- What a reader of the expression sees: nodes with the sub-expressions that are there to read. -/
inductive VT where
  | mk (e : Edge) (r : Ref) (l : NNode) (kids : List VT)

/-- The relation of the `i`-th child position of a node of this kind. -/
def edge : NKind → Nat → Edge
  | .select _ _, _ => .operand
  | .call _, 0 => .target
  | .call _, i + 1 => .arg i
  | .list _, i => .elem i
  | .struct _ _, i => .field i
  | .map _, i => if i % 2 = 0 then .key (i / 2) else .value (i / 2)
  | .comprehension _ _ _, 0 => .part .iterRange
  | .comprehension _ _ _, 1 => .part .accuInit
  | .comprehension _ _ _, 2 => .part .loopCondition
  | .comprehension _ _ _, 3 => .part .loopStep
  | .comprehension _ _ _, 4 => .part .result
  | _, _ => .root

/-- An unset list element or comprehension part reads as a default expression; other unset
children are not there. -/
def readsUnset : NKind → Bool
  | .list _ => true
  | .comprehension _ _ _ => true
  | _ => false

mutual
/-- The expression as a reader sees it. -/
def view (e : Edge) (a : Addr) : NExpr → VT
  | .absent => .mk e .dflt NNode.dflt []
  | .node l ks => .mk e (.loc a) l (viewKids l.kind a 0 ks)
/-- The children, from position `i` on. -/
def viewKids (k : NKind) (a : Addr) (i : Nat) : List NExpr → List VT
  | [] => []
  | .absent :: cs =>
    if readsUnset k then .mk (edge k i) .dflt NNode.dflt [] :: viewKids k a (i + 1) cs
    else viewKids k a (i + 1) cs
  | .node l ks :: cs => view (edge k i) (a ++ [i]) (.node l ks) :: viewKids k a (i + 1) cs
end

/-- What a visitor is told before the sub-expression. -/
def before (cb : Bool) (p : Ref) : Edge → List Ev
  | .part a => if cb then [.preSub p a] else []
  | _ => []

/-- What a visitor is told after the sub-expression. -/
def after (cb : Bool) (p : Ref) : Edge → List Ev
  | .target => [.postTarget p]
  | .arg n => [.postArg p n]
  | .part a => if cb then [.postSub p a] else [.postArg p a.num]
  | _ => []

mutual
/-- The calls a visitor must receive for a node. -/
def trace (cb : Bool) : VT → List Ev
  | .mk _ r l kids =>
    .preExpr r :: (preKind l.kind r ++ (traces cb r kids ++ (postKind l.kind r ++ [.postExpr r])))
/-- … and for the children of `p`. -/
def traces (cb : Bool) (p : Ref) : List VT → List Ev
  | [] => []
  | .mk e r l kids :: vs =>
    before cb p e ++ (trace cb (.mk e r l kids) ++ (after cb p e ++ traces cb p vs))
end

end Cel.Walk
