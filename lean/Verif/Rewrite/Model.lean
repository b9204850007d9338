import Verif.Walk.Main

set_option linter.unusedSimpArgs false
set_option linter.unusedVariables false

/-!
# Rewriting an expression – `common/ast_rewrite.cc`

`AstRewrite` walks a mutable `cel::Expr` with an explicit stack of `Expr*`, calls an `AstRewriter`
before and after each sub-expression and lets it replace the sub-expression.  An `Expr*` is modelled
by the address of the node in the expression; following one that no longer leads to a node is a
fault (`none`).  The rewriter is arbitrary: every method is a function of what the method is given
and of the rewriter's own state.
-/

namespace Cel.Rewrite
open Cel Cel.Proto Cel.Walk

/-- An `AstRewriter` – `common/ast_rewrite.h:37-56` – with state `S`. -/
structure Rewriter (S : Type) where
  /-- `PreVisitRewrite(expr)`: the new state, the new expression, the result -/
  pre : NExpr → S → S × NExpr × Bool
  /-- `PostVisitRewrite(expr)` -/
  post : NExpr → S → S × NExpr × Bool
  /-- a method of `AstVisitor`, and the expression it is given as it is then -/
  visit : Ev → NExpr → S → S
  /-- `TraversalStackUpdate(path)` -/
  path : List Addr → S → S

/-- `StackRecordKind` – `common/ast_rewrite.cc:30-54`. -/
inductive Rec where
  | expr (a : Addr)
  | arg (a call : Addr) (n : Int)
  | comp (a call : Addr) (arg : CArg)
  deriving DecidableEq

/-- `StackRecord` – `common/ast_rewrite.cc:56-104`. -/
structure StackRec where
  kind : Rec
  visited : Bool
  deriving DecidableEq

/-- `StackRecord::kTarget` – `common/ast_rewrite.cc:58`. -/
def kTarget : Int := -2

/-- `PreVisitor::operator()(const ExprRecord&)` – `common/ast_rewrite.cc:107-142`. -/
def preEvents (a : Addr) : NKind → List Ev
  | .select _ _ => [.preExpr (.loc a), .preSelect (.loc a)]
  | .call _ => [.preExpr (.loc a), .preCall (.loc a)]
  | .comprehension _ _ _ => [.preExpr (.loc a), .preComprehension (.loc a)]
  | _ => [.preExpr (.loc a)]

/-- `PostVisitor::operator()(const ExprRecord&)` – `common/ast_rewrite.cc:162-198`. -/
def postEvents (a : Addr) : NKind → List Ev
  | .const _ => [.postConst (.loc a), .postExpr (.loc a)]
  | .ident _ => [.postIdent (.loc a), .postExpr (.loc a)]
  | .select _ _ => [.postSelect (.loc a), .postExpr (.loc a)]
  | .call _ => [.postCall (.loc a), .postExpr (.loc a)]
  | .list _ => [.postList (.loc a), .postExpr (.loc a)]
  | .struct _ _ => [.postStruct (.loc a), .postExpr (.loc a)]
  | .map _ => [.postMap (.loc a), .postExpr (.loc a)]
  | .comprehension _ _ _ => [.postComprehension (.loc a), .postExpr (.loc a)]
  | .unspecified => [.postExpr (.loc a)]

/-- Visitor calls, all given the same expression. -/
def visits {S : Type} (R : Rewriter S) (n : NExpr) : List Ev → S → S
  | [], s => s
  | e :: es, s => visits R n es (R.visit e n s)

/-- `has_child()`. -/
def hasChild (ks : List NExpr) (i : Nat) : Bool := ((ks[i]?).getD .absent).present

/-- An unset child that is read with a `mutable_` accessor is created (`common/expr.h`). -/
def created : NExpr → NExpr
  | .absent => .node NNode.dflt []
  | n => n

/-- The children after `PushDependencies` has taken their addresses: `mutable_expr()` of every list
element (`common/ast_rewrite.cc:235-239`) and the five parts of a comprehension (`:273-283`) create
what is unset; operands, targets, field values, keys and values are only read when set. -/
def touchKids : NKind → List NExpr → List NExpr
  | .list _, ks => ks.map created
  | .comprehension _ _ _, ks => ks.map created
  | _, ks => ks

/-- `stack->push(StackRecord(..))`; the head of the list is the top. -/
def push (stack : List StackRec) (k : Rec) : List StackRec := ⟨k, false⟩ :: stack

/-- `PushSelectDeps` – `common/ast_rewrite.cc:212-216`. -/
def pushSelectDeps (a : Addr) (ks : List NExpr) (stack : List StackRec) : List StackRec :=
  if hasChild ks 0 then push stack (.expr (a ++ [0])) else stack

/-- The loop of `PushCallDeps` – `common/ast_rewrite.cc:223-225`; `i + 1` arguments are left. -/
def pushArgs (a : Addr) : Nat → List StackRec → List StackRec
  | 0, stack => stack
  | i + 1, stack => pushArgs a i (push stack (.arg (a ++ [i + 1]) a (i : Int)))

/-- `PushCallDeps` – `common/ast_rewrite.cc:218-231`; child 0 is the target. -/
def pushCallDeps (a : Addr) (ks : List NExpr) (stack : List StackRec) : List StackRec :=
  let stack := pushArgs a (ks.length - 1) stack
  if hasChild ks 0 then push stack (.arg (a ++ [0]) a kTarget) else stack

/-- `PushListDeps` – `common/ast_rewrite.cc:233-239`. -/
def pushListDeps (a : Addr) : Nat → List StackRec → List StackRec
  | 0, stack => stack
  | i + 1, stack => pushListDeps a i (push stack (.expr (a ++ [i])))

/-- `PushStructDeps` – `common/ast_rewrite.cc:241-251`. -/
def pushStructDeps (a : Addr) (ks : List NExpr) : Nat → List StackRec → List StackRec
  | 0, stack => stack
  | i + 1, stack =>
    pushStructDeps a ks i (if hasChild ks i then push stack (.expr (a ++ [i])) else stack)

/-- `PushMapDeps` – `common/ast_rewrite.cc:253-269`; entry `i` has its key at `2 i`, its value at
`2 i + 1`. -/
def pushMapDeps (a : Addr) (ks : List NExpr) : Nat → List StackRec → List StackRec
  | 0, stack => stack
  | i + 1, stack =>
    let stack :=
      if hasChild ks (2 * i + 1) then push stack (.expr (a ++ [2 * i + 1])) else stack
    let stack := if hasChild ks (2 * i) then push stack (.expr (a ++ [2 * i])) else stack
    pushMapDeps a ks i stack

/-- The constructor of `StackRecord` for a comprehension – `common/ast_rewrite.cc:66-86`. -/
def compRec (cb : Bool) (a call : Addr) (c : CArg) : Rec :=
  if cb then .comp a call c else .arg a call c.num

/-- `PushComprehensionDeps` – `common/ast_rewrite.cc:271-290`. -/
def pushCompDeps (cb : Bool) (a : Addr) (stack : List StackRec) : List StackRec :=
  let iterRange := compRec cb (a ++ [0]) a .iterRange
  let accuInit := compRec cb (a ++ [1]) a .accuInit
  let loopCondition := compRec cb (a ++ [2]) a .loopCondition
  let loopStep := compRec cb (a ++ [3]) a .loopStep
  let result := compRec cb (a ++ [4]) a .result
  let stack := push stack result
  let stack := push stack loopStep
  let stack := push stack loopCondition
  let stack := push stack accuInit
  push stack iterRange

/-- `PushDepsVisitor::operator()(const ExprRecord&)` – `common/ast_rewrite.cc:292-325`. -/
def pushExprDeps (cb : Bool) (a : Addr) (k : NKind) (ks : List NExpr) (stack : List StackRec) :
    List StackRec :=
  match k with
  | .unspecified => stack
  | .const _ => stack
  | .ident _ => stack
  | .select _ _ => pushSelectDeps a ks stack
  | .call _ => pushCallDeps a ks stack
  | .list opt => pushListDeps a opt.length stack
  | .struct _ fields => pushStructDeps a ks fields.length stack
  | .map entries => pushMapDeps a ks entries.length stack
  | .comprehension _ _ _ => pushCompDeps cb a stack

/-- The variables of `AstRewrite` – `common/ast_rewrite.cc:346-350` – the expression and the state
of the rewriter. -/
structure St (S : Type) where
  tree : NExpr
  stack : List StackRec
  path : List Addr
  st : S
  rewritten : Bool

/-- One turn of the loop – `common/ast_rewrite.cc:352-383`; `none`: a dangling pointer was followed
(or a rewriter left no expression, which no `Expr&` can be).  `record` is a reference to the top; a
`std::deque` does not move its elements when one is added, so `record.visited = true` after the
pushes hits the same record. -/
def turn {S : Type} (R : Rewriter S) (cb : Bool) (m : St S) : Option (St S) :=
  match m.stack with
  | [] => none
  | ⟨.expr a, false⟩ :: rest =>
    match nodeAt a m.tree with
    | none => none
    | some n =>
      let path := m.path ++ [a]
      let s := R.path path m.st
      match R.pre n s with
      | (_, .absent, _) => none
      | (s, .node l ks, b) =>
        let s := visits R (.node l ks) (preEvents a l.kind) s
        let ks := touchKids l.kind ks
        some ⟨putAt a (.node l ks) m.tree, pushExprDeps cb a l.kind ks (⟨.expr a, true⟩ :: rest),
          path, s, m.rewritten || b⟩
  | ⟨.arg a call n, false⟩ :: rest =>
    some { m with stack := push (⟨.arg a call n, true⟩ :: rest) (.expr a) }
  | ⟨.comp a call c, false⟩ :: rest =>
    match nodeAt call m.tree with
    | none => none
    | some p =>
      some { m with stack := push (⟨.comp a call c, true⟩ :: rest) (.expr a),
                    st := R.visit (.preSub (.loc call) c) p m.st }
  | ⟨.expr a, true⟩ :: rest =>
    match nodeAt a m.tree with
    | some (.node l ks) =>
      let s := visits R (.node l ks) (postEvents a l.kind) m.st
      match R.post (.node l ks) s with
      | (_, .absent, _) => none
      | (s, .node l' ks', b) =>
        let path := m.path.dropLast
        some ⟨putAt a (.node l' ks') m.tree, rest, path, R.path path s, m.rewritten || b⟩
    | _ => none
  | ⟨.arg a call n, true⟩ :: rest =>
    match nodeAt call m.tree with
    | none => none
    | some p =>
      some { m with stack := rest,
                    st := R.visit (if n = kTarget then .postTarget (.loc call)
                                   else .postArg (.loc call) n) p m.st }
  | ⟨.comp a call c, true⟩ :: rest =>
    match nodeAt call m.tree with
    | none => none
    | some p => some { m with stack := rest, st := R.visit (.postSub (.loc call) c) p m.st }

/-- The loop – `common/ast_rewrite.cc:352-385`; `none`: out of fuel or a fault. -/
def loop {S : Type} (R : Rewriter S) (cb : Bool) : Nat → St S → Option (NExpr × S × Bool)
  | 0, _ => none
  | fuel + 1, m =>
    if m.stack.isEmpty then some (m.tree, m.st, m.rewritten)
    else match turn R cb m with
      | none => none
      | some m' => loop R cb fuel m'

/-- `AstRewrite(expr, visitor, options)` – `common/ast_rewrite.cc:344-387`: the expression, the
state of the rewriter, the result. -/
def astRewrite {S : Type} (R : Rewriter S) (cb : Bool) (t : NExpr) (s : S) (fuel : Nat) :
    Option (NExpr × S × Bool) :=
  loop R cb fuel ⟨t, [⟨.expr [], false⟩], [], s, false⟩

end Cel.Rewrite
