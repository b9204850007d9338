import Verif.Proto.Back

set_option linter.unusedSimpArgs false
set_option linter.unusedVariables false

/-!
# `Expr::FlattenedErase` – `common/expr.cc:207-318`

Destroys an expression without recursion: the nodes are linked into an intrusive list through the
storage of their own ids (a union), level by level, and then cleared from the deepest level up.
A node is named by its address; here that is the path of child positions that leads to it.
-/

namespace Cel.Proto
open Cel

/-- The address of a node: child positions from the root. -/
abbrev Addr := List Nat

/-- The node at an address; `none` when there is no such node (any more). -/
def nodeAt : Addr → NExpr → Option NExpr
  | _, .absent => none
  | [], .node l ks => some (.node l ks)
  | i :: p, .node _ ks =>
    match ks[i]? with
    | some k => nodeAt p k
    | none => none

/-- Overwrite the node at an address. -/
def putAt : Addr → NExpr → NExpr → NExpr
  | [], c, _ => c
  | _ :: _, _, .absent => .absent
  | i :: p, c, .node l ks =>
    match ks[i]? with
    | some k => .node l (ks.set i (putAt p c k))
    | none => .node l ks

/-- The machine: the expression, the `u_.next` pointers (`none`: null), the end of the list. -/
structure EState where
  tree : NExpr
  next : Addr → Option Addr
  tail : Addr

/-- `child.SetNext(tag, *tail); *tail = &child;`. -/
def pushNode (s : EState) (c : Addr) : EState :=
  ⟨s.tree, fun a => if a = c then some s.tail else s.next a, c⟩

/-- `mutable_expr()`, `mutable_value()`, `mutable_key()`: an unset child is created. -/
def materialize : NKind → List NExpr → List NExpr
  | .list _, ks | .struct _ _, ks | .map _, ks =>
    ks.map fun k => match k with | .absent => .node NNode.dflt [] | k => k
  | _, ks => ks

/-- The child positions in the order `Expand` links them; `accu_init` comes before `iter_range`. -/
def expandOrder (k : NKind) (ks : List NExpr) : List Nat :=
  match k with
  | .comprehension _ _ _ =>
    [1, 0, 2, 3, 4].filter fun i => ((ks[i]?).getD .absent).present
  | .unspecified | .const _ | .ident _ => []
  | _ => (List.range ks.length).filter fun i => ((ks[i]?).getD .absent).present

/-- `Expand(&tail, cur)` – `common/expr.cc:212-289`; `none`: `cur` is no node. -/
def expand (s : EState) (cur : Addr) : Option EState :=
  match nodeAt cur s.tree with
  | some (.node l ks) =>
    let ks' := materialize l.kind ks
    let s' : EState := ⟨putAt cur (.node l ks') s.tree, s.next, s.tail⟩
    some ((expandOrder l.kind ks').foldl (fun s i => pushNode s (cur ++ [i])) s')
  | _ => none

/-- The inner loop – `common/expr.cc:303-308`; `none`: undefined behaviour or out of fuel. -/
def expandLoop : Nat → Option Addr → Option Addr → EState → Option EState
  | 0, _, _, _ => none
  | fuel + 1, ptr, prev, s =>
    if ptr = prev then some s
    else match ptr with
      | none => none
      | some p =>
        let nx := s.next p
        match expand s p with
        | none => none
        | some s' => expandLoop fuel nx prev s'

/-- The outer loop – `common/expr.cc:300-310`. -/
def levelLoop : Nat → Option Addr → EState → Option EState
  | 0, _, _ => none
  | fuel + 1, prev, s =>
    if some s.tail = prev then some s
    else
      let nextPrev := s.tail
      match expandLoop fuel (some s.tail) prev s with
      | none => none
      | some s' => levelLoop fuel (some nextPrev) s'

/-- How deep the destructors of the children of this node nest. -/
def shallow : NExpr → Bool
  | .absent => true
  | .node _ ks => ks.all fun k => match k with | .absent => true | .node _ ks => ks.isEmpty

/-- The second loop – `common/expr.cc:312-317`: the expression, the addresses cleared, in order,
and whether every `Clear()` had only childless children to destroy.  `none`: a destroyed node was
read. -/
def clearLoop (next : Addr → Option Addr) : Nat → Option Addr → NExpr →
    Option (NExpr × List Addr × Bool)
  | _, none, t => some (t, [], true)
  | 0, some _, _ => none
  | fuel + 1, some p, t =>
    match nodeAt p t with
    | none => none
    | some n =>
      match clearLoop next fuel (next p) (putAt p (.node NNode.dflt []) t) with
      | none => none
      | some (t', ps, b) => some (t', p :: ps, shallow n && b)

/-- `FlattenedErase()`; `ids` is what the other nodes' `u_` hold (their ids, read as pointers). -/
def flattenedErase (fuel : Nat) (ids : Addr → Option Addr) (t : NExpr) :
    Option (NExpr × List Addr × Bool) :=
  let s : EState := ⟨t, fun a => if a = [] then none else ids a, []⟩
  match levelLoop fuel none s with
  | none => none
  | some s' => clearLoop s'.next fuel (some s'.tail) s'.tree

end Cel.Proto
