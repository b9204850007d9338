import Verif.Walk.Trace

set_option linter.unusedSimpArgs false
set_option linter.unusedVariables false

/-!
# `NavigableAst` – `common/navigable_ast.cc`, `common/ast/navigable_ast_internal.h`

The visitor that builds the table of nodes, and the queries on it.  A `NavigableAstNode*` is
modelled by the position of the node in `metadata->nodes`.
-/

namespace Cel.Walk
open Cel Cel.Proto

/-- `ChildKind` – `common/ast/navigable_ast_kinds.h:25-39`. -/
inductive ChildKind where
  | unspecified | selectOperand | callReceiver | callArg | listElem | mapKey | mapValue | structValue
  | comprehensionRange | comprehensionInit | comprehensionCondition | comprehensionLoopStep
  | comprehensionResult
  deriving DecidableEq

/-- `NodeKind` – `common/ast/navigable_ast_kinds.h:41-51`. -/
inductive NodeKind where
  | unspecified | constant | ident | select | call | list | map | struct | comprehension
  deriving DecidableEq

/-- `NavigableAstNodeData` – `common/ast/navigable_ast_internal.h:124-137`. -/
structure NavNode where
  parent : Option Nat
  expr : Ref
  rel : ChildKind
  kind : NodeKind
  index : Nat
  treeSize : Nat
  height : Nat
  childIndex : Int
  children : List Nat
  deriving DecidableEq

/-- `NavigableAstMetadata` – `common/ast/navigable_ast_internal.h:139-152`. -/
structure Nav where
  nodes : List NavNode
  postorder : List Nat
  idToNode : List (Int × Nat)
  exprToNode : List (Ref × Nat)

/-- `NavigableExprBuilderVisitor` – `common/navigable_ast.cc:109-188`; the head of `parents` is
the back of `parent_stack_`. -/
structure Builder where
  nav : Nav
  parents : List Nat
  carg : Option CArg

/-- `GetNodeKind` – `common/navigable_ast.cc:42-64`. -/
def getNodeKind : NKind → NodeKind
  | .unspecified => .unspecified
  | .const _ => .constant
  | .ident _ => .ident
  | .select _ _ => .select
  | .call _ => .call
  | .list _ => .list
  | .struct _ _ => .struct
  | .map _ => .map
  | .comprehension _ _ _ => .comprehension

/-- `GetChildKind` – `common/navigable_ast.cc:68-107`; `none`: a dangling reference was
followed. -/
def getChildKind (t : NExpr) (parent : NavNode) (childIndex : Nat) (carg : Option CArg) :
    Option ChildKind :=
  match parent.kind with
  | .struct => some .structValue
  | .map => some (if childIndex % 2 = 0 then .mapKey else .mapValue)
  | .list => some .listElem
  | .select => some .selectOperand
  | .call =>
    match deref t parent.expr with
    | none => none
    | some (_, ks) =>
      some (if childIndex = 0 ∧ hasChild ks 0 = true then .callReceiver else .callArg)
  | .comprehension =>
    some (match carg with
      | none => .unspecified
      | some .iterRange => .comprehensionRange
      | some .accuInit => .comprehensionInit
      | some .loopCondition => .comprehensionCondition
      | some .loopStep => .comprehensionLoopStep
      | some .result => .comprehensionResult)
  | _ => some .unspecified

/-- `flat_hash_map::insert`: an entry that is there stays. -/
def mapInsert {K : Type} [DecidableEq K] (m : List (K × Nat)) (k : K) (v : Nat) : List (K × Nat) :=
  if m.any (fun e => e.1 = k) then m else m ++ [(k, v)]

/-- `flat_hash_map::find`. -/
def mapFind {K : Type} [DecidableEq K] (m : List (K × Nat)) (k : K) : Option Nat :=
  (m.find? fun e => e.1 = k).map (·.2)

/-- `PreVisitExpr` – `common/navigable_ast.cc:123-153`. -/
def preVisitExpr (t : NExpr) (b : Builder) (r : Ref) : Option Builder :=
  match deref t r with
  | none => none
  | some (l, _) =>
    let index := b.nav.nodes.length
    let node : NavNode :=
      { parent := b.parents.head?, expr := r, rel := .unspecified, kind := getNodeKind l.kind,
        index := index, treeSize := 1, height := 1, childIndex := -1, children := [] }
    let ids := mapInsert b.nav.idToNode l.id index
    let exprs := mapInsert b.nav.exprToNode r index
    match b.parents with
    | [] => some ⟨⟨b.nav.nodes ++ [node], b.nav.postorder, ids, exprs⟩, [index], b.carg⟩
    | p :: ps =>
      match b.nav.nodes[p]? with
      | none => none
      | some parent =>
        let childIndex := parent.children.length
        match getChildKind t parent childIndex b.carg with
        | none => none
        | some rel =>
          let nodes := b.nav.nodes.modify p fun x => { x with children := x.children ++ [index] }
          some ⟨⟨nodes ++ [{ node with rel := rel, childIndex := (childIndex : Int) }],
            b.nav.postorder, ids, exprs⟩, index :: p :: ps, b.carg⟩

/-- `PostVisitExpr` – `common/navigable_ast.cc:161-173`. -/
def postVisitExpr (b : Builder) : Option Builder :=
  match b.parents with
  | [] => none
  | idx :: ps =>
    match b.nav.nodes[idx]? with
    | none => none
    | some node =>
      let post := b.nav.postorder ++ [idx]
      match ps with
      | [] => some ⟨⟨b.nav.nodes, post, b.nav.idToNode, b.nav.exprToNode⟩, [], b.carg⟩
      | p :: ps =>
        match b.nav.nodes[p]? with
        | none => none
        | some _ =>
          let nodes := b.nav.nodes.modify p fun x =>
            { x with treeSize := x.treeSize + node.treeSize,
                     height := max x.height (node.height + 1) }
          some ⟨⟨nodes, post, b.nav.idToNode, b.nav.exprToNode⟩, p :: ps, b.carg⟩

/-- The visitor; the other callbacks are those of `AstVisitorBase`, which do nothing. -/
def onEv (t : NExpr) (b : Builder) : Ev → Option Builder
  | .preExpr r => preVisitExpr t b r
  | .preSub _ a => some { b with carg := some a }
  | .postExpr _ => postVisitExpr b
  | _ => some b

/-- A visitor receiving the calls in order. -/
def onEvs (t : NExpr) : Builder → List Ev → Option Builder
  | b, [] => some b
  | b, e :: es =>
    match onEv t b e with
    | none => none
    | some b' => onEvs t b' es

/-- `NavigableAst::Build(expr)` – `common/navigable_ast.cc:192-205`. -/
def build (t : NExpr) (fuel : Nat) : Option Nav :=
  match astTraverse true t fuel with
  | none => none
  | some evs =>
    match onEvs t ⟨⟨[], [], [], []⟩, [], none⟩ evs with
    | none => none
    | some b => some b.nav

/-! ## Queries – `common/ast/navigable_ast_internal.h:176-300` -/

/-- `absl::Span::subspan(pos, len)`; `none`: `pos` is out of range (the call throws). -/
def subspan {α : Type} (l : List α) (pos len : Nat) : Option (List α) :=
  if pos ≤ l.length then some ((l.drop pos).take len) else none

/-- `DescendantsPreorder()` – `:214-217`: positions of the nodes in the range. -/
def Nav.descendantsPreorder (m : Nav) (n : NavNode) : Option (List Nat) :=
  subspan (List.range m.nodes.length) n.index n.treeSize

/-- `DescendantsPostorder()` – `:221-224`. -/
def Nav.descendantsPostorder (m : Nav) (n : NavNode) : Option (List Nat) :=
  subspan m.postorder n.index n.treeSize

/-- `FindId(id)` – `:271-277`. -/
def Nav.findId (m : Nav) (id : Int) : Option Nat := mapFind m.idToNode id

/-- `FindExpr(expr)` – `:280-287`. -/
def Nav.findExpr (m : Nav) (r : Ref) : Option Nat := mapFind m.exprToNode r

/-- `IdsAreUnique()` – `:297-299`. -/
def Nav.idsAreUnique (m : Nav) : Bool := m.idToNode.length = m.nodes.length

/-! ## Specification: the table of a readable tree -/

mutual
/-- The number of nodes. -/
def sizeV : VT → Nat
  | .mk _ _ _ kids => 1 + sizesV kids
def sizesV : List VT → Nat
  | [] => 0
  | v :: vs => sizeV v + sizesV vs
end

mutual
/-- The number of nodes on the longest path down. -/
def heightV : VT → Nat
  | .mk _ _ _ kids => 1 + heightsV kids
/-- The greatest height. -/
def heightsV : List VT → Nat
  | [] => 0
  | v :: vs => max (heightV v) (heightsV vs)
end

/-- The relation an edge is. -/
def Edge.rel : Edge → ChildKind
  | .root => .unspecified
  | .operand => .selectOperand
  | .target => .callReceiver
  | .arg _ => .callArg
  | .elem _ => .listElem
  | .field _ => .structValue
  | .key _ => .mapKey
  | .value _ => .mapValue
  | .part .iterRange => .comprehensionRange
  | .part .accuInit => .comprehensionInit
  | .part .loopCondition => .comprehensionCondition
  | .part .loopStep => .comprehensionLoopStep
  | .part .result => .comprehensionResult

/-- The relation recorded for the `j`-th child: that of its edge, except that below a map it goes
by the parity of `j`. -/
def recorded (k : NKind) (j : Nat) (e : Edge) : ChildKind :=
  match k with
  | .map _ => if j % 2 = 0 then .mapKey else .mapValue
  | _ => e.rel

/-- Where the children of a node start, when the first starts at `b`. -/
def starts (b : Nat) : List VT → List Nat
  | [] => []
  | v :: vs => b :: starts (b + sizeV v) vs

mutual
/-- The rows for a tree whose root gets position `b`. -/
def table (b : Nat) (parent : Option Nat) (ci : Int) (rel : ChildKind) : VT → List NavNode
  | .mk e r l kids =>
    { parent := parent, expr := r, rel := rel, kind := getNodeKind l.kind, index := b,
      treeSize := 1 + sizesV kids, height := 1 + heightsV kids, childIndex := ci,
      children := starts (b + 1) kids } :: tables (b + 1) b l.kind 0 kids
/-- … for the children from the `j`-th on of the node at `p`, which is of kind `k`. -/
def tables (b p : Nat) (k : NKind) (j : Nat) : List VT → List NavNode
  | [] => []
  | .mk e r l kids :: vs =>
    table b (some p) (j : Int) (recorded k j e) (.mk e r l kids) ++
      tables (b + (1 + sizesV kids)) p k (j + 1) vs
end

mutual
/-- The positions in postorder. -/
def postV (b : Nat) : VT → List Nat
  | .mk _ _ _ kids => postsV (b + 1) kids ++ [b]
def postsV (b : Nat) : List VT → List Nat
  | [] => []
  | v :: vs => postV b v ++ postsV (b + sizeV v) vs
end

mutual
/-- The nodes in preorder. -/
def preV : VT → List (Ref × NNode)
  | .mk _ r l kids => (r, l) :: presV kids
def presV : List VT → List (Ref × NNode)
  | [] => []
  | v :: vs => preV v ++ presV vs
end

/-- Insert a key for every item, numbering from `b`. -/
def insertFrom {K : Type} [DecidableEq K] (m : List (K × Nat)) (b : Nat) : List K → List (K × Nat)
  | [] => m
  | k :: ks => insertFrom (mapInsert m k b) (b + 1) ks

end Cel.Walk
