import Verif.Walk.Nav

set_option linter.unusedSimpArgs false
set_option linter.unusedVariables false

/-! # `NavigableAst::Build` builds the table of the readable tree -/

namespace Cel.Walk
open Cel Cel.Proto

theorem onEvs_append (t : NExpr) : ∀ (xs ys : List Ev) (b b' : Builder),
    onEvs t b xs = some b' → onEvs t b (xs ++ ys) = onEvs t b' ys
  | [], ys, b, b', h => by simp only [onEvs, Option.some.injEq] at h; simp [h]
  | e :: xs, ys, b, b', h => by
    simp only [onEvs, List.cons_append] at h ⊢
    cases h1 : onEv t b e with
    | none => rw [h1] at h; cases h
    | some b1 => rw [h1] at h; exact onEvs_append t xs ys b1 b' h

theorem onEvs_preKind (t : NExpr) (k : NKind) (r : Ref) (b : Builder) :
    onEvs t b (preKind k r) = some b := by cases k <;> simp [preKind, onEvs, onEv]

theorem onEvs_postKind (t : NExpr) (k : NKind) (r : Ref) (b : Builder) :
    onEvs t b (postKind k r) = some b := by cases k <;> simp [postKind, onEvs, onEv]

theorem onEvs_after (t : NExpr) (p : Ref) (e : Edge) (b : Builder) :
    onEvs t b (after true p e) = some b := by
  cases e <;> simp [after, onEvs, onEv]

/-- `comprehension_arg_` when the sub-expression with this edge is visited. -/
def cargOf (e : Edge) (c : Option CArg) : Option CArg :=
  match e with
  | .part a => some a
  | _ => c

theorem onEvs_before (t : NExpr) (p : Ref) (e : Edge) (b : Builder) :
    onEvs t b (before true p e) =
      some { b with carg := cargOf e b.carg } := by
  cases e <;> simp [before, onEvs, onEv, cargOf]

/-! ## Lists -/

theorem modify_append {α : Type} (f : α → α) : ∀ (A B : List α) (i : Nat), i < A.length →
    (A ++ B).modify i f = A.modify i f ++ B
  | [], B, i, h => by simp at h
  | x :: A, B, 0, h => by simp
  | x :: A, B, i + 1, h => by
    simp only [List.cons_append, List.modify_succ_cons]
    rw [modify_append f A B i (by simpa using h)]

theorem modify_twice {α : Type} (f g : α → α) : ∀ (l : List α) (i : Nat),
    (l.modify i f).modify i g = l.modify i (fun x => g (f x))
  | [], i => by simp
  | x :: l, 0 => by simp
  | x :: l, i + 1 => by simp [modify_twice f g l i]

theorem modify_get {α : Type} (f : α → α) (l : List α) (i : Nat) (x : α) (h : l[i]? = some x) :
    (l.modify i f)[i]? = some (f x) := by
  rw [List.getElem?_modify]; simp [h]

theorem modify_last {α : Type} (f : α → α) (A : List α) (x : α) :
    (A ++ [x]).modify A.length f = A ++ [f x] := by
  induction A with
  | nil => simp
  | cons y A ih => simp [ih]

theorem insertFrom_append {K : Type} [DecidableEq K] : ∀ (xs ys : List K) (m : List (K × Nat))
    (b : Nat), insertFrom m b (xs ++ ys) = insertFrom (insertFrom m b xs) (b + xs.length) ys
  | [], ys, m, b => by simp [insertFrom]
  | x :: xs, ys, m, b => by
    simp only [List.cons_append, insertFrom, insertFrom_append xs ys, List.length_cons]
    rw [show b + 1 + xs.length = b + (xs.length + 1) by omega]

mutual
theorem preV_length : ∀ v : VT, (preV v).length = sizeV v
  | .mk _ _ _ kids => by simp only [preV, sizeV, List.length_cons, presV_length kids]; omega
theorem presV_length : ∀ vs : List VT, (presV vs).length = sizesV vs
  | [] => by simp [presV, sizesV]
  | v :: vs => by simp [presV, sizesV, preV_length v, presV_length vs]
end

mutual
theorem table_length : ∀ (v : VT) (b : Nat) (p : Option Nat) (ci : Int) (rel : ChildKind),
    (table b p ci rel v).length = sizeV v
  | .mk _ _ l kids, b, p, ci, rel => by
    simp only [table, sizeV, List.length_cons, tables_length kids]; omega
theorem tables_length : ∀ (vs : List VT) (b p : Nat) (k : NKind) (j : Nat),
    (tables b p k j vs).length = sizesV vs
  | [], b, p, k, j => by simp [tables, sizesV]
  | v :: vs, b, p, k, j => by
    have h1 := fun b p ci rel => table_length v b p ci rel
    have h2 := fun b p k j => tables_length vs b p k j
    cases v with
    | mk e r l kids => simp [tables, sizesV, h1, h2]
end

mutual
theorem postV_length : ∀ (v : VT) (b : Nat), (postV b v).length = sizeV v
  | .mk _ _ l kids, b => by
    simp only [postV, sizeV, List.length_append, List.length_cons, List.length_nil,
      postsV_length kids]; omega
theorem postsV_length : ∀ (vs : List VT) (b : Nat), (postsV b vs).length = sizesV vs
  | [], b => by simp [postsV, sizesV]
  | v :: vs, b => by simp [postsV, sizesV, postV_length v, postsV_length vs]
end

/-! ## Which children a node has -/

/-- The edge of the `j`-th readable child of a node of kind `k`, which has a target or not. -/
def EdgeOk (k : NKind) (ht : Bool) (j : Nat) (e : Edge) : Prop :=
  match k with
  | .select _ _ => e = .operand
  | .call _ => if j = 0 ∧ ht = true then e = .target else ∃ n, e = .arg n
  | .list _ => ∃ n, e = .elem n
  | .struct _ _ => ∃ n, e = .field n
  | .map _ => True
  | .comprehension _ _ _ => ∃ a, e = .part a
  | _ => False

def KidsOk (k : NKind) (ht : Bool) : Nat → List VT → Prop
  | _, [] => True
  | j, .mk e _ _ _ :: vs => EdgeOk k ht j e ∧ KidsOk k ht (j + 1) vs

mutual
/-- Every node of the tree can be read from the expression, and has the children its kind has. -/
def Valid (t : NExpr) : VT → Prop
  | .mk _ r l kids =>
    (∃ ks, deref t r = some (l, ks) ∧ KidsOk l.kind (hasChild ks 0) 0 kids) ∧ Valids t kids
def Valids (t : NExpr) : List VT → Prop
  | [] => True
  | v :: vs => Valid t v ∧ Valids t vs
end

theorem getChildKind_ok (t : NExpr) (x : NavNode) (l : NNode) (ks : List NExpr) (j : Nat)
    (e : Edge) (c : Option CArg) (hk : x.kind = getNodeKind l.kind)
    (hd : deref t x.expr = some (l, ks)) (he : EdgeOk l.kind (hasChild ks 0) j e) :
    getChildKind t x j (cargOf e c) = some (recorded l.kind j e) := by
  obtain ⟨id, k⟩ := l
  cases k with
  | unspecified => simp [EdgeOk] at he
  | const c => simp [EdgeOk] at he
  | ident c => simp [EdgeOk] at he
  | select f b =>
    simp only [EdgeOk] at he
    simp [getChildKind, hk, getNodeKind, recorded, he, Edge.rel]
  | call fn =>
    simp only [EdgeOk] at he
    by_cases hj : j = 0 ∧ hasChild ks 0 = true
    · rw [if_pos hj] at he
      simp [getChildKind, hk, getNodeKind, hd, recorded, he, Edge.rel, hj]
    · rw [if_neg hj] at he
      obtain ⟨n, rfl⟩ := he
      simp only [getChildKind, hk, getNodeKind, hd, recorded, Edge.rel, if_neg hj]
  | list o =>
    simp only [EdgeOk] at he
    obtain ⟨n, rfl⟩ := he
    simp [getChildKind, hk, getNodeKind, recorded, Edge.rel]
  | struct name fs =>
    simp only [EdgeOk] at he
    obtain ⟨n, rfl⟩ := he
    simp [getChildKind, hk, getNodeKind, recorded, Edge.rel]
  | map es => simp [getChildKind, hk, getNodeKind, recorded]
  | comprehension v v2 w =>
    simp only [EdgeOk] at he
    obtain ⟨a, rfl⟩ := he
    cases a <;> simp [getChildKind, hk, getNodeKind, recorded, Edge.rel, cargOf]

/-! ## The visitor on a tree -/

/-- What visiting a child does to its parent's row. -/
def bump (n : Nat) (v : VT) (x : NavNode) : NavNode :=
  { x with children := x.children ++ [n], treeSize := x.treeSize + sizeV v,
           height := max x.height (heightV v + 1) }

/-- What visiting the children does to their parent's row. -/
def bumps (n : Nat) (vs : List VT) (x : NavNode) : NavNode :=
  { x with children := x.children ++ starts n vs, treeSize := x.treeSize + sizesV vs,
           height := match vs with
             | [] => x.height
             | _ => max x.height (heightsV vs + 1) }

theorem bumps_cons (n : Nat) (v : VT) (vs : List VT) (x : NavNode) :
    bumps n (v :: vs) x = bumps (n + sizeV v) vs (bump n v x) := by
  cases vs with
  | nil => simp [bumps, bump, starts, sizesV, heightsV]
  | cons w vs =>
    simp only [bumps, bump, starts, sizesV, heightsV]
    congr 1
    · omega
    · omega
    · simp

/-- The builder after a tree (or some trees) was visited. -/
def Built (b : Builder) (nodes : List NavNode) (post : List Nat) (pre : List (Ref × NNode))
    (b' : Builder) : Prop :=
  b'.parents = b.parents ∧
  b'.nav = ⟨nodes, b.nav.postorder ++ post,
    insertFrom b.nav.idToNode b.nav.nodes.length (pre.map fun x => x.2.id),
    insertFrom b.nav.exprToNode b.nav.nodes.length (pre.map fun x => x.1)⟩

mutual
theorem build_one (t : NExpr) : ∀ (v : VT) (b : Builder) (p : Nat) (ps : List Nat) (x : NavNode)
    (rel : ChildKind), Valid t v → b.parents = p :: ps → b.nav.nodes[p]? = some x →
    getChildKind t x x.children.length b.carg = some rel →
    ∃ b', onEvs t b (trace true v) = some b' ∧
      Built b (b.nav.nodes.modify p (bump b.nav.nodes.length v) ++
        table b.nav.nodes.length (some p) (x.children.length : Int) rel v)
        (postV b.nav.nodes.length v) (preV v) b'
  | .mk e r l kids, b, p, ps, x, rel, hv, hp, hx, hg => by
    simp only [Valid] at hv
    obtain ⟨⟨ks, hd, hk⟩, hvs⟩ := hv
    have hplt : p < b.nav.nodes.length := by
      by_cases h : p < b.nav.nodes.length
      · exact h
      · rw [List.getElem?_eq_none (by omega)] at hx; cases hx
    let n := b.nav.nodes.length
    let x0 : NavNode :=
      ⟨some p, r, rel, getNodeKind l.kind, n, 1, 1, (x.children.length : Int), []⟩
    let N0 := b.nav.nodes.modify p fun x => { x with children := x.children ++ [n] }
    let b1 : Builder := ⟨⟨N0 ++ [x0], b.nav.postorder, mapInsert b.nav.idToNode l.id n,
      mapInsert b.nav.exprToNode r n⟩, n :: p :: ps, b.carg⟩
    have h1 : onEv t b (.preExpr r) = some b1 := by
      simp only [onEv, preVisitExpr, hd, hp, hx, hg, b1, x0, N0, n, List.head?_cons]
    have hN0 : N0.length = n := by simp [N0, n]
    have hx0 : b1.nav.nodes[n]? = some x0 := by
      simp [b1, ← hN0]
    obtain ⟨b2, h2, hb2⟩ := build_kids t kids b1 n (p :: ps) x0 l ks 0 hvs rfl hx0 rfl hd rfl hk
    simp only [Built] at hb2
    obtain ⟨hp2, hn2⟩ := hb2
    have hlen1 : b1.nav.nodes.length = n + 1 := by simp [b1, hN0]
    have hmod : b1.nav.nodes.modify n (bumps b1.nav.nodes.length kids) =
        N0 ++ [bumps (n + 1) kids x0] := by
      rw [hlen1]
      simp only [b1]
      rw [← hN0, modify_last, hN0]
    rw [hmod, hlen1] at hn2
    have hrow : bumps (n + 1) kids x0 =
        { parent := some p, expr := r, rel := rel, kind := getNodeKind l.kind, index := n,
          treeSize := 1 + sizesV kids, height := 1 + heightsV kids,
          childIndex := (x.children.length : Int), children := starts (n + 1) kids } := by
      cases kids with
      | nil => simp [bumps, x0, starts, sizesV, heightsV]
      | cons w ws => simp only [bumps, x0, List.nil_append]; congr 1; omega
    have hnodes : b2.nav.nodes = N0 ++ table n (some p) (x.children.length : Int) rel
        (.mk e r l kids) := by
      rw [hn2, hrow]; simp only [table, List.append_assoc, List.cons_append, List.nil_append]
    have hget2 : b2.nav.nodes[n]? = some (bumps (n + 1) kids x0) := by
      rw [hnodes, List.getElem?_append_right (by omega), hN0]
      simp [table, hrow]
    have hp3 : ∃ y, b2.nav.nodes[p]? = some y := by
      rw [hnodes, List.getElem?_append_left (by omega)]
      exact ⟨_, List.getElem?_eq_getElem (by omega)⟩
    obtain ⟨y, hy⟩ := hp3
    let b3 : Builder := ⟨⟨b2.nav.nodes.modify p fun x =>
        { x with treeSize := x.treeSize + (bumps (n + 1) kids x0).treeSize,
                 height := max x.height ((bumps (n + 1) kids x0).height + 1) },
        b2.nav.postorder ++ [n], b2.nav.idToNode, b2.nav.exprToNode⟩, p :: ps, b2.carg⟩
    have h3 : onEv t b2 (.postExpr r) = some b3 := by
      simp only [onEv, postVisitExpr, hp2, b1, hget2, hy, b3]
    refine ⟨b3, ?_, ?_⟩
    · simp only [trace, onEvs, h1]
      rw [onEvs_append t _ _ b1 b1 (onEvs_preKind t l.kind r b1),
        onEvs_append t _ _ b1 b2 h2, onEvs_append t _ _ b2 b2 (onEvs_postKind t l.kind r b2)]
      simp [onEvs, h3]
    · refine ⟨by simp [b3, hp], ?_⟩
      simp only [b3]
      rw [hnodes, modify_append _ _ _ _ (by omega)]
      simp only [N0]
      rw [modify_twice, hn2]
      simp only [postV, preV, List.map_cons, insertFrom, List.append_assoc, b1, sizeV, bump, hrow,
        heightV, n]
      rfl
theorem build_kids (t : NExpr) : ∀ (vs : List VT) (b : Builder) (p : Nat) (ps : List Nat)
    (x : NavNode) (l : NNode) (ks : List NExpr) (j : Nat), Valids t vs → b.parents = p :: ps →
    b.nav.nodes[p]? = some x → x.kind = getNodeKind l.kind → deref t x.expr = some (l, ks) →
    x.children.length = j → KidsOk l.kind (hasChild ks 0) j vs →
    ∃ b', onEvs t b (traces true x.expr vs) = some b' ∧
      Built b (b.nav.nodes.modify p (bumps b.nav.nodes.length vs) ++
        tables b.nav.nodes.length p l.kind j vs) (postsV b.nav.nodes.length vs) (presV vs) b'
  | [], b, p, ps, x, l, ks, j, _, hp, hx, _, _, _, _ => by
    refine ⟨b, by simp [traces, onEvs], rfl, ?_⟩
    have : b.nav.nodes.modify p (bumps b.nav.nodes.length []) = b.nav.nodes := by
      apply List.ext_getElem?
      intro i
      rw [List.getElem?_modify]
      have : ∀ o : Option NavNode, (bumps b.nav.nodes.length [] <$> o) = o := by
        intro o; cases o <;> simp [bumps, starts, sizesV]
      by_cases h : p = i <;> simp [h, this]
    simp only [this, tables, postsV, presV, List.append_nil, List.map_nil, insertFrom]
  | v :: vs, b, p, ps, x, l, ks, j, hv, hp, hx, hkind, hd, hj, hk => by
    have ihv := fun b p ps x rel => build_one t v b p ps x rel
    have ihs := fun b p ps x l ks j => build_kids t vs b p ps x l ks j
    simp only [Valids] at hv
    cases v with
    | mk e r l' kids =>
      simp only [KidsOk] at hk
      let b1 : Builder := { b with carg := cargOf e b.carg }
      have hplt : p < b.nav.nodes.length := by
        by_cases h : p < b.nav.nodes.length
        · exact h
        · rw [List.getElem?_eq_none (by omega)] at hx; cases hx
      have hg := getChildKind_ok t x l ks j e b.carg hkind hd hk.1
      obtain ⟨b2, h2, hb2⟩ := ihv b1 p ps x (recorded l.kind j e) hv.1 hp hx
        (by rw [hj]; exact hg)
      obtain ⟨hp2, hn2⟩ := hb2
      let n := b.nav.nodes.length
      have hx2 : b2.nav.nodes[p]? = some (bump n (.mk e r l' kids) x) := by
        rw [hn2]
        simp only [b1]
        rw [List.getElem?_append_left (by simpa using hplt)]
        exact modify_get _ _ _ _ hx
      have hlen2 : b2.nav.nodes.length = n + sizeV (.mk e r l' kids) := by
        rw [hn2]; simp [b1, table_length, n]
      obtain ⟨b3, h3, hb3⟩ := ihs b2 p ps (bump n (.mk e r l' kids) x) l ks (j + 1) hv.2
        (by rw [hp2]; exact hp) hx2 (by simpa [bump] using hkind) (by simpa [bump] using hd)
        (by simp [bump, hj]) hk.2
      obtain ⟨hp3, hn3⟩ := hb3
      refine ⟨b3, ?_, by rw [hp3, hp2], ?_⟩
      · simp only [traces]
        rw [onEvs_append t _ _ b b1 (onEvs_before t x.expr e b), onEvs_append t _ _ b1 b2 h2,
          onEvs_append t _ _ b2 b2 (onEvs_after t x.expr e b2)]
        exact h3
      · rw [hn3, hlen2, hn2]
        simp only [b1]
        rw [modify_append _ _ _ _ (by simpa using hplt), modify_twice, hj]
        have hfun : (fun y => bumps (n + sizeV (.mk e r l' kids)) vs
            (bump b.nav.nodes.length (.mk e r l' kids) y)) =
            bumps b.nav.nodes.length (.mk e r l' kids :: vs) := by
          funext y; rw [bumps_cons]
        rw [hfun]
        simp only [tables, postsV, presV, List.map_append, insertFrom_append, List.append_assoc,
          List.length_map, preV_length, sizeV, n]
end

/-- The whole expression. -/
theorem build_root (t : NExpr) (v : VT) (hv : Valid t v) :
    ∃ b', onEvs t ⟨⟨[], [], [], []⟩, [], none⟩ (trace true v) = some b' ∧
      b'.nav = ⟨table 0 none (-1) .unspecified v, postV 0 v,
        insertFrom [] 0 ((preV v).map fun x => x.2.id),
        insertFrom [] 0 ((preV v).map fun x => x.1)⟩ := by
  cases v with
  | mk e r l kids =>
    simp only [Valid] at hv
    obtain ⟨⟨ks, hd, hk⟩, hvs⟩ := hv
    let x0 : NavNode := ⟨none, r, .unspecified, getNodeKind l.kind, 0, 1, 1, -1, []⟩
    let b1 : Builder := ⟨⟨[x0], [], mapInsert [] l.id 0, mapInsert [] r 0⟩, [0], none⟩
    have h1 : onEv t ⟨⟨[], [], [], []⟩, [], none⟩ (.preExpr r) = some b1 := by
      simp [onEv, preVisitExpr, hd, b1, x0]
    obtain ⟨b2, h2, hp2, hn2⟩ := build_kids t kids b1 0 [] x0 l ks 0 hvs rfl (by simp [b1]) rfl hd
      rfl hk
    have hrow : bumps 1 kids x0 =
        { parent := none, expr := r, rel := .unspecified, kind := getNodeKind l.kind, index := 0,
          treeSize := 1 + sizesV kids, height := 1 + heightsV kids, childIndex := -1,
          children := starts 1 kids } := by
      cases kids with
      | nil => simp [bumps, x0, starts, sizesV, heightsV]
      | cons w ws => simp only [bumps, x0, List.nil_append]; congr 1; omega
    have hget : b2.nav.nodes[0]? = some (bumps 1 kids x0) := by
      rw [hn2]; simp [b1]
    refine ⟨⟨⟨b2.nav.nodes, b2.nav.postorder ++ [0], b2.nav.idToNode, b2.nav.exprToNode⟩, [],
      b2.carg⟩, ?_, ?_⟩
    · simp only [trace, onEvs, h1]
      rw [onEvs_append t _ _ b1 b1 (onEvs_preKind t l.kind r b1),
        onEvs_append t _ _ b1 b2 h2, onEvs_append t _ _ b2 b2 (onEvs_postKind t l.kind r b2)]
      simp only [onEvs, onEv, postVisitExpr, hp2, b1, hget]
    · simp only [hn2]
      simp only [b1, List.length_cons, List.length_nil, Nat.zero_add, hrow,
        table, postV, preV, List.map_cons, insertFrom, List.nil_append, List.singleton_append,
        List.modify_zero_cons, List.cons_append]

/-! ## The readable tree of an expression is valid -/

theorem kidsOk_append (k : NKind) (ht : Bool) : ∀ (xs ys : List VT) (j : Nat),
    KidsOk k ht j (xs ++ ys) ↔ KidsOk k ht j xs ∧ KidsOk k ht (j + xs.length) ys
  | [], ys, j => by simp [KidsOk]
  | .mk e r l kids :: xs, ys, j => by
    simp only [List.cons_append, KidsOk, kidsOk_append k ht xs ys, List.length_cons, and_assoc]
    rw [show j + 1 + xs.length = j + (xs.length + 1) by omega]

theorem kidsOk_of (k : NKind) (ht : Bool) (a : Addr) : ∀ (cs : List NExpr) (i j : Nat),
    (∀ i', i ≤ i' → i' < i + cs.length → ∀ j', j ≤ j' → EdgeOk k ht j' (edge k i')) →
    KidsOk k ht j (viewKids k a i cs)
  | [], i, j, h => by simp [viewKids, KidsOk]
  | c :: cs, i, j, h => by
    simp only [List.length_cons] at h
    have hrec : ∀ j', j ≤ j' → KidsOk k ht j' (viewKids k a (i + 1) cs) := fun j' hj' =>
      kidsOk_of k ht a cs (i + 1) j' (fun i' h1 h2 j2 h3 => h i' (by omega) (by omega) j2 (by omega))
    have h0 := h i (Nat.le_refl _) (by omega) j (Nat.le_refl _)
    cases c with
    | absent =>
      simp only [viewKids]
      by_cases hu : readsUnset k = true
      · rw [if_pos hu]; exact ⟨h0, hrec _ (by omega)⟩
      · rw [if_neg hu]; exact hrec _ (by omega)
    | node l ks => simp only [viewKids, view]; exact ⟨h0, hrec _ (by omega)⟩

theorem kidsOk_view (k : NKind) (a : Addr) (ks : List NExpr) (hs : CShape k ks) :
    KidsOk k (hasChild ks 0) 0 (viewKids k a 0 ks) := by
  cases k with
  | unspecified => simp only [CShape] at hs; simp [hs, viewKids, KidsOk]
  | const c => simp only [CShape] at hs; simp [hs, viewKids, KidsOk]
  | ident n => simp only [CShape] at hs; simp [hs, viewKids, KidsOk]
  | select f b =>
    apply kidsOk_of; intro i' _ _ j' _; simp [EdgeOk, edge]
  | call fn =>
    simp only [CShape] at hs
    obtain ⟨t, args, rfl, hargs⟩ := hs
    have harg : ∀ ht j, (j = 0 → ht = false) →
        KidsOk (.call fn) ht j (viewKids (.call fn) a 1 args) := by
      intro ht j hj
      apply kidsOk_of
      intro i' h1 _ j' h2
      obtain ⟨m, rfl⟩ : ∃ m, i' = m + 1 := ⟨i' - 1, by omega⟩
      simp only [EdgeOk, edge]
      rw [if_neg (by
        rintro ⟨h3, h4⟩
        have := hj (by omega)
        rw [this] at h4; cases h4)]
      exact ⟨m, rfl⟩
    cases t with
    | absent =>
      simp only [viewKids, readsUnset, Bool.false_eq_true, if_false]
      exact harg _ 0 (fun _ => by simp [hasChild, Tree.present])
    | node l cs =>
      simp only [viewKids, view]
      refine ⟨by simp [EdgeOk, edge, hasChild, Tree.present], harg _ 1 (by omega)⟩
  | list o => apply kidsOk_of; intro i' _ _ j' _; simp [EdgeOk, edge]
  | struct n fs => apply kidsOk_of; intro i' _ _ j' _; simp [EdgeOk, edge]
  | map es => apply kidsOk_of; intro i' _ _ j' _; simp [EdgeOk]
  | comprehension v v2 w =>
    simp only [CShape] at hs
    apply kidsOk_of
    intro i' _ h2 j' _
    have : i' < 5 := by omega
    match i', this with
    | 0, _ => exact ⟨_, rfl⟩
    | 1, _ => exact ⟨_, rfl⟩
    | 2, _ => exact ⟨_, rfl⟩
    | 3, _ => exact ⟨_, rfl⟩
    | 4, _ => exact ⟨_, rfl⟩

mutual
theorem valid_view (t : NExpr) : ∀ (n : NExpr) (a : Addr) (e : Edge), WFC n → n.present = true →
    nodeAt a t = some n → Valid t (view e a n)
  | .absent, _, _, _, h, _ => by simp [Tree.present] at h
  | .node l ks, a, e, hw, _, hn => by
    simp only [WFC] at hw
    simp only [view, Valid]
    refine ⟨⟨ks, by simp [deref, hn], kidsOk_view _ a ks hw.1⟩,
      valids_view t ks l.kind a 0 hw.2 (fun j l' cs' hj => by
        rw [Nat.zero_add]; exact nodeAt_child hn hj)⟩
theorem valids_view (t : NExpr) : ∀ (cs : List NExpr) (k : NKind) (a : Addr) (i : Nat), WFCs cs →
    (∀ (j : Nat) l' cs', cs[j]? = some (.node l' cs') →
      nodeAt (a ++ [i + j]) t = some (.node l' cs')) → Valids t (viewKids k a i cs)
  | [], k, a, i, _, _ => by simp [viewKids, Valids]
  | c :: cs, k, a, i, hw, hn => by
    simp only [WFCs] at hw
    have ih := valids_view t cs k a (i + 1) hw.2 (fun j l' cs' hj => by
      rw [show i + 1 + j = i + (j + 1) by omega]
      exact hn (j + 1) l' cs' (by simpa using hj))
    have hc := fun l' cs' (h : c = .node l' cs') e =>
      valid_view t c (a ++ [i]) e hw.1 (by simp [h, Tree.present])
        (by rw [h]; exact hn 0 l' cs' (by simp [h]))
    cases hcc : c with
    | absent =>
      simp only [viewKids]
      by_cases hu : readsUnset k = true
      · rw [if_pos hu]
        refine ⟨⟨⟨[], by simp [deref], ?_⟩, ?_⟩, ih⟩ <;> simp [KidsOk, Valids]
      · rw [if_neg hu]; exact ih
    | node l' cs' =>
      have := hc l' cs' hcc (edge k i)
      rw [hcc] at this
      simp only [viewKids]
      exact ⟨this, ih⟩
end

end Cel.Walk
