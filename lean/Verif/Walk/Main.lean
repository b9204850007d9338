import Verif.Walk.Order

set_option linter.unusedSimpArgs false
set_option linter.unusedVariables false

/-!
# C63, C64: what visitors and navigable ASTs say about an expression

`t` ranges over all expressions a program can build (`WFC`: every node has the child positions its
kind has; whether an optional child is set is free).
-/

namespace Cel.Walk
open Cel Cel.Proto

/-- The tree a reader of `t` sees. -/
def seenTree (t : NExpr) : VT := view .root [] t

/-! ## C63: traversal -/

/-- `AstTraverse` ends, follows no dangling reference, and makes exactly the calls of the recursive
specification. -/
theorem C63_traverse_calls (cb : Bool) (t : NExpr) (hp : t.present = true) (hw : WFC t) :
    ∃ N, ∀ fuel, N ≤ fuel → astTraverse cb t fuel = some (trace cb (seenTree t)) := by
  have hn : nodeAt [] t = some t := by
    cases t with
    | absent => simp [Tree.present] at hp
    | node l ks => simp [nodeAt]
  exact loop_of_run (run_expr cb t t [] .root [] hp hw hn) rfl

/-- `AstTraversal`: `Step` makes the same calls, piece by piece.  There is a number of steps `N`
such that after any number `n` of calls of `Step` the visitor has been told an initial part of the
calls `AstTraverse` makes, the `i`-th call (counting from 0) returned true exactly if `i + 1 < N`,
the traversal is done exactly from `N` calls on, and then the visitor has been told everything. -/
theorem C63_traversal_steps (cb : Bool) (t : NExpr) (hp : t.present = true) (hw : WFC t) :
    ∃ N, ∀ n, ∃ pre post stack, trace cb (seenTree t) = pre ++ post ∧
      steps cb t n create = some (pre, (List.range n).map (fun i => decide (i + 1 < N)), stack) ∧
      (stack = [] ↔ N ≤ n) ∧ (N ≤ n → post = []) := by
  have hn : nodeAt [] t = some t := by
    cases t with
    | absent => simp [Tree.present] at hp
    | node l ks => simp [nodeAt]
  exact steps_of_run (run_expr cb t t [] .root [] hp hw hn) rfl

/-- Every node of the expression is announced exactly once on the way down, parents before
children and earlier children before later ones … -/
theorem C63_visits_down (cb : Bool) (t : NExpr) (hp : t.present = true) :
    (∀ a, a ∈ locs (preRefs (trace cb (seenTree t))) ↔ ∃ m, nodeAt a t = some m) ∧
    (locs (preRefs (trace cb (seenTree t)))).Nodup ∧
    (locs (preRefs (trace cb (seenTree t)))).Pairwise DownBefore := by
  have hs := (sorted_view t .root [] hp).1
  rw [(preRefs_trace cb (seenTree t)).1]
  refine ⟨fun a => ?_, nodup_of_pairwise not_downBefore hs, hs⟩
  rw [mem_locs]
  unfold seenTree
  rw [(mem_view t .root [] a hp).1]
  simp

/-- … and exactly once on the way up, children before parents and earlier children before later
ones. -/
theorem C63_visits_up (cb : Bool) (t : NExpr) (hp : t.present = true) :
    (∀ a, a ∈ locs (postRefs (trace cb (seenTree t))) ↔ ∃ m, nodeAt a t = some m) ∧
    (locs (postRefs (trace cb (seenTree t)))).Nodup ∧
    (locs (postRefs (trace cb (seenTree t)))).Pairwise UpBefore := by
  have hs := (sorted_view t .root [] hp).2
  rw [(preRefs_trace cb (seenTree t)).2]
  refine ⟨fun a => ?_, nodup_of_pairwise not_upBefore hs, hs⟩
  rw [mem_locs]
  unfold seenTree
  rw [(mem_view t .root [] a hp).2, (mem_view t .root [] a hp).1]
  simp

/-- `x.f(y, [ , z])` with an unset list element: target, then the argument, then its elements. -/
def sampleExpr : NExpr :=
  .node ⟨1, .call "f"⟩ [.node ⟨2, .ident "x"⟩ [], .node ⟨3, .ident "y"⟩ [],
    .node ⟨4, .list [false, false]⟩ [.absent, .node ⟨5, .const .null⟩ []]]

example : sampleExpr.present = true ∧ WFC sampleExpr := by
  simp [sampleExpr, Tree.present, WFC, WFCs, CShape]

example : trace true (seenTree sampleExpr) =
    [.preExpr (.loc []), .preCall (.loc []),
     .preExpr (.loc [0]), .postIdent (.loc [0]), .postExpr (.loc [0]), .postTarget (.loc []),
     .preExpr (.loc [1]), .postIdent (.loc [1]), .postExpr (.loc [1]), .postArg (.loc []) 0,
     .preExpr (.loc [2]), .preExpr .dflt, .postExpr .dflt,
     .preExpr (.loc [2, 1]), .postConst (.loc [2, 1]), .postExpr (.loc [2, 1]),
     .postList (.loc [2]), .postExpr (.loc [2]), .postArg (.loc []) 1,
     .postCall (.loc []), .postExpr (.loc [])] := by decide +kernel

example : astTraverse true sampleExpr 20 = some (trace true (seenTree sampleExpr)) := by
  decide +kernel

/-! ## C64: navigable ASTs -/

theorem loop_mono (cb : Bool) (t : NExpr) : ∀ (f g : Nat) (s : List StackRec) (evs : List Ev),
    f ≤ g → loop cb t f s = some evs → loop cb t g s = some evs
  | 0, g, s, evs, _, h => by simp [loop] at h
  | f + 1, g, s, evs, hfg, h => by
    obtain ⟨g, rfl⟩ : ∃ g', g = g' + 1 := ⟨g - 1, by omega⟩
    simp only [loop] at h ⊢
    by_cases hs : s.isEmpty = true
    · rw [if_pos hs] at h ⊢; exact h
    · rw [if_neg hs] at h ⊢
      cases ht : turn cb t s with
      | none => rw [ht] at h; cases h
      | some x =>
        obtain ⟨e1, s1⟩ := x
        rw [ht] at h
        simp only at h ⊢
        cases hl : loop cb t f s1 with
        | none => rw [hl] at h; cases h
        | some e2 => rw [hl] at h; rw [loop_mono cb t f g s1 e2 (by omega) hl]; exact h

/-- The metadata `Build` makes. -/
def specNav (v : VT) : Nav :=
  ⟨table 0 none (-1) .unspecified v, postV 0 v, insertFrom [] 0 ((preV v).map fun x => x.2.id),
    insertFrom [] 0 ((preV v).map fun x => x.1)⟩

theorem build_spec (t : NExpr) (hp : t.present = true) (hw : WFC t) :
    ∃ N, ∀ fuel, N ≤ fuel → build t fuel = some (specNav (seenTree t)) := by
  have hn : nodeAt [] t = some t := by
    cases t with
    | absent => simp [Tree.present] at hp
    | node l ks => simp [nodeAt]
  obtain ⟨N, hN⟩ := C63_traverse_calls true t hp hw
  obtain ⟨b', hb, hnav⟩ := build_root t (seenTree t) (valid_view t t [] .root hw hp hn)
  refine ⟨N, fun fuel hf => ?_⟩
  simp only [build, hN fuel hf, hb, specNav, hnav]

theorem build_eq (t : NExpr) (hp : t.present = true) (hw : WFC t) (fuel : Nat) (m : Nav)
    (h : build t fuel = some m) : m = specNav (seenTree t) := by
  obtain ⟨N, hN⟩ := build_spec t hp hw
  cases ht : astTraverse true t fuel with
  | none => simp [build, ht] at h
  | some evs =>
    have h1 : astTraverse true t (fuel + N) = some evs :=
      loop_mono true t fuel (fuel + N) _ evs (by omega) ht
    have h2 : build t (fuel + N) = build t fuel := by simp only [build, ht, h1]
    rw [hN (fuel + N) (by omega), h] at h2
    exact (Option.some.inj h2).symm

/-- `Build` succeeds on every expression. -/
theorem C64_build_total (t : NExpr) (hp : t.present = true) (hw : WFC t) :
    ∃ N, ∀ fuel, N ≤ fuel → ∃ m, build t fuel = some m := by
  obtain ⟨N, hN⟩ := build_spec t hp hw
  exact ⟨N, fun fuel hf => ⟨_, hN fuel hf⟩⟩

/-- Every node of the readable tree has a row, which says what the node is, its parent, its
children, its size and its height; there are no other rows, and no two nodes share one. -/
theorem C64_rows (t : NExpr) (hp : t.present = true) (hw : WFC t) (fuel : Nat) (m : Nav)
    (h : build t fuel = some m) :
    (∀ p e r l kids, atV p (seenTree t) = some (.mk e r l kids) →
      ∃ x, m.nodes[posV p (seenTree t)]? = some x ∧ x.expr = r ∧ x.kind = getNodeKind l.kind ∧
        x.index = posV p (seenTree t) ∧ x.treeSize = sizeV (.mk e r l kids) ∧
        x.height = heightV (.mk e r l kids) ∧
        x.children = (List.range kids.length).map (fun j => posV (p ++ [j]) (seenTree t)) ∧
        (p = [] → x.parent = none ∧ x.childIndex = -1 ∧ x.rel = .unspecified) ∧
        (∀ q (j : Nat), p = q ++ [j] → x.parent = some (posV q (seenTree t)) ∧
          x.childIndex = (j : Int))) ∧
    (∀ i, i < m.nodes.length → ∃ p w, atV p (seenTree t) = some w ∧ posV p (seenTree t) = i) ∧
    (∀ p q w w', atV p (seenTree t) = some w → atV q (seenTree t) = some w' →
      posV p (seenTree t) = posV q (seenTree t) → p = q) := by
  have hm := build_eq t hp hw fuel m h
  subst hm
  refine ⟨fun p e r l kids hat => ?_, fun i hi => ?_, fun p q w w' h1 h2 h3 =>
    pos_inj p q _ w w' h1 h2 h3⟩
  · refine ⟨_, row_at (seenTree t) p e r l kids hat, rfl, rfl, rfl, rfl, rfl, rfl, ?_, ?_⟩
    · rintro rfl; exact ⟨rfl, rfl, rfl⟩
    · rintro q j rfl; simp [upOf, lastStep]
  · exact pos_onto (seenTree t) i (by simpa [specNav, table_length] using hi)

/-- The node is a node of the expression: the row's expression is the one at that address, or the
default instance for an unset list element or comprehension part. -/
theorem C64_nodes (t : NExpr) (hp : t.present = true) (hw : WFC t) (fuel : Nat) (m : Nav)
    (h : build t fuel = some m) :
    m.nodes.map (·.expr) = preRefs (trace true (seenTree t)) ∧
    m.postorder.map (fun i => (m.nodes[i]?).map (·.expr)) =
      (postRefs (trace true (seenTree t))).map some := by
  have hm := build_eq t hp hw fuel m h
  subst hm
  constructor
  · rw [(preRefs_trace true (seenTree t)).1]
    simp only [specNav]
    generalize seenTree t = v
    have : ∀ v b p ci rel, (table b p ci rel v).map (·.expr) = (preV v).map (·.1) := by
      intro v
      exact VT.rec (motive_1 := fun v => ∀ b p ci rel,
          (table b p ci rel v).map (·.expr) = (preV v).map (·.1))
        (motive_2 := fun vs => ∀ b p k j,
          (tables b p k j vs).map (·.expr) = (presV vs).map (·.1))
        (fun e r l kids ih b p ci rel => by simp [table, preV, ih])
        (fun b p k j => by simp [tables, presV])
        (fun v vs ih1 ih2 b p k j => by
          rw [tables_cons]; simp [presV, ih1, ih2]) v
    exact this v 0 none (-1) .unspecified
  · rw [(preRefs_trace true (seenTree t)).2]
    simp only [specNav]
    generalize seenTree t = v
    have key : ∀ v : VT, ∀ b p ci rel (X Y : List NavNode), X.length = b →
        (postV b v).map (fun i => ((X ++ (table b p ci rel v ++ Y))[i]?).map (·.expr)) =
          (upV v).map some := by
      intro v
      exact VT.rec (motive_1 := fun v => ∀ b p ci rel (X Y : List NavNode), X.length = b →
          (postV b v).map (fun i => ((X ++ (table b p ci rel v ++ Y))[i]?).map (·.expr)) =
            (upV v).map some)
        (motive_2 := fun vs => ∀ b p k j (X Y : List NavNode), X.length = b →
          (postsV b vs).map (fun i => ((X ++ (tables b p k j vs ++ Y))[i]?).map (·.expr)) =
            (upsV vs).map some)
        (fun e r l kids ih b p ci rel X Y hX => by
          simp only [postV, table, upV, List.map_append]
          have := ih (b + 1) b l.kind 0 (X ++ [⟨p, r, rel, getNodeKind l.kind, b,
            1 + sizesV kids, 1 + heightsV kids, ci, starts (b + 1) kids⟩]) Y (by simp [hX])
          simp only [List.append_assoc, List.cons_append, List.nil_append] at this ⊢
          rw [this]
          congr 1
          simp [← hX])
        (fun b p k j X Y hX => by simp [postsV, upsV])
        (fun v vs ih1 ih2 b p k j X Y hX => by
          simp only [postsV, upsV, List.map_append, tables_cons, List.append_assoc]
          rw [ih1 b (some p) (j : Int) (recorded k j v.edge) X _ hX]
          have := ih2 (b + sizeV v) p k (j + 1)
            (X ++ table b (some p) (j : Int) (recorded k j v.edge) v) Y
            (by simp [hX, table_length])
          simp only [List.append_assoc] at this
          rw [this]) v
    have := key v 0 none (-1) .unspecified [] [] rfl
    simpa using this

/-- The relation to the parent is right, except below a map … -/
theorem C64_relation (t : NExpr) (hp : t.present = true) (hw : WFC t) (fuel : Nat) (m : Nav)
    (h : build t fuel = some m) (q : List Nat) (j : Nat) (u w : VT)
    (hq : atV q (seenTree t) = some u) (hj : atV (q ++ [j]) (seenTree t) = some w)
    (hmap : ∀ es, u.label.kind ≠ .map es) :
    ∃ x, m.nodes[posV (q ++ [j]) (seenTree t)]? = some x ∧ x.rel = w.edge.rel := by
  have hm := build_eq t hp hw fuel m h
  subst hm
  obtain ⟨e, r, l, kids⟩ := w
  refine ⟨_, row_at (seenTree t) (q ++ [j]) e r l kids hj, ?_⟩
  have hl : lastStep (q ++ [j]) = some (q, j) := by simp [lastStep]
  simp only [upOf, hl, hq, VT.edge]
  cases hk : u.label.kind <;> first | rfl | exact absurd hk (hmap _)

theorem mem_atV_kids (t : NExpr) : ∀ (p : List Nat) (v w : VT), Valid t v → atV p v = some w →
    Valid t w
  | [], v, w, hv, h => by simp only [atV, Option.some.injEq] at h; rw [← h]; exact hv
  | j :: p, .mk e r l kids, w, hv, h => by
    simp only [atV] at h
    cases hj : kids[j]? with
    | none => rw [hj] at h; cases h
    | some u =>
      rw [hj] at h
      simp only [Valid] at hv
      have : ∀ (ks : List VT) (j : Nat) u, Valids t ks → ks[j]? = some u → Valid t u := by
        intro ks
        induction ks with
        | nil => intro j u _ h; simp at h
        | cons x xs ih =>
          intro j u hv h
          simp only [Valids] at hv
          cases j with
          | zero => simp at h; rw [← h]; exact hv.1
          | succ j => exact ih j u hv.2 (by simpa using h)
      exact mem_atV_kids t p u w (this kids j u hv.2 hj) h

/-- … and below a map whose entries all have a key and a value. -/
def FullMap (u : VT) : Prop :=
  ∀ j w, u.kids[j]? = some w → w.edge = if j % 2 = 0 then .key (j / 2) else .value (j / 2)

theorem C64_relation_map (t : NExpr) (hp : t.present = true) (hw : WFC t) (fuel : Nat) (m : Nav)
    (h : build t fuel = some m) (q : List Nat) (j : Nat) (u w : VT)
    (hq : atV q (seenTree t) = some u) (hj : atV (q ++ [j]) (seenTree t) = some w)
    (hfull : FullMap u) :
    ∃ x, m.nodes[posV (q ++ [j]) (seenTree t)]? = some x ∧ x.rel = w.edge.rel := by
  have hm := build_eq t hp hw fuel m h
  subst hm
  obtain ⟨e, r, l, kids⟩ := w
  refine ⟨_, row_at (seenTree t) (q ++ [j]) e r l kids hj, ?_⟩
  have hl : lastStep (q ++ [j]) = some (q, j) := by simp [lastStep]
  simp only [upOf, hl, hq, VT.edge]
  have hk : u.kids[j]? = some (.mk e r l kids) := by
    rw [atV_append, hq] at hj
    obtain ⟨e', r', l', kids'⟩ := u
    simp only [atV] at hj
    cases h2 : kids'[j]? with
    | none => rw [h2] at hj; cases hj
    | some u' => rw [h2] at hj; simpa [VT.kids, h2] using hj
  have he := hfull j _ hk
  simp only [VT.edge] at he
  cases u.label.kind with
  | map es => simp only [recorded, he]; by_cases h0 : j % 2 = 0 <;> simp [h0, Edge.rel]
  | _ => rfl

/-- `{ : v}`: with the key unset the value is recorded as a key. -/
theorem C64_finding_map_relation : ∃ (t : NExpr) (m : Nav) (w : VT) (x : NavNode), t.present = true ∧
    WFC t ∧ build t 20 = some m ∧ atV [0] (seenTree t) = some w ∧ m.nodes[1]? = some x ∧
    w.edge = .value 0 ∧ x.rel = .mapKey :=
  ⟨.node ⟨1, .map [⟨2, false⟩]⟩ [.absent, .node ⟨3, .ident "v"⟩ []], _,
    .mk (.value 0) (.loc [1]) ⟨3, .ident "v"⟩ [], _, by simp [Tree.present],
    by simp [WFC, WFCs, CShape], rfl, rfl, rfl, rfl, rfl⟩

/-! ### Ranges -/

/-- `DescendantsPreorder()` of any node: exactly the node and the nodes below it, in preorder. -/
theorem C64_preorder (t : NExpr) (hp : t.present = true) (hw : WFC t) (fuel : Nat) (m : Nav)
    (h : build t fuel = some m) (p : List Nat) (w : VT) (hat : atV p (seenTree t) = some w) :
    ∃ x ps, m.nodes[posV p (seenTree t)]? = some x ∧ m.descendantsPreorder x = some ps ∧
      ps.map (fun i => (m.nodes[i]?).map (·.expr)) = (preV w).map (fun y => some y.1) ∧
      (∀ i, i ∈ ps ↔ ∃ q w', atV q w = some w' ∧ i = posV (p ++ q) (seenTree t)) := by
  have hrefs := (C64_nodes t hp hw fuel m h).1
  have hm := build_eq t hp hw fuel m h
  subst hm
  obtain ⟨e, r, l, kids⟩ := w
  have hle := posV_lt p (seenTree t) _ hat
  refine ⟨_, ((List.range (sizeV (seenTree t))).drop (posV p (seenTree t))).take
    (sizeV (.mk e r l kids)), row_at (seenTree t) p e r l kids hat, ?_, ?_, ?_⟩
  · simp only [Nav.descendantsPreorder, specNav, subspan, List.length_range, table_length]
    rw [if_pos (by omega)]
  · rw [(preRefs_trace true (seenTree t)).1] at hrefs
    obtain ⟨_, _, E, F, hE, hEl⟩ := split p (.mk e r l kids) (seenTree t) 0 none (-1) .unspecified hat
    apply List.ext_getElem?
    intro i
    simp only [List.getElem?_map, List.getElem?_take, List.getElem?_drop]
    by_cases hi : i < sizeV (.mk e r l kids)
    · rw [if_pos hi, List.getElem?_range (by omega)]
      simp only [Option.map_some]
      have h1 := congrArg (fun L => L[posV p (seenTree t) + i]?) hrefs
      simp only [List.getElem?_map] at h1
      rw [h1, hE, List.getElem?_append_right (by omega), hEl, Nat.add_sub_cancel_left,
        List.getElem?_append_left (by rw [preV_length]; exact hi)]
      have hlt : i < (preV (VT.mk e r l kids)).length := by rw [preV_length]; exact hi
      rw [List.getElem?_eq_getElem hlt]
      rfl
    · rw [if_neg hi, List.getElem?_eq_none (by rw [preV_length]; omega)]
      rfl
  · intro i
    have hmem : i ∈ ((List.range (sizeV (seenTree t))).drop (posV p (seenTree t))).take
        (sizeV (.mk e r l kids)) ↔ posV p (seenTree t) ≤ i ∧
          i < posV p (seenTree t) + sizeV (.mk e r l kids) := by
      rw [List.mem_iff_getElem?]
      simp only [List.getElem?_take, List.getElem?_drop]
      constructor
      · rintro ⟨n, hn⟩
        by_cases h1 : n < sizeV (.mk e r l kids)
        · rw [if_pos h1, List.getElem?_range (by omega)] at hn
          simp only [Option.some.injEq] at hn
          omega
        · rw [if_neg h1] at hn; cases hn
      · rintro ⟨h1, h2⟩
        refine ⟨i - posV p (seenTree t), ?_⟩
        rw [if_pos (by omega), List.getElem?_range (by omega)]
        congr 1; omega
    rw [hmem]
    constructor
    · rintro ⟨h1, h2⟩
      obtain ⟨q, w', hq, hpos⟩ := pos_onto (.mk e r l kids) (i - posV p (seenTree t)) (by omega)
      exact ⟨q, w', hq, by rw [posV_append p q _ _ hat, hpos]; omega⟩
    · rintro ⟨q, w', hq, rfl⟩
      rw [posV_append p q _ _ hat]
      have := posV_lt q _ w' hq
      have := sizeV_pos w'
      omega

theorem postV_mem (v : VT) : ∀ b i, i ∈ postV b v ↔ b ≤ i ∧ i < b + sizeV v :=
  VT.rec (motive_1 := fun v => ∀ b i, i ∈ postV b v ↔ b ≤ i ∧ i < b + sizeV v)
    (motive_2 := fun vs => ∀ b i, i ∈ postsV b vs ↔ b ≤ i ∧ i < b + sizesV vs)
    (fun e r l kids ih b i => by
      simp only [postV, sizeV, List.mem_append, List.mem_singleton, ih]; omega)
    (fun b i => by simp only [postsV, sizesV, List.not_mem_nil, false_iff]; omega)
    (fun v vs ih1 ih2 b i => by
      simp only [postsV, sizesV, List.mem_append, ih1, ih2]; omega) v

theorem postV_nodup (v : VT) : ∀ b, (postV b v).Nodup :=
  VT.rec (motive_1 := fun v => ∀ b, (postV b v).Nodup)
    (motive_2 := fun vs => ∀ b, (∀ i, i ∈ postsV b vs → b ≤ i) ∧ (postsV b vs).Nodup)
    (fun e r l kids ih b => by
      simp only [postV]
      refine List.nodup_append.2 ⟨(ih (b + 1)).2, by simp, ?_⟩
      intro x hx y hy he
      have := (ih (b + 1)).1 x hx
      simp at hy
      omega)
    (fun b => by simp [postsV])
    (fun v vs ih1 ih2 b => by
      simp only [postsV]
      constructor
      · intro i hi
        rw [List.mem_append, postV_mem] at hi
        rcases hi with hi | hi
        · omega
        · have := (ih2 _).1 i hi; omega
      · refine List.nodup_append.2 ⟨ih1 b, (ih2 _).2, ?_⟩
        intro x hx y hy he
        rw [postV_mem] at hx
        have := (ih2 _).1 y hy
        omega) v

/-- `DescendantsPostorder()` of the root: every node, children before parents. -/
theorem C64_postorder_root (t : NExpr) (hp : t.present = true) (hw : WFC t) (fuel : Nat) (m : Nav)
    (h : build t fuel = some m) :
    ∃ x, m.nodes[0]? = some x ∧ m.descendantsPostorder x = some m.postorder ∧
      (∀ i, i ∈ m.postorder ↔ i < m.nodes.length) ∧ m.postorder.Nodup := by
  have hm := build_eq t hp hw fuel m h
  subst hm
  cases hv : seenTree t with
  | mk e r l kids =>
    have hrow := row_at (seenTree t) [] e r l kids (by rw [hv]; rfl)
    rw [hv] at hrow
    refine ⟨_, hrow, ?_, ?_, postV_nodup _ 0⟩
    · simp only [Nav.descendantsPostorder, specNav, subspan, posV, List.drop_zero]
      rw [if_pos (Nat.zero_le _), List.take_of_length_le (by rw [postV_length]; exact Nat.le_refl _)]
    · intro i
      simp only [specNav, postV_mem, table_length]; omega

/-- `DescendantsPostorder()` of any other node is wrong: it starts at the node's place in
*preorder* in the list of nodes in postorder. -/
theorem C64_finding_postorder (t : NExpr) (hp : t.present = true) (hw : WFC t) (fuel : Nat) (m : Nav)
    (h : build t fuel = some m) (p : List Nat) (w : VT) (hat : atV p (seenTree t) = some w) :
    ∃ x ps, m.nodes[posV p (seenTree t)]? = some x ∧ m.descendantsPostorder x = some ps ∧
      (ps = postV (posV p (seenTree t)) w ↔ p = []) := by
  have hm := build_eq t hp hw fuel m h
  subst hm
  obtain ⟨e, r, l, kids⟩ := w
  have hle := posV_lt p (seenTree t) _ hat
  refine ⟨_, ((postV 0 (seenTree t)).drop (posV p (seenTree t))).take (sizeV (.mk e r l kids)),
    row_at (seenTree t) p e r l kids hat, ?_, ?_⟩
  · simp only [Nav.descendantsPostorder, specNav, subspan, postV_length]
    rw [if_pos (by omega)]
  · constructor
    · intro heq
      obtain ⟨_, ⟨C, D, hC, hCl⟩, _⟩ := split p (.mk e r l kids) (seenTree t) 0 none (-1)
        .unspecified hat
      have hs := sizeV_pos (.mk e r l kids)
      have h0 := congrArg (fun L => L[0]?) heq
      simp only [List.getElem?_take, List.getElem?_drop, hs, if_true, Nat.add_zero] at h0
      have h1 : (postV 0 (seenTree t))[C.length]? =
          (postV (posV p (seenTree t)) (.mk e r l kids))[0]? := by
        rw [hC, List.getElem?_append_right (Nat.le_refl _), Nat.sub_self,
          List.getElem?_append_left (by rw [postV_length]; omega), Nat.zero_add]
      rw [← h1] at h0
      have hlen : (postV 0 (seenTree t)).length = sizeV (seenTree t) := postV_length _ _
      have hi : posV p (seenTree t) < (postV 0 (seenTree t)).length := by omega
      have hj : C.length < (postV 0 (seenTree t)).length := by omega
      rw [List.getElem?_eq_getElem hi, List.getElem?_eq_getElem hj] at h0
      simp only [Option.some.injEq] at h0
      have := (List.Nodup.getElem_inj_iff (postV_nodup (seenTree t) 0)).1 h0
      have : p.length = 0 := by omega
      exact List.length_eq_zero_iff.1 this
    · rintro rfl
      simp only [atV, Option.some.injEq] at hat
      simp only [posV, List.drop_zero, hat]
      rw [List.take_of_length_le (by rw [postV_length]; exact Nat.le_refl _)]

/-- `f(a)`: the postorder range of `a` is `f`. -/
example : ∃ m x, build (.node ⟨1, .call "f"⟩ [.absent, .node ⟨2, .ident "a"⟩ []]) 20 = some m ∧
    m.nodes[1]? = some x ∧ x.expr = .loc [1] ∧ m.descendantsPostorder x = some [0] ∧
    (m.nodes[0]?).map (·.expr) = some (.loc []) := ⟨_, _, rfl, rfl, rfl, rfl, rfl⟩

/-! ### Lookups -/

theorem mapFind_insertFrom {K : Type} [DecidableEq K] (k : K) : ∀ (ks : List K)
    (m : List (K × Nat)) (b : Nat), mapFind (insertFrom m b ks) k =
      match mapFind m k with
      | some i => some i
      | none => if k ∈ ks then some (b + ks.idxOf k) else none
  | [], m, b => by cases h : mapFind m k <;> simp [insertFrom, h]
  | x :: ks, m, b => by
    simp only [insertFrom]
    rw [mapFind_insertFrom k ks (mapInsert m x b) (b + 1)]
    have hany : (m.any fun e => e.1 = x) = (mapFind m x).isSome := by
      rw [Bool.eq_iff_iff]
      simp only [mapFind, Option.isSome_map, List.find?_isSome, List.any_eq_true]
    by_cases hx : (m.any fun e => e.1 = x) = true
    · simp only [mapInsert, hx, if_true]
      cases hk : mapFind m k with
      | some i => rfl
      | none =>
        have hne : k ≠ x := by
          rintro rfl
          rw [hany, hk] at hx; cases hx
        simp only [List.mem_cons, hne, false_or]
        by_cases hin : k ∈ ks
        · rw [if_pos hin, if_pos hin, List.idxOf_cons_ne _ (fun h => hne h.symm)]
          congr 1; omega
        · rw [if_neg hin, if_neg hin]
    · simp only [mapInsert, hx, Bool.false_eq_true, if_false]
      by_cases hkx : x = k
      · subst hkx
        have hnone : mapFind m x = none := by
          cases h : mapFind m x with
          | none => rfl
          | some i => rw [hany, h] at hx; simp at hx
        have : mapFind (m ++ [(x, b)]) x = some b := by
          simp only [mapFind, Option.map_eq_none_iff] at hnone
          simp [mapFind, List.find?_append, hnone]
        rw [this, hnone]
        simp
      · have : mapFind (m ++ [(x, b)]) k = mapFind m k := by
          simp only [mapFind, List.find?_append, List.find?_cons, List.find?_nil]
          rw [show decide (x = k) = false from decide_eq_false hkx]
          cases List.find? (fun e => decide (e.1 = k)) m <;> rfl
        rw [this]
        cases hk : mapFind m k with
        | some i => rfl
        | none =>
          simp only [List.mem_cons, Ne.symm (fun h => hkx h : x ≠ k), false_or]
          have hkx' : k ≠ x := fun h => hkx h.symm
          by_cases hin : k ∈ ks
          · rw [if_pos hin, if_pos hin, List.idxOf_cons_ne _ hkx]
            congr 1; omega
          · rw [if_neg hin, if_neg hin]

theorem insertFrom_length {K : Type} [DecidableEq K] : ∀ (ks : List K) (m : List (K × Nat))
    (b : Nat), (insertFrom m b ks).length ≤ m.length + ks.length ∧
      ((insertFrom m b ks).length = m.length + ks.length ↔
        ks.Nodup ∧ ∀ k ∈ ks, ¬ (m.any fun e => e.1 = k) = true)
  | [], m, b => by simp [insertFrom]
  | x :: ks, m, b => by
    obtain ⟨h1, h2⟩ := insertFrom_length ks (mapInsert m x b) (b + 1)
    simp only [insertFrom, List.length_cons, List.nodup_cons, List.mem_cons]
    by_cases hx : (m.any fun e => e.1 = x) = true
    · simp only [mapInsert, hx, if_true] at h1 h2 ⊢
      refine ⟨by omega, ⟨fun h => by omega, fun h => ?_⟩⟩
      exact absurd hx (h.2 x (Or.inl rfl))
    · simp only [mapInsert, hx, Bool.false_eq_true, if_false, List.length_append, List.length_cons,
        List.length_nil] at h1 h2 ⊢
      refine ⟨by omega, ?_⟩
      rw [show m.length + (ks.length + 1) = m.length + (0 + 1) + ks.length by omega, h2]
      simp only [List.any_append, List.any_cons, List.any_nil, Bool.or_false, Bool.or_eq_true,
        decide_eq_true_eq, not_or]
      constructor
      · rintro ⟨hn, hk⟩
        refine ⟨⟨fun hin => (hk x hin).2 rfl, hn⟩, ?_⟩
        rintro k (rfl | hin)
        · simpa using hx
        · exact (hk k hin).1
      · rintro ⟨⟨hnin, hn⟩, hk⟩
        exact ⟨hn, fun k hin => ⟨hk k (Or.inr hin), fun he => hnin (by rw [he]; exact hin)⟩⟩

/-- The ids of the nodes of a table, in preorder. -/
def idsOf (t : NExpr) : List Int := (preV (seenTree t)).map fun x => x.2.id

/-- `FindId`: the first node in preorder with that id, `nullptr` if there is none. -/
theorem C64_findId (t : NExpr) (hp : t.present = true) (hw : WFC t) (fuel : Nat) (m : Nav)
    (h : build t fuel = some m) (id : Int) :
    m.findId id = if id ∈ idsOf t then some ((idsOf t).idxOf id) else none := by
  have hm := build_eq t hp hw fuel m h
  subst hm
  have e : (preV (seenTree t)).map (fun x => x.2.id) = idsOf t := rfl
  simp only [Nav.findId, specNav]
  rw [e, mapFind_insertFrom]
  by_cases hid : id ∈ idsOf t
  · rw [if_pos hid, if_pos hid]; simp [mapFind]
  · rw [if_neg hid, if_neg hid]; simp [mapFind]

/-- `IdsAreUnique`: exactly if no two nodes have the same id. -/
theorem C64_idsAreUnique (t : NExpr) (hp : t.present = true) (hw : WFC t) (fuel : Nat) (m : Nav)
    (h : build t fuel = some m) : m.idsAreUnique = true ↔ (idsOf t).Nodup := by
  have hm := build_eq t hp hw fuel m h
  subst hm
  have := (insertFrom_length ((preV (seenTree t)).map fun x => x.2.id) [] 0).2
  simp only [Nav.idsAreUnique, specNav, decide_eq_true_eq, table_length, idsOf]
  simp only [List.length_nil, List.length_map, preV_length, Nat.zero_add, List.any_nil,
    Bool.false_eq_true, not_false_eq_true, implies_true, and_true] at this
  exact this

/-- `FindExpr` with a node of the expression: that node. -/
theorem C64_findExpr (t : NExpr) (hp : t.present = true) (hw : WFC t) (fuel : Nat) (m : Nav)
    (h : build t fuel = some m) (a : Addr) (n : NExpr) (ha : nodeAt a t = some n) :
    ∃ i x, m.findExpr (.loc a) = some i ∧ m.nodes[i]? = some x ∧ x.expr = .loc a := by
  have hrefs := (C64_nodes t hp hw fuel m h).1
  rw [(preRefs_trace true (seenTree t)).1] at hrefs
  have hm := build_eq t hp hw fuel m h
  have hmem : Ref.loc a ∈ (preV (seenTree t)).map (·.1) :=
    (mem_view t .root [] a hp).1.2 ⟨a, by simp, n, ha⟩
  have hlt : ((preV (seenTree t)).map (·.1)).idxOf (Ref.loc a) < m.nodes.length := by
    have := List.idxOf_lt_length_of_mem hmem
    rw [← hrefs] at this ⊢
    simpa using this
  refine ⟨((preV (seenTree t)).map (·.1)).idxOf (.loc a), m.nodes[_]'hlt, ?_,
    List.getElem?_eq_getElem hlt, ?_⟩
  · subst hm
    simp only [Nav.findExpr, specNav, mapFind_insertFrom]
    rw [if_pos hmem]
    simp [mapFind]
  · have h1 := congrArg (fun L => L[((preV (seenTree t)).map (·.1)).idxOf (Ref.loc a)]?) hrefs
    simp only [List.getElem?_map, List.getElem?_eq_getElem hlt, Option.map_some] at h1
    have h2 := List.getElem?_idxOf hmem
    rw [List.getElem?_map] at h2
    rw [h2] at h1
    simpa using h1

/-- All unset list elements and comprehension parts are the same default expression: looking one up
finds the first. -/
example : ∃ m, build (.node ⟨1, .list [false, false]⟩ [.absent, .absent]) 20 = some m ∧
    m.nodes.length = 3 ∧ m.findExpr .dflt = some 1 ∧ m.idsAreUnique = false := ⟨_, rfl, rfl, rfl, rfl⟩

example : ∃ m, build sampleExpr 20 = some m ∧ m.nodes.length = 6 ∧ m.idsAreUnique = true ∧
    m.findId 5 = some 5 := ⟨_, rfl, rfl, rfl, rfl⟩

end Cel.Walk
