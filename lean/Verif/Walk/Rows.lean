import Verif.Walk.NavOk

set_option linter.unusedSimpArgs false
set_option linter.unusedVariables false

/-! # What the table says: nodes, parents, children, ranges -/

namespace Cel.Walk
open Cel Cel.Proto

/-- The node reached by taking these children in turn (counting only readable children). -/
def atV : List Nat → VT → Option VT
  | [], v => some v
  | j :: p, .mk _ _ _ kids =>
    match kids[j]? with
    | some v => atV p v
    | none => none

/-- The number of nodes before that node in preorder. -/
def posV : List Nat → VT → Nat
  | [], _ => 0
  | j :: p, .mk _ _ _ kids =>
    match kids[j]? with
    | some v => 1 + sizesV (kids.take j) + posV p v
    | none => 0

def VT.edge : VT → Edge | .mk e _ _ _ => e
def VT.ref : VT → Ref | .mk _ r _ _ => r
def VT.label : VT → NNode | .mk _ _ l _ => l
def VT.kids : VT → List VT | .mk _ _ _ ks => ks

theorem sizeV_pos (v : VT) : 0 < sizeV v := by cases v; simp only [sizeV]; omega

theorem sizesV_append : ∀ (xs ys : List VT), sizesV (xs ++ ys) = sizesV xs + sizesV ys
  | [], ys => by simp [sizesV]
  | x :: xs, ys => by simp only [List.cons_append, sizesV, sizesV_append xs ys]; omega

theorem tables_cons (b p : Nat) (k : NKind) (j : Nat) (v : VT) (vs : List VT) :
    tables b p k j (v :: vs) = table b (some p) (j : Int) (recorded k j v.edge) v ++
      tables (b + sizeV v) p k (j + 1) vs := by
  cases v; simp [tables, sizeV, VT.edge]

theorem split_kids : ∀ (kids : List VT) (j : Nat) (v : VT) (b p : Nat) (k : NKind) (i : Nat),
    kids[j]? = some v →
    (∃ B, tables b p k i kids = tables b p k i (kids.take j) ++
      (table (b + sizesV (kids.take j)) (some p) ((i + j : Nat) : Int) (recorded k (i + j) v.edge) v
        ++ B)) ∧
    (∃ B, postsV b kids = postsV b (kids.take j) ++ (postV (b + sizesV (kids.take j)) v ++ B)) ∧
    (∃ B, presV kids = presV (kids.take j) ++ (preV v ++ B)) ∧
    (starts b kids)[j]? = some (b + sizesV (kids.take j))
  | [], j, v, b, p, k, i, h => by simp at h
  | w :: kids, 0, v, b, p, k, i, h => by
    simp only [List.getElem?_cons_zero, Option.some.injEq] at h
    subst h
    simp only [List.take_zero, sizesV, Nat.add_zero, tables, List.nil_append, postsV, presV, starts,
      List.getElem?_cons_zero]
    exact ⟨⟨_, tables_cons _ _ _ _ _ _⟩, ⟨_, rfl⟩, ⟨_, rfl⟩, trivial⟩
  | w :: kids, j + 1, v, b, p, k, i, h => by
    simp only [List.getElem?_cons_succ] at h
    obtain ⟨⟨B1, h1⟩, ⟨B2, h2⟩, ⟨B3, h3⟩, h4⟩ := split_kids kids j v (b + sizeV w) p k (i + 1) h
    simp only [List.take_succ_cons, sizesV]
    refine ⟨⟨B1, ?_⟩, ⟨B2, ?_⟩, ⟨B3, ?_⟩, ?_⟩
    · rw [tables_cons, tables_cons, h1]
      simp only [List.append_assoc, Nat.add_assoc]
      rw [show 1 + j = j + 1 by omega]
    · simp only [postsV, h2, List.append_assoc, Nat.add_assoc]
    · simp only [presV, h3, List.append_assoc]
    · simp only [starts, List.getElem?_cons_succ, h4, Nat.add_assoc]

/-- The rows of a subtree are a stretch of the table; so are its nodes in postorder, but that
stretch starts one earlier for each proper ancestor. -/
theorem split : ∀ (p : List Nat) (w : VT) (v : VT) (b : Nat) (par : Option Nat) (ci : Int)
    (rel : ChildKind), atV p v = some w →
    (∃ A B par' ci' rel', table b par ci rel v = A ++ (table (b + posV p v) par' ci' rel' w ++ B) ∧
      A.length = posV p v) ∧
    (∃ C D, postV b v = C ++ (postV (b + posV p v) w ++ D) ∧ C.length + p.length = posV p v) ∧
    (∃ E F, preV v = E ++ (preV w ++ F) ∧ E.length = posV p v)
  | [], w, v, b, par, ci, rel, h => by
    simp only [atV, Option.some.injEq] at h
    subst h
    exact ⟨⟨[], [], par, ci, rel, by simp [posV], by simp [posV]⟩, ⟨[], [], by simp [posV], by simp [posV]⟩,
      ⟨[], [], by simp, by simp [posV]⟩⟩
  | j :: p, w, .mk e r l kids, b, par, ci, rel, h => by
    simp only [atV] at h
    cases hj : kids[j]? with
    | none => rw [hj] at h; cases h
    | some u =>
      rw [hj] at h
      obtain ⟨⟨B1, h1⟩, ⟨B2, h2⟩, ⟨B3, h3⟩, h4⟩ := split_kids kids j u (b + 1) b l.kind 0 hj
      obtain ⟨⟨A, B, par', ci', rel', hA, hAl⟩, ⟨C, D, hC, hCl⟩, ⟨E, F, hE, hEl⟩⟩ :=
        split p w u (b + 1 + sizesV (kids.take j)) (some b) ((0 + j : Nat) : Int)
          (recorded l.kind (0 + j) u.edge) h
      have hpos : posV (j :: p) (.mk e r l kids) = 1 + sizesV (kids.take j) + posV p u := by
        simp only [posV, hj]
      have hb : b + 1 + sizesV (kids.take j) + posV p u = b + (1 + sizesV (kids.take j) + posV p u) := by
        omega
      rw [hpos]
      rw [hb] at hA hC
      refine ⟨⟨(⟨par, r, rel, getNodeKind l.kind, b, 1 + sizesV kids, 1 + heightsV kids, ci,
          starts (b + 1) kids⟩ : NavNode) :: (tables (b + 1) b l.kind 0 (kids.take j) ++ A), B ++ B1, par', ci', rel', ?_, ?_⟩,
        ⟨postsV (b + 1) (kids.take j) ++ C, D ++ (B2 ++ [b]), ?_, ?_⟩,
        ⟨(r, l) :: (presV (kids.take j) ++ E), F ++ B3, ?_, ?_⟩⟩
      · simp only [table, h1, hA, List.cons_append, List.append_assoc]
      · simp only [List.length_cons, List.length_append, tables_length, hAl]; omega
      · simp only [postV, h2, hC, List.append_assoc]
      · simp only [List.length_cons, List.length_append, postsV_length]; omega
      · simp only [preV, h3, hE, List.cons_append, List.append_assoc]
      · simp only [List.length_cons, List.length_append, presV_length, hEl]; omega

theorem atV_append : ∀ (p q : List Nat) (v : VT), atV (p ++ q) v =
    match atV p v with | some w => atV q w | none => none
  | [], q, v => by simp [atV]
  | j :: p, q, .mk e r l kids => by
    simp only [List.cons_append, atV]
    cases hj : kids[j]? with
    | none => rfl
    | some u => exact atV_append p q u

theorem posV_append : ∀ (p q : List Nat) (v w : VT), atV p v = some w →
    posV (p ++ q) v = posV p v + posV q w
  | [], q, v, w, h => by simp only [atV, Option.some.injEq] at h; simp [posV, h]
  | j :: p, q, .mk e r l kids, w, h => by
    simp only [atV] at h
    simp only [List.cons_append, posV]
    cases hj : kids[j]? with
    | none => rw [hj] at h; cases h
    | some u =>
      rw [hj] at h
      simp only
      rw [posV_append p q u w h]; omega

/-- The last step of a path: `none` at the root. -/
def lastStep (p : List Nat) : Option (List Nat × Nat) :=
  match p.reverse with
  | [] => none
  | j :: q => some (q.reverse, j)

/-- The position of the parent, the index among its children and the relation recorded, for the
node at a path. -/
structure Up where
  parent : Option Nat
  childIndex : Int
  rel : ChildKind

def upOf (v : VT) (p : List Nat) (e : Edge) : Up :=
  match lastStep p with
  | none => ⟨none, -1, .unspecified⟩
  | some (q, j) =>
    ⟨some (posV q v), j, match atV q v with
      | some u => recorded u.label.kind j e
      | none => .unspecified⟩

theorem starts_eq (kids : List VT) (b : Nat) : starts b kids =
    (List.range kids.length).map fun j => b + sizesV (kids.take j) := by
  apply List.ext_getElem?
  intro j
  have hlen : ∀ (ks : List VT) (b : Nat), (starts b ks).length = ks.length := by
    intro ks; induction ks with
    | nil => simp [starts]
    | cons x xs ih => intro b; simp [starts, ih]
  by_cases h : j < kids.length
  · obtain ⟨_, _, _, h4⟩ := split_kids kids j kids[j] b 0 .unspecified 0
      (List.getElem?_eq_getElem h)
    rw [h4]; simp [h]
  · rw [List.getElem?_eq_none (by rw [hlen]; omega), List.getElem?_eq_none (by simp; omega)]

/-- The row of the node at a path. -/
theorem row_at (v : VT) (p : List Nat) (e : Edge) (r : Ref) (l : NNode) (kids : List VT)
    (h : atV p v = some (.mk e r l kids)) :
    (table 0 none (-1) .unspecified v)[posV p v]? = some
      { parent := (upOf v p e).parent, expr := r, rel := (upOf v p e).rel,
        kind := getNodeKind l.kind, index := posV p v, treeSize := sizeV (.mk e r l kids),
        height := heightV (.mk e r l kids), childIndex := (upOf v p e).childIndex,
        children := (List.range kids.length).map fun j => posV (p ++ [j]) v } := by
  have hch : ∀ b, posV p v = b → starts (b + 1) kids =
      (List.range kids.length).map fun j => posV (p ++ [j]) v := by
    intro b hb
    rw [starts_eq]
    apply List.map_congr_left
    intro j hj
    have hj' : j < kids.length := by simpa using hj
    rw [posV_append p [j] v _ h]
    simp only [posV, List.getElem?_eq_getElem hj', Nat.add_zero]
    omega
  by_cases hp : p = []
  · subst hp
    simp only [atV, Option.some.injEq] at h
    subst h
    simp only [table, posV, List.getElem?_cons_zero]
    congr 1
    have := hch 0 (by simp [posV])
    simp only [Nat.zero_add] at this
    simp only [upOf, lastStep, List.reverse_nil, sizeV, heightV, this, Nat.zero_add]
  · obtain ⟨q, j, rfl⟩ : ∃ q j, p = q ++ [j] := ⟨p.dropLast, p.getLast hp,
      (List.dropLast_append_getLast hp).symm⟩
    rw [atV_append] at h
    cases hq : atV q v with
    | none => rw [hq] at h; cases h
    | some u =>
      rw [hq] at h
      obtain ⟨e', r', l', kids'⟩ := u
      simp only [atV] at h
      cases hj : kids'[j]? with
      | none => rw [hj] at h; cases h
      | some u' =>
        rw [hj] at h
        simp only [Option.some.injEq] at h
        subst h
        obtain ⟨⟨A, B, par', ci', rel', hA, hAl⟩, _, _⟩ :=
          split q _ v 0 none (-1) .unspecified hq
        obtain ⟨⟨B1, h1⟩, _, _, _⟩ := split_kids kids' j (.mk e r l kids) (0 + posV q v + 1)
          (0 + posV q v) l'.kind 0 hj
        have hpos : posV (q ++ [j]) v = posV q v + (1 + sizesV (kids'.take j)) := by
          rw [posV_append q [j] v _ hq]; simp only [posV, hj, Nat.add_zero]
        rw [hA, List.getElem?_append_right (by omega), hAl, hpos, Nat.add_sub_cancel_left]
        simp only [table, List.cons_append]
        rw [Nat.add_comm 1 (sizesV (List.take j kids')), List.getElem?_cons_succ, h1, List.append_assoc,
          List.getElem?_append_right (by rw [tables_length]; omega), tables_length, Nat.sub_self]
        simp only [table, List.cons_append, List.getElem?_cons_zero]
        congr 1
        have hc := hch (posV (q ++ [j]) v) rfl
        have hb : 0 + posV q v + 1 + sizesV (List.take j kids') = posV (q ++ [j]) v := by
          rw [hpos]; omega
        have hb' : posV q v + (sizesV (List.take j kids') + 1) = posV (q ++ [j]) v := by
          rw [hpos]; omega
        have hl : lastStep (q ++ [j]) = some (q, j) := by simp [lastStep]
        rw [hb, hb', hc]
        simp only [upOf, hl, hq, VT.label, VT.edge, sizeV, heightV, Nat.zero_add]

/-! ## Every row is the row of a node -/

mutual
theorem pos_onto : ∀ (v : VT) (i : Nat), i < sizeV v → ∃ p w, atV p v = some w ∧ posV p v = i
  | .mk e r l kids, i, h => by
    cases i with
    | zero => exact ⟨[], _, rfl, rfl⟩
    | succ i =>
      simp only [sizeV] at h
      obtain ⟨j, u, p, w, hj, hp, hpos⟩ := poss_onto kids i (by omega)
      exact ⟨j :: p, w, by simp only [atV, hj, hp], by simp only [posV, hj]; omega⟩
theorem poss_onto : ∀ (vs : List VT) (i : Nat), i < sizesV vs → ∃ j u p w, vs[j]? = some u ∧
    atV p u = some w ∧ sizesV (vs.take j) + posV p u = i
  | [], i, h => by simp [sizesV] at h
  | v :: vs, i, h => by
    simp only [sizesV] at h
    have h1 := fun i => pos_onto v i
    by_cases hi : i < sizeV v
    · obtain ⟨p, w, hp, hpos⟩ := h1 i hi
      exact ⟨0, v, p, w, by simp, hp, by simp [sizesV, hpos]⟩
    · obtain ⟨j, u, p, w, hj, hp, hpos⟩ := poss_onto vs (i - sizeV v) (by omega)
      exact ⟨j + 1, u, p, w, by simpa using hj, hp, by
        simp only [List.take_succ_cons, sizesV]; omega⟩
end

theorem posV_lt : ∀ (p : List Nat) (v w : VT), atV p v = some w → posV p v + sizeV w ≤ sizeV v := by
  intro p v w h
  obtain ⟨⟨A, B, par', ci', rel', hA, hAl⟩, _, _⟩ := split p w v 0 none (-1) .unspecified h
  have := congrArg List.length hA
  simp only [List.length_append, table_length, hAl] at this
  omega

theorem sizesV_take_lt (kids : List VT) (i j : Nat) (v : VT) (hi : kids[i]? = some v) (h : i < j) :
    sizesV (kids.take i) + sizeV v ≤ sizesV (kids.take j) := by
  induction kids generalizing i j with
  | nil => simp at hi
  | cons x xs ih =>
    obtain ⟨j, rfl⟩ : ∃ j', j = j' + 1 := ⟨j - 1, by omega⟩
    cases i with
    | zero =>
      simp only [List.getElem?_cons_zero, Option.some.injEq] at hi
      subst hi
      simp [sizesV]
    | succ i =>
      simp only [List.getElem?_cons_succ] at hi
      have := ih i j hi (by omega)
      simp only [List.take_succ_cons, sizesV]; omega

/-- Different nodes have different positions. -/
theorem pos_inj : ∀ (p q : List Nat) (v w w' : VT), atV p v = some w → atV q v = some w' →
    posV p v = posV q v → p = q
  | [], [], v, w, w', _, _, _ => rfl
  | [], j :: q, .mk e r l kids, w, w', _, hq, h => by
    simp only [atV] at hq
    cases hj : kids[j]? with
    | none => rw [hj] at hq; cases hq
    | some u => simp only [posV, hj] at h; omega
  | i :: p, [], .mk e r l kids, w, w', hp, _, h => by
    simp only [atV] at hp
    cases hj : kids[i]? with
    | none => rw [hj] at hp; cases hp
    | some u => simp only [posV, hj] at h; omega
  | i :: p, j :: q, .mk e r l kids, w, w', hp, hq, h => by
    simp only [atV] at hp hq
    cases hi : kids[i]? with
    | none => rw [hi] at hp; cases hp
    | some u =>
      cases hj : kids[j]? with
      | none => rw [hj] at hq; cases hq
      | some u' =>
        rw [hi] at hp
        rw [hj] at hq
        simp only [posV, hi, hj] at h
        have h1 := posV_lt p u w hp
        have h2 := posV_lt q u' w' hq
        have s1 := sizeV_pos w
        have s2 := sizeV_pos w'
        rcases Nat.lt_trichotomy i j with hij | hij | hij
        · have := sizesV_take_lt kids i j u hi hij; omega
        · subst hij
          rw [hi] at hj
          simp only [Option.some.injEq] at hj
          subst hj
          rw [pos_inj p q u w w' hp hq (by omega)]
        · have := sizesV_take_lt kids j i u' hj hij; omega

end Cel.Walk
