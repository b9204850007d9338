import Verif.Proto.Erase
import Mathlib.Tactic.Tauto
import Mathlib.Data.List.Nodup

set_option linter.unusedSimpArgs false
set_option linter.unusedVariables false

/-!
# `FlattenedErase`: every node exactly once, children before parents, nothing read after it is gone
-/

namespace Cel.Proto
open Cel

/-! ## Addresses -/

theorem nodeAt_node : ∀ (p : Addr) (t n : NExpr), nodeAt p t = some n → ∃ l ks, n = .node l ks
  | p, .absent, n, h => by cases p <;> simp [nodeAt] at h
  | [], .node l ks, n, h => by simp only [nodeAt, Option.some.injEq] at h; exact ⟨l, ks, h.symm⟩
  | i :: p, .node l ks, n, h => by
    simp only [nodeAt] at h
    split at h
    · exact nodeAt_node p _ n h
    · cases h

theorem nodeAt_ext : ∀ (r : Addr) (t : NExpr) (l : NNode) (ks : List NExpr),
    nodeAt r t = some (.node l ks) → ∀ (i : Nat) (s : Addr),
    nodeAt (r ++ i :: s) t = match ks[i]? with | some k => nodeAt s k | none => none
  | r, .absent, l, ks, h => by cases r <;> simp [nodeAt] at h
  | [], .node l' ks', l, ks, h => by
    simp only [nodeAt, Option.some.injEq, Tree.node.injEq] at h
    intro i s
    obtain ⟨rfl, rfl⟩ := h
    rfl
  | j :: r, .node l' ks', l, ks, h => by
    intro i s
    simp only [List.cons_append, nodeAt] at h ⊢
    cases hj : ks'[j]? with
    | none => rw [hj] at h; cases h
    | some k =>
      rw [hj] at h
      exact nodeAt_ext r k l ks h i s

theorem put_same : ∀ (p : Addr) (t n : NExpr) (l : NNode) (ks : List NExpr), nodeAt p t = some n →
    nodeAt p (putAt p (.node l ks) t) = some (.node l ks)
  | p, .absent, n, l, ks, h => by cases p <;> simp [nodeAt] at h
  | [], .node l' ks', n, l, ks, h => by simp [putAt, nodeAt]
  | j :: r, .node l' ks', n, l, ks, h => by
    simp only [nodeAt] at h
    cases hj : ks'[j]? with
    | none => rw [hj] at h; cases h
    | some k =>
      rw [hj] at h
      have hlt : j < ks'.length := (List.getElem?_eq_some_iff.mp hj).1
      simp only [putAt, hj, nodeAt]
      rw [List.getElem?_set_self hlt]
      exact put_same r k n l ks h

/-- A node above the one overwritten keeps its data; one of its children is changed. -/
theorem put_above : ∀ (r : Addr) (t : NExpr) (l : NNode) (ks : List NExpr) (i : Nat) (s : Addr)
    (c : NExpr), nodeAt r t = some (.node l ks) →
    nodeAt r (putAt (r ++ i :: s) c t) = some (.node l (match ks[i]? with
      | some k => ks.set i (putAt s c k) | none => ks))
  | r, .absent, l, ks, i, s, c, h => by cases r <;> simp [nodeAt] at h
  | [], .node l' ks', l, ks, i, s, c, h => by
    simp only [nodeAt, Option.some.injEq, Tree.node.injEq] at h
    simp only [List.nil_append, putAt, h.2, h.1]
    cases ks[i]? <;> simp [nodeAt]
  | j :: r, .node l' ks', l, ks, i, s, c, h => by
    simp only [nodeAt] at h
    cases hj : ks'[j]? with
    | none => rw [hj] at h; cases h
    | some k =>
      rw [hj] at h
      have hlt : j < ks'.length := (List.getElem?_eq_some_iff.mp hj).1
      simp only [List.cons_append, putAt, hj, nodeAt]
      rw [List.getElem?_set_self hlt]
      exact put_above r k l ks i s c h

/-- A node that is neither above nor below the one overwritten does not change. -/
theorem put_other : ∀ (p r : Addr) (t c : NExpr), ¬ r <+: p → ¬ p <+: r →
    nodeAt r (putAt p c t) = nodeAt r t
  | [], r, t, c, h1, h2 => absurd (List.nil_prefix) h2
  | i :: p, [], t, c, h1, h2 => absurd (List.nil_prefix) h1
  | i :: p, j :: r, .absent, c, h1, h2 => by simp [putAt]
  | i :: p, j :: r, .node l ks, c, h1, h2 => by
    simp only [putAt]
    cases hi : ks[i]? with
    | none => simp only
    | some k =>
      have hlt : i < ks.length := (List.getElem?_eq_some_iff.mp hi).1
      simp only [nodeAt]
      by_cases hij : i = j
      · subst hij
        rw [List.getElem?_set_self hlt, hi]
        simp only
        refine put_other p r k c ?_ ?_
        · intro h; exact h1 (List.cons_prefix_cons.mpr ⟨rfl, h⟩)
        · intro h; exact h2 (List.cons_prefix_cons.mpr ⟨rfl, h⟩)
      · rw [List.getElem?_set_ne hij]

/-- Overwriting a node with a node takes no other node away unless it lies below. -/
theorem put_keeps (p r : Addr) (t n : NExpr) (l : NNode) (ks : List NExpr)
    (hp : ¬ p <+: r) (h : nodeAt r t = some n) (m : NExpr) (hm : nodeAt p t = some m) :
    ∃ (l' : NNode) (ks' ks'' : List NExpr), n = .node l' ks' ∧ nodeAt r (putAt p (.node l ks) t) = some (.node l' ks'') ∧
      (∀ i : Nat, ((ks'[i]?).getD Tree.absent).present = ((ks''[i]?).getD Tree.absent).present) ∧
      (∀ i : Nat, p ≠ r ++ [i] → (¬ ∃ s, p = r ++ i :: s) → ks''[i]? = ks'[i]?) ∧
      (∀ i : Nat, p = r ++ [i] → ks''[i]? = some (.node l ks)) := by
  obtain ⟨l', ks', rfl⟩ := nodeAt_node r t n h
  by_cases hr : r <+: p
  · obtain ⟨s, rfl⟩ := hr
    cases s with
    | nil => simp at hp
    | cons i s =>
      have hx := nodeAt_ext r t l' ks' h i s
      rw [hm] at hx
      cases hi : ks'[i]? with
      | none => rw [hi] at hx; cases hx
      | some k =>
        rw [hi] at hx
        simp only at hx
        have hlt : i < ks'.length := (List.getElem?_eq_some_iff.mp hi).1
        refine ⟨l', ks', _, rfl, by rw [put_above r t l' ks' i s _ h, hi], ?_, ?_, ?_⟩
        all_goals simp only
        · intro j
          by_cases hj : i = j
          · subst hj
            rw [List.getElem?_set_self hlt, hi]
            simp only [Option.getD_some]
            cases k with
            | absent => cases s <;> simp [nodeAt] at hx
            | node kl kk =>
              cases s with
              | nil => simp [putAt, Tree.present]
              | cons a s =>
                simp only [putAt]
                cases kk[a]? <;> simp [Tree.present]
          · rw [List.getElem?_set_ne hj]
        · intro j h1 h2
          refine List.getElem?_set_ne ?_
          rintro rfl
          exact h2 ⟨s, rfl⟩
        · intro j hj
          have hj' := List.append_cancel_left hj
          simp only [List.cons.injEq] at hj'
          obtain ⟨rfl, rfl⟩ := hj'
          rw [List.getElem?_set_self hlt]
          simp [putAt]
  · refine ⟨l', ks', ks', rfl, by rw [put_other p r t _ hr hp, h], fun _ => rfl, fun _ _ _ => rfl, ?_⟩
    intro i hi
    exact absurd ⟨[i], hi.symm⟩ hr

/-! ## Heights -/

mutual
def Tree.height {L : Type} : Tree L → Nat
  | .absent => 1
  | .node _ ks => 1 + Tree.heights ks
def Tree.heights {L : Type} : List (Tree L) → Nat
  | [] => 0
  | t :: ts => max t.height (Tree.heights ts)
end

theorem height_get {L : Type} : ∀ (ks : List (Tree L)) (i : Nat) (k : Tree L), ks[i]? = some k →
    k.height ≤ Tree.heights ks
  | [], i, k, h => by simp at h
  | t :: ts, 0, k, h => by
    simp only [List.getElem?_cons_zero, Option.some.injEq] at h
    simp only [Tree.heights, h]; omega
  | t :: ts, i + 1, k, h => by
    simp only [List.getElem?_cons_succ] at h
    have := height_get ts i k h
    simp only [Tree.heights]; omega

/-! ## The list -/

/-- `next` links the list in this order and ends it with a null pointer. -/
def Linked (next : Addr → Option Addr) : List Addr → Prop
  | [] => True
  | a :: L => next a = L.head? ∧ Linked next L

theorem linked_tail (next : Addr → Option Addr) : ∀ A B : List Addr, Linked next (A ++ B) →
    Linked next B
  | [], B, h => h
  | _ :: A, B, h => linked_tail next A B h.2

theorem linked_update (next : Addr → Option Addr) (c : Addr) (v : Option Addr) :
    ∀ L : List Addr, c ∉ L → Linked next L → Linked (fun a => if a = c then v else next a) L
  | [], _, _ => trivial
  | a :: L, h, hl => by
    simp only [List.mem_cons, not_or] at h
    refine ⟨?_, linked_update next c v L h.2 hl.2⟩
    simp only
    rw [if_neg (fun e => h.1 e.symm)]
    exact hl.1

/-- Linking several nodes. -/
theorem push_all : ∀ (cs : List Addr) (s : EState) (L : List Addr), Linked s.next L →
    L.head? = some s.tail → (cs.reverse ++ L).Nodup →
    (cs.foldl pushNode s).tree = s.tree ∧
    Linked (cs.foldl pushNode s).next (cs.reverse ++ L) ∧
    (cs.reverse ++ L).head? = some (cs.foldl pushNode s).tail
  | [], s, L, hl, hh, _ => ⟨rfl, hl, hh⟩
  | c :: cs, s, L, hl, hh, hn => by
    simp only [List.reverse_cons, List.append_assoc, List.singleton_append] at hn ⊢
    have hc : (c :: L).Nodup := (List.nodup_append.mp hn).2.1
    simp only [List.nodup_cons] at hc
    have := push_all cs (pushNode s c) (c :: L) (by
      refine ⟨?_, ?_⟩
      · simp [pushNode, hh]
      · exact linked_update s.next c _ L hc.1 hl) rfl hn
    exact ⟨this.1, this.2.1, this.2.2⟩

/-! ## Expanding -/

theorem materialize_get (k : NKind) (ks : List NExpr) (i : Nat) (c : NExpr)
    (h : (materialize k ks)[i]? = some c) : ks[i]? = some c ∨ c = .node NNode.dflt [] := by
  cases k <;> simp only [materialize] at h <;> first | exact .inl h | skip
  all_goals
    rw [List.getElem?_map] at h
    cases hk : ks[i]? with
    | none => rw [hk] at h; simp at h
    | some x =>
      rw [hk] at h
      simp only [Option.map_some, Option.some.injEq] at h
      cases x with
      | absent => exact .inr h.symm
      | node l kk => exact .inl (by rw [← h])

theorem materialize_present (k : NKind) (ks : List NExpr) (i : Nat) (c : NExpr)
    (h : ks[i]? = some c) (hc : c.present = true) : (materialize k ks)[i]? = some c := by
  cases k <;> simp only [materialize] <;> first | exact h | skip
  all_goals
    rw [List.getElem?_map, h]
    cases c with
    | absent => cases hc
    | node l kk => rfl

theorem materialize_length (k : NKind) (ks : List NExpr) :
    (materialize k ks).length = ks.length := by
  cases k <;> simp [materialize]

theorem height_pos {L : Type} (t : Tree L) : 1 ≤ t.height := by
  cases t <;> simp [Tree.height]

/-- Every child that is there is linked, each once. -/
theorem expandOrder_mem (k : NKind) (ks : List NExpr) (hs : CShape k ks) (i : Nat) :
    i ∈ expandOrder k ks ↔ ((ks[i]?).getD Tree.absent).present = true := by
  have hgen : i ∈ (List.range ks.length).filter
      (fun i => ((ks[i]?).getD Tree.absent).present) ↔ ((ks[i]?).getD Tree.absent).present = true := by
    simp only [List.mem_filter, List.mem_range]
    constructor
    · exact fun h => h.2
    · intro h
      refine ⟨?_, h⟩
      rcases Nat.lt_or_ge i ks.length with hlt | hge
      · exact hlt
      · rw [List.getElem?_eq_none hge] at h
        simp [Tree.present] at h
  cases k with
  | comprehension v v2 a =>
    simp only [CShape] at hs
    simp only [expandOrder, List.mem_filter]
    constructor
    · exact fun h => h.2
    · intro h
      refine ⟨?_, h⟩
      rcases Nat.lt_or_ge i ks.length with hlt | hge
      · rw [hs] at hlt
        simp only [List.mem_cons, List.not_mem_nil, or_false]
        omega
      · rw [List.getElem?_eq_none hge] at h
        simp [Tree.present] at h
  | unspecified => simp only [CShape] at hs; simp [expandOrder, hs, Tree.present]
  | const c => simp only [CShape] at hs; simp [expandOrder, hs, Tree.present]
  | ident n => simp only [CShape] at hs; simp [expandOrder, hs, Tree.present]
  | select _ _ => exact hgen
  | call _ => exact hgen
  | list _ => exact hgen
  | struct _ _ => exact hgen
  | map _ => exact hgen

theorem expandOrder_nodup (k : NKind) (ks : List NExpr) : (expandOrder k ks).Nodup := by
  have hgen : ((List.range ks.length).filter
      (fun i => ((ks[i]?).getD Tree.absent).present)).Nodup := List.nodup_range.filter _
  cases k with
  | comprehension v v2 a => exact List.Nodup.filter _ (by decide)
  | unspecified => simp [expandOrder]
  | const c => simp [expandOrder]
  | ident n => simp [expandOrder]
  | select _ _ => exact hgen
  | call _ => exact hgen
  | list _ => exact hgen
  | struct _ _ => exact hgen
  | map _ => exact hgen

theorem materialize_shape (k : NKind) (ks : List NExpr) (h : CShape k ks) :
    CShape k (materialize k ks) := by
  cases k <;> simp_all [CShape, materialize]

theorem wfcs_get : ∀ (ks : List NExpr) (i : Nat) (c : NExpr), WFCs ks → ks[i]? = some c → WFC c
  | [], i, c, _, h => by simp at h
  | t :: ts, 0, c, w, h => by
    simp only [List.getElem?_cons_zero, Option.some.injEq] at h
    simp only [WFCs] at w; exact h ▸ w.1
  | t :: ts, i + 1, c, w, h => by
    simp only [List.getElem?_cons_succ] at h
    simp only [WFCs] at w
    exact wfcs_get ts i c w.2 h

theorem wfc_dflt : WFC (.node NNode.dflt []) := by simp [WFC, WFCs, CShape, NNode.dflt]

/-- The state of the two nested loops: `fresh` is the next level so far, `done`/`todo` the current
level, `old` the levels above. -/
structure Inv (t0 : NExpr) (s : EState) (fresh done todo old : List Addr) (k h : Nat) : Prop where
  linked : Linked s.next (fresh ++ (done ++ (todo ++ old)))
  tail : (fresh ++ (done ++ (todo ++ old))).head? = some s.tail
  nodup : (fresh ++ (done ++ (todo ++ old))).Nodup
  lenNew : ∀ p ∈ fresh, p.length = k + 1
  lenCur : ∀ p ∈ done ++ todo, p.length = k
  lenOld : ∀ p ∈ old, p.length < k
  sorted : old.Pairwise fun a b => b.length ≤ a.length
  kids : ∀ q ∈ fresh, ∃ d ∈ done, ∃ i, q = d ++ [i]
  liveTodo : ∀ p ∈ todo, ∃ n, nodeAt p s.tree = some n ∧ WFC n ∧ n.height ≤ h + 1
  liveNew : ∀ p ∈ fresh, ∃ n, nodeAt p s.tree = some n ∧ WFC n ∧ n.height ≤ h
  closed : ∀ p ∈ done ++ old, ∃ l ks, nodeAt p s.tree = some (.node l ks) ∧
    ∀ i : Nat, ((ks[i]?).getD Tree.absent).present = true → p ++ [i] ∈ fresh ++ (done ++ (todo ++ old))
  root : [] ∈ fresh ++ (done ++ (todo ++ old))
  alive : ∀ p n, nodeAt p t0 = some n → ∃ n', nodeAt p s.tree = some n'

theorem not_prefix_of_len {p r : Addr} (h1 : p.length = r.length) (h2 : p ≠ r) : ¬ p <+: r :=
  fun h => h2 (h.eq_of_length h1)

theorem not_prefix_of_lt {p r : Addr} (h1 : r.length < p.length) : ¬ p <+: r :=
  fun h => by have := h.length_le; omega

theorem expand_inv {t0 : NExpr} {s : EState} {fresh done todo old : List Addr} {k h : Nat} {p : Addr}
    (H : Inv t0 s fresh done (p :: todo) old k h) :
    ∃ s' cs, expand s p = some s' ∧ Inv t0 s' (cs ++ fresh) (done ++ [p]) todo old k h := by
  obtain ⟨n, hn, hw, hh⟩ := H.liveTodo p (by simp)
  obtain ⟨l, ks, rfl⟩ := nodeAt_node p _ n hn
  simp only [WFC] at hw
  simp only [Tree.height] at hh
  have hsh := materialize_shape l.kind ks hw.1
  have hplen : p.length = k := H.lenCur p (by simp)
  refine ⟨(((expandOrder l.kind (materialize l.kind ks)).map (fun i => p ++ [i])).foldl pushNode
    ⟨putAt p (.node l (materialize l.kind ks)) s.tree, s.next, s.tail⟩),
    ((expandOrder l.kind (materialize l.kind ks)).map (fun i => p ++ [i])).reverse, ?_, ?_⟩
  · simp only [expand, hn, List.foldl_map]
  generalize hcs : (expandOrder l.kind (materialize l.kind ks)).map (fun i => p ++ [i]) = cs
  generalize hs1 : (⟨putAt p (.node l (materialize l.kind ks)) s.tree, s.next, s.tail⟩ : EState) = s1
  have hp_not : ∀ q ∈ fresh ++ (done ++ (todo ++ old)), q ≠ p := by
    intro q hq e
    subst e
    have hnd := H.nodup
    rw [← List.append_assoc] at hnd
    have : (fresh ++ done ++ q :: (todo ++ old)).Nodup := hnd
    rw [List.nodup_append] at this
    obtain ⟨_, h2, h3⟩ := this
    simp only [List.nodup_cons] at h2
    rw [← List.append_assoc] at hq
    rcases List.mem_append.mp hq with hq | hq
    · exact h3 q hq q (by simp) rfl
    · exact h2.1 hq
  have hmem_cs : ∀ q, q ∈ cs ↔ ∃ i : Nat, q = p ++ [i] ∧
      (((materialize l.kind ks)[i]?).getD Tree.absent).present = true := by
    intro q
    rw [← hcs]
    simp only [List.mem_map]
    constructor
    · rintro ⟨i, hi, rfl⟩; exact ⟨i, rfl, (expandOrder_mem _ _ hsh i).mp hi⟩
    · rintro ⟨i, rfl, hi⟩; exact ⟨i, (expandOrder_mem _ _ hsh i).mpr hi, rfl⟩
  have hall : fresh ++ (done ++ (p :: todo ++ old)) = fresh ++ (done ++ p :: (todo ++ old)) := by simp
  have hfresh : ∀ q ∈ cs, q ∉ fresh ++ (done ++ (p :: todo ++ old)) := by
    intro q hq hm
    obtain ⟨i, rfl, _⟩ := (hmem_cs q).mp hq
    rcases List.mem_append.mp hm with hm | hm
    · obtain ⟨d, hd, j, hj⟩ := H.kids _ hm
      have := List.append_inj_left' hj rfl
      exact hp_not d (by simp [hd]) this.symm
    · have hl : (p ++ [i]).length = k + 1 := by simp [hplen]
      rcases List.mem_append.mp hm with hm | hm
      · have := H.lenCur _ (by simp [hm] : p ++ [i] ∈ done ++ (p :: todo)); omega
      · rcases List.mem_append.mp hm with hm | hm
        · have := H.lenCur _ (List.mem_append_right _ hm); omega
        · have := H.lenOld _ hm; omega
  have hcsn : cs.Nodup := by
    rw [← hcs]
    refine List.Pairwise.map _ ?_ (expandOrder_nodup _ _)
    intro a b hab e
    have := List.append_cancel_left e
    simp only [List.cons.injEq, and_true] at this
    exact hab this
  have hnd : (cs.reverse ++ (fresh ++ (done ++ (p :: todo ++ old)))).Nodup := by
    rw [List.nodup_append]
    refine ⟨?_, H.nodup, ?_⟩
    · exact List.nodup_reverse.mpr hcsn
    · intro a ha b hb e
      subst e
      exact hfresh a (by simpa using ha) hb
  obtain ⟨g1, g2, g3⟩ := push_all cs s1 _ (by rw [← hs1]; exact H.linked)
    (by rw [← hs1]; exact H.tail) hnd
  have htree : (cs.foldl pushNode s1).tree = putAt p (.node l (materialize l.kind ks)) s.tree := by
    rw [g1, ← hs1]
  have hlist : cs.reverse ++ fresh ++ (done ++ [p] ++ (todo ++ old)) =
      cs.reverse ++ (fresh ++ (done ++ (p :: todo ++ old))) := by simp
  have hself : nodeAt p (putAt p (.node l (materialize l.kind ks)) s.tree) =
      some (.node l (materialize l.kind ks)) := put_same p s.tree _ _ _ hn
  -- nodes not below `p` stay
  have hstay : ∀ q n, ¬ p <+: q → nodeAt q s.tree = some n → ∃ (l' : NNode) (ks' ks'' : List NExpr), n = .node l' ks' ∧
      nodeAt q (putAt p (.node l (materialize l.kind ks)) s.tree) = some (.node l' ks'') ∧
      ∀ i : Nat, ((ks'[i]?).getD Tree.absent).present = ((ks''[i]?).getD Tree.absent).present := by
    intro q n hq hqn
    obtain ⟨a, b, c, h1, h2, h3, _, _⟩ := put_keeps p q s.tree n l (materialize l.kind ks) hq hqn _ hn
    exact ⟨a, b, c, h1, h2, h3⟩
  refine ⟨by rw [hlist]; exact g2, by rw [hlist]; exact g3, by rw [hlist]; exact hnd, ?_, ?_,
    H.lenOld, H.sorted, ?_, ?_, ?_, ?_, ?_, ?_⟩
  · intro q hq
    rcases List.mem_append.mp hq with hq | hq
    · obtain ⟨i, rfl, _⟩ := (hmem_cs q).mp (by simpa using hq)
      simp [hplen]
    · exact H.lenNew q hq
  · intro q hq
    refine H.lenCur q ?_
    simp only [List.mem_append, List.mem_singleton, List.mem_cons] at hq ⊢
    tauto
  · intro q hq
    rcases List.mem_append.mp hq with hq | hq
    · obtain ⟨i, rfl, _⟩ := (hmem_cs q).mp (by simpa using hq)
      exact ⟨p, by simp, i, rfl⟩
    · obtain ⟨d, hd, i, rfl⟩ := H.kids q hq
      exact ⟨d, by simp [hd], i, rfl⟩
  · intro q hq
    obtain ⟨n, h1, h2, h3⟩ := H.liveTodo q (by simp [hq])
    have hql : q.length = k := H.lenCur q (by simp [hq])
    have hne : q ≠ p := hp_not q (by simp [hq])
    refine ⟨n, ?_, h2, h3⟩
    rw [htree, put_other _ _ _ _ (not_prefix_of_len (by omega) hne)
      (not_prefix_of_len (by omega) (Ne.symm hne))]
    exact h1
  · intro q hq
    rcases List.mem_append.mp hq with hq | hq
    · obtain ⟨i, rfl, hi⟩ := (hmem_cs q).mp (by simpa using hq)
      have hx := nodeAt_ext p _ _ _ hself i []
      cases hc : (materialize l.kind ks)[i]? with
      | none => rw [hc] at hi; simp [Tree.present] at hi
      | some c =>
        rw [hc] at hi hx
        simp only [Option.getD_some] at hi
        cases c with
        | absent => simp [Tree.present] at hi
        | node cl ck =>
          simp only [nodeAt] at hx
          refine ⟨_, by rw [htree]; exact hx, ?_, ?_⟩
          · rcases materialize_get _ _ _ _ hc with h' | h'
            · exact wfcs_get ks i _ hw.2 h'
            · rw [h']; exact wfc_dflt
          · rcases materialize_get _ _ _ _ hc with h' | h'
            · have := height_get ks i _ h'; omega
            · rw [h']
              simp only [Tree.height, Tree.heights]
              have hlt : i < ks.length := by
                have := (List.getElem?_eq_some_iff.mp hc).1
                rwa [materialize_length] at this
              have := height_get ks i _ (List.getElem?_eq_getElem hlt)
              have := height_pos ks[i]
              omega
    · obtain ⟨n, h1, h2, h3⟩ := H.liveNew q hq
      obtain ⟨d, hd, i, rfl⟩ := H.kids q hq
      have hdl : d.length = k := H.lenCur d (by simp [hd])
      have hne : d ≠ p := hp_not d (by simp [hd])
      refine ⟨n, ?_, h2, h3⟩
      rw [htree, put_other]
      · exact h1
      · exact not_prefix_of_lt (by simp; omega)
      · intro hpre
        have := List.prefix_of_prefix_length_le hpre (List.prefix_append d [i]) (by omega)
        exact hne (this.eq_of_length (by omega)).symm
  · intro q hq
    have hq' : q = p ∨ q ∈ done ++ old := by
      simp only [List.mem_append, List.mem_singleton] at hq ⊢; tauto
    rcases hq' with rfl | hq'
    · refine ⟨l, _, by rw [htree]; exact hself, ?_⟩
      intro i hi
      refine List.mem_append_left _ (List.mem_append_left _ ?_)
      simp only [List.mem_reverse]
      exact (hmem_cs _).mpr ⟨i, rfl, hi⟩
    · obtain ⟨l', ks', h1, h2⟩ := H.closed q hq'
      have hnp : ¬ p <+: q := by
        rcases List.mem_append.mp hq' with hd | ho
        · have : q.length = k := H.lenCur q (by simp [hd])
          exact not_prefix_of_len (by omega) (Ne.symm (hp_not q (by simp [hd])))
        · exact not_prefix_of_lt (by have := H.lenOld q ho; omega)
      obtain ⟨l2, ks2, ks3, e1, e2, e3⟩ := hstay q _ hnp h1
      simp only [Tree.node.injEq] at e1
      obtain ⟨rfl, rfl⟩ := e1
      refine ⟨l', ks3, by rw [htree]; exact e2, ?_⟩
      intro i hi
      rw [hlist]
      exact List.mem_append_right _ (h2 i (by rw [e3 i]; exact hi))
  · rw [hlist]; exact List.mem_append_right _ H.root
  · intro q n hq
    obtain ⟨n', hn'⟩ := H.alive q n hq
    rw [htree]
    by_cases hpre : p <+: q
    · obtain ⟨r, rfl⟩ := hpre
      cases r with
      | nil => rw [List.append_nil]; exact ⟨_, hself⟩
      | cons i r =>
        have h1 := nodeAt_ext p _ _ _ hn i r
        have h2 := nodeAt_ext p _ _ _ hself i r
        rw [hn'] at h1
        cases hc : ks[i]? with
        | none => rw [hc] at h1; cases h1
        | some c =>
          rw [hc] at h1
          simp only at h1
          have hcp : c.present = true := by
            cases c with
            | absent => cases r <;> simp [nodeAt] at h1
            | node _ _ => rfl
          rw [materialize_present _ _ _ _ hc hcp] at h2
          exact ⟨n', by rw [h2]; exact h1.symm⟩
    · obtain ⟨_, _, _, _, e2, _⟩ := hstay q n' hpre hn'
      exact ⟨_, e2⟩

/-- The inner loop expands the whole level. -/
theorem expandLoop_ok {t0 : NExpr} {old : List Addr} {k h : Nat} :
    ∀ (todo fresh done : List Addr) (s : EState), Inv t0 s fresh done todo old k h →
    ∃ s' fresh', Inv t0 s' fresh' (done ++ todo) [] old k h ∧
      ∀ fuel, todo.length < fuel → expandLoop fuel (todo ++ old).head? old.head? s = some s'
  | [], fresh, done, s, H => by
    refine ⟨s, fresh, by simpa using H, ?_⟩
    intro fuel hf
    cases fuel with
    | zero => omega
    | succ n => simp [expandLoop]
  | p :: todo, fresh, done, s, H => by
    obtain ⟨s1, cs, h1, H1⟩ := expand_inv H
    obtain ⟨s', fresh', H2, h2⟩ := expandLoop_ok todo (cs ++ fresh) (done ++ [p]) s1 H1
    refine ⟨s', fresh', by simpa using H2, ?_⟩
    intro fuel hf
    cases fuel with
    | zero => simp at hf
    | succ n =>
      simp only [List.length_cons] at hf
      have hne : ¬ (some p = old.head?) := by
        intro e
        have hm : p ∈ old := List.mem_of_head? e.symm
        have hl1 := H.lenOld p hm
        have hl2 := H.lenCur p (by simp)
        omega
      have hnx : s.next p = (todo ++ old).head? := by
        have := H.linked
        rw [← List.append_assoc] at this
        exact (linked_tail _ _ _ this).1
      simp only [List.cons_append, List.head?_cons, expandLoop, if_neg hne, h1, hnx]
      exact h2 n (by omega)

/-- What holds once the list is complete. -/
structure Ready (t0 : NExpr) (s : EState) (all : List Addr) : Prop where
  linked : Linked s.next all
  tail : all.head? = some s.tail
  nodup : all.Nodup
  sorted : all.Pairwise fun a b => b.length ≤ a.length
  closed : ∀ p ∈ all, ∃ l ks, nodeAt p s.tree = some (.node l ks) ∧
    ∀ i : Nat, ((ks[i]?).getD Tree.absent).present = true → p ++ [i] ∈ all
  root : [] ∈ all
  alive : ∀ p n, nodeAt p t0 = some n → ∃ n', nodeAt p s.tree = some n'

theorem Inv.ready {t0 : NExpr} {s : EState} {done old : List Addr} {k h : Nat}
    (H : Inv t0 s [] done [] old k h) : Ready t0 s (done ++ old) := by
  have e : done ++ old = [] ++ (done ++ ([] ++ old)) := by simp
  refine ⟨by rw [e]; exact H.linked, by rw [e]; exact H.tail, by rw [e]; exact H.nodup, ?_, ?_,
    by rw [e]; exact H.root, H.alive⟩
  · rw [List.pairwise_append]
    refine ⟨?_, H.sorted, ?_⟩
    · refine List.pairwise_of_forall_mem_list ?_
      intro a ha b hb
      have := H.lenCur a (by simp [ha])
      have := H.lenCur b (by simp [hb])
      omega
    · intro a ha b hb
      have := H.lenCur a (by simp [ha])
      have := H.lenOld b hb
      omega
  · intro p hp
    obtain ⟨l, ks, h1, h2⟩ := H.closed p hp
    exact ⟨l, ks, h1, fun i hi => by rw [e]; exact h2 i hi⟩

/-- One level finished: its children are the next level. -/
theorem Inv.next {t0 : NExpr} {s : EState} {fresh lv old : List Addr} {k h : Nat}
    (H : Inv t0 s fresh lv [] old k (h + 1)) : Inv t0 s [] [] fresh (lv ++ old) (k + 1) h := by
  have e : fresh ++ (lv ++ ([] ++ old)) = [] ++ ([] ++ (fresh ++ (lv ++ old))) := by simp
  refine ⟨by rw [← e]; exact H.linked, by rw [← e]; exact H.tail, by rw [← e]; exact H.nodup,
    by simp, ?_, ?_, ?_, by simp, H.liveNew, by simp, ?_, by rw [← e]; exact H.root, H.alive⟩
  · intro p hp; exact H.lenNew p (by simpa using hp)
  · intro p hp
    rcases List.mem_append.mp hp with hp | hp
    · have := H.lenCur p (by simp [hp]); omega
    · have := H.lenOld p hp; omega
  · rw [List.pairwise_append]
    refine ⟨?_, H.sorted, ?_⟩
    · refine List.pairwise_of_forall_mem_list ?_
      intro a ha b hb
      have := H.lenCur a (by simp [ha])
      have := H.lenCur b (by simp [hb])
      omega
    · intro a ha b hb
      have := H.lenCur a (by simp [ha])
      have := H.lenOld b hb
      omega
  · intro p hp
    obtain ⟨l, ks, h1, h2⟩ := H.closed p (by simpa using hp)
    exact ⟨l, ks, h1, fun i hi => by rw [← e]; exact h2 i hi⟩

theorem levelLoop_ok {t0 : NExpr} : ∀ (h k : Nat) (s : EState) (lv old : List Addr),
    Inv t0 s [] [] lv old k h →
    ∃ N s' all, Ready t0 s' all ∧ ∀ fuel, N ≤ fuel → levelLoop fuel old.head? s = some s'
  | h, k, s, lv, old, H => by
    obtain ⟨s1, fresh, H1, hloop⟩ := expandLoop_ok lv [] [] s H
    rw [List.nil_append] at H1
    cases lv with
    | nil =>
      refine ⟨1, s, _, H.ready, ?_⟩
      intro fuel hf
      cases fuel with
      | zero => omega
      | succ n =>
        have ht := H.tail
        simp only [List.nil_append] at ht
        simp [levelLoop, ht]
    | cons p lv =>
      have ht := H.tail
      simp only [List.nil_append, List.cons_append, List.head?_cons, Option.some.injEq] at ht
      have hne : ¬ (some s.tail = old.head?) := by
        intro e
        rw [← ht] at e
        have hl1 := H.lenOld p (List.mem_of_head? e.symm)
        have hl2 := H.lenCur p (by simp)
        omega
      have hhd : (p :: lv ++ old).head? = some s.tail := by simp [ht]
      cases fresh with
      | nil =>
        refine ⟨lv.length + 4, s1, _, H1.ready, ?_⟩
        intro fuel hf
        cases fuel with
        | zero => omega
        | succ n =>
          simp only [levelLoop, if_neg hne]
          rw [← hhd, hloop n (by simp only [List.length_cons]; omega)]
          cases n with
          | zero => omega
          | succ n =>
            have ht1 := H1.tail
            simp only [List.nil_append, List.cons_append, List.head?_cons, Option.some.injEq] at ht1
            simp [levelLoop, ← ht1, ht]
      | cons q fresh =>
        cases h with
        | zero =>
          exfalso
          obtain ⟨n, _, _, h3⟩ := H1.liveNew q (by simp)
          have := height_pos n
          omega
        | succ h =>
          obtain ⟨N, s2, all, R, h2⟩ := levelLoop_ok h (k + 1) s1 (q :: fresh) (p :: lv ++ old)
            H1.next
          refine ⟨N + lv.length + 4, s2, all, R, ?_⟩
          intro fuel hf
          cases fuel with
          | zero => omega
          | succ n =>
            simp only [levelLoop, if_neg hne]
            rw [← hhd, hloop n (by simp only [List.length_cons]; omega)]
            exact h2 n (by omega)

/-- What holds while the list is being cleared: `gone` has been cleared, `rest` not yet. -/
structure Clearing (next : Addr → Option Addr) (t : NExpr) (gone rest : List Addr) : Prop where
  linked : Linked next rest
  nodup : rest.Nodup
  sorted : rest.Pairwise fun a b => b.length ≤ a.length
  apart : ∀ p ∈ rest, p ∉ gone
  closed : ∀ p ∈ rest, ∃ l ks, nodeAt p t = some (.node l ks) ∧
    ∀ i : Nat, ((ks[i]?).getD Tree.absent).present = true →
      (p ++ [i] ∈ gone ∧ ks[i]? = some (.node NNode.dflt [])) ∨ p ++ [i] ∈ rest
  root : rest ≠ [] → [] ∈ rest

theorem Clearing.leaf {next : Addr → Option Addr} {t : NExpr} {gone rest : List Addr} {p : Addr}
    (H : Clearing next t gone (p :: rest)) : ∃ l ks, nodeAt p t = some (.node l ks) ∧
    ∀ i : Nat, ((ks[i]?).getD Tree.absent).present = true → ks[i]? = some (.node NNode.dflt []) := by
  obtain ⟨l, ks, h1, h2⟩ := H.closed p (by simp)
  refine ⟨l, ks, h1, ?_⟩
  intro i hi
  rcases h2 i hi with h3 | h3
  · exact h3.2
  · exfalso
    rcases List.mem_cons.mp h3 with h4 | h4
    · have := congrArg List.length h4
      simp at this
    · have := (List.pairwise_cons.mp H.sorted).1 _ h4
      simp only [List.length_append, List.length_singleton] at this
      omega

theorem clearLoop_ok {next : Addr → Option Addr} : ∀ (rest gone : List Addr) (t : NExpr),
    Clearing next t gone rest →
    ∃ t', (rest ≠ [] → t' = .node NNode.dflt []) ∧
      ∀ fuel, rest.length ≤ fuel → clearLoop next fuel rest.head? t = some (t', rest, true)
  | [], gone, t, H => ⟨t, fun h => absurd rfl h, fun fuel _ => by cases fuel <;> simp [clearLoop]⟩
  | p :: rest, gone, t, H => by
    obtain ⟨l, ks, h1, h2⟩ := H.leaf
    have hsorted := List.pairwise_cons.mp H.sorted
    have hnd := List.nodup_cons.mp H.nodup
    have H' : Clearing next (putAt p (.node NNode.dflt []) t) (p :: gone) rest := by
      refine ⟨H.linked.2, hnd.2, hsorted.2, ?_, ?_, ?_⟩
      · intro q hq hm
        rcases List.mem_cons.mp hm with rfl | hm
        · exact hnd.1 hq
        · exact H.apart q (by simp [hq]) hm
      · intro r hr
        obtain ⟨l', ks', g1, g2⟩ := H.closed r (by simp [hr])
        have hlen := hsorted.1 r hr
        have hnp : ¬ p <+: r := by
          intro hp
          have := hp.eq_of_length_le hlen
          exact hnd.1 (this ▸ hr)
        obtain ⟨l2, ks2, ks3, e1, e2, e3, e4, e5⟩ := put_keeps p r t _ NNode.dflt [] hnp g1 _ h1
        simp only [Tree.node.injEq] at e1
        obtain ⟨rfl, rfl⟩ := e1
        refine ⟨l', ks3, e2, ?_⟩
        intro i hi
        rw [← e3 i] at hi
        by_cases hpi : p = r ++ [i]
        · exact .inl ⟨by simp [← hpi], e5 i hpi⟩
        rcases g2 i hi with ⟨h3, h4⟩ | h3
        · refine .inl ⟨by simp [h3], ?_⟩
          rw [e4 i hpi, h4]
          rintro ⟨s, rfl⟩
          have hx := nodeAt_ext r t _ _ g1 i s
          rw [h1, h4] at hx
          cases s with
          | nil => exact hpi rfl
          | cons a s => simp [nodeAt] at hx
        · rcases List.mem_cons.mp h3 with h4 | h4
          · exact absurd h4.symm hpi
          · exact .inr h4
      · intro hne
        have := H.root (by simp)
        rcases List.mem_cons.mp this with h | h
        · exfalso
          cases rest with
          | nil => exact hne rfl
          | cons q rest =>
            have := hsorted.1 q (by simp)
            rw [← h] at this
            simp only [List.length_nil, Nat.le_zero, List.length_eq_zero_iff] at this
            exact hnd.1 (by rw [← h, this]; simp)
        · exact h
    obtain ⟨t', ht, hl⟩ := clearLoop_ok rest (p :: gone) _ H'
    refine ⟨t', ?_, ?_⟩
    · intro _
      cases rest with
      | nil =>
        have := H.root (by simp)
        simp only [List.mem_singleton] at this
        have := hl 0 (by simp)
        simp only [List.head?_nil, clearLoop, Option.some.injEq, Prod.mk.injEq] at this
        rw [← this.1, ← ‹[] = p›]
        simp [putAt]
      | cons q rest => exact ht (by simp)
    · intro fuel hf
      cases fuel with
      | zero => simp at hf
      | succ n =>
        simp only [List.length_cons] at hf
        have hs : shallow (.node l ks) = true := by
          simp only [shallow, List.all_eq_true]
          intro k hk
          obtain ⟨i, hi, rfl⟩ := List.getElem_of_mem hk
          have hg : ks[i]? = some ks[i] := List.getElem?_eq_getElem hi
          cases hkk : ks[i] with
          | absent => rfl
          | node kl kk =>
            have := h2 i (by rw [hg, hkk]; rfl)
            rw [hg, hkk] at this
            simp only [Option.some.injEq, Tree.node.injEq] at this
            simp [this.2]
        simp only [List.head?_cons, clearLoop, h1, H.linked.1, hl n (by omega), hs, Bool.and_self]

/-- Every node of the finished expression is in the list. -/
theorem Ready.covers {t0 : NExpr} {s : EState} {all : List Addr} (R : Ready t0 s all) :
    ∀ (m : Nat) (p : Addr), p.length = m → ∀ n, nodeAt p s.tree = some n → p ∈ all
  | 0, p, hp, n, h => by
    rw [List.length_eq_zero_iff.mp hp]; exact R.root
  | m + 1, p, hp, n, h => by
    have hne : p ≠ [] := by rintro rfl; simp at hp
    have hsplit : p = p.dropLast ++ [p.getLast hne] := (List.dropLast_append_getLast hne).symm
    rw [hsplit] at h ⊢
    -- the parent is a node
    have hpar : ∃ n', nodeAt p.dropLast s.tree = some n' := by
      have : ∀ (q : Addr) (i : Nat) (t n : NExpr), nodeAt (q ++ [i]) t = some n →
          ∃ n', nodeAt q t = some n' := by
        intro q
        induction q with
        | nil =>
          intro i t n h
          cases t with
          | absent => simp [nodeAt] at h
          | node l ks => exact ⟨_, rfl⟩
        | cons j q ih =>
          intro i t n h
          cases t with
          | absent => simp [nodeAt] at h
          | node l ks =>
            simp only [List.cons_append, nodeAt] at h ⊢
            cases hj : ks[j]? with
            | none => rw [hj] at h; cases h
            | some k => rw [hj] at h; exact ih i k n h
      exact this _ _ _ _ h
    obtain ⟨n', hn'⟩ := hpar
    have hmem := Ready.covers R m p.dropLast (by simp [hp]) n' hn'
    obtain ⟨l, ks, h1, h2⟩ := R.closed _ hmem
    refine h2 _ ?_
    have hx := nodeAt_ext _ _ _ _ h1 (p.getLast hne) []
    rw [h] at hx
    cases hk : ks[p.getLast hne]? with
    | none => rw [hk] at hx; cases hx
    | some c =>
      rw [hk] at hx
      simp only at hx
      cases c with
      | absent => simp [nodeAt] at hx
      | node _ _ => rfl

/-- `FlattenedErase` on any expression: it ends, reads no destroyed node, leaves the default
expression, clears every node exactly once and below-first, and no `Clear()` has more than
childless children to destroy. -/
theorem erase_ok (l : NNode) (ks : List NExpr) (hw : WFC (.node l ks))
    (ids : Addr → Option Addr) :
    ∃ N order, (∀ fuel, N ≤ fuel →
        flattenedErase fuel ids (.node l ks) = some (.node NNode.dflt [], order, true)) ∧
      order.Nodup ∧ (∀ p n, nodeAt p (.node l ks) = some n → p ∈ order) ∧
      order.Pairwise fun a b => ¬ (a <+: b) := by
  have H : Inv (.node l ks) ⟨.node l ks, fun a => if a = [] then none else ids a, []⟩ [] [] [[]] []
      0 (Tree.height (.node l ks)) := by
    refine ⟨⟨by simp, trivial⟩, rfl, by simp, by simp, by simp, by simp, .nil, by simp, ?_, by simp,
      by simp, by simp, fun p n h => ⟨n, h⟩⟩
    intro p hp
    simp only [List.mem_singleton] at hp
    subst hp
    exact ⟨_, rfl, hw, Nat.le_succ _⟩
  obtain ⟨N, s', all, R, hl⟩ := levelLoop_ok _ _ _ _ _ H
  have C : Clearing s'.next s'.tree [] all :=
    ⟨R.linked, R.nodup, R.sorted, by simp, fun p hp => by
      obtain ⟨l, ks, h1, h2⟩ := R.closed p hp
      exact ⟨l, ks, h1, fun i hi => .inr (h2 i hi)⟩, fun _ => R.root⟩
  obtain ⟨t', ht, hc⟩ := clearLoop_ok all [] s'.tree C
  have hne : all ≠ [] := by intro e; have := R.root; rw [e] at this; simp at this
  rw [ht hne] at hc
  refine ⟨N + all.length, all, ?_, R.nodup, ?_, ?_⟩
  · intro fuel hf
    simp only [flattenedErase]
    rw [show levelLoop fuel none _ = some s' from hl fuel (by omega)]
    simp only
    rw [← R.tail]
    exact hc fuel (by omega)
  · intro p n h
    obtain ⟨n', h'⟩ := R.alive p n h
    exact R.covers _ p rfl n' h'
  · refine List.Pairwise.imp_of_mem ?_ (List.Pairwise.and R.sorted R.nodup)
    rintro a b ha hb ⟨h1, h2⟩ hp
    exact h2 (hp.eq_of_length_le h1)

end Cel.Proto
