import Verif.Base

/-!
# The explicit-stack tree converters

`common/ast/expr_proto.cc` (`ExprToProtoState`, `ExprFromProtoState`) and `common/expr.cc`
(`CloneImpl`) all convert one expression tree into another with the same loop: a stack of
(source node, *pointer to a target node*), pop a frame, fill that target node, and push a frame for
every child with the address of the child that was just created in the target.  The addresses stay
on the stack while other nodes are being filled, so the loop is only right if none of them dangles.

A target node is reached through a path of child positions; every cell carries the *generation* of
the storage it lives in, and a pointer remembers the generation it was taken in.  A pointer whose
generation differs from that of the cell it should reach dangles (the `std::vector` that held the
cell was reallocated in between), and using it is undefined behaviour.
-/

set_option linter.unusedSimpArgs false

namespace Cel.Proto
open Cel

/-- An expression tree: a node's own data (`l`) and its children in declaration order; `absent` is
an unset `std::unique_ptr<Expr>` / unset sub-message. -/
inductive Tree (L : Type) where
  | absent
  | node (l : L) (kids : List (Tree L))

/-- A tree in memory: every node has the generation of the storage it lives in. -/
abbrev Cell (L : Type) := Tree (Nat × L)

mutual
/-- The number of nodes and empty child slots. -/
def Tree.size {L : Type} : Tree L → Nat
  | .absent => 1
  | .node _ ks => 1 + Tree.sizes ks
def Tree.sizes {L : Type} : List (Tree L) → Nat
  | [] => 0
  | t :: ts => t.size + Tree.sizes ts
end

mutual
/-- Forget where the nodes live. -/
def forget {L : Type} : Cell L → Tree L
  | .absent => .absent
  | .node l ks => .node l.2 (forgets ks)
def forgets {L : Type} : List (Cell L) → List (Tree L)
  | [] => []
  | c :: cs => forget c :: forgets cs
end

/-- A pointer to a target node: from the root, the child position and the generation of that
child's storage when the pointer was taken. -/
abbrev Ptr := List (Nat × Nat)

/-- A `stack.push_back({src, &dst.child})`: the position of the child in the node being filled, the
generation its address was taken in, and the source to convert into it. -/
structure Push (S : Type) where
  idx : Nat
  addr : Nat
  src : S

/-- What filling one node does: its data, its children (new ones still empty) and the pushes, in
the order they are made. -/
structure Filled (S L : Type) where
  label : L
  kids : List (Cell L)
  pushes : List (Push S)

/-- `ExprToProtoImpl` / `ExprFromProtoImpl` / `CopyNode`: source node, what the target node holds
now (data, children) ↦ what it holds afterwards. -/
abbrev Stepper (S L : Type) := S → L → List (Cell L) → Except Status (Filled S L)

/-- `Frame` – `common/ast/expr_proto.cc:45-48`, `:293-296`; `CopyStackRecord` –
`common/expr.cc:30-33`. -/
structure Frame (S : Type) where
  src : S
  dst : Ptr

/-- How a conversion ends. -/
inductive Out (α : Type) where
  | ok (a : α)
  | err (s : Status)
  /-- undefined behaviour: a dangling or null pointer was used -/
  | ub

/-- Read through a pointer; `none` when it dangles. -/
def fetch {L : Type} : Ptr → Cell L → Option (Cell L)
  | _, .absent => none
  | [], .node l ks => some (.node l ks)
  | (i, a) :: p, .node _ ks =>
    match ks[i]? with
    | some (.node (b, l') ks') => if b = a then fetch p (.node (b, l') ks') else none
    | _ => none

/-- Write through a pointer that does not dangle. -/
def store {L : Type} : Ptr → Cell L → Cell L → Cell L
  | [], c, _ => c
  | _ :: _, _, .absent => .absent
  | (i, _) :: p, c, .node l ks =>
    match ks[i]? with
    | some k => .node l (ks.set i (store p c k))
    | none => .node l ks

/-- The loop `while (Pop(frame)) { CEL_RETURN_IF_ERROR(Impl(...)) }` –
`common/ast/expr_proto.cc:51-59`, `:299-306`; `common/expr.cc:133-141`.  `none`: not finished
within `fuel` iterations. -/
def run {S L : Type} (st : Stepper S L) : Nat → List (Frame S) → Cell L → Option (Out (Cell L))
  | _, [], m => some (.ok m)
  | 0, _ :: _, _ => none
  | n + 1, f :: fs, m =>
    match fetch f.dst m with
    | some (.node (a, l) ks) =>
      match st f.src l ks with
      | .error e => some (.err e)
      | .ok r =>
        run st n ((r.pushes.map fun p => ⟨p.src, f.dst ++ [(p.idx, p.addr)]⟩).reverse ++ fs)
          (store f.dst (.node (a, r.label) r.kids) m)
    | _ => some .ub

/-! ## Big-step reading of the loop -/

mutual
/-- Filling one target node (and everything below it), with the number of iterations. -/
inductive Big {S L : Type} (st : Stepper S L) :
    S → Cell L → Except Status (Cell L) → Nat → Prop where
  | err {s a l ks e} : st s l ks = .error e → Big st s (.node (a, l) ks) (.error e) 1
  | okE {s a l ks r e n} : st s l ks = .ok r → BigKids st r.pushes.reverse r.kids (.error e) n →
      Big st s (.node (a, l) ks) (.error e) (n + 1)
  | ok {s a l ks r ks' n} : st s l ks = .ok r → BigKids st r.pushes.reverse r.kids (.ok ks') n →
      Big st s (.node (a, l) ks) (.ok (.node (a, r.label) ks')) (n + 1)
inductive BigKids {S L : Type} (st : Stepper S L) :
    List (Push S) → List (Cell L) → Except Status (List (Cell L)) → Nat → Prop where
  | nil {ks} : BigKids st [] ks (.ok ks) 0
  | err {p ps ks l kk e n} : ks[p.idx]? = some (.node (p.addr, l) kk) →
      Big st p.src (.node (p.addr, l) kk) (.error e) n → BigKids st (p :: ps) ks (.error e) n
  | cons {p ps ks l kk c r n m} : ks[p.idx]? = some (.node (p.addr, l) kk) →
      Big st p.src (.node (p.addr, l) kk) (.ok c) n → BigKids st ps (ks.set p.idx c) r m →
      BigKids st (p :: ps) ks r (n + m)
end

theorem fetch_append {L : Type} : ∀ (p q : Ptr) (m c : Cell L), fetch p m = some c →
    fetch (p ++ q) m = fetch q c := by
  intro p
  induction p with
  | nil =>
    intro q m c h
    cases m with
    | absent => simp [fetch] at h
    | node l ks => simp [fetch] at h; subst h; rfl
  | cons x p ih =>
    obtain ⟨i, a⟩ := x
    intro q m c h
    cases m with
    | absent => simp [fetch] at h
    | node l ks =>
      simp only [fetch, List.cons_append] at h ⊢
      split
      · rename_i b l' ks' hk
        rw [hk] at h
        simp only at h
        split
        · rename_i hb
          rw [if_pos hb] at h
          exact ih q _ c h
        · rename_i hb
          rw [if_neg hb] at h
          cases h
      · rename_i hk
        revert h
        split
        · rename_i b l' ks' hk'
          exact absurd hk' (hk _ _ _)
        · intro h; cases h

theorem store_append {L : Type} : ∀ (p q : Ptr) (m c d : Cell L), fetch p m = some c →
    store (p ++ q) d m = store p (store q d c) m := by
  intro p
  induction p with
  | nil =>
    intro q m c d h
    cases m with
    | absent => simp [fetch] at h
    | node l ks => simp [fetch] at h; subst h; rfl
  | cons x p ih =>
    obtain ⟨i, a⟩ := x
    intro q m c d h
    cases m with
    | absent => simp [fetch] at h
    | node l ks =>
      simp only [fetch] at h
      revert h
      split
      · rename_i b l' ks' hk
        split
        · intro h
          simp only [store, List.cons_append, hk]
          rw [ih q _ c d h]
        · intro h; cases h
      · intro h; cases h

/-- Storing a node with the same generation keeps the pointer valid. -/
theorem fetch_store {L : Type} : ∀ (p : Ptr) (m : Cell L) (a l ks l' ks'),
    fetch p m = some (.node (a, l) ks) →
    fetch p (store p (.node (a, l') ks') m) = some (.node (a, l') ks') := by
  intro p
  induction p with
  | nil => intro m a l ks l' ks' h; simp [store, fetch]
  | cons x p ih =>
    obtain ⟨i, b⟩ := x
    intro m a l ks l' ks' h
    cases m with
    | absent => simp [fetch] at h
    | node l0 ks0 =>
      simp only [fetch] at h
      revert h
      split
      · rename_i b' l1 ks1 hk
        split
        · rename_i hb
          intro h
          have hi : i < ks0.length := (List.getElem?_eq_some_iff.mp hk).1
          have key := ih _ a l ks l' ks' h
          simp only [store, hk, fetch, List.getElem?_set_self hi]
          cases p with
          | nil =>
            simp only [fetch] at h
            simp only [store] at key ⊢
            have : b' = a := by
              have := Option.some.inj h
              cases this; rfl
            simp only [fetch]
            rw [if_pos (by omega)]
          | cons y p =>
            obtain ⟨j, c⟩ := y
            simp only [store] at key ⊢
            cases hj : ks1[j]? with
            | none => simp only [hj] at key; simp only [hj, if_pos hb]; exact key
            | some k1 => simp only [hj] at key; simp only [hj, if_pos hb]; exact key
        · intro h; cases h
      · intro h; cases h

theorem store_store {L : Type} : ∀ (p : Ptr) (m c c' : Cell L) (d : Cell L), fetch p m = some c →
    store p d (store p c' m) = store p d m := by
  intro p
  induction p with
  | nil => intro m c c' d h; simp [store]
  | cons x p ih =>
    obtain ⟨i, b⟩ := x
    intro m c c' d h
    cases m with
    | absent => simp [fetch] at h
    | node l0 ks0 =>
      simp only [fetch] at h
      revert h
      split
      · rename_i b' l1 ks1 hk
        split
        · intro h
          have hi : i < ks0.length := (List.getElem?_eq_some_iff.mp hk).1
          simp only [store, hk, List.getElem?_set_self hi, List.set_set]
          rw [ih _ c c' d h]
        · intro h; cases h
      · intro h; cases h

theorem store_fetch {L : Type} : ∀ (p : Ptr) (m c : Cell L), fetch p m = some c →
    store p c m = m := by
  intro p
  induction p with
  | nil =>
    intro m c h
    cases m with
    | absent => simp [fetch] at h
    | node l ks => simp [fetch] at h; simp [store, h]
  | cons x p ih =>
    obtain ⟨i, b⟩ := x
    intro m c h
    cases m with
    | absent => simp [fetch] at h
    | node l0 ks0 =>
      simp only [fetch] at h
      revert h
      split
      · rename_i b' l1 ks1 hk
        split
        · intro h
          simp only [store, hk]
          rw [ih _ c h]
          congr 1
          obtain ⟨hi, he⟩ := List.getElem?_eq_some_iff.mp hk
          rw [← he]
          exact List.set_getElem_self hi
        · intro h; cases h
      · intro h; cases h

theorem store_ne_absent {L : Type} (p : Ptr) (m c : Cell L) (a l ks)
    (h : fetch p m = some (.node (a, l) ks)) (l' ks') (hc : c = .node (a, l') ks') :
    fetch p (store p c m) = some c := by
  subst hc
  exact fetch_store p m a l ks l' ks' h

/-- Big-step results keep the generation of the cell they fill. -/
theorem Big.shape {S L : Type} {st : Stepper S L} {s : S} {a l ks c n}
    (h : Big st s (.node (a, l) ks) (.ok c) n) : ∃ l' ks', c = .node (a, l') ks' := by
  cases h with
  | ok h1 h2 => exact ⟨_, _, rfl⟩

/-- What the loop does with one frame, given the big-step reading. -/
def RunBig {S L : Type} (st : Stepper S L) (s : S) (c : Cell L) (r : Except Status (Cell L))
    (n : Nat) : Prop :=
  ∀ (k : Nat) (p : Ptr) (fs : List (Frame S)) (m : Cell L), fetch p m = some c →
    run st (n + k) (⟨s, p⟩ :: fs) m =
      match r with
      | .ok c' => run st k fs (store p c' m)
      | .error e => some (.err e)

def RunBigKids {S L : Type} (st : Stepper S L) (ps : List (Push S)) (ks : List (Cell L))
    (r : Except Status (List (Cell L))) (n : Nat) : Prop :=
  ∀ (k : Nat) (p : Ptr) (a : Nat) (l : L) (fs : List (Frame S)) (m : Cell L),
    fetch p m = some (.node (a, l) ks) →
    run st (n + k) ((ps.map fun q => (⟨q.src, p ++ [(q.idx, q.addr)]⟩ : Frame S)) ++ fs) m =
      match r with
      | .ok ks' => run st k fs (store p (.node (a, l) ks') m)
      | .error e => some (.err e)

theorem run_big {S L : Type} {st : Stepper S L} {s : S} {c : Cell L} {r : Except Status (Cell L)}
    {n : Nat} (h : Big st s c r n) : RunBig st s c r n := by
  refine Big.rec (motive_1 := fun s c r n _ => RunBig st s c r n)
    (motive_2 := fun ps ks r n _ => RunBigKids st ps ks r n) ?_ ?_ ?_ ?_ ?_ ?_ h
  · intro s a l ks e h1 k p fs m hf
    rw [show 1 + k = k + 1 by omega]
    simp only [run, hf, h1]
  · intro s a l ks rr e n' h1 h2 ih k p fs m hf
    rw [show n' + 1 + k = (n' + k) + 1 by omega]
    simp only [run, hf, h1]
    rw [← List.map_reverse]
    exact ih k p a rr.label fs _ (fetch_store p m a l ks _ _ hf)
  · intro s a l ks rr ks' n' h1 h2 ih k p fs m hf
    rw [show n' + 1 + k = (n' + k) + 1 by omega]
    simp only [run, hf, h1]
    rw [← List.map_reverse]
    have := ih k p a rr.label fs _ (fetch_store p m a l ks rr.label rr.kids hf)
    rw [this]
    simp only
    rw [store_store p m _ _ _ hf]
  · intro ks k p a l fs m hf
    simp only [List.map_nil, List.nil_append, Nat.zero_add]
    rw [store_fetch p m _ hf]
  · intro q qs ks ll kk e n' h1 h2 ih k p a l fs m hf
    simp only [List.map_cons, List.cons_append]
    have hq : fetch (p ++ [(q.idx, q.addr)]) m = some (.node (q.addr, ll) kk) := by
      rw [fetch_append p _ m _ hf]
      simp [fetch, h1]
    exact ih k _ _ m hq
  · intro q qs ks ll kk c r n' m' h1 h2 h3 ih2 ih3 k p a l fs m hf
    simp only [List.map_cons, List.cons_append]
    have hq : fetch (p ++ [(q.idx, q.addr)]) m = some (.node (q.addr, ll) kk) := by
      rw [fetch_append p _ m _ hf]
      simp [fetch, h1]
    rw [Nat.add_assoc]
    have := ih2 (m' + k) _ (qs.map (fun q => (⟨q.src, p ++ [(q.idx, q.addr)]⟩ : Frame S))
      ++ fs) m hq
    rw [this]
    simp only
    have hs : store (p ++ [(q.idx, q.addr)]) c m = store p (.node (a, l) (ks.set q.idx c)) m := by
      rw [store_append p _ m _ c hf]
      simp [store, h1]
    rw [hs]
    have := ih3 k p a l fs _ (fetch_store p m a l ks l (ks.set q.idx c) hf)
    rw [this]
    cases r with
    | error e => rfl
    | ok ks' => simp only; rw [store_store p m _ _ _ hf]

end Cel.Proto
