import Verif.Rewrite.Back

set_option linter.unusedSimpArgs false
set_option linter.unusedVariables false

/-! # No pointer on the stack dangles, whatever the rewriter does -/

namespace Cel.Rewrite
open Cel Cel.Proto Cel.Walk

/-- The pointers in a record. -/
def Rec.addrs : Rec → List Addr
  | .expr a => [a]
  | .arg a call _ => [a, call]
  | .comp a call _ => [a, call]

/-- The expression of the record. -/
def Rec.at : Rec → Addr
  | .expr a => a
  | .arg a _ _ => a
  | .comp a _ _ => a

/-- `y` is strictly below `x`. -/
def Below (x y : Addr) : Prop := ∃ i s, y = x ++ i :: s

/-- A child record names a child of its caller. -/
def Rec.Child : Rec → Prop
  | .expr _ => True
  | .arg a call _ => ∃ i, a = call ++ [i]
  | .comp a call _ => ∃ i, a = call ++ [i]

structure Live {S : Type} (m : St S) : Prop where
  wfc : WFC m.tree
  live : ∀ r ∈ m.stack, ∀ x ∈ r.kind.addrs, ∃ n, nodeAt x m.tree = some n
  child : ∀ r ∈ m.stack, r.kind.Child
  apart : m.stack.Pairwise fun r1 r2 => ∀ y ∈ r2.kind.addrs, ¬ Below r1.kind.at y

theorem not_below_self (x : Addr) : ¬ Below x x := by
  rintro ⟨i, s, h⟩
  have := congrArg List.length h
  simp at this

theorem not_below_parent (x : Addr) (i : Nat) : ¬ Below (x ++ [i]) x := by
  rintro ⟨j, s, h⟩
  have := congrArg List.length h
  simp at this

theorem not_below_kid {x y : Addr} (h : ¬ Below x y) (i : Nat) : ¬ Below (x ++ [i]) y := by
  rintro ⟨j, s, e⟩
  exact h ⟨i, j :: s, by rw [e]; simp⟩

theorem wfc_at : ∀ (a : Addr) (t n : NExpr), WFC t → nodeAt a t = some n → WFC n
  | a, .absent, n, hw, h => by cases a <;> simp [nodeAt] at h
  | [], .node l ks, n, hw, h => by simp only [nodeAt, Option.some.injEq] at h; rw [← h]; exact hw
  | i :: a, .node l ks, n, hw, h => by
    simp only [nodeAt] at h
    cases hi : ks[i]? with
    | none => rw [hi] at h; cases h
    | some k =>
      rw [hi] at h
      simp only [WFC] at hw
      exact wfc_at a k n ((wfcs_iff ks).mp hw.2 k (List.mem_of_getElem? hi)) h

theorem shape_set (k : NKind) (ks : List NExpr) (i : Nat) (c : NExpr) (hc : c.present = true)
    (h : CShape k ks) : CShape k (ks.set i c) := by
  cases k with
  | call fn =>
    simp only [CShape] at h ⊢
    obtain ⟨t, args, rfl, ha⟩ := h
    cases i with
    | zero => exact ⟨c, args, rfl, ha⟩
    | succ i =>
      refine ⟨t, args.set i c, rfl, fun x hx => ?_⟩
      rcases List.mem_or_eq_of_mem_set hx with hx | rfl
      · exact ha x hx
      · exact hc
  | unspecified => simp only [CShape] at h ⊢; simp [h]
  | const c => simp only [CShape] at h ⊢; simp [h]
  | ident n => simp only [CShape] at h ⊢; simp [h]
  | _ => simpa [CShape] using h

theorem wfc_put : ∀ (a : Addr) (t n c : NExpr), WFC t → nodeAt a t = some n → WFC c →
    c.present = true → WFC (putAt a c t) ∧ (putAt a c t).present = true
  | a, .absent, n, c, hw, h, hc, hp => by cases a <;> simp [nodeAt] at h
  | [], .node l ks, n, c, hw, h, hc, hp => by simp only [putAt]; exact ⟨hc, hp⟩
  | i :: a, .node l ks, n, c, hw, h, hc, hp => by
    simp only [nodeAt] at h
    cases hi : ks[i]? with
    | none => rw [hi] at h; cases h
    | some k =>
      rw [hi] at h
      simp only [WFC] at hw
      have ih := wfc_put a k n c ((wfcs_iff ks).mp hw.2 k (List.mem_of_getElem? hi)) h hc hp
      simp only [putAt, hi, WFC, Tree.present, and_true]
      refine ⟨shape_set _ _ _ _ ih.2 hw.1, (wfcs_iff _).mpr fun x hx => ?_⟩
      rcases List.mem_or_eq_of_mem_set hx with hx | rfl
      · exact (wfcs_iff ks).mp hw.2 x hx
      · exact ih.1

/-- Overwriting a node with a node leaves every node that is not below. -/
theorem put_live (a : Addr) (t n : NExpr) (l : NNode) (ks : List NExpr) (h : nodeAt a t = some n)
    (y : Addr) (hy : ¬ Below a y) (m : NExpr) (hm : nodeAt y t = some m) :
    ∃ n', nodeAt y (putAt a (.node l ks) t) = some n' := by
  by_cases hp : a <+: y
  · obtain ⟨s, rfl⟩ := hp
    cases s with
    | nil => exact ⟨_, by simpa using put_same a t n l ks h⟩
    | cons i s => exact absurd ⟨i, s, rfl⟩ hy
  · obtain ⟨l', ks', ks'', _, h2, _⟩ := put_keeps a y t m l ks hp hm n h
    exact ⟨_, h2⟩

theorem mem_kidRecs (cb : Bool) (a : Addr) (k : NKind) : ∀ (cs : List NExpr) (i : Nat) (r : StackRec),
    r ∈ kidRecs cb a k i cs → ∃ j c, cs[j]? = some c ∧ c.present = true ∧ r.kind.at = a ++ [i + j] ∧
      r.kind.Child ∧ ∀ y ∈ r.kind.addrs, y = a ++ [i + j] ∨ y = a
  | [], i, r, h => by simp [kidRecs] at h
  | c :: cs, i, r, h => by
    simp only [kidRecs, List.mem_append] at h
    rcases h with h | h
    · simp only [kidRec] at h
      split at h
      · rename_i hp
        simp only [List.mem_singleton] at h
        subst h
        refine ⟨0, c, by simp, hp, ?_⟩
        simp only [recOf, Nat.add_zero]
        cases cb <;> split <;> simp [Rec.at, Rec.Child, Rec.addrs, compRec]
      · simp at h
    · obtain ⟨j, d, hj, hp, h1, h2, h3⟩ := mem_kidRecs cb a k cs (i + 1) r h
      have e : i + 1 + j = i + (j + 1) := by omega
      rw [e] at h1 h3
      exact ⟨j + 1, d, by simpa using hj, hp, h1, h2, h3⟩

theorem kidRecs_apart (cb : Bool) (a : Addr) (k : NKind) : ∀ (cs : List NExpr) (i : Nat),
    (kidRecs cb a k i cs).Pairwise fun r1 r2 => ∀ y ∈ r2.kind.addrs, ¬ Below r1.kind.at y
  | [], i => by simp [kidRecs]
  | c :: cs, i => by
    simp only [kidRecs]
    refine List.pairwise_append.mpr ⟨?_, kidRecs_apart cb a k cs (i + 1), ?_⟩
    · simp only [kidRec]; split <;> simp
    · intro r1 h1 r2 h2 y hy
      have h1' : r1 ∈ kidRecs cb a k i (c :: []) := by simpa [kidRecs] using h1
      obtain ⟨j1, c1, hj1, _, he1, _, _⟩ := mem_kidRecs cb a k _ i r1 h1'
      obtain ⟨j2, c2, _, _, _, _, h3⟩ := mem_kidRecs cb a k _ _ r2 h2
      rw [he1]
      rcases h3 y hy with rfl | rfl
      · rintro ⟨x, s, e⟩
        have := congrArg List.length e
        simp at this
      · exact not_below_parent _ _

/-- A turn is possible from a live state with records left, and leaves it live. -/
theorem live_turn {S : Type} (R : Rewriter S) (hR : R.Sound) (cb : Bool) (m : St S) (h : Live m)
    (hne : m.stack ≠ []) : ∃ m', turn R cb m = some m' ∧ Live m' := by
  obtain ⟨t, stack, path, s, f⟩ := m
  obtain ⟨hw, hl, hc, ha⟩ := h
  simp only at hw hl hc ha hne
  cases stack with
  | nil => exact absurd rfl hne
  | cons r rest =>
  obtain ⟨k, v⟩ := r
  simp only [List.pairwise_cons] at ha
  have hrl : ∀ r ∈ rest, ∀ x ∈ r.kind.addrs, ∃ n, nodeAt x t = some n :=
    fun r hr => hl r (by simp [hr])
  have hrc : ∀ r ∈ rest, r.kind.Child := fun r hr => hc r (by simp [hr])
  have hk := hl ⟨k, v⟩ (by simp)
  have hkc := hc ⟨k, v⟩ (by simp)
  -- pushing the expression record of a child record
  have hpush : ∀ (kk : Rec) (x p : Addr), kk.addrs = [x, p] → kk.at = x → kk.Child → (∃ i, x = p ++ [i]) →
      k = kk → ∀ s', Live (⟨t, push (⟨kk, true⟩ :: rest) (.expr x), path, s', f⟩ : St S) := by
    intro kk x p he hat hch hi hkk s'
    subst hkk
    refine ⟨hw, ?_, ?_, ?_⟩
    · intro r hr y hy
      simp only [push, List.mem_cons] at hr
      rcases hr with rfl | rfl | hr
      · simp only [Rec.addrs, List.mem_singleton] at hy
        exact hk y (by rw [he, hy]; simp)
      · exact hk y hy
      · exact hrl r hr y hy
    · intro r hr
      simp only [push, List.mem_cons] at hr
      rcases hr with rfl | rfl | hr
      · trivial
      · exact hch
      · exact hrc r hr
    · simp only [push, List.pairwise_cons]
      refine ⟨?_, ?_, ha.2⟩
      · intro r hr y hy
        simp only [List.mem_cons] at hr
        rcases hr with rfl | hr
        · rw [he] at hy
          obtain ⟨i, rfl⟩ := hi
          simp only [List.mem_cons, List.not_mem_nil, or_false] at hy
          rcases hy with rfl | rfl
          · exact not_below_self _
          · exact not_below_parent _ _
        · have := ha.1 r hr y hy
          rw [hat] at this
          exact this
      · exact ha.1
  have hpop : ∀ s', Live (⟨t, rest, path, s', f⟩ : St S) := fun s' => ⟨hw, hrl, hrc, ha.2⟩
  cases k with
  | expr a =>
    obtain ⟨n, hn⟩ := hk a (by simp [Rec.addrs])
    obtain ⟨ln, kn, rfl⟩ := nodeAt_node a t n hn
    have hwn := wfc_at a t _ hw hn
    have hput : ∀ (l : NNode) (ks : List NExpr), ∀ r ∈ rest, ∀ y ∈ r.kind.addrs,
        ∃ n', nodeAt y (putAt a (.node l ks) t) = some n' := by
      intro l ks r hr y hy
      obtain ⟨m, hm⟩ := hrl r hr y hy
      exact put_live a t _ l ks hn y (ha.1 r hr y hy) m hm
    cases v with
    | false =>
      have hs := hR.pre _ (R.path (path ++ [a]) s) rfl hwn
      cases hpre : R.pre (.node ln kn) (R.path (path ++ [a]) s) with
      | mk s1 q =>
      obtain ⟨n1, b1⟩ := q
      rw [hpre] at hs
      cases n1 with
      | absent => simp [Tree.present] at hs
      | node l ks =>
      have hw1 := hs.2
      simp only [WFC] at hw1
      have hsh := touchKids_shape l.kind ks hw1.1
      refine ⟨_, by simp only [turn, hn, hpre]; rfl, ?_⟩
      rw [pushExprDeps_eq cb a l.kind _ hsh (touchKids_present l.kind ks)]
      have hwt : WFC (.node l (touchKids l.kind ks)) := by
        simp only [WFC]; exact ⟨hsh, touchKids_wfcs _ _ hw1.2⟩
      refine ⟨(wfc_put a t _ _ hw hn hwt rfl).1, ?_, ?_, ?_⟩
      · intro r hr y hy
        simp only [List.mem_append, List.mem_cons] at hr
        rcases hr with hr | rfl | hr
        · obtain ⟨j, c, hj, hp, h1, h2, h3⟩ := mem_kidRecs cb a l.kind _ 0 r hr
          rw [Nat.zero_add] at h3
          rcases h3 y hy with rfl | rfl
          · cases c with
            | absent => simp [Tree.present] at hp
            | node lc kc => exact ⟨_, nodeAt_child (put_same a t _ l _ hn) hj⟩
          · exact ⟨_, put_same y t _ l _ hn⟩
        · simp only [Rec.addrs, List.mem_singleton] at hy
          rw [hy]; exact ⟨_, put_same a t _ l _ hn⟩
        · exact hput l _ r hr y hy
      · intro r hr
        simp only [List.mem_append, List.mem_cons] at hr
        rcases hr with hr | rfl | hr
        · obtain ⟨j, c, hj, hp, h1, h2, h3⟩ := mem_kidRecs cb a l.kind _ 0 r hr
          exact h2
        · trivial
        · exact hrc r hr
      · refine List.pairwise_append.mpr ⟨kidRecs_apart cb a l.kind _ 0, ?_, ?_⟩
        · simp only [List.pairwise_cons]
          exact ⟨ha.1, ha.2⟩
        · intro r1 h1 r2 h2 y hy
          obtain ⟨j, c, _, _, he, _, _⟩ := mem_kidRecs cb a l.kind _ 0 r1 h1
          rw [he]
          simp only [List.mem_cons] at h2
          rcases h2 with rfl | h2
          · simp only [Rec.addrs, List.mem_singleton] at hy
            rw [hy]; exact not_below_parent _ _
          · exact not_below_kid (ha.1 r2 h2 y hy) _
    | true =>
      have hs := hR.post _ (visits R (.node ln kn) (postEvents a ln.kind) s) rfl hwn
      cases hpost : R.post (.node ln kn) (visits R (.node ln kn) (postEvents a ln.kind) s) with
      | mk s1 q =>
      obtain ⟨n1, b1⟩ := q
      rw [hpost] at hs
      cases n1 with
      | absent => simp [Tree.present] at hs
      | node l ks =>
      refine ⟨_, by simp only [turn, hn, hpost]; rfl, ?_⟩
      exact ⟨(wfc_put a t _ _ hw hn hs.2 rfl).1, hput l ks, hrc, ha.2⟩
  | arg x p n =>
    obtain ⟨q, hq⟩ := hk p (by simp [Rec.addrs])
    cases v with
    | false => exact ⟨_, rfl, hpush _ x p rfl rfl hkc hkc rfl s⟩
    | true => exact ⟨_, by simp only [turn, hq]; rfl, hpop _⟩
  | comp x p c =>
    obtain ⟨q, hq⟩ := hk p (by simp [Rec.addrs])
    cases v with
    | false => exact ⟨_, by simp only [turn, hq]; rfl, hpush _ x p rfl rfl hkc hkc rfl _⟩
    | true => exact ⟨_, by simp only [turn, hq]; rfl, hpop _⟩

theorem live_start {S : Type} (t : NExpr) (s : S) (hp : t.present = true) (hw : WFC t) :
    Live (⟨t, [⟨.expr [], false⟩], [], s, false⟩ : St S) := by
  cases t with
  | absent => simp [Tree.present] at hp
  | node l ks =>
    refine ⟨hw, ?_, ?_, ?_⟩
    · intro r hr y hy
      simp only [List.mem_singleton] at hr
      subst hr
      simp only [Rec.addrs, List.mem_singleton] at hy
      exact ⟨.node l ks, by rw [hy]; rfl⟩
    · intro r hr
      simp only [List.mem_singleton] at hr
      subst hr
      trivial
    · simp

theorem live_run {S : Type} (R : Rewriter S) (hR : R.Sound) (cb : Bool) {m m' : St S}
    (hr : Run R cb m m') : Live m → Live m' := by
  induction hr with
  | refl => exact id
  | @step m m1 m2 ht _ ih =>
    intro h
    have hne : m.stack ≠ [] := by
      intro he
      rw [turn, he] at ht
      cases ht
    obtain ⟨m', ht', h'⟩ := live_turn R hR cb m h hne
    rw [ht] at ht'
    cases ht'
    exact ih h'

end Cel.Rewrite
