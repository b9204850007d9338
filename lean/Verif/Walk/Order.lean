import Verif.Walk.Rows

set_option linter.unusedSimpArgs false
set_option linter.unusedVariables false

/-! # In which order the nodes of an expression are visited -/

namespace Cel.Walk
open Cel Cel.Proto

/-- The nodes a visitor is told of on the way down / on the way up. -/
def preRefs (evs : List Ev) : List Ref := evs.filterMap fun e => match e with | .preExpr r => some r | _ => none
def postRefs (evs : List Ev) : List Ref := evs.filterMap fun e => match e with | .postExpr r => some r | _ => none

/-- The addresses among some references. -/
def locs (rs : List Ref) : List Addr := rs.filterMap fun r => match r with | .loc a => some a | .dflt => none

/-- `a` comes before `b` on the way down: `b` is below `a`, or they part at a node where `a` goes
to an earlier child. -/
def DownBefore (a b : Addr) : Prop :=
  (∃ i s, b = a ++ i :: s) ∨ ∃ c i j s s', i < j ∧ a = c ++ i :: s ∧ b = c ++ j :: s'

/-- `a` comes before `b` on the way up: `a` is below `b`, or they part at a node where `a` goes to
an earlier child. -/
def UpBefore (a b : Addr) : Prop :=
  (∃ i s, a = b ++ i :: s) ∨ ∃ c i j s s', i < j ∧ a = c ++ i :: s ∧ b = c ++ j :: s'

mutual
/-- The references in postorder. -/
def upV : VT → List Ref
  | .mk _ r _ kids => upsV kids ++ [r]
def upsV : List VT → List Ref
  | [] => []
  | v :: vs => upV v ++ upsV vs
end

theorem preRefs_append (a b : List Ev) : preRefs (a ++ b) = preRefs a ++ preRefs b := by
  simp [preRefs]
theorem postRefs_append (a b : List Ev) : postRefs (a ++ b) = postRefs a ++ postRefs b := by
  simp [postRefs]
theorem locs_append (a b : List Ref) : locs (a ++ b) = locs a ++ locs b := by simp [locs]

theorem preRefs_kind (k : NKind) (r : Ref) : preRefs (preKind k r) = [] ∧ preRefs (postKind k r) = [] ∧
    postRefs (preKind k r) = [] ∧ postRefs (postKind k r) = [] := by
  cases k <;> simp [preRefs, postRefs, preKind, postKind]

theorem preRefs_around (cb : Bool) (p : Ref) (e : Edge) : preRefs (before cb p e) = [] ∧
    preRefs (after cb p e) = [] ∧ postRefs (before cb p e) = [] ∧ postRefs (after cb p e) = [] := by
  cases e <;> cases cb <;> simp [preRefs, postRefs, before, after]

mutual
theorem preRefs_trace (cb : Bool) : ∀ v : VT, preRefs (trace cb v) = (preV v).map (·.1) ∧
    postRefs (trace cb v) = upV v
  | .mk e r l kids => by
    obtain ⟨h1, h2⟩ := preRefs_traces cb kids r
    obtain ⟨k1, k2, k3, k4⟩ := preRefs_kind l.kind r
    constructor
    · rw [trace, show ∀ es, Ev.preExpr r :: es = [Ev.preExpr r] ++ es from fun _ => rfl]
      simp only [preRefs_append, k1, k2, h1, preV, List.map_cons]
      simp [preRefs]
    · rw [trace, show ∀ es, Ev.preExpr r :: es = [Ev.preExpr r] ++ es from fun _ => rfl]
      simp only [postRefs_append, k3, k4, h2, upV]
      simp [postRefs]
theorem preRefs_traces (cb : Bool) : ∀ (vs : List VT) (p : Ref),
    preRefs (traces cb p vs) = (presV vs).map (·.1) ∧ postRefs (traces cb p vs) = upsV vs
  | [], p => by simp [traces, presV, upsV, preRefs, postRefs]
  | v :: vs, p => by
    obtain ⟨h1, h2⟩ := preRefs_traces cb vs p
    obtain ⟨h3, h4⟩ := preRefs_trace cb v
    cases v with
    | mk e r l kids =>
      obtain ⟨k1, k2, k3, k4⟩ := preRefs_around cb p e
      simp only [traces, preRefs_append, postRefs_append, k1, k2, k3, k4, h1, h2, h3, h4, presV,
        upsV, List.map_append, List.nil_append]
      exact ⟨trivial, trivial⟩
end

/-! ## Which addresses -/

theorem mem_locs (rs : List Ref) (a : Addr) : a ∈ locs rs ↔ Ref.loc a ∈ rs := by
  simp only [locs, List.mem_filterMap]
  constructor
  · rintro ⟨r, hr, h⟩
    cases r with
    | loc b => simp only [Option.some.injEq] at h; rw [← h]; exact hr
    | dflt => simp at h
  · intro h; exact ⟨_, h, rfl⟩

mutual
/-- The addresses in a view are those of the expression, below where it hangs; both orders. -/
theorem mem_view : ∀ (n : NExpr) (e : Edge) (a b : Addr), n.present = true →
    (Ref.loc b ∈ (preV (view e a n)).map (·.1) ↔ ∃ s, b = a ++ s ∧ ∃ m, nodeAt s n = some m) ∧
    (Ref.loc b ∈ upV (view e a n) ↔ Ref.loc b ∈ (preV (view e a n)).map (·.1))
  | .absent, _, _, _, h => by simp [Tree.present] at h
  | .node l ks, e, a, b, _ => by
    obtain ⟨h1, h2⟩ := mem_views ks l.kind a 0 b
    constructor
    · simp only [view, preV, List.map_cons, List.mem_cons, h1]
      constructor
      · rintro (h | ⟨j, c, s, hj, rfl, m, hm⟩)
        · simp only [Ref.loc.injEq] at h
          exact ⟨[], by simp [h], _, by simp [nodeAt]; rfl⟩
        · exact ⟨j :: s, by simp, m, by simp [nodeAt, hj, hm]⟩
      · rintro ⟨s, rfl, m, hm⟩
        cases s with
        | nil => simp
        | cons i s =>
          right
          simp only [nodeAt] at hm
          cases hi : ks[i]? with
          | none => rw [hi] at hm; cases hm
          | some c => rw [hi] at hm; exact ⟨i, c, s, hi, by simp, m, hm⟩
    · simp only [view, upV, preV, List.map_cons, List.mem_cons, List.mem_append, h2, h1]
      constructor
      · rintro (h | h)
        · exact .inr h
        · simp at h; exact .inl (by simp [h])
      · rintro (h | h)
        · exact .inr (by simp [h])
        · exact .inl h
theorem mem_views : ∀ (cs : List NExpr) (k : NKind) (a : Addr) (i : Nat) (b : Addr),
    (Ref.loc b ∈ (presV (viewKids k a i cs)).map (·.1) ↔
      ∃ (j : Nat) (c : NExpr) (s : Addr), cs[j]? = some c ∧ b = a ++ (i + j) :: s ∧ ∃ m, nodeAt s c = some m) ∧
    (Ref.loc b ∈ upsV (viewKids k a i cs) ↔ Ref.loc b ∈ (presV (viewKids k a i cs)).map (·.1))
  | [], k, a, i, b => by simp [viewKids, presV, upsV]
  | c :: cs, k, a, i, b => by
    obtain ⟨h1, h2⟩ := mem_views cs k a (i + 1) b
    have hc := fun (h : c.present = true) => mem_view c (edge k i) (a ++ [i]) b h
    have hdist : (∃ (j : Nat) (c' : NExpr) (s : Addr), (c :: cs)[j]? = some c' ∧ b = a ++ (i + j) :: s ∧
          ∃ m, nodeAt s c' = some m) ↔
        (∃ s, b = a ++ i :: s ∧ ∃ m, nodeAt s c = some m) ∨
        (∃ (j : Nat) (c' : NExpr) (s : Addr), cs[j]? = some c' ∧ b = a ++ (i + 1 + j) :: s ∧
          ∃ m, nodeAt s c' = some m) := by
      constructor
      · rintro ⟨j, c', s, hj, hb, hm⟩
        cases j with
        | zero =>
          simp only [List.getElem?_cons_zero, Option.some.injEq] at hj
          subst hj
          exact .inl ⟨s, hb, hm⟩
        | succ j => exact .inr ⟨j, c', s, by simpa using hj,
            by rw [hb, show i + (j + 1) = i + 1 + j by omega], hm⟩
      · rintro (⟨s, hb, hm⟩ | ⟨j, c', s, hj, hb, hm⟩)
        · exact ⟨0, c, s, by simp, hb, hm⟩
        · exact ⟨j + 1, c', s, by simpa using hj,
            by rw [hb, show i + (j + 1) = i + 1 + j by omega], hm⟩
    cases hcc : c with
    | absent =>
      rw [hcc] at hdist
      have hno : ¬ ∃ s, b = a ++ i :: s ∧ ∃ m, nodeAt s (Tree.absent : NExpr) = some m := by
        rintro ⟨s, _, m, hm⟩; cases s <;> simp [nodeAt] at hm
      rw [hdist]
      simp only [hno, false_or]
      simp only [viewKids]
      by_cases hu : readsUnset k = true
      · rw [if_pos hu]
        simp only [presV, preV, upsV, upV, List.map_append, List.map_cons, List.map_nil,
          List.mem_append, List.mem_cons, List.not_mem_nil, reduceCtorEq, or_false, false_or,
          List.nil_append]
        exact ⟨h1, h2⟩
      · rw [if_neg hu]; exact ⟨h1, h2⟩
    | node l' cs' =>
      obtain ⟨c1, c2⟩ := hc (by simp [hcc, Tree.present])
      rw [hcc] at c1 c2 hdist
      rw [hdist]
      simp only [viewKids, presV, upsV, List.map_append, List.mem_append, c1, c2, h1, h2]
      constructor
      · constructor
        · rintro (⟨s, hs, hm⟩ | h)
          · exact .inl ⟨s, by simpa using hs, hm⟩
          · exact .inr h
        · rintro (⟨s, hs, hm⟩ | h)
          · exact .inl ⟨s, by simpa using hs, hm⟩
          · exact .inr h
      · trivial
end

/-! ## In which order -/

mutual
theorem sorted_view : ∀ (n : NExpr) (e : Edge) (a : Addr), n.present = true →
    List.Pairwise DownBefore (locs ((preV (view e a n)).map (·.1))) ∧
    List.Pairwise UpBefore (locs (upV (view e a n)))
  | .absent, _, _, h => by simp [Tree.present] at h
  | .node l ks, e, a, _ => by
    obtain ⟨h1, h2⟩ := sorted_views ks l.kind a 0
    have hm := fun b => mem_views ks l.kind a 0 b
    constructor
    · simp only [view, preV, List.map_cons]
      rw [show locs (Ref.loc a :: (presV (viewKids l.kind a 0 ks)).map (·.1)) =
        a :: locs ((presV (viewKids l.kind a 0 ks)).map (·.1)) from by simp [locs]]
      rw [List.pairwise_cons]
      refine ⟨?_, h1⟩
      intro b hb
      rw [mem_locs, (hm b).1] at hb
      obtain ⟨j, c, s, _, rfl, _⟩ := hb
      exact .inl ⟨_, _, rfl⟩
    · simp only [view, upV, locs_append]
      rw [List.pairwise_append]
      refine ⟨h2, by simp [locs], ?_⟩
      intro b hb c hc
      simp only [locs, List.filterMap_cons, List.filterMap_nil, List.mem_singleton] at hc
      subst hc
      rw [mem_locs, (hm b).2, (hm b).1] at hb
      obtain ⟨j, c, s, _, rfl, _⟩ := hb
      exact .inl ⟨_, _, rfl⟩
theorem sorted_views : ∀ (cs : List NExpr) (k : NKind) (a : Addr) (i : Nat),
    List.Pairwise DownBefore (locs ((presV (viewKids k a i cs)).map (·.1))) ∧
    List.Pairwise UpBefore (locs (upsV (viewKids k a i cs)))
  | [], k, a, i => by simp [viewKids, presV, upsV, locs]
  | c :: cs, k, a, i => by
    obtain ⟨h1, h2⟩ := sorted_views cs k a (i + 1)
    have hms := fun b => mem_views cs k a (i + 1) b
    have hc := fun (h : c.present = true) => sorted_view c (edge k i) (a ++ [i]) h
    have hmc := fun (h : c.present = true) b => mem_view c (edge k i) (a ++ [i]) b h
    cases hcc : c with
    | absent =>
      simp only [viewKids]
      by_cases hu : readsUnset k = true
      · rw [if_pos hu]
        simp only [presV, preV, upsV, upV, List.map_append, List.map_cons, List.map_nil,
          List.nil_append, locs_append, List.append_nil]
        rw [show locs [Ref.dflt] = [] from by simp [locs]]
        exact ⟨by simpa using h1, by simpa using h2⟩
      · rw [if_neg hu]; exact ⟨h1, h2⟩
    | node l' cs' =>
      have hp : c.present = true := by simp [hcc, Tree.present]
      obtain ⟨c1, c2⟩ := hc hp
      have hmc := hmc hp
      rw [hcc] at c1 c2 hmc
      simp only [viewKids, presV, upsV, List.map_append, locs_append, List.pairwise_append]
      refine ⟨⟨c1, h1, ?_⟩, ⟨c2, h2, ?_⟩⟩
      · intro x hx y hy
        rw [mem_locs, (hmc x).1] at hx
        rw [mem_locs, (hms y).1] at hy
        obtain ⟨s, rfl, _⟩ := hx
        obtain ⟨j, c, s', _, rfl, _⟩ := hy
        exact .inr ⟨a, i, i + 1 + j, s, s', by omega, by simp, by simp⟩
      · intro x hx y hy
        rw [mem_locs, (hmc x).2, (hmc x).1] at hx
        rw [mem_locs, (hms y).2, (hms y).1] at hy
        obtain ⟨s, rfl, _⟩ := hx
        obtain ⟨j, c, s', _, rfl, _⟩ := hy
        exact .inr ⟨a, i, i + 1 + j, s, s', by omega, by simp, by simp⟩
end

theorem not_downBefore (a : Addr) : ¬ DownBefore a a := by
  rintro (⟨i, s, h⟩ | ⟨c, i, j, s, s', hij, h1, h2⟩)
  · have := congrArg List.length h; simp at this
  · rw [h1] at h2
    have := List.append_cancel_left h2
    simp only [List.cons.injEq] at this
    omega

theorem not_upBefore (a : Addr) : ¬ UpBefore a a := by
  rintro (⟨i, s, h⟩ | ⟨c, i, j, s, s', hij, h1, h2⟩)
  · have := congrArg List.length h; simp at this
  · rw [h1] at h2
    have := List.append_cancel_left h2
    simp only [List.cons.injEq] at this
    omega

theorem nodup_of_pairwise {R : Addr → Addr → Prop} (hR : ∀ a, ¬ R a a) {l : List Addr}
    (h : l.Pairwise R) : l.Nodup := by
  apply List.Pairwise.imp ?_ h
  intro a b hab he
  subst he
  exact hR a hab

end Cel.Walk
