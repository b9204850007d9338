import Verif.Walk.Validators

set_option linter.unusedSimpArgs false
set_option linter.unusedVariables false

/-! # Parts of an expression and rows of its navigable AST -/

namespace Cel.Walk
open Cel Cel.Proto Cel.Num

/-- `n` is a set part of the expression `t`; `anc` are the nodes it is in, innermost first. -/
inductive Occ (t : NExpr) : List NExpr → NExpr → Prop
  | root : t.present = true → Occ t [] t
  | child {anc : List NExpr} {l : NNode} {ks : List NExpr} {c : NExpr} :
    Occ t anc (.node l ks) → c ∈ ks → c.present = true → Occ t (.node l ks :: anc) c

/-- The same with the path in the readable tree and the address. -/
inductive Ladder (t : NExpr) : List Nat → List NExpr → NExpr → Addr → Prop
  | root : t.present = true → Ladder t [] [] t []
  | step {p : List Nat} {anc : List NExpr} {l : NNode} {ks : List NExpr} {a : Addr} {i j : Nat}
      {c : NExpr} : Ladder t p anc (.node l ks) a → ks[i]? = some c → c.present = true →
      (viewKids l.kind a 0 ks)[j]? = some (view (edge l.kind i) (a ++ [i]) c) →
      Ladder t (p ++ [j]) (.node l ks :: anc) c (a ++ [i])

/-- A node of this kind with these children is read at an unset child (which then is the default
expression): an element of a list, a part of a comprehension. -/
def ReadsUnsetIn (k : NKind) (cs : List NExpr) : Prop := readsUnset k = true ∧ Tree.absent ∈ cs

theorem viewKids_at (k : NKind) (a : Addr) : ∀ (cs : List NExpr) (i j : Nat) (w : VT),
    (viewKids k a i cs)[j]? = some w →
    (∃ (i' : Nat) (c : NExpr), cs[i']? = some c ∧ c.present = true ∧
      w = view (edge k (i + i')) (a ++ [i + i']) c) ∨
    (ReadsUnsetIn k cs ∧ ∃ e, w = .mk e .dflt NNode.dflt [])
  | [], i, j, w, h => by simp [viewKids] at h
  | .absent :: cs, i, j, w, h => by
    simp only [viewKids] at h
    by_cases hk : readsUnset k = true
    · rw [if_pos hk] at h
      cases j with
      | zero =>
        simp only [List.getElem?_cons_zero, Option.some.injEq] at h
        exact .inr ⟨⟨hk, by simp⟩, _, h.symm⟩
      | succ j =>
        simp only [List.getElem?_cons_succ] at h
        rcases viewKids_at k a cs (i + 1) j w h with ⟨i', c, h1, h2, h3⟩ | ⟨⟨h1, h2⟩, h3⟩
        · exact .inl ⟨i' + 1, c, by simpa using h1, h2, by rw [h3, show i + 1 + i' = i + (i' + 1) by omega]⟩
        · exact .inr ⟨⟨h1, List.mem_cons_of_mem _ h2⟩, h3⟩
    · rw [if_neg hk] at h
      rcases viewKids_at k a cs (i + 1) j w h with ⟨i', c, h1, h2, h3⟩ | ⟨⟨h1, h2⟩, h3⟩
      · exact .inl ⟨i' + 1, c, by simpa using h1, h2, by rw [h3, show i + 1 + i' = i + (i' + 1) by omega]⟩
      · exact .inr ⟨⟨h1, List.mem_cons_of_mem _ h2⟩, h3⟩
  | .node l ks :: cs, i, j, w, h => by
    simp only [viewKids] at h
    cases j with
    | zero =>
      simp only [List.getElem?_cons_zero, Option.some.injEq] at h
      exact .inl ⟨0, .node l ks, by simp, by simp [Tree.present], by rw [← h]; simp⟩
    | succ j =>
      simp only [List.getElem?_cons_succ] at h
      rcases viewKids_at k a cs (i + 1) j w h with ⟨i', c, h1, h2, h3⟩ | ⟨⟨h1, h2⟩, h3⟩
      · exact .inl ⟨i' + 1, c, by simpa using h1, h2, by rw [h3, show i + 1 + i' = i + (i' + 1) by omega]⟩
      · exact .inr ⟨⟨h1, List.mem_cons_of_mem _ h2⟩, h3⟩

theorem viewKids_get (k : NKind) (a : Addr) : ∀ (cs : List NExpr) (i i' : Nat) (c : NExpr),
    cs[i']? = some c → c.present = true →
    ∃ j : Nat, (viewKids k a i cs)[j]? = some (view (edge k (i + i')) (a ++ [i + i']) c)
  | [], i, i', c, h, _ => by simp at h
  | .absent :: cs, i, 0, c, h, hc => by
    simp only [List.getElem?_cons_zero, Option.some.injEq] at h
    subst h; simp [Tree.present] at hc
  | .node l ks :: cs, i, 0, c, h, hc => by
    simp only [List.getElem?_cons_zero, Option.some.injEq] at h
    subst h
    exact ⟨0, by simp [viewKids]⟩
  | .absent :: cs, i, i' + 1, c, h, hc => by
    simp only [List.getElem?_cons_succ] at h
    obtain ⟨j, hj⟩ := viewKids_get k a cs (i + 1) i' c h hc
    rw [show i + 1 + i' = i + (i' + 1) by omega] at hj
    simp only [viewKids]
    by_cases hk : readsUnset k = true
    · rw [if_pos hk]; exact ⟨j + 1, by simpa using hj⟩
    · rw [if_neg hk]; exact ⟨j, hj⟩
  | .node l ks :: cs, i, i' + 1, c, h, hc => by
    simp only [List.getElem?_cons_succ] at h
    obtain ⟨j, hj⟩ := viewKids_get k a cs (i + 1) i' c h hc
    rw [show i + 1 + i' = i + (i' + 1) by omega] at hj
    exact ⟨j + 1, by simpa [viewKids] using hj⟩

theorem viewKids_unset (k : NKind) (a : Addr) : ∀ (cs : List NExpr) (i : Nat), ReadsUnsetIn k cs →
    ∃ (j : Nat) (e : Edge), (viewKids k a i cs)[j]? = some (.mk e .dflt NNode.dflt [])
  | [], i, h => by simp [ReadsUnsetIn] at h
  | .absent :: cs, i, h => by
    simp only [viewKids]; rw [if_pos h.1]; exact ⟨0, _, rfl⟩
  | .node l ks :: cs, i, h => by
    obtain ⟨j, e, hj⟩ := viewKids_unset k a cs (i + 1) ⟨h.1, by simpa using h.2⟩
    exact ⟨j + 1, e, by simpa [viewKids] using hj⟩

theorem ladder_at {t : NExpr} {p : List Nat} {anc : List NExpr} {n : NExpr} {a : Addr}
    (h : Ladder t p anc n a) : n.present = true ∧ nodeAt a t = some n ∧
      ∃ e, atV p (seenTree t) = some (view e a n) := by
  induction h with
  | root hp =>
    refine ⟨hp, ?_, .root, rfl⟩
    cases t with
    | absent => simp [Tree.present] at hp
    | node l ks => simp [nodeAt]
  | @step p anc l ks a i j c hL hi hc hj ih =>
    obtain ⟨_, hn, e, he⟩ := ih
    refine ⟨hc, ?_, edge l.kind i, ?_⟩
    · cases c with
      | absent => simp [Tree.present] at hc
      | node l' cs => exact nodeAt_child hn hi
    · rw [atV_append, he]
      simp only [view, atV, hj]

theorem ladder_occ {t : NExpr} {p : List Nat} {anc : List NExpr} {n : NExpr} {a : Addr}
    (h : Ladder t p anc n a) : Occ t anc n ∧ anc.length = p.length := by
  induction h with
  | root hp => exact ⟨.root hp, rfl⟩
  | step hL hi hc hj ih =>
    exact ⟨.child ih.1 (List.mem_of_getElem? hi) hc, by simp [ih.2]⟩

theorem occ_ladder {t : NExpr} {anc : List NExpr} {n : NExpr} (h : Occ t anc n) :
    ∃ p a, Ladder t p anc n a := by
  induction h with
  | root hp => exact ⟨[], [], .root hp⟩
  | @child anc l ks c hO hc hp ih =>
    obtain ⟨p, a, hL⟩ := ih
    obtain ⟨i, hi⟩ := List.getElem?_of_mem hc
    obtain ⟨j, hj⟩ := viewKids_get l.kind a ks 0 i c hi hp
    rw [Nat.zero_add] at hj
    exact ⟨p ++ [j], a ++ [i], .step hL hi hp hj⟩

theorem ladder_unique {t : NExpr} {p : List Nat} {anc : List NExpr} {n : NExpr} {a : Addr}
    (h : Ladder t p anc n a) : ∀ {p' : List Nat} {anc' : List NExpr} {n' : NExpr} {a' : Addr},
    Ladder t p' anc' n' a' → p' = p → anc' = anc ∧ n' = n ∧ a' = a := by
  induction h with
  | root hp =>
    intro p' anc' n' a' h' he
    cases h' with
    | root => exact ⟨rfl, rfl, rfl⟩
    | step => simp at he
  | @step p anc l ks a i j c hL hi hc hj ih =>
    intro p' anc' n' a' h' he
    cases h' with
    | root => simp at he
    | @step q anc2 l2 ks2 a2 i2 j2 c2 hL2 hi2 hc2 hj2 =>
      have hq := List.append_inj' he rfl
      obtain ⟨h1, h2, h3⟩ := ih hL2 hq.1
      simp only [Tree.node.injEq] at h2
      obtain ⟨rfl, rfl⟩ := h2
      subst h1; subst h3
      have hjj : j2 = j := by simpa using hq.2
      subst hjj
      rw [hj] at hj2
      cases c with
      | absent => simp [Tree.present] at hc
      | node l' cs =>
        cases n' with
        | absent => simp [Tree.present] at hc2
        | node l2' cs2 =>
          simp only [view, Option.some.injEq, VT.mk.injEq, Ref.loc.injEq] at hj2
          have hii : i = i2 := by simpa using hj2.2.1
          subst hii
          rw [hi] at hi2
          simp only [Option.some.injEq] at hi2
          rw [hi2]
          exact ⟨rfl, rfl, rfl⟩

theorem revInd {P : List Nat → Prop} (h0 : P []) (h1 : ∀ q j, P q → P (q ++ [j])) :
    ∀ p, P p := by
  intro p
  rw [← List.reverse_reverse p]
  induction p.reverse with
  | nil => exact h0
  | cons j q ih => rw [List.reverse_cons]; exact h1 _ _ ih

theorem at_ladder {t : NExpr} (hp : t.present = true) (p : List Nat) :
    ∀ w, atV p (seenTree t) = some w →
    (∃ anc n a e, Ladder t p anc n a ∧ w = view e a n) ∨
    (∃ q j anc l ks a e, p = q ++ [j] ∧ Ladder t q anc (.node l ks) a ∧ ReadsUnsetIn l.kind ks ∧
      w = .mk e .dflt NNode.dflt []) := by
  induction p using revInd with
  | h0 =>
    intro w h
    simp only [atV, Option.some.injEq] at h
    exact .inl ⟨[], t, [], .root, .root hp, h.symm⟩
  | h1 q j ih =>
    intro w h
    rw [atV_append] at h
    cases hq : atV q (seenTree t) with
    | none => rw [hq] at h; cases h
    | some u =>
      rw [hq] at h
      rcases ih u hq with ⟨anc, n, a, e, hL, rfl⟩ | ⟨q', j', anc, l, ks, a, e, _, _, _, rfl⟩
      · have hn := (ladder_at hL).1
        cases n with
        | absent => simp [Tree.present] at hn
        | node l ks =>
          simp only [view, atV] at h
          cases hj : (viewKids l.kind a 0 ks)[j]? with
          | none => rw [hj] at h; cases h
          | some u =>
            rw [hj] at h
            simp only [Option.some.injEq] at h
            subst h
            rcases viewKids_at l.kind a ks 0 j u hj with ⟨i', c, h1, h2, h3⟩ | ⟨h1, e', h3⟩
            · rw [Nat.zero_add] at h3
              exact .inl ⟨_, c, _, _, .step hL h1 h2 (by rw [hj, h3]), h3⟩
            · exact .inr ⟨q, j, anc, l, ks, a, e', rfl, hL, h1, h3⟩
      · simp [atV] at h

/-! ## Rows -/

section
variable {t : NExpr} {fuel : Nat} {m : Nav}

theorem row_ladder (hp : t.present = true) (hw : WFC t) (hb : build t fuel = some m)
    {p : List Nat} {anc : List NExpr} {l : NNode} {ks : List NExpr} {a : Addr}
    (hL : Ladder t p anc (.node l ks) a) :
    ∃ x, nodeExpr t m (posV p (seenTree t)) = some (x, l, ks) ∧ x.kind = getNodeKind l.kind ∧
      x.expr = .loc a ∧
      x.children = (List.range (viewKids l.kind a 0 ks).length).map
        (fun j => posV (p ++ [j]) (seenTree t)) ∧
      (p = [] → x.parent = none) ∧
      (∀ q (j : Nat), p = q ++ [j] → x.parent = some (posV q (seenTree t))) := by
  obtain ⟨_, hn, e, hat⟩ := ladder_at hL
  simp only [view] at hat
  obtain ⟨x, h1, h2, h3, _, _, _, h4, h5, h6⟩ := (C64_rows t hp hw fuel m hb).1 p e _ l _ hat
  refine ⟨x, ?_, h3, h2, h4, fun h => (h5 h).1, fun q j h => (h6 q j h).1⟩
  simp only [nodeExpr, h1, h2, deref, hn]

theorem row_dflt (hp : t.present = true) (hw : WFC t) (hb : build t fuel = some m)
    {p : List Nat} {e : Edge} (hat : atV p (seenTree t) = some (.mk e .dflt NNode.dflt [])) :
    ∃ x, nodeExpr t m (posV p (seenTree t)) = some (x, NNode.dflt, []) ∧ x.kind = .unspecified ∧
      x.children = [] := by
  obtain ⟨x, h1, h2, h3, _, _, _, h4, h5, h6⟩ := (C64_rows t hp hw fuel m hb).1 p e _ _ _ hat
  exact ⟨x, by simp only [nodeExpr, h1, h2, deref], by rw [h3]; rfl, by rw [h4]; rfl⟩

theorem path_le (hp : t.present = true) (hw : WFC t) (hb : build t fuel = some m)
    {p : List Nat} {w : VT} (hat : atV p (seenTree t) = some w) :
    p.length ≤ posV p (seenTree t) ∧ posV p (seenTree t) < m.nodes.length := by
  obtain ⟨_, ⟨C, D, _, hC⟩, _⟩ := split p w (seenTree t) 0 none (-1) .unspecified hat
  refine ⟨by omega, ?_⟩
  obtain ⟨e, r, l, kids⟩ := w
  obtain ⟨x, h1, _⟩ := (C64_rows t hp hw fuel m hb).1 p e r l kids hat
  exact (List.getElem?_eq_some_iff.1 h1).1

/-- A loop over all nodes whose body says `B anc n` at the part `n` and nothing at default
expressions. -/
theorem forNodes_spec (hp : t.present = true) (hw : WFC t) (hb : build t fuel = some m)
    (body : NavNode → NNode → List NExpr → Verdict) (B : List NExpr → NExpr → Bool × List Issue)
    (hB : ∀ p anc l ks a x, Ladder t p anc (.node l ks) a →
      nodeExpr t m (posV p (seenTree t)) = some (x, l, ks) → body x l ks = some (B anc (.node l ks)))
    (hd : ∀ x, body x NNode.dflt [] = some (true, [])) :
    ∃ b iss, (match rootPostorder m with | none => none | some is => forNodes t m body is) =
        some (b, iss) ∧
      (b = true ↔ ∀ anc n, Occ t anc n → (B anc n).1 = true) ∧
      (∀ i, i ∈ iss ↔ ∃ anc n, Occ t anc n ∧ i ∈ (B anc n).2) := by
  obtain ⟨x0, hx0, hpo, hall, _⟩ := C64_postorder_root t hp hw fuel m hb
  have hroot : rootPostorder m = some m.postorder := by simp only [rootPostorder, hx0, hpo]
  rw [hroot]
  simp only
  -- what the body says at a row
  have key : ∀ i, i < m.nodes.length → ∃ x l ks b iss, nodeExpr t m i = some (x, l, ks) ∧
      body x l ks = some (b, iss) ∧
      ((∃ p anc n a, Ladder t p anc n a ∧ i = posV p (seenTree t) ∧ (b, iss) = B anc n) ∨
        (b, iss) = (true, [])) := by
    intro i hi
    obtain ⟨p, w, hat, rfl⟩ := (C64_rows t hp hw fuel m hb).2.1 i hi
    rcases at_ladder hp p w hat with ⟨anc, n, a, e, hL, rfl⟩ | ⟨q, j, anc, l, ks, a, e, _, hL, hr, rfl⟩
    · have hn := (ladder_at hL).1
      cases n with
      | absent => simp [Tree.present] at hn
      | node l ks =>
        obtain ⟨x, h1, _⟩ := row_ladder hp hw hb hL
        exact ⟨x, l, ks, _, _, h1, hB p anc l ks a x hL h1, .inl ⟨p, anc, _, a, hL, rfl, rfl⟩⟩
    · obtain ⟨x, h1, _⟩ := row_dflt hp hw hb hat
      exact ⟨x, _, _, _, _, h1, hd x, .inr rfl⟩
  have loop : ∀ is : List Nat, (∀ i ∈ is, i < m.nodes.length) → ∃ b iss,
      forNodes t m body is = some (b, iss) ∧
      (b = true ↔ ∀ p anc n a, Ladder t p anc n a → posV p (seenTree t) ∈ is → (B anc n).1 = true) ∧
      (∀ i, i ∈ iss ↔ ∃ p anc n a, Ladder t p anc n a ∧ posV p (seenTree t) ∈ is ∧
        i ∈ (B anc n).2) := by
    intro is
    induction is with
    | nil => intro _; exact ⟨true, [], rfl, by simp, by simp⟩
    | cons i is ih =>
      intro hlt
      obtain ⟨b', iss', h1, h2, h3⟩ := ih fun i' hi' => hlt i' (List.mem_cons_of_mem _ hi')
      obtain ⟨x, l, ks, b, iss, k1, k2, k3⟩ := key i (hlt i List.mem_cons_self)
      refine ⟨b && b', iss ++ iss', by simp only [forNodes, k1, k2, h1], ?_, ?_⟩
      · rw [Bool.and_eq_true, h2]
        constructor
        · rintro ⟨hb1, hb2⟩ p anc n a hL hm
          rcases List.mem_cons.1 hm with hm | hm
          · -- the row is that of `n`
            have hn := ladder_at hL
            cases n with
            | absent => simp [Tree.present] at hn
            | node l' ks' =>
              obtain ⟨x', r1, _⟩ := row_ladder hp hw hb hL
              rw [hm, k1] at r1
              simp only [Option.some.injEq, Prod.mk.injEq] at r1
              obtain ⟨rfl, rfl, rfl⟩ := r1
              have := hB p anc _ _ a _ hL (hm ▸ k1)
              rw [k2] at this
              simp only [Option.some.injEq] at this
              rw [← this]; exact hb1
          · exact hb2 p anc n a hL hm
        · intro h
          refine ⟨?_, fun p anc n a hL hm => h p anc n a hL (List.mem_cons_of_mem _ hm)⟩
          rcases k3 with ⟨p, anc, n, a, hL, hi, hE⟩ | hE
          · have := h p anc n a hL (by rw [← hi]; exact List.mem_cons_self)
            rw [← hE] at this; exact this
          · simp only [Prod.mk.injEq] at hE; exact hE.1
      · intro iss0
        rw [List.mem_append, h3]
        constructor
        · rintro (hi | ⟨p, anc, n, a, hL, hm, hi⟩)
          · rcases k3 with ⟨p, anc, n, a, hL, hi', hE⟩ | hE
            · exact ⟨p, anc, n, a, hL, by rw [← hi']; exact List.mem_cons_self, by rw [← hE]; exact hi⟩
            · simp only [Prod.mk.injEq] at hE; rw [hE.2] at hi; simp at hi
          · exact ⟨p, anc, n, a, hL, List.mem_cons_of_mem _ hm, hi⟩
        · rintro ⟨p, anc, n, a, hL, hm, hi⟩
          rcases List.mem_cons.1 hm with hm | hm
          · left
            have hn := ladder_at hL
            cases n with
            | absent => simp [Tree.present] at hn
            | node l' ks' =>
              obtain ⟨x', r1, _⟩ := row_ladder hp hw hb hL
              rw [hm, k1] at r1
              simp only [Option.some.injEq, Prod.mk.injEq] at r1
              obtain ⟨rfl, rfl, rfl⟩ := r1
              have := hB p anc _ _ a _ hL (hm ▸ k1)
              rw [k2] at this
              simp only [Option.some.injEq] at this
              rw [← this] at hi; exact hi
          · exact .inr ⟨p, anc, n, a, hL, hm, hi⟩
  obtain ⟨b, iss, h1, h2, h3⟩ := loop m.postorder fun i hi => (hall i).1 hi
  have hmem : ∀ p anc n a, Ladder t p anc n a → posV p (seenTree t) ∈ m.postorder := by
    intro p anc n a hL
    obtain ⟨_, _, e, hat⟩ := ladder_at hL
    exact (hall _).2 (path_le hp hw hb hat).2
  refine ⟨b, iss, h1, h2.trans ⟨?_, ?_⟩, fun i => (h3 i).trans ⟨?_, ?_⟩⟩
  · intro h anc n hO
    obtain ⟨p, a, hL⟩ := occ_ladder hO
    exact h p anc n a hL (hmem p anc n a hL)
  · intro h p anc n a hL _
    exact h anc n (ladder_occ hL).1
  · rintro ⟨p, anc, n, a, hL, _, hi⟩
    exact ⟨anc, n, (ladder_occ hL).1, hi⟩
  · rintro ⟨anc, n, hO, hi⟩
    obtain ⟨p, a, hL⟩ := occ_ladder hO
    exact ⟨p, anc, n, a, hL, hmem p anc n a hL, hi⟩

end

end Cel.Walk
