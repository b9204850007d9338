import Verif.Rewrite.Push

set_option linter.unusedSimpArgs false
set_option linter.unusedVariables false

/-! # The stack machine does what the recursive specification says, and stops when it stops -/

namespace Cel.Rewrite
open Cel Cel.Proto Cel.Walk

/-! ## Overwriting nodes -/

theorem putAt_self : ∀ (a : Addr) (t n : NExpr), nodeAt a t = some n → putAt a n t = t
  | a, .absent, n, h => by cases a <;> simp [nodeAt] at h
  | [], .node l ks, n, h => by simp only [nodeAt, Option.some.injEq] at h; simp [putAt, h]
  | i :: a, .node l ks, n, h => by
    simp only [nodeAt] at h
    cases hi : ks[i]? with
    | none => rw [hi] at h; cases h
    | some k =>
      rw [hi] at h
      simp only [putAt, hi, putAt_self a k n h]
      obtain ⟨hlt, he⟩ := List.getElem?_eq_some_iff.mp hi
      rw [← he, List.set_getElem_self]

theorem putAt_putAt : ∀ (a : Addr) (t x y : NExpr), putAt a x (putAt a y t) = putAt a x t
  | [], t, x, y => by simp [putAt]
  | i :: a, .absent, x, y => by simp [putAt]
  | i :: a, .node l ks, x, y => by
    simp only [putAt]
    cases hi : ks[i]? with
    | none => simp [putAt, hi]
    | some k =>
      obtain ⟨hlt, he⟩ := List.getElem?_eq_some_iff.mp hi
      simp only [putAt]
      rw [List.getElem?_set_self hlt]
      simp only [putAt_putAt a k x y, List.set_set]

theorem putAt_child : ∀ (a : Addr) (t : NExpr) (l : NNode) (ks : List NExpr) (i : Nat) (c : NExpr),
    nodeAt a t = some (.node l ks) → i < ks.length →
    putAt (a ++ [i]) c t = putAt a (.node l (ks.set i c)) t
  | a, .absent, l, ks, i, c, h, hi => by cases a <;> simp [nodeAt] at h
  | [], .node l' ks', l, ks, i, c, h, hi => by
    simp only [nodeAt, Option.some.injEq, Tree.node.injEq] at h
    obtain ⟨rfl, rfl⟩ := h
    simp [putAt, List.getElem?_eq_getElem hi]
  | j :: a, .node l' ks', l, ks, i, c, h, hi => by
    simp only [nodeAt] at h
    simp only [List.cons_append, putAt]
    cases hj : ks'[j]? with
    | none => rfl
    | some k =>
      rw [hj] at h
      simp only [putAt_child a k l ks i c h hi]

/-! ## Runs -/

/-- From the first state the loop reaches the second. -/
inductive Run {S : Type} (R : Rewriter S) (cb : Bool) : St S → St S → Prop where
  | refl (m : St S) : Run R cb m m
  | step {m m1 m2 : St S} : turn R cb m = some m1 → Run R cb m1 m2 → Run R cb m m2

theorem Run.trans {S : Type} {R : Rewriter S} {cb : Bool} {m1 m2 m3 : St S} (h1 : Run R cb m1 m2)
    (h2 : Run R cb m2 m3) : Run R cb m1 m3 := by
  induction h1 with
  | refl s => exact h2
  | step ht _ ih => exact .step ht (ih h2)

theorem Run.one {S : Type} {R : Rewriter S} {cb : Bool} {m m' : St S} (h : turn R cb m = some m') :
    Run R cb m m' := .step h (.refl _)

theorem visits_nil {S : Type} (R : Rewriter S) (n : NExpr) (s : S) : visits R n [] s = s := rfl
theorem visits_one {S : Type} (R : Rewriter S) (n : NExpr) (e : Ev) (s : S) :
    visits R n [e] s = R.visit e n s := rfl

/-- Around a child: the record of the child, given the run of its expression record. -/
theorem run_wrap {S : Type} (R : Rewriter S) (cb : Bool) (p x : Addr) (e : Edge) (rest : List StackRec)
    (t t' q q' : NExpr) (path : List Addr) (s s' : S) (b b' : Bool)
    (hq : nodeAt p t = some q) (hq' : nodeAt p t' = some q')
    (h : ∀ rest, Run R cb ⟨t, ⟨.expr x, false⟩ :: rest, path, visits R q (before cb (.loc p) e) s, b⟩
      ⟨t', rest, path, s', b'⟩) :
    Run R cb ⟨t, ⟨recOf cb p x e, false⟩ :: rest, path, s, b⟩
      ⟨t', rest, path, visits R q' (after cb (.loc p) e) s', b'⟩ := by
  have harg : ∀ (n : Int), before cb (.loc p) e = [] →
      Run R cb ⟨t, ⟨.arg x p n, false⟩ :: rest, path, s, b⟩
      ⟨t', rest, path, R.visit (if n = kTarget then .postTarget (.loc p) else .postArg (.loc p) n)
        q' s', b'⟩ := by
    intro n hb
    rw [hb, visits_nil] at h
    refine (Run.one (m' := ⟨t, ⟨.expr x, false⟩ :: ⟨.arg x p n, true⟩ :: rest, path, s, b⟩) ?_).trans
      ((h _).trans (Run.one ?_))
    · simp [turn, push]
    · simp [turn, hq']
  cases e with
  | target =>
    have := harg kTarget rfl
    rw [if_pos rfl] at this
    exact this
  | arg n =>
    have := harg n rfl
    rw [if_neg (show ¬ (n : Int) = kTarget by unfold kTarget; omega)] at this
    exact this
  | part a =>
    cases cb with
    | false =>
      have := harg a.num rfl
      rw [if_neg (show ¬ a.num = kTarget by unfold kTarget; cases a <;> simp [CArg.num])] at this
      exact this
    | true =>
      refine (Run.one (m' := ⟨t, ⟨.expr x, false⟩ :: ⟨.comp x p a, true⟩ :: rest, path,
        R.visit (.preSub (.loc p) a) q s, b⟩) ?_).trans ((h _).trans (Run.one ?_))
      · simp [turn, push, recOf, compRec, hq]
      · simp [turn, hq', after, visits]
  | _ => exact h rest

mutual
theorem run_expr {S : Type} (R : Rewriter S) (hR : R.Sound) (cb : Bool) :
    ∀ {a : Addr} {n : NExpr} {s : S} {n' : NExpr} {s' : S} {b : Bool}, Rw R cb a n s n' s' b →
    ∀ (t : NExpr) (rest : List StackRec) (f : Bool), WFC n → nodeAt a t = some n →
    WFC n' ∧ n'.present = true ∧ Run R cb ⟨t, ⟨.expr a, false⟩ :: rest, (chain a).dropLast, s, f⟩
      ⟨putAt a n' t, rest, (chain a).dropLast, s', f || b⟩
  | a, n, s, _, _, _, @Rw.node _ _ _ _ _ _ s1 s2 s3 l l' ks ks1 ks' b1 b2 b3 hpre hk hpost => by
    intro t rest f hw hn
    obtain ⟨ln, kn, rfl⟩ := nodeAt_node a t n hn
    have hs := hR.pre _ (R.path (chain a) s) rfl hw
    rw [hpre] at hs
    have hw1 := hs.2
    simp only [WFC] at hw1
    have hsh := touchKids_shape l.kind ks hw1.1
    have h1 : turn R cb ⟨t, ⟨.expr a, false⟩ :: rest, (chain a).dropLast, s, f⟩ =
        some ⟨putAt a (.node l (touchKids l.kind ks)) t,
          kidRecs cb a l.kind 0 (touchKids l.kind ks) ++ ⟨.expr a, true⟩ :: rest, chain a,
          visits R (.node l ks) (.preExpr (.loc a) :: preKind l.kind (.loc a)) s1, f || b1⟩ := by
      simp only [turn, hn, chain_last, hpre, preEvents_eq,
        pushExprDeps_eq cb a l.kind _ hsh (touchKids_present l.kind ks)]
    obtain ⟨hshk, hwk, hk'⟩ := run_kids R hR cb hk (putAt a (.node l (touchKids l.kind ks)) t)
      (⟨.expr a, true⟩ :: rest) (f || b1) hsh (touchKids_wfcs _ _ hw1.2) (by simp [WFCs])
      (by simpa using put_same a t _ l _ hn)
    rw [putAt_putAt] at hk'
    have hs3 := hR.post (.node l ks1) (visits R (.node l ks1)
      (postKind l.kind (.loc a) ++ [.postExpr (.loc a)]) s2) rfl (by simp only [WFC]; exact ⟨hshk, hwk⟩)
    rw [hpost] at hs3
    refine ⟨hs3.2, hs3.1, (Run.one h1).trans (hk'.trans (Run.one ?_))⟩
    simp only [turn, put_same a t _ l ks1 hn, postEvents_eq, hpost, putAt_putAt, Bool.or_assoc]
theorem run_kids {S : Type} (R : Rewriter S) (hR : R.Sound) (cb : Bool) :
    ∀ {a : Addr} {l : NNode} {done cs : List NExpr} {s : S} {ks : List NExpr} {s' : S} {b : Bool},
    RwKids R cb a l done cs s ks s' b →
    ∀ (t : NExpr) (rest : List StackRec) (f : Bool), CShape l.kind (done ++ cs) → WFCs cs → WFCs done →
    nodeAt a t = some (.node l (done ++ cs)) →
    CShape l.kind ks ∧ WFCs ks ∧
    Run R cb ⟨t, kidRecs cb a l.kind done.length cs ++ rest, chain a, s, f⟩
      ⟨putAt a (.node l ks) t, rest, chain a, s', f || b⟩
  | a, l, done, _, s, _, _, _, .nil => by
    intro t rest f hsh hw hwd hn
    simp only [List.append_nil] at hsh hn
    refine ⟨hsh, hwd, ?_⟩
    rw [putAt_self a t _ hn]
    simp only [kidRecs, List.nil_append, Bool.or_false]
    exact .refl _
  | a, l, done, _, s, ks, s', b, .unset (cs := cs) h => by
    intro t rest f hsh hw hwd hn
    have e : done ++ Tree.absent :: cs = (done ++ [.absent]) ++ cs := by simp
    rw [e] at hsh hn
    have := run_kids R hR cb h t rest f hsh (by simp only [WFCs] at hw; exact hw.2)
      (by rw [wfcs_iff] at hwd ⊢; intro x hx
          rcases List.mem_append.mp hx with hx | hx
          · exact hwd x hx
          · simp at hx; subst hx; simp [WFC]) hn
    simpa [kidRecs, kidRec, Tree.present] using this
  | a, l, done, _, s, ks, s', _, @RwKids.kid _ _ _ _ _ _ cs _ c c' _ s1 _ b1 b2 hp h1 h2 => by
    intro t rest f hsh hw hwd hn
    simp only [WFCs] at hw
    have hlt : done.length < (done ++ c :: cs).length := by simp
    have hget : (done ++ c :: cs)[done.length]? = some c := by simp
    have hset : (done ++ c :: cs).set done.length c' = done ++ c' :: cs := by simp
    obtain ⟨lc, kc, hc⟩ : ∃ lc kc, c = .node lc kc := by
      cases c with
      | absent => simp [Tree.present] at hp
      | node lc kc => exact ⟨lc, kc, rfl⟩
    have hnc : nodeAt (a ++ [done.length]) t = some c := by
      rw [hc] at hget hn ⊢; exact nodeAt_child hn hget
    have ih1 := fun rest => run_expr R hR cb h1 t rest f hw.1 hnc
    have hw' := (ih1 []).1
    have hp' := (ih1 []).2.1
    have hr1 := fun rest => (ih1 rest).2.2
    simp only [chain_parent, putAt_child a t l _ _ c' hn hlt, hset] at hr1
    have hn1 : nodeAt a (putAt a (.node l (done ++ c' :: cs)) t) = some (.node l (done ++ c' :: cs)) :=
      put_same a t _ l _ hn
    have hwrap := run_wrap R cb a (a ++ [done.length]) (edge l.kind done.length)
      (kidRecs cb a l.kind (done.length + 1) cs ++ rest) t _ _ _ (chain a) s s1 f (f || b1) hn hn1 hr1
    have hsh' : CShape l.kind (done ++ c' :: cs) := by
      revert hsh
      cases hk : l.kind with
      | call fn =>
        simp only [CShape]
        rintro ⟨t0, args, he, ha⟩
        cases done with
        | nil =>
          simp only [List.nil_append, List.cons.injEq] at he ⊢
          exact ⟨c', cs, ⟨rfl, rfl⟩, by rw [he.2]; exact ha⟩
        | cons d done =>
          simp only [List.cons_append, List.cons.injEq] at he ⊢
          refine ⟨d, done ++ c' :: cs, ⟨rfl, rfl⟩, fun x hx => ?_⟩
          rw [← he.2] at ha
          rcases List.mem_append.mp hx with hx | hx
          · exact ha x (by simp [hx])
          · rcases List.mem_cons.mp hx with rfl | hx
            · exact hp'
            · exact ha x (by simp [hx])
      | _ => simp [CShape]
    have e : done ++ c' :: cs = (done ++ [c']) ++ cs := by simp
    have ih2 := run_kids R hR cb h2 (putAt a (.node l (done ++ c' :: cs)) t) rest (f || b1)
      (by rw [← e]; exact hsh') hw.2
      (by rw [wfcs_iff] at hwd ⊢; intro x hx
          rcases List.mem_append.mp hx with hx | hx
          · exact hwd x hx
          · simp at hx; subst hx; exact hw') (by rw [hn1, e])
    obtain ⟨hshk, hwk, hr2⟩ := ih2
    refine ⟨hshk, hwk, ?_⟩
    simp only [kidRecs, kidRec, hp, if_true, List.cons_append, List.nil_append]
    rw [putAt_putAt, List.length_append, List.length_singleton, Bool.or_assoc] at hr2
    exact hwrap.trans hr2
end

end Cel.Rewrite
