import Verif.Rewrite.Run

set_option linter.unusedSimpArgs false
set_option linter.unusedVariables false

/-! # When the machine stops, it has done what the specification says -/

namespace Cel.Rewrite
open Cel Cel.Proto Cel.Walk

theorem loop_turn {S : Type} {R : Rewriter S} {cb : Bool} {F : Nat} {m : St S} {r : NExpr × S × Bool}
    (h : loop R cb F m = some r) (hne : m.stack ≠ []) :
    ∃ F' m', F = F' + 1 ∧ turn R cb m = some m' ∧ loop R cb F' m' = some r := by
  cases F with
  | zero => simp [loop] at h
  | succ F =>
    have he : m.stack.isEmpty = false := by cases hs : m.stack <;> simp_all
    simp only [loop, he, Bool.false_eq_true, if_false] at h
    cases ht : turn R cb m with
    | none => rw [ht] at h; cases h
    | some m' => rw [ht] at h; exact ⟨F, m', rfl, rfl, h⟩

/-- Around a child, backwards. -/
theorem wrap_back {S : Type} (R : Rewriter S) (cb : Bool) (p x : Addr) (e : Edge)
    (rest : List StackRec) (t q : NExpr) (path : List Addr) (s : S) (f : Bool) (F : Nat)
    (r : NExpr × S × Bool) (hq : nodeAt p t = some q)
    (h : loop R cb F ⟨t, ⟨recOf cb p x e, false⟩ :: rest, path, s, f⟩ = some r) :
    ∃ F1 rest', F1 ≤ F ∧
      loop R cb F1 ⟨t, ⟨.expr x, false⟩ :: rest', path, visits R q (before cb (.loc p) e) s, f⟩ = some r ∧
      ∀ F2 t' s' f' q', nodeAt p t' = some q' → loop R cb F2 ⟨t', rest', path, s', f'⟩ = some r →
        ∃ F3, F3 ≤ F2 ∧
          loop R cb F3 ⟨t', rest, path, visits R q' (after cb (.loc p) e) s', f'⟩ = some r := by
  have harg : ∀ n : Int, loop R cb F ⟨t, ⟨.arg x p n, false⟩ :: rest, path, s, f⟩ = some r →
      ∃ F1 rest', F1 ≤ F ∧
      loop R cb F1 ⟨t, ⟨.expr x, false⟩ :: rest', path, s, f⟩ = some r ∧
      ∀ F2 t' s' f' q', nodeAt p t' = some q' → loop R cb F2 ⟨t', rest', path, s', f'⟩ = some r →
        ∃ F3, F3 ≤ F2 ∧ loop R cb F3 ⟨t', rest, path,
          R.visit (if n = kTarget then .postTarget (.loc p) else .postArg (.loc p) n) q' s', f'⟩ =
            some r := by
    intro n h
    obtain ⟨F', m', rfl, ht, hl⟩ := loop_turn h (by simp)
    simp only [turn, push, Option.some.injEq] at ht
    refine ⟨F', ⟨.arg x p n, true⟩ :: rest, by omega, by rw [← ht] at hl; exact hl, ?_⟩
    intro F2 t' s' f' q' hq' h2
    obtain ⟨F3, m3, rfl, ht3, hl3⟩ := loop_turn h2 (by simp)
    simp only [turn, hq', Option.some.injEq] at ht3
    exact ⟨F3, by omega, by rw [← ht3] at hl3; exact hl3⟩
  have hexp : loop R cb F ⟨t, ⟨.expr x, false⟩ :: rest, path, s, f⟩ = some r →
      ∃ F1 rest', F1 ≤ F ∧
      loop R cb F1 ⟨t, ⟨.expr x, false⟩ :: rest', path, s, f⟩ = some r ∧
      ∀ F2 t' s' f' q', nodeAt p t' = some q' → loop R cb F2 ⟨t', rest', path, s', f'⟩ = some r →
        ∃ F3, F3 ≤ F2 ∧ loop R cb F3 ⟨t', rest, path, s', f'⟩ = some r := by
    intro h
    exact ⟨F, rest, Nat.le_refl _, h, fun F2 t' s' f' q' _ h2 => ⟨F2, Nat.le_refl _, h2⟩⟩
  cases e with
  | target =>
    have := harg kTarget h
    simp only [if_true] at this
    exact this
  | arg n =>
    have := harg n h
    rw [if_neg (show ¬ (n : Int) = kTarget by unfold kTarget; omega)] at this
    exact this
  | part c =>
    cases cb with
    | false =>
      have := harg c.num h
      rw [if_neg (show ¬ c.num = kTarget by unfold kTarget; cases c <;> simp [CArg.num])] at this
      exact this
    | true =>
      obtain ⟨F', m', rfl, ht, hl⟩ := loop_turn h (by simp)
      simp only [turn, push, recOf, compRec, if_true, hq, Option.some.injEq] at ht
      refine ⟨F', ⟨.comp x p c, true⟩ :: rest, by omega, by rw [← ht] at hl; exact hl, ?_⟩
      intro F2 t' s' f' q' hq' h2
      obtain ⟨F3, m3, rfl, ht3, hl3⟩ := loop_turn h2 (by simp)
      simp only [turn, hq', Option.some.injEq] at ht3
      exact ⟨F3, by omega, by rw [← ht3] at hl3; exact hl3⟩
  | root => exact hexp h
  | operand => exact hexp h
  | elem n => exact hexp h
  | field n => exact hexp h
  | key n => exact hexp h
  | value n => exact hexp h

/-- What is shown of an expression record, with at most `F` turns left. -/
def Back {S : Type} (R : Rewriter S) (cb : Bool) (F : Nat) : Prop :=
  ∀ (a : Addr) (t n : NExpr) (rest : List StackRec) (s : S) (f : Bool) (r : NExpr × S × Bool),
    WFC n → nodeAt a t = some n →
    loop R cb F ⟨t, ⟨.expr a, false⟩ :: rest, (chain a).dropLast, s, f⟩ = some r →
    ∃ n' s' b F', Rw R cb a n s n' s' b ∧ F' < F ∧
      loop R cb F' ⟨putAt a n' t, rest, (chain a).dropLast, s', f || b⟩ = some r

theorem kids_back {S : Type} (R : Rewriter S) (hR : R.Sound) (cb : Bool) (N : Nat)
    (hA : ∀ F, F < N → Back R cb F) (a : Addr) (l : NNode) : ∀ (cs done : List NExpr) (t : NExpr)
    (rest : List StackRec) (s : S) (f : Bool) (r : NExpr × S × Bool) (F : Nat), F < N → WFCs cs →
    nodeAt a t = some (.node l (done ++ cs)) →
    loop R cb F ⟨t, kidRecs cb a l.kind done.length cs ++ rest, chain a, s, f⟩ = some r →
    ∃ ks s' b F', RwKids R cb a l done cs s ks s' b ∧ F' ≤ F ∧
      loop R cb F' ⟨putAt a (.node l ks) t, rest, chain a, s', f || b⟩ = some r
  | [], done, t, rest, s, f, r, F, hF, hw, hn, h => by
    rw [List.append_nil] at hn
    refine ⟨done, s, false, F, .nil, Nat.le_refl _, ?_⟩
    rw [putAt_self a t _ hn, Bool.or_false]
    exact h
  | .absent :: cs, done, t, rest, s, f, r, F, hF, hw, hn, h => by
    have e : done ++ Tree.absent :: cs = (done ++ [.absent]) ++ cs := by simp
    rw [e] at hn
    obtain ⟨ks, s', b, F', hk, hle, hl⟩ := kids_back R hR cb N hA a l cs (done ++ [.absent]) t rest s f r F
      hF (by simp only [WFCs] at hw; exact hw.2) hn (by simpa [kidRecs, kidRec, Tree.present] using h)
    exact ⟨ks, s', b, F', .unset hk, hle, hl⟩
  | .node lc kc :: cs, done, t, rest, s, f, r, F, hF, hw, hn, h => by
    simp only [WFCs] at hw
    have hlt : done.length < (done ++ Tree.node lc kc :: cs).length := by simp
    have hget : (done ++ Tree.node lc kc :: cs)[done.length]? = some (.node lc kc) := by simp
    have hnc : nodeAt (a ++ [done.length]) t = some (.node lc kc) := nodeAt_child hn hget
    simp only [kidRecs, kidRec, Tree.present, if_true, List.cons_append, List.nil_append] at h
    obtain ⟨F1, rest', hF1, h1, hafter⟩ := wrap_back R cb a (a ++ [done.length])
      (edge l.kind done.length) _ t _ (chain a) s f F r hn h
    rw [← chain_parent a done.length] at h1
    obtain ⟨c', s1, b1, F2, hrw, hF2, h2⟩ := hA F1 (by omega) _ t _ rest' _ f r hw.1 hnc h1
    have hw' := (run_expr R hR cb hrw t [] f hw.1 hnc).1
    rw [putAt_child a t l _ _ c' hn hlt, chain_parent] at h2
    have hset : (done ++ Tree.node lc kc :: cs).set done.length c' = done ++ c' :: cs := by simp
    rw [hset] at h2
    have hn1 : nodeAt a (putAt a (.node l (done ++ c' :: cs)) t) = some (.node l (done ++ c' :: cs)) :=
      put_same a t _ l _ hn
    obtain ⟨F3, hF3, h3⟩ := hafter F2 _ s1 _ _ hn1 h2
    have e : done ++ c' :: cs = (done ++ [c']) ++ cs := by simp
    obtain ⟨ks, s', b, F', hk, hle, hl⟩ := kids_back R hR cb N hA a l cs (done ++ [c']) _ rest _ _ r F3
      (by omega) hw.2 (by rw [hn1, e]) (by simpa using h3)
    refine ⟨ks, s', b1 || b, F', .kid rfl hrw hk, by omega, ?_⟩
    rw [putAt_putAt, Bool.or_assoc] at hl
    exact hl

theorem back {S : Type} (R : Rewriter S) (hR : R.Sound) (cb : Bool) (F : Nat) : Back R cb F := by
  induction F using Nat.strongRecOn with
  | _ F ih =>
  intro a t n rest s f r hw hn h
  obtain ⟨ln, kn, rfl⟩ := nodeAt_node a t n hn
  obtain ⟨F1, m1, rfl, ht, h1⟩ := loop_turn h (by simp)
  have hs := hR.pre _ (R.path (chain a) s) rfl hw
  simp only [turn, hn, chain_last, preEvents_eq] at ht
  cases hpre : R.pre (.node ln kn) (R.path (chain a) s) with
  | mk s1 q =>
  obtain ⟨n1, b1⟩ := q
  rw [hpre] at ht hs
  cases n1 with
  | absent => simp at ht
  | node l ks =>
  have hw1 := hs.2
  simp only [WFC] at hw1
  have hsh := touchKids_shape l.kind ks hw1.1
  simp only [Option.some.injEq, pushExprDeps_eq cb a l.kind _ hsh (touchKids_present l.kind ks)] at ht
  rw [← ht] at h1
  have hn1 : nodeAt a (putAt a (.node l (touchKids l.kind ks)) t) = some (.node l ([] ++ touchKids l.kind ks)) :=
    put_same a t _ l _ hn
  obtain ⟨ks1, s2, b2, F2, hk, hF2, h2⟩ := kids_back R hR cb (F1 + 1) ih a l (touchKids l.kind ks) [] _
    (⟨.expr a, true⟩ :: rest) _ (f || b1) r F1 (by omega) (touchKids_wfcs _ _ hw1.2) hn1 h1
  rw [putAt_putAt] at h2
  obtain ⟨hshk, hwk, _⟩ := run_kids R hR cb hk _ [] false hsh (touchKids_wfcs _ _ hw1.2) (by simp [WFCs]) hn1
  obtain ⟨F3, m3, rfl, ht3, h3⟩ := loop_turn h2 (by simp)
  simp only [turn, put_same a t _ l ks1 hn, postEvents_eq] at ht3
  have hs3 := hR.post (.node l ks1) (visits R (.node l ks1)
      (postKind l.kind (.loc a) ++ [.postExpr (.loc a)]) s2) rfl (by simp only [WFC]; exact ⟨hshk, hwk⟩)
  cases hpost : R.post (.node l ks1) (visits R (.node l ks1)
      (postKind l.kind (.loc a) ++ [.postExpr (.loc a)]) s2) with
  | mk s3 q3 =>
  obtain ⟨n3, b3⟩ := q3
  rw [hpost] at ht3 hs3
  cases n3 with
  | absent => simp at ht3
  | node l' ks' =>
  simp only [Option.some.injEq, putAt_putAt] at ht3
  refine ⟨_, _, _, F3, .node hpre hk hpost, by omega, ?_⟩
  rw [← ht3] at h3
  rw [← Bool.or_assoc, ← Bool.or_assoc]
  exact h3

end Cel.Rewrite
