import Verif.Data.EqualLemmas

set_option linter.unusedSimpArgs false
set_option linter.unusedVariables false

/-!
# C34: equality of data values
-/

namespace Cel.Data
open Cel Cel.Num Cel.Eval Cel.Data.Spec

/-! ## Reflexivity -/

theorem num_of_leaf {a : Value} {x : Number} (h : numOf a = some x) : Leaf a := by
  cases a <;> simp_all [numOf, Leaf]

theorem num_notNaN {a : Value} {x : Number} (h : numOf a = some x) :
    NotNaN a ↔ x ≠ .dbl .nan := by
  cases a <;> simp_all [numOf, NotNaN]
  all_goals try (subst h; simp)
  rename_i d; cases d <;> simp [NotNaN]

theorem nonnum_notNaN {a : Value} (h : numOf a = none) : NotNaN a := by
  cases a <;> simp_all [numOf, NotNaN]

theorem forall₂_self {α : Type} {R : α → α → Prop} {l : List α} :
    List.Forall₂ R l l ↔ ∀ x ∈ l, R x x := by
  induction l with
  | nil => simp
  | cons a l ih => simp [ih]

theorem cEqual_self_iff (v : Value) : IsData v → (cEqual v v = true ↔ Deep NotNaN v) := by
  induction v using value_induct with
  | hleaf v hv =>
    intro h
    rw [deep_leaf hv]
    cases hn : numOf v with
    | some x => rw [cEqual_num hn hn, number_eq_self, num_notNaN hn]
    | none => simp [leaf_cEqual_self hv hn h.self, nonnum_notNaN hn]
  | hlist l ih =>
    intro h
    rw [cEqual_list, forall₂_self, deep_list]
    simp only [NotNaN, true_and]
    exact forall_congr' fun x => forall_congr' fun hx => ih x hx ((deep_list.1 h).2 x hx)
  | hmap m ih =>
    intro h
    rw [cEqual_map, deep_map]
    simp only [NotNaN, true_and]
    refine forall_congr' fun e => forall_congr' fun he => ?_
    have hd := (deep_map.1 h).2 e he
    have hk : keyKind e.1 = true := h.self.1 e he
    rw [mapFind_of_mem h.self he]
    simp only [Option.some.injEq, exists_eq_left', (ih e he).2 hd.2]
    have : Deep NotNaN e.1 := keyKind_deep hk
      (nonnum_or_int hk)
    simp [this]
  | hopt v ih =>
    intro h
    rw [deep_opt]
    simp only [cEqual, NotNaN, true_and]
    exact ih (deep_opt.1 h).2
where
  nonnum_or_int {k : Value} (h : keyKind k = true) : NotNaN k := by
    cases k <;> simp_all [keyKind, NotNaN]

theorem keyKind_notNaN {k : Value} (h : keyKind k = true) : NotNaN k := by
  cases k <;> simp_all [keyKind, NotNaN]

theorem hetFind_self {m : List (Value × Value)} (ho : Ordinary (.map m)) {e : Value × Value}
    (he : e ∈ m) : hetFind e.1 m = some e.2 := by
  unfold hetFind; rw [mapFind_of_mem ho he]

/-- **C34 (reflexivity).** A data value equals itself exactly when no NaN occurs inside it; when one
does, `v == v` is `false`. -/
theorem C34_equality_reflexive_iff_no_nan (v : Value) (h : IsData v) :
    (Deep NotNaN v → valueEqual v v = some true) ∧
    (¬ Deep NotNaN v → valueEqual v v = some false) := by
  have key : ∀ v, IsData v → (valueEqual v v = some true ↔ Deep NotNaN v) := by
    intro v
    induction v using value_induct with
    | hleaf v hv =>
      intro h
      rw [deep_leaf hv]
      cases hn : numOf v with
      | some x =>
        rw [valueEqual_num hn hn, num_notNaN hn, ← number_eq_self, Option.some.injEq]
      | none => simp [leaf_valueEqual_self hv hn h.self, nonnum_notNaN hn]
    | hlist l ih =>
      intro h
      rw [valueEqual_list, forall₂_self, deep_list]
      simp only [NotNaN, true_and]
      exact forall_congr' fun x => forall_congr' fun hx => ih x hx ((deep_list.1 h).2 x hx)
    | hmap m ih =>
      intro h
      rw [valueEqual_map, deep_map]
      simp only [NotNaN, true_and]
      refine forall_congr' fun e => forall_congr' fun he => ?_
      have hd := (deep_map.1 h).2 e he
      have hk : keyKind e.1 = true := h.self.1 e he
      rw [hetFind_self h.self he]
      simp only [Option.some.injEq, exists_eq_left', (ih e he).2 hd.2]
      have : Deep NotNaN e.1 := keyKind_deep hk (keyKind_notNaN hk)
      simp [this]
    | hopt v ih =>
      intro h
      rw [valueEqual_opt, Option.some.injEq]
      exact cEqual_self_iff _ h
  refine ⟨fun hn => (key v h).2 hn, fun hn => ?_⟩
  obtain ⟨r, hr⟩ := valueEqual_total v v (h.mono fun _ => NoErr.of_ordinary) (h.mono fun _ => NoErr.of_ordinary)
  cases r with
  | false => exact hr
  | true => exact absurd ((key v h).1 hr) hn

/-! ## Symmetry -/

theorem forall₂_flip {α : Type} {R S : α → α → Prop} {a b : List α}
    (h : List.Forall₂ R a b) (hrs : ∀ x ∈ a, ∀ y ∈ b, R x y → S y x) : List.Forall₂ S b a := by
  induction h with
  | nil => exact .nil
  | cons hxy _ ih =>
    refine .cons (hrs _ List.mem_cons_self _ List.mem_cons_self hxy) (ih fun x hx y hy => ?_)
    exact hrs x (List.mem_cons_of_mem _ hx) y (List.mem_cons_of_mem _ hy)

theorem cEqual_symm (a : Value) : ∀ b, IsData a → IsData b → cEqual a b = true → cEqual b a = true := by
  induction a using value_induct with
  | hleaf a ha =>
    intro b h1 h2 h
    rcases cEqual_cases h with ⟨x, y, hx, hy, hxy⟩ | ⟨_, _, rfl, _⟩ | ⟨_, _, rfl, _⟩ |
      ⟨_, _, rfl, _⟩ | ⟨_, _, rfl⟩
    · rw [cEqual_num hy hx, number_eq_symm _ _ (ordinary_num h2.self hy) (ordinary_num h1.self hx), hxy]
    · exact ha.elim
    · exact ha.elim
    · exact ha.elim
    · exact h
  | hlist l ih =>
    intro b h1 h2 h
    rcases cEqual_cases h with ⟨x, y, hx, hy, hxy⟩ | ⟨_, l', _, rfl⟩ | ⟨_, _, hc, _⟩ |
      ⟨_, _, hc, _⟩ | ⟨hc, _⟩
    · cases hx
    · rw [cEqual_list] at h ⊢
      exact forall₂_flip h fun x hx y hy =>
        ih x hx y ((deep_list.1 h1).2 x hx) ((deep_list.1 h2).2 y hy)
    · cases hc
    · cases hc
    · exact hc.elim
  | hmap m ih =>
    intro b h1 h2 h
    rcases cEqual_cases h with ⟨x, y, hx, hy, hxy⟩ | ⟨_, l', hc, _⟩ | ⟨_, m', _, rfl⟩ |
      ⟨_, _, hc, _⟩ | ⟨hc, _⟩
    · cases hx
    · cases hc
    · rw [cEqual_map] at h ⊢
      obtain ⟨hl, hall⟩ := h
      refine ⟨hl.symm, fun f hf => ?_⟩
      have hsub : m.map Prod.fst ⊆ m'.map Prod.fst := by
        intro k hk
        obtain ⟨e, he, rfl⟩ := List.mem_map.1 hk
        obtain ⟨w, hw, _⟩ := hall e he
        exact List.mem_map.2 ⟨_, (mapFind_some hw).1, rfl⟩
      have hback := subset_swap (keys_nodup h1.self) hsub (by simp [hl])
      obtain ⟨e, he, hef⟩ := List.mem_map.1 (hback (List.mem_map.2 ⟨f, hf, rfl⟩))
      obtain ⟨w, hw, heq⟩ := hall e he
      rw [hef, mapFind_of_mem h2.self hf] at hw
      cases hw
      refine ⟨e.2, ?_, (ih e he).2 _ ((deep_map.1 h1).2 e he).2 ((deep_map.1 h2).2 f hf).2 heq⟩
      rw [← hef]; exact mapFind_of_mem h1.self he
    · cases hc
    · exact hc.elim
  | hopt v ih =>
    intro b h1 h2 h
    rcases cEqual_cases h with ⟨x, y, hx, hy, hxy⟩ | ⟨_, l', hc, _⟩ | ⟨_, _, hc, _⟩ |
      ⟨_, w, _, rfl⟩ | ⟨hc, _⟩
    · cases hx
    · cases hc
    · cases hc
    · simp only [cEqual] at h ⊢
      exact ih w (deep_opt.1 h1).2 (deep_opt.1 h2).2 h
    · exact hc.elim

theorem valueEqual_symm_true (a : Value) : ∀ b, IsData a → IsData b → Deep UnmixedKeys a →
    Deep UnmixedKeys b → valueEqual a b = some true → valueEqual b a = some true := by
  induction a using value_induct with
  | hleaf a ha =>
    intro b h1 h2 u1 u2 h
    rcases valueEqual_cases h with ⟨x, y, hx, hy, hxy⟩ | ⟨_, _, rfl, _⟩ | ⟨_, _, rfl, _⟩ |
      ⟨_, _, rfl, _⟩ | ⟨_, _, rfl⟩
    · rw [valueEqual_num hy hx, number_eq_symm _ _ (ordinary_num h2.self hy) (ordinary_num h1.self hx), hxy]
    · exact ha.elim
    · exact ha.elim
    · exact ha.elim
    · exact h
  | hlist l ih =>
    intro b h1 h2 u1 u2 h
    rcases valueEqual_cases h with ⟨x, y, hx, hy, hxy⟩ | ⟨_, l', _, rfl⟩ | ⟨_, _, hc, _⟩ |
      ⟨_, _, hc, _⟩ | ⟨hc, _⟩
    · cases hx
    · rw [valueEqual_list] at h ⊢
      exact forall₂_flip h fun x hx y hy =>
        ih x hx y ((deep_list.1 h1).2 x hx) ((deep_list.1 h2).2 y hy) ((deep_list.1 u1).2 x hx)
          ((deep_list.1 u2).2 y hy)
    · cases hc
    · cases hc
    · exact hc.elim
  | hmap m ih =>
    intro b h1 h2 u1 u2 h
    rcases valueEqual_cases h with ⟨x, y, hx, hy, hxy⟩ | ⟨_, l', hc, _⟩ | ⟨_, m', _, rfl⟩ |
      ⟨_, _, hc, _⟩ | ⟨hc, _⟩
    · cases hx
    · cases hc
    · rw [valueEqual_map] at h ⊢
      obtain ⟨hl, hall⟩ := h
      refine ⟨hl.symm, fun f hf => ?_⟩
      have hord : ∀ e ∈ m, Ordinary e.1 ∧ keyKind e.1 = true := fun e he =>
        ⟨((deep_map.1 h1).2 e he).1.self, h1.self.1 e he⟩
      have hsub : (m.map fun e => keyId e.1) ⊆ m'.map fun e => keyId e.1 := by
        intro k hk
        obtain ⟨e, he, rfl⟩ := List.mem_map.1 hk
        obtain ⟨w, hw, _⟩ := hall e he
        obtain ⟨f, hf, hd, _⟩ := hetFind_some (hord e he).1 hw
        exact List.mem_map.2 ⟨f, hf, ((denotes_iff (hord e he).2).1 hd).symm⟩
      have hback := subset_swap u1.self hsub (by simp [hl])
      obtain ⟨e, he, hef⟩ := List.mem_map.1 (hback (List.mem_map.2 ⟨f, hf, rfl⟩))
      obtain ⟨w, hw, heq⟩ := hall e he
      rw [hetFind_unique h2 u2.self (hord e he).1 (hord e he).2 hf hef] at hw
      cases hw
      refine ⟨e.2, ?_, (ih e he).2 _ ((deep_map.1 h1).2 e he).2 ((deep_map.1 h2).2 f hf).2
        ((deep_map.1 u1).2 e he).2 ((deep_map.1 u2).2 f hf).2 heq⟩
      exact hetFind_unique h1 u1.self ((deep_map.1 h2).2 f hf).1.self (h2.self.1 f hf) he hef.symm
    · cases hc
    · exact hc.elim
  | hopt v ih =>
    intro b h1 h2 u1 u2 h
    rcases valueEqual_cases h with ⟨x, y, hx, hy, hxy⟩ | ⟨_, l', hc, _⟩ | ⟨_, _, hc, _⟩ |
      ⟨_, w, _, rfl⟩ | ⟨hc, _⟩
    · cases hx
    · cases hc
    · cases hc
    · rw [valueEqual_opt, Option.some.injEq] at h ⊢
      exact cEqual_symm _ _ h1 h2 h
    · exact hc.elim

/-- **C34 (symmetry).** On data whose maps do not mix `int` and `uint` keys of the same value,
`a == b` and `b == a` are the same boolean. -/
theorem C34_equality_symmetric_partial (a b : Value) (ha : IsData a) (hb : IsData b)
    (ua : Deep UnmixedKeys a) (ub : Deep UnmixedKeys b) :
    ∃ r, valueEqual a b = some r ∧ valueEqual b a = some r := by
  have na := ha.mono fun _ => NoErr.of_ordinary
  have nb := hb.mono fun _ => NoErr.of_ordinary
  obtain ⟨r, hr⟩ := valueEqual_total a b na nb
  obtain ⟨s, hs⟩ := valueEqual_total b a nb na
  refine ⟨r, hr, ?_⟩
  cases r with
  | true => exact valueEqual_symm_true a b ha hb ua ub hr
  | false =>
    cases s with
    | false => exact hs
    | true =>
      rw [valueEqual_symm_true b a hb ha ub ua hs] at hr
      cases hr

/-- Sample data used to show that the hypotheses are met:
`{1: [1.5, 'x'], 'k': optional.of(2u), true: {7: null}}`. -/
def sample : Value :=
  .map [(.int 1, .list [.dbl (.fin false (3 * 2 ^ 1073)), .str "x"]),
    (.str "k", .opt (some (.uint 2))), (.bool true, .map [(.int 7, .null)])]

theorem sample_ok : IsData sample ∧ Deep UnmixedKeys sample ∧ Deep NotNaN sample ∧
    Deep ExactNumber sample := by
  refine ⟨?_, ?_, ?_, ?_⟩
  · intro w hw
    simp only [sample, nested, nestedMap, nestedList, List.mem_cons, List.mem_append, List.not_mem_nil,
      or_false, or_assoc] at hw
    rcases hw with rfl | rfl | rfl | rfl | rfl | rfl | rfl | rfl | rfl | rfl | rfl | rfl <;>
      simp [Ordinary, keyKind, keyEq, InI64, InU64, i64Min, i64Max, u64Max]
    exact ⟨3, 1073, by omega, by omega, rfl⟩
  · intro w hw
    simp only [sample, nested, nestedMap, nestedList, List.mem_cons, List.mem_append, List.not_mem_nil,
      or_false, or_assoc] at hw
    rcases hw with rfl | rfl | rfl | rfl | rfl | rfl | rfl | rfl | rfl | rfl | rfl | rfl <;>
      simp [UnmixedKeys, keyId]
  · intro w hw
    simp only [sample, nested, nestedMap, nestedList, List.mem_cons, List.mem_append, List.not_mem_nil,
      or_false, or_assoc] at hw
    rcases hw with rfl | rfl | rfl | rfl | rfl | rfl | rfl | rfl | rfl | rfl | rfl | rfl <;>
      simp [NotNaN]
  · intro w hw
    simp only [sample, nested, nestedMap, nestedList, List.mem_cons, List.mem_append, List.not_mem_nil,
      or_false, or_assoc] at hw
    rcases hw with rfl | rfl | rfl | rfl | rfl | rfl | rfl | rfl | rfl | rfl | rfl | rfl <;>
      simp only [ExactNumber] <;> exact exactInDouble_of_small _ (by omega)

example : valueEqual sample sample = some true :=
  (C34_equality_reflexive_iff_no_nan sample sample_ok.1).1 sample_ok.2.2.1

/-- `[NaN] == [NaN]` is false. -/
example : valueEqual (.list [.dbl .nan]) (.list [.dbl .nan]) = some false := by
  refine (C34_equality_reflexive_iff_no_nan _ ?_).2 ?_
  · intro w hw
    simp [nested, nestedList] at hw
    rcases hw with rfl | rfl <;> simp [Ordinary, Dbl.WF]
  · intro h; exact h (.dbl .nan) (by simp [nested, nestedList])

example : ∃ r, valueEqual sample (.list [sample]) = some r ∧ valueEqual (.list [sample]) sample = some r :=
  C34_equality_symmetric_partial _ _ sample_ok.1
    (deep_list.2 ⟨trivial, fun x hx => by rw [List.mem_singleton.1 hx]; exact sample_ok.1⟩) sample_ok.2.1
    (deep_list.2 ⟨trivial, fun x hx => by rw [List.mem_singleton.1 hx]; exact sample_ok.2.1⟩)

/-- What symmetry misses: maps that hold both `1` and `1u`.  `{1: 'a', 1u: 'a'} == {1: 'a', 2: 'a'}`
is true, the flipped comparison is false. -/
theorem C34_equality_not_symmetric_mixed_keys :
    let a := Value.map [(.int 1, .str "a"), (.uint 1, .str "a")]
    let b := Value.map [(.int 1, .str "a"), (.int 2, .str "a")]
    IsData a ∧ IsData b ∧ valueEqual a b = some true ∧ valueEqual b a = some false := by
  refine ⟨?_, ?_, ?_, ?_⟩
  · intro w hw
    simp [nested, nestedMap] at hw
    rcases hw with rfl | rfl | rfl | rfl | rfl <;>
      simp [Ordinary, keyKind, keyEq, InI64, InU64, i64Min, i64Max, u64Max]
  · intro w hw
    simp [nested, nestedMap] at hw
    rcases hw with rfl | rfl | rfl | rfl | rfl <;>
      simp [Ordinary, keyKind, keyEq, InI64, InU64, i64Min, i64Max, u64Max]
  · decide +kernel
  · decide +kernel

/-! ## Transitivity -/

/-- Without rounding, numeric equality is equality of mathematical values. -/
theorem number_eq_iff (x y : Number) (hx : x.WF) (hy : y.WF) (hr : Num.Spec.NoRounding x y) :
    x.eq y = true ↔ ∃ v, Num.Spec.value x = some v ∧ Num.Spec.value y = some v := by
  constructor
  · intro h
    cases h1 : Num.Spec.value x with
    | none =>
      have := (C10_comparison_operators_consistent x y hx hy).2.1 (Or.inl h1)
      rw [this.2.1] at h; cases h
    | some v =>
      cases h2 : Num.Spec.value y with
      | none =>
        have := (C10_comparison_operators_consistent x y hx hy).2.1 (Or.inr h2)
        rw [this.2.1] at h; cases h
      | some w =>
        have := ((C11_comparison_exact_without_rounding x y hx hy v w h1 h2 hr).2.2).1 h
        subst this
        exact ⟨v, rfl, rfl⟩
  · rintro ⟨v, h1, h2⟩
    exact ((C11_comparison_exact_without_rounding x y hx hy v v h1 h2 hr).2.2).2 rfl

theorem noRounding_of_exact {a b : Value} {x y : Number} (ha : ExactNumber a) (hb : ExactNumber b)
    (hx : numOf a = some x) (hy : numOf b = some y) : Num.Spec.NoRounding x y := by
  cases a <;> simp only [numOf, Option.some.injEq, reduceCtorEq] at hx <;> subst hx <;>
  cases b <;> simp only [numOf, Option.some.injEq, reduceCtorEq] at hy <;> subst hy <;>
  simp only [Num.Spec.NoRounding] <;> first | exact ha | exact hb

theorem num_eq_trans {a b c : Value} {x y z : Number} (ha : Ordinary a) (hb : Ordinary b)
    (hc : Ordinary c) (ea : ExactNumber a) (eb : ExactNumber b) (ec : ExactNumber c)
    (hx : numOf a = some x) (hy : numOf b = some y) (hz : numOf c = some z)
    (h1 : x.eq y = true) (h2 : y.eq z = true) : x.eq z = true := by
  have wx := ordinary_num ha hx
  have wy := ordinary_num hb hy
  have wz := ordinary_num hc hz
  obtain ⟨v, hv1, hv2⟩ := (number_eq_iff x y wx wy (noRounding_of_exact ea eb hx hy)).1 h1
  obtain ⟨w, hw1, hw2⟩ := (number_eq_iff y z wy wz (noRounding_of_exact eb ec hy hz)).1 h2
  refine (number_eq_iff x z wx wz (noRounding_of_exact ea ec hx hz)).2 ⟨v, hv1, ?_⟩
  rw [hv2] at hw1; cases hw1; exact hw2

theorem forall₂_comp {α : Type} {R S T : α → α → Prop} {a b c : List α}
    (h1 : List.Forall₂ R a b) (h2 : List.Forall₂ S b c)
    (ht : ∀ x ∈ a, ∀ y ∈ b, ∀ z ∈ c, R x y → S y z → T x z) : List.Forall₂ T a c := by
  induction h1 generalizing c with
  | nil => cases h2; exact .nil
  | cons hxy _ ih =>
    cases h2 with
    | cons hyz h2 =>
      refine .cons (ht _ List.mem_cons_self _ List.mem_cons_self _ List.mem_cons_self hxy hyz)
        (ih h2 fun x hx y hy z hz => ?_)
      exact ht x (List.mem_cons_of_mem _ hx) y (List.mem_cons_of_mem _ hy) z (List.mem_cons_of_mem _ hz)

theorem cEqual_trans (a : Value) : ∀ b c, IsData a → IsData b → IsData c →
    Deep ExactNumber a → Deep ExactNumber b → Deep ExactNumber c →
    cEqual a b = true → cEqual b c = true → cEqual a c = true := by
  induction a using value_induct with
  | hleaf a ha =>
    intro b c h1 h2 h3 e1 e2 e3 h h'
    rcases cEqual_cases h with ⟨x, y, hx, hy, hxy⟩ | ⟨_, _, rfl, _⟩ | ⟨_, _, rfl, _⟩ |
      ⟨_, _, rfl, _⟩ | ⟨_, _, rfl⟩
    · rcases cEqual_cases h' with ⟨y', z, hy', hz, hyz⟩ | ⟨_, _, rfl, _⟩ | ⟨_, _, rfl, _⟩ |
        ⟨_, _, rfl, _⟩ | ⟨_, hn, rfl⟩
      · rw [hy] at hy'; cases hy'
        rw [cEqual_num hx hz]
        exact num_eq_trans h1.self h2.self h3.self e1.self e2.self e3.self hx hy hz hxy hyz
      · cases hy
      · cases hy
      · cases hy
      · exact h
    · exact ha.elim
    · exact ha.elim
    · exact ha.elim
    · exact h'
  | hlist l ih =>
    intro b c h1 h2 h3 e1 e2 e3 h h'
    rcases cEqual_cases h with ⟨x, y, hx, hy, hxy⟩ | ⟨_, l', _, rfl⟩ | ⟨_, _, hc, _⟩ |
      ⟨_, _, hc, _⟩ | ⟨hc, _⟩
    · cases hx
    · rcases cEqual_cases h' with ⟨x, y, hx, hy, hxy⟩ | ⟨_, l'', _, rfl⟩ | ⟨_, _, hc, _⟩ |
        ⟨_, _, hc, _⟩ | ⟨hc, _⟩
      · cases hx
      · rw [cEqual_list] at h h' ⊢
        exact forall₂_comp h h' fun x hx y hy z hz =>
          ih x hx y z ((deep_list.1 h1).2 x hx) ((deep_list.1 h2).2 y hy) ((deep_list.1 h3).2 z hz)
            ((deep_list.1 e1).2 x hx) ((deep_list.1 e2).2 y hy) ((deep_list.1 e3).2 z hz)
      · cases hc
      · cases hc
      · exact hc.elim
    · cases hc
    · cases hc
    · exact hc.elim
  | hmap m ih =>
    intro b c h1 h2 h3 e1 e2 e3 h h'
    rcases cEqual_cases h with ⟨x, y, hx, hy, hxy⟩ | ⟨_, l', hc, _⟩ | ⟨_, m', _, rfl⟩ |
      ⟨_, _, hc, _⟩ | ⟨hc, _⟩
    · cases hx
    · cases hc
    · rcases cEqual_cases h' with ⟨x, y, hx, hy, hxy⟩ | ⟨_, _, hc, _⟩ | ⟨_, m'', _, rfl⟩ |
        ⟨_, _, hc, _⟩ | ⟨hc, _⟩
      · cases hx
      · cases hc
      · rw [cEqual_map] at h h' ⊢
        refine ⟨h.1.trans h'.1, fun e he => ?_⟩
        obtain ⟨w, hw, hew⟩ := h.2 e he
        have hwm := (mapFind_some hw).1
        obtain ⟨z, hz, hwz⟩ := h'.2 _ hwm
        refine ⟨z, hz, (ih e he).2 w z ((deep_map.1 h1).2 e he).2 ((deep_map.1 h2).2 _ hwm).2
          ((deep_map.1 h3).2 _ (mapFind_some hz).1).2 ((deep_map.1 e1).2 e he).2
          ((deep_map.1 e2).2 _ hwm).2 ((deep_map.1 e3).2 _ (mapFind_some hz).1).2 hew hwz⟩
      · cases hc
      · exact hc.elim
    · cases hc
    · exact hc.elim
  | hopt v ih =>
    intro b c h1 h2 h3 e1 e2 e3 h h'
    rcases cEqual_cases h with ⟨x, y, hx, hy, hxy⟩ | ⟨_, l', hc, _⟩ | ⟨_, _, hc, _⟩ |
      ⟨_, w, _, rfl⟩ | ⟨hc, _⟩
    · cases hx
    · cases hc
    · cases hc
    · rcases cEqual_cases h' with ⟨x, y, hx, hy, hxy⟩ | ⟨_, _, hc, _⟩ | ⟨_, _, hc, _⟩ |
        ⟨_, z, _, rfl⟩ | ⟨hc, _⟩
      · cases hx
      · cases hc
      · cases hc
      · simp only [cEqual] at h h' ⊢
        exact ih w z (deep_opt.1 h1).2 (deep_opt.1 h2).2 (deep_opt.1 h3).2 (deep_opt.1 e1).2
          (deep_opt.1 e2).2 (deep_opt.1 e3).2 h h'
      · exact hc.elim
    · exact hc.elim

/-- **C34 (transitivity).** On data whose integers are exact as doubles and whose maps do not mix
`int` and `uint` keys of the same value, equality is transitive.  (`C11_equality_not_transitive`
shows why the first condition is needed.) -/
theorem C34_equality_transitive_partial (a : Value) : ∀ b c, IsData a → IsData b → IsData c →
    Deep UnmixedKeys c →
    Deep ExactNumber a → Deep ExactNumber b → Deep ExactNumber c →
    valueEqual a b = some true → valueEqual b c = some true → valueEqual a c = some true := by
  induction a using value_induct with
  | hleaf a ha =>
    intro b c h1 h2 h3 u3 e1 e2 e3 h h'
    rcases valueEqual_cases h with ⟨x, y, hx, hy, hxy⟩ | ⟨_, _, rfl, _⟩ | ⟨_, _, rfl, _⟩ |
      ⟨_, _, rfl, _⟩ | ⟨_, _, rfl⟩
    · rcases valueEqual_cases h' with ⟨y', z, hy', hz, hyz⟩ | ⟨_, _, rfl, _⟩ | ⟨_, _, rfl, _⟩ |
        ⟨_, _, rfl, _⟩ | ⟨_, hn, rfl⟩
      · rw [hy] at hy'; cases hy'
        rw [valueEqual_num hx hz]
        rw [num_eq_trans h1.self h2.self h3.self e1.self e2.self e3.self hx hy hz hxy hyz]
      · cases hy
      · cases hy
      · cases hy
      · exact h
    · exact ha.elim
    · exact ha.elim
    · exact ha.elim
    · exact h'
  | hlist l ih =>
    intro b c h1 h2 h3 u3 e1 e2 e3 h h'
    rcases valueEqual_cases h with ⟨x, y, hx, hy, hxy⟩ | ⟨_, l', _, rfl⟩ | ⟨_, _, hc, _⟩ |
      ⟨_, _, hc, _⟩ | ⟨hc, _⟩
    · cases hx
    · rcases valueEqual_cases h' with ⟨x, y, hx, hy, hxy⟩ | ⟨_, l'', _, rfl⟩ | ⟨_, _, hc, _⟩ |
        ⟨_, _, hc, _⟩ | ⟨hc, _⟩
      · cases hx
      · rw [valueEqual_list] at h h' ⊢
        exact forall₂_comp h h' fun x hx y hy z hz =>
          ih x hx y z ((deep_list.1 h1).2 x hx) ((deep_list.1 h2).2 y hy) ((deep_list.1 h3).2 z hz)
            ((deep_list.1 u3).2 z hz)
            ((deep_list.1 e1).2 x hx) ((deep_list.1 e2).2 y hy) ((deep_list.1 e3).2 z hz)
      · cases hc
      · cases hc
      · exact hc.elim
    · cases hc
    · cases hc
    · exact hc.elim
  | hmap m ih =>
    intro b c h1 h2 h3 u3 e1 e2 e3 h h'
    rcases valueEqual_cases h with ⟨x, y, hx, hy, hxy⟩ | ⟨_, l', hc, _⟩ | ⟨_, m', _, rfl⟩ |
      ⟨_, _, hc, _⟩ | ⟨hc, _⟩
    · cases hx
    · cases hc
    · rcases valueEqual_cases h' with ⟨x, y, hx, hy, hxy⟩ | ⟨_, _, hc, _⟩ | ⟨_, m'', _, rfl⟩ |
        ⟨_, _, hc, _⟩ | ⟨hc, _⟩
      · cases hx
      · cases hc
      · rw [valueEqual_map] at h h' ⊢
        refine ⟨h.1.trans h'.1, fun e he => ?_⟩
        have hk := h1.self.1 e he
        have ho := ((deep_map.1 h1).2 e he).1.self
        obtain ⟨w, hw, hew⟩ := h.2 e he
        obtain ⟨f, hf, hef, rfl⟩ := hetFind_some ho hw
        have hef := (denotes_iff hk).1 hef
        have hk' := h2.self.1 f hf
        have ho' := ((deep_map.1 h2).2 f hf).1.self
        obtain ⟨z, hz, hwz⟩ := h'.2 f hf
        obtain ⟨g, hg, hfg, rfl⟩ := hetFind_some ho' hz
        have hfg := (denotes_iff hk').1 hfg
        refine ⟨g.2, hetFind_unique h3 u3.self ho hk hg (hef.trans hfg), ?_⟩
        exact (ih e he).2 f.2 g.2 ((deep_map.1 h1).2 e he).2 ((deep_map.1 h2).2 f hf).2
          ((deep_map.1 h3).2 g hg).2 ((deep_map.1 u3).2 g hg).2 ((deep_map.1 e1).2 e he).2
          ((deep_map.1 e2).2 f hf).2 ((deep_map.1 e3).2 g hg).2 hew hwz
      · cases hc
      · exact hc.elim
    · cases hc
    · exact hc.elim
  | hopt v ih =>
    intro b c h1 h2 h3 u3 e1 e2 e3 h h'
    rcases valueEqual_cases h with ⟨x, y, hx, hy, hxy⟩ | ⟨_, l', hc, _⟩ | ⟨_, _, hc, _⟩ |
      ⟨_, w, _, rfl⟩ | ⟨hc, _⟩
    · cases hx
    · cases hc
    · cases hc
    · rcases valueEqual_cases h' with ⟨x, y, hx, hy, hxy⟩ | ⟨_, _, hc, _⟩ | ⟨_, _, hc, _⟩ |
        ⟨_, z, _, rfl⟩ | ⟨hc, _⟩
      · cases hx
      · cases hc
      · cases hc
      · rw [valueEqual_opt, Option.some.injEq] at h h' ⊢
        exact cEqual_trans _ _ _ h1 h2 h3 e1 e2 e3 h h'
      · exact hc.elim
    · exact hc.elim

/-! ## What equality of containers means -/

/-- **C34 (lists).** Two lists of data are equal exactly when they have the same length and are
equal at every index; in particular the outcome is never "no overload". -/
theorem C34_list_equality_pointwise (a b : List Value) (ha : IsData (.list a)) (hb : IsData (.list b)) :
    (∃ r, valueEqual (.list a) (.list b) = some r) ∧
    (valueEqual (.list a) (.list b) = some true ↔
      a.length = b.length ∧ ∀ (i : Nat) (x y : Value), a[i]? = some x → b[i]? = some y →
        valueEqual x y = some true) := by
  refine ⟨valueEqual_total _ _ (ha.mono fun _ => NoErr.of_ordinary) (hb.mono fun _ => NoErr.of_ordinary), ?_⟩
  rw [valueEqual_list, List.forall₂_iff_get]
  refine and_congr_right fun hl => ?_
  constructor
  · intro h i x y hx hy
    obtain ⟨h1, rfl⟩ := List.getElem?_eq_some_iff.1 hx
    obtain ⟨h2, rfl⟩ := List.getElem?_eq_some_iff.1 hy
    exact h i h1 h2
  · intro h i h1 h2
    exact h i _ _ (List.getElem?_eq_getElem h1) (List.getElem?_eq_getElem h2)

/-- **C34 (maps).** Two maps of data with unmixed keys are equal exactly when they have the same
number of entries and every entry of the left has an entry on the right with the same key (numbers
by value) and an equal value.  The order of entries does not occur in this statement. -/
theorem C34_map_equality_by_associations (a b : List (Value × Value)) (ha : IsData (.map a))
    (hb : IsData (.map b)) (ub : Deep UnmixedKeys (.map b)) :
    (∃ r, valueEqual (.map a) (.map b) = some r) ∧
    (valueEqual (.map a) (.map b) = some true ↔
      a.length = b.length ∧ ∀ e ∈ a, ∃ f ∈ b, keyId e.1 = keyId f.1 ∧ valueEqual e.2 f.2 = some true) := by
  refine ⟨valueEqual_total _ _ (ha.mono fun _ => NoErr.of_ordinary) (hb.mono fun _ => NoErr.of_ordinary), ?_⟩
  rw [valueEqual_map]
  refine and_congr_right fun hl => forall_congr' fun e => forall_congr' fun he => ?_
  have hk := ha.self.1 e he
  have ho := ((deep_map.1 ha).2 e he).1.self
  constructor
  · rintro ⟨w, hw, h⟩
    obtain ⟨f, hf, hef, rfl⟩ := hetFind_some ho hw
    exact ⟨f, hf, (denotes_iff hk).1 hef, h⟩
  · rintro ⟨f, hf, hef, h⟩
    exact ⟨f.2, hetFind_unique hb ub.self ho hk hf hef, h⟩

/-- **C34 (maps, order).** Reordering the entries of either map never changes the comparison. -/
theorem C34_map_equality_order_insensitive (a a' b b' : List (Value × Value)) (ha : IsData (.map a))
    (hb : IsData (.map b)) (ub : Deep UnmixedKeys (.map b)) (pa : a.Perm a') (pb : b.Perm b') :
    valueEqual (.map a) (.map b) = valueEqual (.map a') (.map b') := by
  have perm_data : ∀ {m m' : List (Value × Value)} {P : Value → Prop}, m.Perm m' →
      (P (.map m) → P (.map m')) → Deep P (.map m) → Deep P (.map m') := by
    intro m m' P hp h1 h
    rw [deep_map] at h ⊢
    exact ⟨h1 h.1, fun e he => h.2 e (hp.mem_iff.2 he)⟩
  have hord : ∀ {m m' : List (Value × Value)}, m.Perm m' → Ordinary (.map m) → Ordinary (.map m') := by
    intro m m' hp h
    refine ⟨fun e he => h.1 e (hp.mem_iff.2 he), ?_⟩
    refine hp.pairwise h.2 ?_
    intro x y hxy
    cases hyx : keyEq y.1 x.1 with
    | false => rfl
    | true =>
      obtain ⟨h1, h2⟩ := (keyEq_iff _ _).1 hyx
      rw [(keyEq_iff _ _).2 ⟨h2 ▸ h1, h2.symm⟩] at hxy; cases hxy
  have hu : ∀ {m m' : List (Value × Value)}, m.Perm m' → UnmixedKeys (.map m) → UnmixedKeys (.map m') := by
    intro m m' hp h
    exact (hp.map _).nodup_iff.1 h
  have ha' : IsData (.map a') := perm_data pa (hord pa) ha
  have hb' : IsData (.map b') := perm_data pb (hord pb) hb
  have ub' : Deep UnmixedKeys (.map b') := perm_data pb (hu pb) ub
  obtain ⟨⟨r, hr⟩, h1⟩ := C34_map_equality_by_associations a b ha hb ub
  obtain ⟨⟨s, hs⟩, h2⟩ := C34_map_equality_by_associations a' b' ha' hb' ub'
  have : valueEqual (.map a) (.map b) = some true ↔ valueEqual (.map a') (.map b') = some true := by
    rw [h1, h2, pa.length_eq, pb.length_eq]
    refine and_congr_right fun _ => ?_
    constructor
    · intro h e he
      obtain ⟨f, hf, hh⟩ := h e (pa.mem_iff.2 he)
      exact ⟨f, pb.mem_iff.1 hf, hh⟩
    · intro h e he
      obtain ⟨f, hf, hh⟩ := h e (pa.mem_iff.1 he)
      exact ⟨f, pb.mem_iff.2 hf, hh⟩
  rw [hr, hs] at this ⊢
  cases r <;> cases s <;> simp_all

/-- **C34 (numbers).** Numbers are compared across `int`, `uint` and `double`: for numbers that are
exact as doubles (or when no double is involved) they are equal exactly when they are the same number;
a NaN equals nothing. -/
theorem C34_numbers_by_value (a b : Value) (x y : Number) (ha : Ordinary a) (hb : Ordinary b)
    (hx : numOf a = some x) (hy : numOf b = some y) (hr : Num.Spec.NoRounding x y) :
    ∃ r, valueEqual a b = some r ∧
      (r = true ↔ ∃ v, Num.Spec.value x = some v ∧ Num.Spec.value y = some v) := by
  exact ⟨_, valueEqual_num hx hy, number_eq_iff x y (ordinary_num ha hx) (ordinary_num hb hy) hr⟩

/-- Values of different kinds that are not both numbers are unequal, never an error. -/
theorem C34_different_kinds_unequal (a b : Value) (ha : Ordinary a) (hb : Ordinary b)
    (hk : a.kind ≠ b.kind) (hn : numOf a = none ∨ numOf b = none) : valueEqual a b = some false := by
  cases a <;> cases b <;> simp_all [Value.kind, numOf, valueEqual, Ordinary, kNull, kBool, kInt, kUint,
    kDouble, kString, kBytes, kStruct, kDuration, kTimestamp, kList, kMap, kUnknown, kType, kError, kOpaque]

end Cel.Data
