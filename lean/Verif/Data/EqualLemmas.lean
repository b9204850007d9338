import Verif.Data.EqualSpec
import Verif.Num.NumberProps
import Mathlib.Data.List.Nodup
import Mathlib.Data.List.Perm.Subperm

set_option linter.unusedSimpArgs false
set_option linter.unusedVariables false

namespace Cel.Data
open Cel Cel.Num Cel.Eval Cel.Data.Spec

/-! ## Induction and nesting -/

theorem nestedList_mem {l : List Value} {w : Value} :
    w ∈ nestedList l ↔ ∃ x ∈ l, w ∈ nested x := by
  induction l with
  | nil => simp [nestedList]
  | cons a l ih => simp [nestedList, ih]

theorem nestedMap_mem {m : List (Value × Value)} {w : Value} :
    w ∈ nestedMap m ↔ ∃ e ∈ m, w ∈ nested e.1 ∨ w ∈ nested e.2 := by
  induction m with
  | nil => simp [nestedMap]
  | cons a m ih =>
    obtain ⟨k, v⟩ := a
    simp only [nestedMap, List.mem_append, ih, List.mem_cons]
    constructor
    · rintro ((h | h) | ⟨e, he, h⟩)
      · exact ⟨_, Or.inl rfl, Or.inl h⟩
      · exact ⟨_, Or.inl rfl, Or.inr h⟩
      · exact ⟨e, Or.inr he, h⟩
    · rintro ⟨e, rfl | he, h⟩
      · exact Or.inl h
      · exact Or.inr ⟨e, he, h⟩

theorem self_nested (v : Value) : v ∈ nested v := by
  cases v with
  | opt o => cases o <;> simp [nested]
  | _ => simp [nested]

theorem Spec.Deep.self {P : Value → Prop} {v : Value} (h : Deep P v) : P v := h v (self_nested v)

theorem deep_list {P : Value → Prop} {l : List Value} :
    Deep P (.list l) ↔ P (.list l) ∧ ∀ x ∈ l, Deep P x := by
  simp only [Deep, nested, List.mem_cons, nestedList_mem]
  constructor
  · intro h
    exact ⟨h _ (Or.inl rfl), fun x hx w hw => h w (Or.inr ⟨x, hx, hw⟩)⟩
  · rintro ⟨h1, h2⟩ w (rfl | ⟨x, hx, hw⟩)
    · exact h1
    · exact h2 x hx w hw

theorem deep_map {P : Value → Prop} {m : List (Value × Value)} :
    Deep P (.map m) ↔ P (.map m) ∧ ∀ e ∈ m, Deep P e.1 ∧ Deep P e.2 := by
  simp only [Deep, nested, List.mem_cons, nestedMap_mem]
  constructor
  · intro h
    exact ⟨h _ (Or.inl rfl), fun e he => ⟨fun w hw => h w (Or.inr ⟨e, he, Or.inl hw⟩),
      fun w hw => h w (Or.inr ⟨e, he, Or.inr hw⟩)⟩⟩
  · rintro ⟨h1, h2⟩ w (rfl | ⟨e, he, hw | hw⟩)
    · exact h1
    · exact (h2 e he).1 w hw
    · exact (h2 e he).2 w hw

theorem deep_opt {P : Value → Prop} {v : Value} :
    Deep P (.opt (some v)) ↔ P (.opt (some v)) ∧ Deep P v := by
  simp [Deep, nested]

/-- A value without nested values. -/
def Leaf : Value → Prop
  | .list _ => False
  | .map _ => False
  | .opt (some _) => False
  | _ => True

theorem deep_leaf {P : Value → Prop} {v : Value} (h : Leaf v) : Deep P v ↔ P v := by
  cases v with
  | opt o => cases o <;> simp_all [Leaf, Deep, nested]
  | _ => simp_all [Leaf, Deep, nested]

theorem value_induct {P : Value → Prop}
    (hleaf : ∀ v, Leaf v → P v)
    (hlist : ∀ l, (∀ x ∈ l, P x) → P (.list l))
    (hmap : ∀ m : List (Value × Value), (∀ e ∈ m, P e.1 ∧ P e.2) → P (.map m))
    (hopt : ∀ v, P v → P (.opt (some v))) (v : Value) : P v :=
  match v with
  | .list l => hlist l fun x hx =>
      have := List.sizeOf_lt_of_mem hx
      value_induct hleaf hlist hmap hopt x
  | .map m => hmap m fun e he =>
      have := List.sizeOf_lt_of_mem he
      have h2 : sizeOf e = 1 + sizeOf e.1 + sizeOf e.2 := rfl
      ⟨value_induct hleaf hlist hmap hopt e.1, value_induct hleaf hlist hmap hopt e.2⟩
  | .opt (some v) => hopt v (value_induct hleaf hlist hmap hopt v)
  | .opt none => hleaf _ trivial
  | .null => hleaf _ trivial
  | .bool _ => hleaf _ trivial
  | .int _ => hleaf _ trivial
  | .uint _ => hleaf _ trivial
  | .dbl _ => hleaf _ trivial
  | .str _ => hleaf _ trivial
  | .bytes _ => hleaf _ trivial
  | .dur _ => hleaf _ trivial
  | .ts _ => hleaf _ trivial
  | .typ _ => hleaf _ trivial
  | .opaq _ _ => hleaf _ trivial
  | .struct _ _ => hleaf _ trivial
  | .error _ => hleaf _ trivial
  | .unknown _ => hleaf _ trivial
termination_by sizeOf v
decreasing_by all_goals (simp_wf; omega)

/-! ## Numbers -/

theorem ordinary_num {a : Value} {x : Number} (h : Ordinary a) (hx : numOf a = some x) : x.WF := by
  cases a <;> simp only [numOf, Option.some.injEq, reduceCtorEq] at hx <;> subst hx <;> exact h

theorem compareInt_eq (a b : Int) : (compareInt a b == CmpResult.equal) = (a == b) := by
  unfold compareInt
  by_cases h : a > b
  · have : a ≠ b := by omega
    simp [h, this]
  · by_cases h2 : a = b
    · simp [h2]
    · simp [h, h2]

theorem doubleCompare_eq (a b : Dbl) : (doubleCompare a b == CmpResult.equal) = Dbl.eq a b := by
  unfold doubleCompare
  rw [Num.eq_self, Num.eq_self]
  cases ha : a.isNaN
  · cases hb : b.isNaN
    · simp only [Bool.not_false, Bool.not_true, Bool.or_self, Bool.false_eq_true, if_false]
      by_cases hg : Dbl.gt a b = true
      · rw [if_pos hg]
        have : Dbl.eq a b = false := by
          unfold Dbl.gt at hg; unfold Dbl.eq
          rw [eq_of_beq hg]; rfl
        rw [this]; rfl
      · rw [if_neg hg]
        cases he : Dbl.eq a b <;> simp
    · cases b <;> simp_all [Dbl.isNaN]
      cases a <;> rfl
  · cases a <;> simp_all [Dbl.isNaN]
    cases b <;> rfl

theorem valueEqual_num {a b : Value} {x y : Number} (ha : numOf a = some x) (hb : numOf b = some y) :
    valueEqual a b = some (x.eq y) := by
  cases a <;> simp only [numOf, Option.some.injEq, reduceCtorEq] at ha <;>
  cases b <;> simp only [numOf, Option.some.injEq, reduceCtorEq] at hb <;>
  subst ha <;> subst hb <;>
  simp only [valueEqual, Number.eq, Number.compare, compareInt_eq, doubleCompare_eq]

theorem cEqual_num {a b : Value} {x y : Number} (ha : numOf a = some x) (hb : numOf b = some y) :
    cEqual a b = x.eq y := by
  cases a <;> simp only [numOf, Option.some.injEq, reduceCtorEq] at ha <;>
  cases b <;> simp only [numOf, Option.some.injEq, reduceCtorEq] at hb <;>
  subst ha <;> subst hb <;>
  simp only [cEqual, Number.eq, Number.compare, compareInt_eq, doubleCompare_eq]

theorem number_eq_symm (x y : Number) (hx : x.WF) (hy : y.WF) : x.eq y = y.eq x := by
  unfold Number.eq
  rw [compare_swap x y hx hy]
  cases x.compare y <;> rfl

theorem number_eq_self (x : Number) : x.eq x = true ↔ x ≠ .dbl .nan := by
  cases x with
  | dbl d =>
    simp only [Number.eq, Number.compare, doubleCompare_eq, Num.eq_self]
    cases d <;> simp [Dbl.isNaN]
  | uint u => simp [Number.eq, Number.compare, compareInt_eq]
  | int u => simp [Number.eq, Number.compare, compareInt_eq]

/-! ## Lossless conversion and keys -/

theorem losslessInt_iff (n : Number) (h : n.WF) (i : Int) :
    losslessInt n = some i ↔ InI64 i ∧ Num.Spec.value n = some (.num i) := by
  obtain ⟨⟨b, hb⟩, h2, h3⟩ := C12_lossless_to_int n h
  have hinj : ∀ x y : Int, (some (Num.Spec.Ext.num (x : ℚ)) = some (Num.Spec.Ext.num (y : ℚ))) → x = y := by
    intro x y hxy
    simpa using hxy
  unfold losslessInt
  rw [hb]
  constructor
  · intro he
    cases b with
    | false => simp at he
    | true =>
      obtain ⟨j, hj, hv⟩ := h2.1 hb
      simp only [h3 j hj hv, Option.some.injEq] at he
      subst he; exact ⟨hj, hv⟩
  · rintro ⟨hi, hv⟩
    have hbt := h2.2 ⟨i, hi, hv⟩
    rw [hb] at hbt; cases hbt
    simp only [h3 i hi hv]

theorem losslessUint_iff (n : Number) (h : n.WF) (i : Int) :
    losslessUint n = some i ↔ InU64 i ∧ Num.Spec.value n = some (.num i) := by
  obtain ⟨⟨b, hb⟩, h2, h3⟩ := C12_lossless_to_uint n h
  unfold losslessUint
  rw [hb]
  constructor
  · intro he
    cases b with
    | false => simp at he
    | true =>
      obtain ⟨j, hj, hv⟩ := h2.1 hb
      simp only [h3 j hj hv, Option.some.injEq] at he
      subst he; exact ⟨hj, hv⟩
  · rintro ⟨hi, hv⟩
    have hbt := h2.2 ⟨i, hi, hv⟩
    rw [hb] at hbt; cases hbt
    simp only [h3 i hi hv]

theorem keyEq_iff (a b : Value) : keyEq a b = true ↔ keyKind a = true ∧ a = b := by
  cases a <;> cases b <;> simp [keyEq, keyKind]

theorem mapFind_some {m : List (Value × Value)} {k v : Value} (h : mapFind m k = some v) :
    (k, v) ∈ m ∧ keyKind k = true := by
  induction m with
  | nil => simp [mapFind] at h
  | cons e m ih =>
    obtain ⟨k', v'⟩ := e
    simp only [mapFind] at h
    split at h
    · rename_i hk
      obtain ⟨h1, rfl⟩ := (keyEq_iff _ _).1 hk
      cases h
      exact ⟨List.mem_cons_self, h1⟩
    · exact ⟨List.mem_cons_of_mem _ (ih h).1, (ih h).2⟩

theorem mapFind_isSome {m : List (Value × Value)} {k : Value} :
    (mapFind m k).isSome = true ↔ keyKind k = true ∧ ∃ v, (k, v) ∈ m := by
  constructor
  · intro h
    obtain ⟨v, hv⟩ := Option.isSome_iff_exists.1 h
    exact ⟨(mapFind_some hv).2, v, (mapFind_some hv).1⟩
  · rintro ⟨hk, v, hv⟩
    induction m with
    | nil => simp at hv
    | cons e m ih =>
      obtain ⟨k', v'⟩ := e
      simp only [mapFind]
      split
      · rfl
      · rename_i hne
        rcases List.mem_cons.1 hv with h | h
        · cases h
          exact absurd ((keyEq_iff _ _).2 ⟨hk, rfl⟩) hne
        · exact ih h

theorem mapFind_none {m : List (Value × Value)} {k : Value} (hk : keyKind k = true)
    (h : mapFind m k = none) (v : Value) : (k, v) ∉ m := by
  intro hv
  have := mapFind_isSome.2 ⟨hk, v, hv⟩
  rw [h] at this; cases this

/-- Two stored keys of accepted kinds denote each other exactly when they are the same key. -/
theorem denotes_iff {k s : Value} (hk : keyKind k = true) :
    Denotes k s ↔ keyId k = keyId s := by
  have hinj : ∀ x y : Int, (some (Num.Spec.Ext.num (x : ℚ)) = some (Num.Spec.Ext.num (y : ℚ))) ↔ x = y := by
    intro x y; simp
  cases k <;> simp [keyKind] at hk
  · simp [Denotes, numOf, keyId]
  · simp only [Denotes, numOf, Num.Spec.value, hinj, keyId]
    exact ⟨fun ⟨i, h1, h2⟩ => by rw [h1, h2], fun h => ⟨_, rfl, h.symm⟩⟩
  · simp only [Denotes, numOf, Num.Spec.value, hinj, keyId]
    exact ⟨fun ⟨i, h1, h2⟩ => by rw [h1, h2], fun h => ⟨_, rfl, h.symm⟩⟩
  · simp [Denotes, numOf, keyId]

theorem keyId_n {s : Value} {i : Int} (h : keyId s = some (.n i)) : s = .int i ∨ s = .uint i := by
  cases s <;> simp_all [keyId]

theorem keyId_b {s : Value} {i : Bool} (h : keyId s = some (.b i)) : s = .bool i := by
  cases s <;> simp_all [keyId]

theorem keyId_s {s : Value} {i : String} (h : keyId s = some (.s i)) : s = .str i := by
  cases s <;> simp_all [keyId]

theorem keyId_isSome {s : Value} : keyId s ≠ none ↔ keyKind s = true := by
  cases s <;> simp [keyId, keyKind]

/-! ### Lookups of a number under `int` and `uint` keys -/

theorem findInt_some {m : List (Value × Value)} {n : Number} (hn : n.WF) {v : Value}
    (h : findInt m n = some v) :
    ∃ i : Int, Num.Spec.value n = some (.num i) ∧ (Value.int i, v) ∈ m := by
  unfold findInt at h
  split at h
  · rename_i i hi
    exact ⟨i, ((losslessInt_iff n hn i).1 hi).2, (mapFind_some h).1⟩
  · cases h

theorem findUint_some {m : List (Value × Value)} {n : Number} (hn : n.WF) {v : Value}
    (h : findUint m n = some v) :
    ∃ i : Int, Num.Spec.value n = some (.num i) ∧ (Value.uint i, v) ∈ m := by
  unfold findUint at h
  split at h
  · rename_i i hi
    exact ⟨i, ((losslessUint_iff n hn i).1 hi).2, (mapFind_some h).1⟩
  · cases h

theorem findInt_isSome {m : List (Value × Value)} {n : Number} (hn : n.WF) {i : Int} {v : Value}
    (hr : InI64 i) (hv : Num.Spec.value n = some (.num i)) (hm : (Value.int i, v) ∈ m) :
    ∃ w, findInt m n = some w := by
  unfold findInt
  rw [(losslessInt_iff n hn i).2 ⟨hr, hv⟩]
  exact Option.isSome_iff_exists.1 (mapFind_isSome.2 ⟨rfl, v, hm⟩)

theorem findUint_isSome {m : List (Value × Value)} {n : Number} (hn : n.WF) {i : Int} {v : Value}
    (hr : InU64 i) (hv : Num.Spec.value n = some (.num i)) (hm : (Value.uint i, v) ∈ m) :
    ∃ w, findUint m n = some w := by
  unfold findUint
  rw [(losslessUint_iff n hn i).2 ⟨hr, hv⟩]
  exact Option.isSome_iff_exists.1 (mapFind_isSome.2 ⟨rfl, v, hm⟩)

theorem hetFind_some {m : List (Value × Value)} {k v : Value} (hk : Ordinary k)
    (h : hetFind k m = some v) : ∃ e ∈ m, Denotes k e.1 ∧ e.2 = v := by
  unfold hetFind at h
  split at h
  · rename_i w hw
    cases h
    have := mapFind_some hw
    exact ⟨_, this.1, (denotes_iff this.2).2 rfl, rfl⟩
  · unfold altFind at h
    split at h
    · cases h
    · rename_i n hn
      have hwf := ordinary_num hk hn
      split at h
      · rename_i w hw
        cases h
        split at hw
        · cases hw
        · obtain ⟨i, h1, h2⟩ := findInt_some hwf hw
          refine ⟨_, h2, ?_, rfl⟩
          unfold Denotes; rw [hn]; exact ⟨i, h1, rfl⟩
      · split at h
        · cases h
        · obtain ⟨i, h1, h2⟩ := findUint_some hwf h
          refine ⟨_, h2, ?_, rfl⟩
          unfold Denotes; rw [hn]; exact ⟨i, h1, rfl⟩

theorem hetFind_isSome {m : List (Value × Value)} {k : Value} (hk : Ordinary k)
    (hm : ∀ e ∈ m, Ordinary e.1) {e : Value × Value} (he : e ∈ m) (hd : Denotes k e.1) :
    ∃ w, hetFind k m = some w := by
  obtain ⟨s, v⟩ := e
  have hso := hm _ he
  unfold hetFind
  cases hf : mapFind m k with
  | some w => exact ⟨w, rfl⟩
  | none =>
    simp only []
    unfold altFind
    unfold Denotes at hd
    cases hn : numOf k with
    | none =>
      rw [hn] at hd
      simp only [] at hd
      obtain ⟨h1, h2⟩ := hd
      exfalso
      have hkk := keyId_isSome.1 h1
      cases k <;> simp [keyKind] at hkk <;> simp [numOf] at hn
      · have : s = _ := keyId_b h2.symm
        subst this
        exact mapFind_none rfl hf v he
      · have : s = _ := keyId_s h2.symm
        subst this
        exact mapFind_none rfl hf v he
    | some n =>
      rw [hn] at hd
      simp only [] at hd ⊢
      obtain ⟨i, h1, h2⟩ := hd
      have hwf := ordinary_num hk hn
      rcases keyId_n h2 with rfl | rfl
      · obtain ⟨w, hw⟩ := findInt_isSome hwf hso h1 he
        by_cases hi : isInt k = true
        · exfalso
          cases k <;> simp [isInt] at hi
          simp only [numOf, Option.some.injEq] at hn
          subst hn
          simp only [Num.Spec.value, Option.some.injEq, Num.Spec.Ext.num.injEq, Int.cast_inj] at h1
          subst h1
          exact mapFind_none rfl hf v he
        · rw [if_neg hi, hw]; exact ⟨w, rfl⟩
      · obtain ⟨w, hw⟩ := findUint_isSome hwf hso h1 he
        by_cases hi : isUint k = true
        · exfalso
          cases k <;> simp [isUint] at hi
          simp only [numOf, Option.some.injEq] at hn
          subst hn
          simp only [Num.Spec.value, Option.some.injEq, Num.Spec.Ext.num.injEq, Int.cast_inj] at h1
          subst h1
          exact mapFind_none rfl hf v he
        · split
          · exact ⟨_, rfl⟩
          · rw [if_neg hi]; exact ⟨w, hw⟩

/-! ## One level of equality -/

theorem listEqual_true {a b : List Value} (hl : a.length = b.length) :
    listEqual a b = some true ↔ List.Forall₂ (fun x y => valueEqual x y = some true) a b := by
  induction a generalizing b with
  | nil => cases b <;> simp_all [listEqual]
  | cons x a ih =>
    cases b with
    | nil => simp at hl
    | cons y b =>
      simp only [listEqual, List.forall₂_cons]
      simp only [List.length_cons, Nat.add_right_cancel_iff] at hl
      rw [← ih hl]
      split
      · rename_i h; simp [h]
      · rename_i h
        constructor
        · intro h2; exact absurd h2 h
        · intro h2; exact absurd h2.1 h

theorem valueEqual_list {a b : List Value} :
    valueEqual (.list a) (.list b) = some true ↔
      List.Forall₂ (fun x y => valueEqual x y = some true) a b := by
  simp only [valueEqual]
  split
  · rename_i h; exact listEqual_true h
  · rename_i h
    simp only [Option.some.injEq, Bool.false_eq_true, false_iff]
    intro h2; exact h h2.length_eq

theorem mapEqual_true {a b : List (Value × Value)} :
    mapEqual a b = some true ↔
      ∀ e ∈ a, ∃ w, hetFind e.1 b = some w ∧ valueEqual e.2 w = some true := by
  induction a with
  | nil => simp [mapEqual]
  | cons e a ih =>
    obtain ⟨k, v⟩ := e
    simp only [mapEqual, List.mem_cons, forall_eq_or_imp]
    cases hf : hetFind k b with
    | none => simp
    | some w =>
      simp only [Option.some.injEq, exists_eq_left', ← ih]
      split
      · rename_i h; simp [h]
      · rename_i h
        constructor
        · intro h2; exact absurd h2 h
        · intro h2; exact absurd h2.1 h

theorem valueEqual_map {a b : List (Value × Value)} :
    valueEqual (.map a) (.map b) = some true ↔ a.length = b.length ∧
      ∀ e ∈ a, ∃ w, hetFind e.1 b = some w ∧ valueEqual e.2 w = some true := by
  simp only [valueEqual]
  split
  · rename_i h; simp only [h, true_and]; exact mapEqual_true
  · rename_i h; simp [h]

theorem cEqualList_true {a b : List Value} (hl : a.length = b.length) :
    cEqualList a b = true ↔ List.Forall₂ (fun x y => cEqual x y = true) a b := by
  induction a generalizing b with
  | nil => cases b <;> simp_all [cEqualList]
  | cons x a ih =>
    cases b with
    | nil => simp at hl
    | cons y b =>
      simp only [cEqualList, List.forall₂_cons, Bool.and_eq_true]
      simp only [List.length_cons, Nat.add_right_cancel_iff] at hl
      rw [← ih hl]

theorem cEqual_list {a b : List Value} :
    cEqual (.list a) (.list b) = true ↔ List.Forall₂ (fun x y => cEqual x y = true) a b := by
  simp only [cEqual, Bool.and_eq_true, beq_iff_eq]
  constructor
  · rintro ⟨h1, h2⟩; exact (cEqualList_true h1).1 h2
  · intro h; exact ⟨h.length_eq, (cEqualList_true h.length_eq).2 h⟩

theorem cEqualMap_true {a b : List (Value × Value)} :
    cEqualMap a b = true ↔ ∀ e ∈ a, ∃ w, mapFind b e.1 = some w ∧ cEqual e.2 w = true := by
  induction a with
  | nil => simp [cEqualMap]
  | cons e a ih =>
    obtain ⟨k, v⟩ := e
    simp only [cEqualMap, List.mem_cons, forall_eq_or_imp]
    cases hf : mapFind b k with
    | none => simp
    | some w =>
      simp only [Bool.and_eq_true, Option.some.injEq, exists_eq_left', ih]

theorem cEqual_map {a b : List (Value × Value)} :
    cEqual (.map a) (.map b) = true ↔ a.length = b.length ∧
      ∀ e ∈ a, ∃ w, mapFind b e.1 = some w ∧ cEqual e.2 w = true := by
  simp only [cEqual, Bool.and_eq_true, beq_iff_eq, cEqualMap_true]

/-- The ways two values can be `Value::Equal`. -/
theorem cEqual_cases {a b : Value} (h : cEqual a b = true) :
    (∃ x y, numOf a = some x ∧ numOf b = some y ∧ x.eq y = true) ∨
    (∃ l l', a = .list l ∧ b = .list l') ∨ (∃ m m', a = .map m ∧ b = .map m') ∨
    (∃ v w, a = .opt (some v) ∧ b = .opt (some w)) ∨ (Leaf a ∧ numOf a = none ∧ a = b) := by
  cases hn : numOf a with
  | some x =>
    cases hm : numOf b with
    | some y =>
      left; refine ⟨x, y, rfl, rfl, ?_⟩
      rw [← cEqual_num hn hm]; exact h
    | none =>
      exfalso
      cases a <;> simp [numOf] at hn <;> cases b <;> simp [numOf] at hm <;> simp [cEqual] at h
  | none =>
    right
    cases a <;> simp [numOf] at hn <;> cases b <;> simp_all [cEqual, Leaf]
    rename_i o o'
    cases o <;> cases o' <;> simp_all [cEqual, Leaf]

theorem valueEqual_cases {a b : Value} (h : valueEqual a b = some true) :
    (∃ x y, numOf a = some x ∧ numOf b = some y ∧ x.eq y = true) ∨
    (∃ l l', a = .list l ∧ b = .list l') ∨ (∃ m m', a = .map m ∧ b = .map m') ∨
    (∃ v w, a = .opt (some v) ∧ b = .opt (some w)) ∨ (Leaf a ∧ numOf a = none ∧ a = b) := by
  cases hn : numOf a with
  | some x =>
    cases hm : numOf b with
    | some y =>
      left; refine ⟨x, y, rfl, rfl, ?_⟩
      have := valueEqual_num hn hm
      rw [h] at this; exact (Option.some.inj this).symm
    | none =>
      exfalso
      cases a <;> simp [numOf] at hn <;> cases b <;> simp [numOf] at hm <;> simp [valueEqual] at h
  | none =>
    right
    cases a <;> simp [numOf] at hn <;> cases b <;> simp_all [valueEqual, Leaf]
    rename_i o o'
    cases o <;> cases o' <;> simp_all [cEqual, Leaf]

theorem valueEqual_opt {a b : Option Value} :
    valueEqual (.opt a) (.opt b) = some (cEqual (.opt a) (.opt b)) := by
  simp only [valueEqual]

theorem leaf_cEqual_self {a : Value} (h : Leaf a) (hn : numOf a = none) (ho : Ordinary a) :
    cEqual a a = true := by
  cases a <;> simp_all [Leaf, numOf, cEqual, Ordinary]
  rename_i o
  cases o <;> simp_all [cEqual, Leaf]

theorem leaf_valueEqual_self {a : Value} (h : Leaf a) (hn : numOf a = none) (ho : Ordinary a) :
    valueEqual a a = some true := by
  cases a <;> simp_all [Leaf, numOf, valueEqual, Ordinary]
  rename_i o
  cases o <;> simp_all [cEqual, Leaf]

theorem listEqual_total {a b : List Value}
    (h : ∀ x ∈ a, ∀ y ∈ b, ∃ r, valueEqual x y = some r) : ∃ r, listEqual a b = some r := by
  induction a generalizing b with
  | nil => exact ⟨true, by simp [listEqual]⟩
  | cons x a ih =>
    cases b with
    | nil => exact ⟨true, by simp [listEqual]⟩
    | cons y b =>
      simp only [listEqual]
      obtain ⟨r, hr⟩ := h x List.mem_cons_self y List.mem_cons_self
      rw [hr]
      cases r with
      | false => exact ⟨false, rfl⟩
      | true => exact ih fun x hx y hy => h x (List.mem_cons_of_mem _ hx) y (List.mem_cons_of_mem _ hy)

theorem mapFind_mem_snd {m : List (Value × Value)} {k v : Value} (h : mapFind m k = some v) :
    ∃ e ∈ m, e.2 = v := ⟨_, (mapFind_some h).1, rfl⟩

theorem hetFind_mem {m : List (Value × Value)} {k v : Value} (h : hetFind k m = some v) :
    ∃ e ∈ m, e.2 = v := by
  unfold hetFind at h
  split at h
  · cases h; rename_i h; exact mapFind_mem_snd h
  · unfold altFind at h
    split at h
    · cases h
    · split at h
      · cases h
        rename_i hw
        split at hw
        · cases hw
        · unfold findInt at hw
          split at hw
          · exact mapFind_mem_snd hw
          · cases hw
      · split at h
        · cases h
        · unfold findUint at h
          split at h
          · exact mapFind_mem_snd h
          · cases h

theorem mapEqual_total {a b : List (Value × Value)}
    (h : ∀ x ∈ a, ∀ y ∈ b, ∃ r, valueEqual x.2 y.2 = some r) : ∃ r, mapEqual a b = some r := by
  induction a with
  | nil => exact ⟨true, by simp [mapEqual]⟩
  | cons x a ih =>
    obtain ⟨k, v⟩ := x
    simp only [mapEqual]
    cases hf : hetFind k b with
    | none => exact ⟨false, rfl⟩
    | some w =>
      obtain ⟨e, he, rfl⟩ := hetFind_mem hf
      obtain ⟨r, hr⟩ := h (k, v) List.mem_cons_self e he
      simp only [hr]
      cases r with
      | false => exact ⟨false, rfl⟩
      | true => exact ih fun x hx y hy => h x (List.mem_cons_of_mem _ hx) y hy

/-- No error or unknown, throughout. -/
def NoErr : Value → Prop
  | .error _ => False
  | .unknown _ => False
  | _ => True

theorem NoErr.of_ordinary {v : Value} (h : Ordinary v) : NoErr v := by
  cases v <;> simp_all [Ordinary, NoErr]

theorem Spec.Deep.mono {P Q : Value → Prop} (h : ∀ v, P v → Q v) {v : Value} (hv : Deep P v) : Deep Q v :=
  fun w hw => h w (hv w hw)

theorem valueEqual_total (a : Value) : ∀ b, Deep NoErr a → Deep NoErr b →
    ∃ r, valueEqual a b = some r := by
  induction a using value_induct with
  | hleaf a ha =>
    intro b h1 h2
    have h1 := h1.self
    have h2 := h2.self
    cases a <;> simp [Leaf, NoErr] at ha h1 <;> cases b <;> simp_all [NoErr, valueEqual]
  | hlist l ih =>
    intro b h1 h2
    have h2' := h2.self
    cases b with
    | list l' =>
      simp only [valueEqual]
      split
      · exact listEqual_total fun x hx y hy =>
          ih x hx y ((deep_list.1 h1).2 x hx) ((deep_list.1 h2).2 y hy)
      · exact ⟨_, rfl⟩
    | error _ => exact h2'.elim
    | unknown _ => exact h2'.elim
    | _ => exact ⟨false, by simp [valueEqual]⟩
  | hmap l ih =>
    intro b h1 h2
    have h2' := h2.self
    cases b with
    | map l' =>
      simp only [valueEqual]
      split
      · exact mapEqual_total fun x hx y hy =>
          (ih x hx).2 y.2 ((deep_map.1 h1).2 x hx).2 ((deep_map.1 h2).2 y hy).2
      · exact ⟨_, rfl⟩
    | error _ => exact h2'.elim
    | unknown _ => exact h2'.elim
    | _ => exact ⟨false, by simp [valueEqual]⟩
  | hopt v ih =>
    intro b h1 h2
    have h2' := h2.self
    cases b with
    | opt o => exact ⟨_, valueEqual_opt⟩
    | error _ => exact h2'.elim
    | unknown _ => exact h2'.elim
    | _ => exact ⟨false, by simp [valueEqual]⟩

/-! ## Keys of data maps -/

theorem mapFind_of_mem {m : List (Value × Value)} (ho : Ordinary (.map m)) {e : Value × Value}
    (he : e ∈ m) : mapFind m e.1 = some e.2 := by
  obtain ⟨hk, hp⟩ := ho
  induction m with
  | nil => simp at he
  | cons f m ih =>
    obtain ⟨k, v⟩ := f
    rw [List.pairwise_cons] at hp
    simp only [mapFind]
    rcases List.mem_cons.1 he with rfl | h
    · rw [if_pos ((keyEq_iff _ _).2 ⟨hk _ List.mem_cons_self, rfl⟩)]
    · rw [if_neg (by rw [hp.1 e h]; simp)]
      exact ih h (fun e he => hk e (List.mem_cons_of_mem _ he)) hp.2

theorem keys_nodup {m : List (Value × Value)} (ho : Ordinary (.map m)) :
    (m.map Prod.fst).Nodup := by
  obtain ⟨hk, hp⟩ := ho
  rw [List.Nodup, List.pairwise_map]
  refine List.Pairwise.imp_of_mem ?_ hp
  intro e f he hf h heq
  rw [(keyEq_iff _ _).2 ⟨hk e he, heq⟩] at h
  cases h

/-- Counting: an injective map between equally long duplicate-free key lists is onto. -/
theorem subset_swap {α : Type} {l l' : List α} (hn : l.Nodup) (hs : l ⊆ l')
    (hl : l.length = l'.length) : l' ⊆ l :=
  ((hn.subperm hs).perm_of_length_le (Nat.le_of_eq hl.symm)).symm.subset

theorem keyKind_deep {P : Value → Prop} {k : Value} (hk : keyKind k = true) (h : P k) : Deep P k :=
  (deep_leaf (by cases k <;> simp_all [keyKind, Leaf])).2 h

/-- Under unmixed keys, the entry found for a key is *the* entry with that key. -/
theorem hetFind_unique {m : List (Value × Value)} (hd : IsData (.map m)) (hu : UnmixedKeys (.map m))
    {k : Value} (hk : Ordinary k) (hkk : keyKind k = true) {e : Value × Value} (he : e ∈ m)
    (h : keyId k = keyId e.1) : hetFind k m = some e.2 := by
  obtain ⟨w, hw⟩ := hetFind_isSome hk (fun e he => ((deep_map.1 hd).2 e he).1.self) he
    ((denotes_iff hkk).2 h)
  obtain ⟨f, hf, hden, rfl⟩ := hetFind_some hk hw
  have : f = e := List.inj_on_of_nodup_map hu hf he (((denotes_iff hkk).1 hden).symm.trans h)
  rw [hw, this]

end Cel.Data
