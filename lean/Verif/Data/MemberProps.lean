import Verif.Data.EqualProps
import Verif.Data.Steps

set_option linter.unusedSimpArgs false
set_option linter.unusedVariables false

/-!
# C35: membership, indexing and equality agree; C34 for optionals
-/

namespace Cel.Data
open Cel Cel.Num Cel.Eval Cel.Data.Spec

/-! ## `Value::Equal` against `==` -/

/-- `Value::Equal` implies `==` on data. -/
theorem cEqual_imp_valueEqual (a : Value) : ∀ b, IsData a → IsData b → cEqual a b = true →
    valueEqual a b = some true := by
  induction a using value_induct with
  | hleaf a ha =>
    intro b h1 h2 h
    rcases cEqual_cases h with ⟨x, y, hx, hy, hxy⟩ | ⟨_, _, rfl, _⟩ | ⟨_, _, rfl, _⟩ |
      ⟨_, _, rfl, _⟩ | ⟨hl, hn, rfl⟩
    · rw [valueEqual_num hx hy, hxy]
    · exact ha.elim
    · exact ha.elim
    · exact ha.elim
    · exact leaf_valueEqual_self hl hn h1.self
  | hlist l ih =>
    intro b h1 h2 h
    rcases cEqual_cases h with ⟨x, y, hx, hy, hxy⟩ | ⟨_, l', _, rfl⟩ | ⟨_, _, hc, _⟩ |
      ⟨_, _, hc, _⟩ | ⟨hc, _⟩
    · cases hx
    · rw [cEqual_list] at h; rw [valueEqual_list]
      have := forall₂_flip (S := fun y x => valueEqual x y = some true) h fun x hx y hy =>
        ih x hx y ((deep_list.1 h1).2 x hx) ((deep_list.1 h2).2 y hy)
      exact this.flip
    · cases hc
    · cases hc
    · exact hc.elim
  | hmap m ih =>
    intro b h1 h2 h
    rcases cEqual_cases h with ⟨x, y, hx, hy, hxy⟩ | ⟨_, l', hc, _⟩ | ⟨_, m', _, rfl⟩ |
      ⟨_, _, hc, _⟩ | ⟨hc, _⟩
    · cases hx
    · cases hc
    · rw [cEqual_map] at h; rw [valueEqual_map]
      refine ⟨h.1, fun e he => ?_⟩
      obtain ⟨w, hw, hew⟩ := h.2 e he
      refine ⟨w, by unfold hetFind; rw [hw], (ih e he).2 w ((deep_map.1 h1).2 e he).2
        ((deep_map.1 h2).2 _ (mapFind_some hw).1).2 hew⟩
    · cases hc
    · exact hc.elim
  | hopt v ih =>
    intro b h1 h2 h
    rcases cEqual_cases h with ⟨x, y, hx, hy, hxy⟩ | ⟨_, l', hc, _⟩ | ⟨_, _, hc, _⟩ |
      ⟨_, w, _, rfl⟩ | ⟨hc, _⟩
    · cases hx
    · cases hc
    · cases hc
    · rw [valueEqual_opt, h]
    · exact hc.elim

/-- No map uses `uint` keys. -/
def NoUintKeys : Value → Prop
  | .map m => ∀ e ∈ m, isUint e.1 = false
  | _ => True

theorem valueEqual_imp_cEqual (a : Value) : ∀ b, IsData a → IsData b → Deep NoUintKeys a →
    Deep NoUintKeys b → valueEqual a b = some true → cEqual a b = true := by
  induction a using value_induct with
  | hleaf a ha =>
    intro b h1 h2 n1 n2 h
    rcases valueEqual_cases h with ⟨x, y, hx, hy, hxy⟩ | ⟨_, _, rfl, _⟩ | ⟨_, _, rfl, _⟩ |
      ⟨_, _, rfl, _⟩ | ⟨hl, hn, rfl⟩
    · rw [cEqual_num hx hy, hxy]
    · exact ha.elim
    · exact ha.elim
    · exact ha.elim
    · exact leaf_cEqual_self hl hn h1.self
  | hlist l ih =>
    intro b h1 h2 n1 n2 h
    rcases valueEqual_cases h with ⟨x, y, hx, hy, hxy⟩ | ⟨_, l', _, rfl⟩ | ⟨_, _, hc, _⟩ |
      ⟨_, _, hc, _⟩ | ⟨hc, _⟩
    · cases hx
    · rw [valueEqual_list] at h; rw [cEqual_list]
      have := forall₂_flip (S := fun y x => cEqual x y = true) h fun x hx y hy =>
        ih x hx y ((deep_list.1 h1).2 x hx) ((deep_list.1 h2).2 y hy) ((deep_list.1 n1).2 x hx)
          ((deep_list.1 n2).2 y hy)
      exact this.flip
    · cases hc
    · cases hc
    · exact hc.elim
  | hmap m ih =>
    intro b h1 h2 n1 n2 h
    rcases valueEqual_cases h with ⟨x, y, hx, hy, hxy⟩ | ⟨_, l', hc, _⟩ | ⟨_, m', _, rfl⟩ |
      ⟨_, _, hc, _⟩ | ⟨hc, _⟩
    · cases hx
    · cases hc
    · rw [valueEqual_map] at h; rw [cEqual_map]
      refine ⟨h.1, fun e he => ?_⟩
      obtain ⟨w, hw, hew⟩ := h.2 e he
      have hk := h1.self.1 e he
      have ho := ((deep_map.1 h1).2 e he).1.self
      obtain ⟨f, hf, hd, rfl⟩ := hetFind_some ho hw
      have hid := (denotes_iff hk).1 hd
      have hef : e.1 = f.1 := by
        have hu1 := n1.self e he
        have hu2 := n2.self f hf
        have hk2 := h2.self.1 f hf
        revert hid hu1 hu2 hk hk2
        cases e.1 <;> cases f.1 <;> simp [keyKind, keyId, isUint]
      refine ⟨f.2, by rw [hef]; exact mapFind_of_mem h2.self hf, (ih e he).2 f.2
        ((deep_map.1 h1).2 e he).2 ((deep_map.1 h2).2 f hf).2 ((deep_map.1 n1).2 e he).2
        ((deep_map.1 n2).2 f hf).2 hew⟩
    · cases hc
    · exact hc.elim
  | hopt v ih =>
    intro b h1 h2 n1 n2 h
    rcases valueEqual_cases h with ⟨x, y, hx, hy, hxy⟩ | ⟨_, l', hc, _⟩ | ⟨_, _, hc, _⟩ |
      ⟨_, w, _, rfl⟩ | ⟨hc, _⟩
    · cases hx
    · cases hc
    · cases hc
    · rw [valueEqual_opt, Option.some.injEq] at h; exact h
    · exact hc.elim

/-! ## `in` on lists -/

/-- **C35 (lists).** If `x in l` is true then some element equals `x`; and, for data in which no
map has `uint` keys, conversely: `x in l` is true exactly when some element equals `x`. -/
theorem C35_in_list_agrees_with_equality_partial (c : StepCfg) (x : Value) (l : List Value)
    (hu : c.unknowns = false) (hx : IsData x) (hl : IsData (.list l)) :
    ∃ r, inStep c [⟨x, none⟩, ⟨.list l, none⟩] = .ok ⟨.bool r, none⟩ ∧
      (r = true → ∃ e ∈ l, valueEqual e x = some true) ∧
      (Deep NoUintKeys x → Deep NoUintKeys (.list l) →
        (∃ e ∈ l, valueEqual e x = some true) → r = true) := by
  refine ⟨listContains l x, ?_, ?_, ?_⟩
  · have := hx.self
    cases x <;> simp_all [inStep, inEval, Ordinary]
  · intro h
    obtain ⟨e, he, h⟩ := List.any_eq_true.1 h
    exact ⟨e, he, cEqual_imp_valueEqual e x ((deep_list.1 hl).2 e he) hx h⟩
  · rintro n1 n2 ⟨e, he, h⟩
    exact List.any_eq_true.2 ⟨e, he, valueEqual_imp_cEqual e x ((deep_list.1 hl).2 e he) hx
      ((deep_list.1 n2).2 e he) n1 h⟩

/-- What is missing: `{1: 2} == {1u: 2}` is true but `{1u: 2} in [{1: 2}]` is false, and
`optional.of({1: 2}) == optional.of({1u: 2})` is false. -/
theorem C35_in_list_disagrees_on_uint_keys :
    let a := Value.map [(.int 1, .int 2)]
    let b := Value.map [(.uint 1, .int 2)]
    IsData a ∧ IsData b ∧ valueEqual a b = some true ∧ listContains [a] b = false ∧
    valueEqual (.opt (some a)) (.opt (some b)) = some false := by
  refine ⟨?_, ?_, by decide +kernel, by decide +kernel, by decide +kernel⟩
  · intro w hw
    simp [nested, nestedMap] at hw
    rcases hw with rfl | rfl | rfl <;>
      simp [Ordinary, keyKind, keyEq, InI64, InU64, i64Min, i64Max, u64Max]
  · intro w hw
    simp [nested, nestedMap] at hw
    rcases hw with rfl | rfl | rfl <;>
      simp [Ordinary, keyKind, keyEq, InI64, InU64, i64Min, i64Max, u64Max]

/-! ## `in` and indexing on maps -/

/-- Keys that may be looked up: those that may be stored, and doubles. -/
def lookupKind (k : Value) : Bool := keyKind k || isDbl k

theorem mapHas_iff {m : List (Value × Value)} {k : Value} (hk : keyKind k = true) :
    mapHas m k = true ↔ ∃ v, (k, v) ∈ m := by
  unfold mapHas; rw [mapFind_isSome]; simp [hk]

theorem value_int_inj {x y : Int} : (some (Num.Spec.Ext.num (x : ℚ)) = some (Num.Spec.Ext.num (y : ℚ))) ↔ x = y := by
  simp

theorem in_int_iff {m : List (Value × Value)} (hm : ∀ e ∈ m, Ordinary e.1) {n : Number} (hn : n.WF) :
    hasInt m n = true ↔
      ∃ i v, Num.Spec.value n = some (.num ((i : Int) : ℚ)) ∧ (Value.int i, v) ∈ m := by
  unfold hasInt
  constructor
  · intro h
    split at h
    · rename_i i hi
      obtain ⟨v, hv⟩ := (mapHas_iff rfl).1 h
      exact ⟨i, v, ((losslessInt_iff n hn i).1 hi).2, hv⟩
    · cases h
  · rintro ⟨i, v, hv, hm'⟩
    rw [(losslessInt_iff n hn i).2 ⟨hm _ hm', hv⟩]
    exact (mapHas_iff rfl).2 ⟨v, hm'⟩

theorem in_uint_iff {m : List (Value × Value)} (hm : ∀ e ∈ m, Ordinary e.1) {n : Number} (hn : n.WF) :
    hasUint m n = true ↔
      ∃ i v, Num.Spec.value n = some (.num ((i : Int) : ℚ)) ∧ (Value.uint i, v) ∈ m := by
  unfold hasUint
  constructor
  · intro h
    split at h
    · rename_i i hi
      obtain ⟨v, hv⟩ := (mapHas_iff rfl).1 h
      exact ⟨i, v, ((losslessUint_iff n hn i).1 hi).2, hv⟩
    · cases h
  · rintro ⟨i, v, hv, hm'⟩
    rw [(losslessUint_iff n hn i).2 ⟨hm _ hm', hv⟩]
    exact (mapHas_iff rfl).2 ⟨v, hm'⟩

theorem denotes_num {k s : Value} {n : Number} (h : numOf k = some n) :
    Denotes k s ↔ ∃ i : Int, Num.Spec.value n = some (.num i) ∧ (s = .int i ∨ s = .uint i) := by
  unfold Denotes
  rw [h]
  constructor
  · rintro ⟨i, h1, h2⟩; exact ⟨i, h1, keyId_n h2⟩
  · rintro ⟨i, h1, rfl | rfl⟩ <;> exact ⟨i, h1, rfl⟩

theorem inMap_spec {m : List (Value × Value)} (hm : ∀ e ∈ m, Ordinary e.1) {k : Value}
    (hk : Ordinary k) (hl : lookupKind k = true) :
    ∃ r, inMap k m = .bool r ∧ (r = true ↔ ∃ e ∈ m, Denotes k e.1) := by
  have pair : ∀ {s : Value}, (∃ v, (s, v) ∈ m) ↔ ∃ e ∈ m, e.1 = s := by
    intro s
    constructor
    · rintro ⟨v, h⟩; exact ⟨_, h, rfl⟩
    · rintro ⟨⟨a, v⟩, h, rfl⟩; exact ⟨v, h⟩
  cases k <;> simp [lookupKind, keyKind, isDbl] at hl
  · rename_i b
    refine ⟨_, rfl, ?_⟩
    rw [mapHas_iff rfl, pair]
    refine exists_congr fun e => and_congr_right fun he => ?_
    rw [denotes_iff rfl]
    constructor
    · intro h; rw [h]
    · intro h; exact keyId_b h.symm
  · rename_i i
    refine ⟨_, rfl, ?_⟩
    rw [Bool.or_eq_true, mapHas_iff rfl, in_uint_iff hm (n := .int i) hk]
    constructor
    · rintro (⟨v, hv⟩ | ⟨j, v, hj, hv⟩)
      · exact ⟨_, hv, (denotes_num rfl).2 ⟨i, rfl, Or.inl rfl⟩⟩
      · exact ⟨_, hv, (denotes_num rfl).2 ⟨j, hj, Or.inr rfl⟩⟩
    · rintro ⟨⟨s, v⟩, he, hd⟩
      obtain ⟨j, hj, rfl | rfl⟩ := (denotes_num rfl).1 hd
      · have := value_int_inj.1 hj; subst this; exact Or.inl ⟨v, he⟩
      · exact Or.inr ⟨j, v, hj, he⟩
  · rename_i i
    refine ⟨_, rfl, ?_⟩
    rw [Bool.or_eq_true, mapHas_iff rfl, in_int_iff hm (n := .uint i) hk]
    constructor
    · rintro (⟨v, hv⟩ | ⟨j, v, hj, hv⟩)
      · exact ⟨_, hv, (denotes_num rfl).2 ⟨i, rfl, Or.inr rfl⟩⟩
      · exact ⟨_, hv, (denotes_num rfl).2 ⟨j, hj, Or.inl rfl⟩⟩
    · rintro ⟨⟨s, v⟩, he, hd⟩
      obtain ⟨j, hj, rfl | rfl⟩ := (denotes_num rfl).1 hd
      · exact Or.inr ⟨j, v, hj, he⟩
      · have := value_int_inj.1 hj; subst this; exact Or.inl ⟨v, he⟩
  · rename_i d
    refine ⟨_, rfl, ?_⟩
    rw [Bool.or_eq_true, in_int_iff hm (n := .dbl d) hk, in_uint_iff hm (n := .dbl d) hk]
    constructor
    · rintro (⟨j, v, hj, hv⟩ | ⟨j, v, hj, hv⟩)
      · exact ⟨_, hv, (denotes_num rfl).2 ⟨j, hj, Or.inl rfl⟩⟩
      · exact ⟨_, hv, (denotes_num rfl).2 ⟨j, hj, Or.inr rfl⟩⟩
    · rintro ⟨⟨s, v⟩, he, hd⟩
      obtain ⟨j, hj, rfl | rfl⟩ := (denotes_num rfl).1 hd
      · exact Or.inl ⟨j, v, hj, he⟩
      · exact Or.inr ⟨j, v, hj, he⟩
  · rename_i s
    refine ⟨_, rfl, ?_⟩
    rw [mapHas_iff rfl, pair]
    refine exists_congr fun e => and_congr_right fun he => ?_
    rw [denotes_iff rfl]
    constructor
    · intro h; rw [h]
    · intro h; exact keyId_s h.symm

theorem lookupInMap_spec (c : StepCfg) {m : List (Value × Value)} (hm : ∀ e ∈ m, Ordinary e.1)
    {k : Value} (hk : Ordinary k) (hl : lookupKind k = true) :
    (∃ e ∈ m, Denotes k e.1 ∧ lookupInMap c m k = e.2) ∨
    ((∀ e ∈ m, ¬ Denotes k e.1) ∧ lookupInMap c m k = .error (noSuchKey (c.debugString k))) := by
  unfold lookupInMap
  cases hn : numOf k with
  | none =>
    simp only []
    have hkk : keyKind k = true := by
      cases k <;> simp_all [lookupKind, keyKind, isDbl, numOf]
    rw [if_pos hkk]
    cases hf : mapFind m k with
    | some v => exact Or.inl ⟨_, (mapFind_some hf).1, (denotes_iff hkk).2 rfl, rfl⟩
    | none =>
      refine Or.inr ⟨fun e he hd => ?_, rfl⟩
      have hid := (denotes_iff hkk).1 hd
      have hek : k = e.1 := by
        cases k <;> simp [keyKind] at hkk <;> simp [numOf] at hn
        · exact (keyId_b hid.symm).symm
        · exact (keyId_s hid.symm).symm
      obtain ⟨s, v⟩ := e
      exact mapFind_none hkk hf v (by rw [hek]; exact he)
  | some n =>
    have hwf := ordinary_num hk hn
    simp only []
    split
    · rename_i v hv
      split at hv
      · have := mapFind_some hv
        exact Or.inl ⟨_, this.1, (denotes_iff this.2).2 rfl, rfl⟩
      · cases hv
    · split
      · rename_i v hv
        obtain ⟨i, h1, h2⟩ := findInt_some hwf hv
        exact Or.inl ⟨_, h2, (denotes_num hn).2 ⟨i, h1, Or.inl rfl⟩, rfl⟩
      · rename_i hni
        split
        · rename_i v hv
          obtain ⟨i, h1, h2⟩ := findUint_some hwf hv
          exact Or.inl ⟨_, h2, (denotes_num hn).2 ⟨i, h1, Or.inr rfl⟩, rfl⟩
        · rename_i hnu
          refine Or.inr ⟨?_, rfl⟩
          rintro ⟨s, v⟩ he hd
          obtain ⟨i, hi, rfl | rfl⟩ := (denotes_num hn).1 hd
          · obtain ⟨w, hw⟩ := findInt_isSome hwf (hm _ he) hi he
            rw [hw] at hni; cases hni
          · obtain ⟨w, hw⟩ := findUint_isSome hwf (hm _ he) hi he
            rw [hw] at hnu; cases hnu

/-- **C35 (maps).** For a key that is a bool, string or number, on a map of data: `k in m` is a
boolean, true exactly when some stored key is `k` (numbers by mathematical value, whatever their
types); `m[k]` is then the value stored under such a key, and otherwise the no-such-key error; so
`k in m` is true exactly when `m[k]` is not an error.  For keys of any other kind both are errors. -/
theorem C35_in_map_agrees_with_indexing (c : StepCfg) (m : List (Value × Value)) (k : Value)
    (hu : c.unknowns = false) (hm : IsData (.map m)) (hk : IsData k) :
    (lookupKind k = true →
      ∃ r v, inStep c [⟨k, none⟩, ⟨.map m, none⟩] = .ok ⟨.bool r, none⟩ ∧
        indexStep c [⟨.map m, none⟩, ⟨k, none⟩] = .ok ⟨v, none⟩ ∧
        (r = true ↔ ∃ e ∈ m, Denotes k e.1) ∧
        (r = true → ∃ e ∈ m, Denotes k e.1 ∧ v = e.2) ∧
        (r = false → v = .error (noSuchKey (c.debugString k))) ∧
        (r = true ↔ v.isError = false)) ∧
    (lookupKind k = false →
      inStep c [⟨k, none⟩, ⟨.map m, none⟩] = .ok ⟨.error (noOverload "@in"), none⟩ ∧
      indexStep c [⟨.map m, none⟩, ⟨k, none⟩] = .ok ⟨.error (badKeyKind k), none⟩) := by
  have hord : ∀ e ∈ m, Ordinary e.1 := fun e he => ((deep_map.1 hm).2 e he).1.self
  have hin : inStep c [⟨k, none⟩, ⟨.map m, none⟩] = .ok ⟨inMap k m, none⟩ := by
    have := hk.self
    cases k <;> simp_all [inStep, inEval, Ordinary]
  have hix : indexStep c [⟨.map m, none⟩, ⟨k, none⟩] = .ok ⟨lookupInMap c m k, none⟩ := by
    have := hk.self
    cases k <;> simp_all [indexStep, indexEval, indexTrail, Ordinary, lookupIn]
  rw [hin, hix]
  constructor
  · intro hl
    obtain ⟨r, hr, hiff⟩ := inMap_spec hord hk.self hl
    rw [hr]
    refine ⟨r, _, rfl, rfl, hiff, ?_, ?_, ?_⟩
    · intro h
      rcases lookupInMap_spec c hord hk.self hl with ⟨e, he, hd, hv⟩ | ⟨hn, _⟩
      · exact ⟨e, he, hd, hv⟩
      · obtain ⟨e, he, hd⟩ := hiff.1 h; exact absurd hd (hn e he)
    · intro h
      rcases lookupInMap_spec c hord hk.self hl with ⟨e, he, hd, hv⟩ | ⟨hn, h2⟩
      · rw [hiff.2 ⟨e, he, hd⟩] at h; cases h
      · exact h2
    · rcases lookupInMap_spec c hord hk.self hl with ⟨e, he, hd, hv⟩ | ⟨hn, h2⟩
      · rw [hv]
        have : e.2.isError = false := by
          have := ((deep_map.1 hm).2 e he).2.self
          cases h : e.2 <;> simp_all [Ordinary, Value.isError]
        simp [this, hiff.2 ⟨e, he, hd⟩]
      · rw [h2, hiff]
        simp only [Value.isError, Bool.true_eq_false, iff_false, not_exists, not_and]
        exact hn
  · intro hl
    have := hk.self
    cases k <;> simp_all [lookupKind, keyKind, isDbl, inMap, lookupInMap, numOf]

/-- **C35 (keys).** For integers exact as doubles, "`k` denotes the stored key" is exactly `==`, so
`k in m` is true exactly when some stored key equals `k`. -/
theorem C35_in_map_agrees_with_key_equality_partial (c : StepCfg) (m : List (Value × Value)) (k : Value)
    (hu : c.unknowns = false) (hm : IsData (.map m)) (hk : IsData k) (hl : lookupKind k = true)
    (hem : Deep ExactNumber (.map m)) (hek : ExactNumber k) :
    ∃ r, inStep c [⟨k, none⟩, ⟨.map m, none⟩] = .ok ⟨.bool r, none⟩ ∧
      (r = true ↔ ∃ e ∈ m, valueEqual e.1 k = some true) := by
  obtain ⟨r, v, h1, -, h2, -⟩ := (C35_in_map_agrees_with_indexing c m k hu hm hk).1 hl
  refine ⟨r, h1, h2.trans ?_⟩
  refine exists_congr fun e => and_congr_right fun he => ?_
  have hs := ((deep_map.1 hm).2 e he).1.self
  have hsk := hm.self.1 e he
  have hes := ((deep_map.1 hem).2 e he).1.self
  generalize e.1 = s at hs hsk hes
  cases hn : numOf k with
  | none =>
    have hkk : keyKind k = true := by cases k <;> simp_all [lookupKind, keyKind, isDbl, numOf]
    rw [denotes_iff hkk]
    cases k <;> simp [keyKind] at hkk <;> simp [numOf] at hn <;>
      cases s <;> simp [keyKind] at hsk <;>
      first
        | (simp [keyId, valueEqual]; done)
        | (simp only [keyId, valueEqual, Option.some.injEq, KeyId.b.injEq, KeyId.s.injEq, beq_iff_eq]
           exact eq_comm)
  | some n =>
    rw [denotes_num hn]
    cases hns : numOf s with
    | none =>
      have : valueEqual s k = some false := by
        cases s <;> simp [keyKind] at hsk <;> simp [numOf] at hns <;>
          cases k <;> simp [numOf] at hn <;> simp [valueEqual]
      rw [this]
      constructor
      · rintro ⟨i, -, rfl | rfl⟩ <;> cases hns
      · intro h; cases h
    | some x =>
      rw [valueEqual_num hns hn, Option.some.injEq,
        number_eq_iff x n (ordinary_num hs hns) (ordinary_num hk.self hn)
          (noRounding_of_exact hes hek hns hn)]
      constructor
      · rintro ⟨i, hi, rfl | rfl⟩
        · cases hns; exact ⟨_, rfl, hi⟩
        · cases hns; exact ⟨_, rfl, hi⟩
      · rintro ⟨w, hw, hw2⟩
        cases s <;> simp [keyKind] at hsk <;> simp [numOf] at hns
        · subst hns; cases hw; exact ⟨_, hw2, Or.inl rfl⟩
        · subst hns; cases hw; exact ⟨_, hw2, Or.inr rfl⟩

/-- What is missing: beyond 2^53 `==` rounds the integer, membership does not.
`9007199254740992.0 == 9007199254740993` is true, but
`9007199254740992.0 in {9007199254740993: true}` is false. -/
theorem C35_in_map_disagrees_beyond_double_precision :
    let d := Value.dbl (Dbl.ofInt 9007199254740992)
    valueEqual (.int 9007199254740993) d = some true ∧
    inMap d [(.int 9007199254740993, .bool true)] = .bool false := by
  refine ⟨by decide +kernel, ?_⟩
  have h : ∀ b, b = false → Value.bool b = .bool false := fun b hb => by rw [hb]
  exact h _ (by decide +kernel)

/-- With `enable_fast_builtins` off, the registered `@in` overloads agree with the step except for
`uint` keys, which they do not find under an equal `int` key. -/
theorem C35_registered_in_overloads (m : List (Value × Value)) (k : Value) :
    (isUint k = false → inMapFn k m = inMap k m) ∧
    (isUint k = true → inMapFn k m = .bool (mapHas m k)) := by
  constructor
  · intro h; cases k <;> simp_all [inMapFn, inMap, isUint]
  · intro h; cases k <;> simp_all [inMapFn, isUint]

/-- The defect: `1u in {1: true}` is false through the registered overloads although
`{1: true}[1u]` is `true`. -/
theorem C35_registered_uint_membership_defect (c : StepCfg) :
    inMapFn (.uint 1) [(.int 1, .bool true)] = .bool false ∧
    lookupInMap c [(.int 1, .bool true)] (.uint 1) = .bool true ∧
    inMap (.uint 1) [(.int 1, .bool true)] = .bool true := by
  refine ⟨rfl, rfl, rfl⟩

/-! ## Indexing lists -/

/-- **C35 (list indexing).** On a list, `l[k]` is the element at index `i` when `k` is a number equal
to the integer `i` with `0 ≤ i < size`; any other key gives an "Index error". -/
theorem C35_list_index (c : StepCfg) (l : List Value) (k : Value) (hu : c.unknowns = false)
    (hk : IsData k) :
    ∃ v, indexStep c [⟨.list l, none⟩, ⟨k, none⟩] = .ok ⟨v, none⟩ ∧
      (∀ (n : Number) (i : Nat), numOf k = some n → Num.Spec.value n = some (.num (i : Int)) →
        InI64 i → ∀ w, l[i]? = some w → v = w) ∧
      ((¬ ∃ (n : Number) (i : Nat), numOf k = some n ∧ Num.Spec.value n = some (.num (i : Int)) ∧
          InI64 i ∧ i < l.length) →
        v = .error (indexTypeError k) ∨ ∃ i, v = .error (indexRangeError i l.length)) := by
  have hix : indexStep c [⟨.list l, none⟩, ⟨k, none⟩] = .ok ⟨lookupInList l k, none⟩ := by
    have := hk.self
    cases k <;> simp_all [indexStep, indexEval, indexTrail, Ordinary, lookupIn]
  refine ⟨_, hix, ?_, ?_⟩
  · intro n i hn hv hr w hw
    have hlt : i < l.length := (List.getElem?_eq_some_iff.1 hw).1
    unfold lookupInList
    rw [hn]
    simp only [(losslessInt_iff n (ordinary_num hk.self hn) i).2 ⟨hr, hv⟩]
    rw [if_neg (by omega)]
    simp [hw]
  · intro h
    unfold lookupInList
    split
    · exact Or.inl rfl
    · rename_i i hi
      split
      · exact Or.inr ⟨i, rfl⟩
      · rename_i hlt
        exfalso
        cases hn : numOf k with
        | none => rw [hn] at hi; cases hi
        | some n =>
          rw [hn] at hi
          have := (losslessInt_iff n (ordinary_num hk.self hn) i).1 hi
          refine h ⟨n, i.toNat, hn, ?_, ?_, ?_⟩
          · rw [this.2]; congr 2; norm_cast; omega
          · have := this.1; rw [Int.toNat_of_nonneg (by omega)]; exact this
          · omega

/-! ## Samples -/

/-- Options used in the samples. -/
def sampleCfg : StepCfg where
  unknowns := false
  missing := false
  optionals := true
  pats := []
  missingPats := []
  debugString := fun _ => ""
  typeName := fun _ => ""
  structGet := fun _ _ _ => .err ⟨.notFound, ""⟩
  structHas := fun _ _ _ => .ok false

example : ∃ r v, inStep sampleCfg [⟨.uint 1, none⟩, ⟨sample, none⟩] = .ok ⟨.bool r, none⟩ ∧
    indexStep sampleCfg [⟨sample, none⟩, ⟨.uint 1, none⟩] = .ok ⟨v, none⟩ ∧
    (r = true ↔ v.isError = false) := by
  have hk : IsData (.uint 1) := by
    intro w hw; simp [nested] at hw; subst hw; simp [Ordinary, InU64, u64Max]
  obtain ⟨r, v, h1, h2, -, -, -, h3⟩ :=
    (C35_in_map_agrees_with_indexing sampleCfg _ (.uint 1) rfl sample_ok.1 hk).1 rfl
  exact ⟨r, v, h1, h2, h3⟩

example : ∃ r, inStep sampleCfg [⟨sample, none⟩, ⟨.list [sample], none⟩] = .ok ⟨.bool r, none⟩ ∧
    (r = true → ∃ e ∈ [sample], valueEqual e sample = some true) := by
  obtain ⟨r, h1, h2, -⟩ := C35_in_list_agrees_with_equality_partial sampleCfg sample [sample] rfl
    sample_ok.1 (deep_list.2 ⟨trivial, fun x hx => by rw [List.mem_singleton.1 hx]; exact sample_ok.1⟩)
  exact ⟨r, h1, h2⟩

end Cel.Data
