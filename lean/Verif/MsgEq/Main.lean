import Verif.MsgEq.Props

/-! # Field equality agrees with the equality of the values -/

set_option linter.dupNamespace false
set_option linter.unusedSimpArgs false
set_option linter.unusedVariables false

namespace Cel.MsgEq
open Cel Cel.Num Cel.Eval Cel.Data Cel.Data.Spec Cel.Json Cel.MsgEq.Spec

/-- **C79 (keys).** A map key is looked up in a map field of another key type exactly when that type
has the same key: the key looked up is the one of that type with the same value, and there is none
exactly when the type has no such key. -/
theorem C79_keys (k : Key) (t : KType) (hk : KeyWF k) (k' : Key) :
    coalesce k t = some k' ↔ keyType k' = t ∧ KeyWF k' ∧ SameKey k k' := by
  unfold SameKey
  cases k <;> cases t <;> cases k' <;>
    simp [coalesce, keyType, KeyWF, keyNum, In32, InU32, InI64, InU64, i64Min, i64Max, u64Max] at hk ⊢ <;>
    omega

theorem keyVal_kind (k : Key) : keyKind (keyVal k) = true := by cases k <;> rfl

theorem keyVal_ordinary {k : Key} (h : KeyWF k) : Ordinary (keyVal k) := by
  cases k <;> first | exact trivial | exact in32_64 h | exact inU32_64 h | exact h

theorem keyId_same (a b : Key) : keyId (keyVal a) = keyId (keyVal b) ↔ SameKey a b := by
  unfold SameKey
  cases a <;> cases b <;> simp [keyId, keyVal, keyNum, eq_comm]

theorem sameKey_type {a b : Key} (h : SameKey a b) (ht : keyType a = keyType b) : a = b := by
  rcases h with h | ⟨i, h1, h2⟩
  · exact h
  · cases a <;> cases b <;> simp [keyType, keyNum] at * <;> rw [h1, h2]

theorem lookup_mem {m : List (Key × Elem)} {k : Key} {w : Elem} (h : lookup m k = some w) :
    (k, w) ∈ m := by
  induction m with
  | nil => cases h
  | cons e m ih =>
    obtain ⟨k', v⟩ := e
    simp only [lookup] at h
    split at h
    · rename_i hk; cases h; rw [hk]; exact List.mem_cons_self
    · exact List.mem_cons_of_mem _ (ih h)

theorem lookup_of_mem {m : List (Key × Elem)} (hn : (m.map Prod.fst).Nodup) {k : Key} {w : Elem}
    (h : (k, w) ∈ m) : lookup m k = some w := by
  induction m with
  | nil => cases h
  | cons e m ih =>
    obtain ⟨k', v⟩ := e
    simp only [List.map_cons, List.nodup_cons] at hn
    simp only [lookup]
    rcases List.mem_cons.1 h with h | h
    · cases h; rw [if_pos rfl]
    · rw [if_neg, ih hn.2 h]
      rintro rfl
      exact hn.1 (List.mem_map.2 ⟨_, h, rfl⟩)

/-- The entries of a map field, as a CEL map. -/
def entriesVal (m : List (Key × Elem)) : List (Value × Value) :=
  m.map fun e => (keyVal e.1, elemVal e.2)

/-- The right-hand side of a map comparison. -/
def KeysWF (t : KType) (m : List (Key × Elem)) : Prop :=
  (m.map Prod.fst).Nodup ∧ ∀ e ∈ m, KeyWF e.1 ∧ keyType e.1 = t

theorem entries_ordinary {t : KType} {m : List (Key × Elem)} (h : KeysWF t m) :
    ∀ e ∈ entriesVal m, Ordinary e.1 := by
  intro e he
  obtain ⟨x, hx, rfl⟩ := List.mem_map.1 he
  exact keyVal_ordinary (h.2 x hx).1

/-- Heterogeneous lookup in the CEL map is the lookup of the coalesced key in the field. -/
theorem hetFind_field {t : KType} {m : List (Key × Elem)} (h : KeysWF t m) {k : Key} (hk : KeyWF k) :
    hetFind (keyVal k) (entriesVal m) = ((coalesce k t).bind (lookup m)).map elemVal := by
  have hko := keyVal_ordinary hk
  have hd : ∀ k' : Key, Denotes (keyVal k) (keyVal k') ↔ SameKey k k' := fun k' => by
    rw [denotes_iff (keyVal_kind k), keyId_same]
  cases hr : (coalesce k t).bind (lookup m) with
  | none =>
    cases hf : hetFind (keyVal k) (entriesVal m) with
    | none => rfl
    | some v =>
      exfalso
      obtain ⟨e, he, hde, rfl⟩ := hetFind_some hko hf
      obtain ⟨⟨k', w⟩, hx, rfl⟩ := List.mem_map.1 he
      have hkx := h.2 _ hx
      have hc := (C79_keys k t hk k').2 ⟨hkx.2, hkx.1, (hd k').1 hde⟩
      rw [hc, Option.bind_some, lookup_of_mem h.1 hx] at hr
      cases hr
  | some w =>
    obtain ⟨k', hc, hl⟩ := Option.bind_eq_some_iff.1 hr
    have hmem := lookup_mem hl
    obtain ⟨h1, h2, h3⟩ := (C79_keys k t hk k').1 hc
    have hmem' : (keyVal k', elemVal w) ∈ entriesVal m := List.mem_map.2 ⟨_, hmem, rfl⟩
    obtain ⟨v, hv⟩ := hetFind_isSome hko (entries_ordinary h) hmem' ((hd k').2 h3)
    rw [hv]
    obtain ⟨e, he, hde, rfl⟩ := hetFind_some hko hv
    obtain ⟨⟨k'', w'⟩, hx, rfl⟩ := List.mem_map.1 he
    have hkx := h.2 _ hx
    have hc' := (C79_keys k t hk k'').2 ⟨hkx.2, hkx.1, (hd k'').1 hde⟩
    rw [hc'] at hc
    cases hc
    rw [lookup_of_mem h.1 hx] at hl
    cases hl
    rfl

def EntriesWF (m : List (Key × Elem)) : Prop := ∀ e ∈ m, KeyWF e.1 ∧ ElemWF e.2

/-- A map comparison that ends without an error gives the equality of the CEL maps. -/
theorem mapLoop_ok {t : KType} {rhs : List (Key × Elem)} (hr : KeysWF t rhs) (hre : EntriesWF rhs) :
    ∀ (m : List (Key × Elem)), EntriesWF m → ∀ r, mapLoop t rhs m = .ok r →
      mapEqual (entriesVal m) (entriesVal rhs) = some r
  | [], _, r, h => by cases h; rfl
  | (k, v) :: m, hm, r, h => by
    have hkv := hm _ List.mem_cons_self
    rw [mapLoop] at h
    show mapEqual ((keyVal k, elemVal v) :: entriesVal m) (entriesVal rhs) = some r
    rw [mapEqual, hetFind_field hr hkv.1]
    cases hc : coalesce k t with
    | none => rw [hc] at h; cases h; rfl
    | some k' =>
      rw [hc] at h
      simp only [Option.bind_some] at h ⊢
      cases hl : lookup rhs k' with
      | none => rw [hl] at h; cases h; rfl
      | some w =>
        rw [hl] at h
        simp only [Option.map_some] at h ⊢
        have hwf := (hre _ (lookup_mem hl)).2
        cases hx : elemAsEV v with
        | err e => rw [hx] at h; cases h
        | ub => rw [hx] at h; cases h
        | ok x =>
          cases hy : elemAsEV w with
          | err e => rw [hx, hy] at h; cases h
          | ub => rw [hx, hy] at h; cases h
          | ok y =>
            rw [hx, hy] at h
            simp only [Res.bind] at h
            rw [(elem_equal hkv.2 hwf hx hy).1]
            cases he : evEquals x y with
            | false => rw [he, if_neg (by simp)] at h; cases h; rfl
            | true =>
              rw [he, if_pos rfl] at h
              exact mapLoop_ok hr hre m (fun e hm' => hm e (List.mem_cons_of_mem _ hm')) r h

theorem mapLoop_total {t : KType} {rhs : List (Key × Elem)} (hre : EntriesWF rhs)
    (hrs : ∀ e ∈ rhs, ElemSound e.2) : ∀ (m : List (Key × Elem)), EntriesWF m →
      (∀ e ∈ m, ElemSound e.2) → ∃ r, mapLoop t rhs m = .ok r
  | [], _, _ => ⟨_, rfl⟩
  | (k, v) :: m, hm, hs => by
    rw [mapLoop]
    cases hc : coalesce k t with
    | none => exact ⟨_, rfl⟩
    | some k' =>
      simp only []
      cases hl : lookup rhs k' with
      | none => exact ⟨_, rfl⟩
      | some w =>
        simp only []
        have hw := lookup_mem hl
        obtain ⟨x, hx⟩ := elemAsEV_total (hm _ List.mem_cons_self).2 (hs _ List.mem_cons_self)
        obtain ⟨y, hy⟩ := elemAsEV_total (hre _ hw).2 (hrs _ hw)
        rw [hx, hy]
        simp only [Res.bind]
        split
        · exact mapLoop_total hre hrs m (fun e h => hm e (List.mem_cons_of_mem _ h))
            fun e h => hs e (List.mem_cons_of_mem _ h)
        · exact ⟨_, rfl⟩

/-- A list comparison that ends without an error gives the equality of the CEL lists. -/
theorem repLoop_ok : ∀ (a b : List Elem), (∀ e ∈ a, ElemWF e) → (∀ e ∈ b, ElemWF e) →
    ∀ r, repLoop a b = .ok r → listEqual (a.map elemVal) (b.map elemVal) = some r ∧
      cEqualList (a.map elemVal) (b.map elemVal) = r
  | [], b, _, _, r, h => by cases h; exact ⟨rfl, rfl⟩
  | v :: a, [], _, _, r, h => by cases h; exact ⟨rfl, rfl⟩
  | v :: a, w :: b, ha, hb, r, h => by
    rw [repLoop] at h
    simp only [List.map_cons]
    rw [listEqual, cEqualList]
    cases hx : elemAsEV v with
    | err e => rw [hx] at h; cases h
    | ub => rw [hx] at h; cases h
    | ok x =>
      cases hy : elemAsEV w with
      | err e => rw [hx, hy] at h; cases h
      | ub => rw [hx, hy] at h; cases h
      | ok y =>
        rw [hx, hy] at h
        simp only [Res.bind] at h
        obtain ⟨h1, h2⟩ := elem_equal (ha _ List.mem_cons_self) (hb _ List.mem_cons_self) hx hy
        rw [h1, h2]
        cases he : evEquals x y with
        | false => rw [he, if_neg (by simp)] at h; cases h; exact ⟨rfl, rfl⟩
        | true =>
          rw [he, if_pos rfl] at h
          simp only [Bool.true_and]
          exact repLoop_ok a b (fun e hm => ha e (List.mem_cons_of_mem _ hm))
            (fun e hm => hb e (List.mem_cons_of_mem _ hm)) r h

theorem repLoop_total : ∀ (a b : List Elem), (∀ e ∈ a, ElemWF e ∧ ElemSound e) →
    (∀ e ∈ b, ElemWF e ∧ ElemSound e) → ∃ r, repLoop a b = .ok r
  | [], b, _, _ => ⟨_, rfl⟩
  | v :: a, [], _, _ => ⟨_, rfl⟩
  | v :: a, w :: b, ha, hb => by
    rw [repLoop]
    obtain ⟨x, hx⟩ := elemAsEV_total (ha _ List.mem_cons_self).1 (ha _ List.mem_cons_self).2
    obtain ⟨y, hy⟩ := elemAsEV_total (hb _ List.mem_cons_self).1 (hb _ List.mem_cons_self).2
    rw [hx, hy]
    simp only [Res.bind]
    split
    · exact repLoop_total a b (fun e h => ha e (List.mem_cons_of_mem _ h))
        fun e h => hb e (List.mem_cons_of_mem _ h)
    · exact ⟨_, rfl⟩

/-! ## Lookup without heterogeneous keys -/

theorem sameKey_val {a b : Key} (h : SameKey a b) (hm : ¬ MixedKeys (keyType a) (keyType b)) :
    keyVal a = keyVal b := by
  rcases h with h | ⟨i, h1, h2⟩
  · rw [h]
  · unfold MixedKeys Signed Unsigned at hm
    cases a <;> cases b <;> simp [keyType, keyNum, keyVal] at * <;> rw [h1, h2]

theorem mapFind_field {t : KType} {m : List (Key × Elem)} (h : KeysWF t m) {k : Key} (hk : KeyWF k)
    (hm : ¬ MixedKeys (keyType k) t) :
    mapFind (entriesVal m) (keyVal k) = hetFind (keyVal k) (entriesVal m) := by
  cases hf : mapFind (entriesVal m) (keyVal k) with
  | some v => rw [hetFind, hf]
  | none =>
    cases hh : hetFind (keyVal k) (entriesVal m) with
    | none => rfl
    | some v =>
      exfalso
      obtain ⟨e, he, hde, rfl⟩ := hetFind_some (keyVal_ordinary hk) hh
      obtain ⟨⟨k', w⟩, hx, rfl⟩ := List.mem_map.1 he
      rw [denotes_iff (keyVal_kind k), keyId_same] at hde
      have := sameKey_val hde (by rw [(h.2 _ hx).2]; exact hm)
      rw [this] at hf
      exact mapFind_none (keyVal_kind k') hf _ he

theorem map_equal_c {t : KType} {l r : List (Key × Elem)} (hr : KeysWF t r) (hre : EntriesWF r)
    (hl : EntriesWF l) (sl : ∀ e ∈ l, ElemSound e.2) (sr : ∀ e ∈ r, ElemSound e.2)
    (hm : ∀ e ∈ l, ¬ MixedKeys (keyType e.1) t) :
    cEqual (.map (entriesVal l)) (.map (entriesVal r)) = true ↔
      valueEqual (.map (entriesVal l)) (.map (entriesVal r)) = some true := by
  rw [cEqual_map, valueEqual_map]
  refine and_congr Iff.rfl (forall_congr' fun e => forall_congr' fun he => ?_)
  obtain ⟨⟨k, v⟩, hx, rfl⟩ := List.mem_map.1 he
  have hkv := hl _ hx
  show (∃ w, mapFind (entriesVal r) (keyVal k) = some w ∧ _) ↔ _
  rw [mapFind_field hr hkv.1 (hm _ hx)]
  refine exists_congr fun w => and_congr_right fun hw => ?_
  obtain ⟨e', he', _, rfl⟩ := hetFind_some (keyVal_ordinary hkv.1) hw
  obtain ⟨⟨k', v'⟩, hx', rfl⟩ := List.mem_map.1 he'
  obtain ⟨x, ha⟩ := elemAsEV_total hkv.2 (sl _ hx)
  obtain ⟨y, hb⟩ := elemAsEV_total (hre _ hx').2 (sr _ hx')
  obtain ⟨h1, h2⟩ := elem_equal hkv.2 (hre _ hx').2 ha hb
  show cEqual (elemVal v) (elemVal v') = true ↔ valueEqual (elemVal v) (elemVal v') = some true
  rw [h1, h2, Option.some.injEq]

/-! ## Two fields -/

theorem rep_wf {r : Rep} (h : WF (.rep r)) : ∀ e ∈ r.elems, ElemWF e := fun e he => (h e he).1

theorem map_keys {m : MapF} (h : WF (.map m)) : KeysWF m.key m.entries :=
  ⟨h.1, fun e he => ⟨(h.2 e he).1, (h.2 e he).2.1⟩⟩

theorem map_wf {m : MapF} (h : WF (.map m)) : EntriesWF m.entries :=
  fun e he => ⟨(h.2 e he).1, (h.2 e he).2.2.1⟩

theorem repFieldEquals_total (l r : Rep) (hl : WF (.rep l)) (hr : WF (.rep r)) (sl : Sound (.rep l))
    (sr : Sound (.rep r)) : ∃ b, repFieldEquals l r = .ok b := by
  unfold repFieldEquals
  split
  · exact ⟨_, rfl⟩
  · split
    · exact ⟨_, rfl⟩
    · exact repLoop_total _ _ (fun e he => ⟨rep_wf hl e he, sl e he⟩) fun e he => ⟨rep_wf hr e he, sr e he⟩

theorem mapFieldEquals_total (l r : MapF) (hl : WF (.map l)) (hr : WF (.map r)) (sl : Sound (.map l))
    (sr : Sound (.map r)) : ∃ b, mapFieldEquals l r = .ok b := by
  unfold mapFieldEquals
  split
  · exact ⟨_, rfl⟩
  · split
    · exact ⟨_, rfl⟩
    · exact mapLoop_total (map_wf hr) sr _ (map_wf hl) sl

theorem valueEqual_lists (a b : List Value) :
    valueEqual (.list a) (.list b) = if a.length = b.length then listEqual a b else some false := by
  rw [valueEqual]

theorem valueEqual_maps (a b : List (Value × Value)) :
    valueEqual (.map a) (.map b) = if a.length = b.length then mapEqual a b else some false := by
  rw [valueEqual]

theorem repFieldEquals_true (l r : Rep) (hl : WF (.rep l)) (hr : WF (.rep r))
    (h : repFieldEquals l r = .ok true) : valueEqual (val (.rep l)) (val (.rep r)) = some true := by
  unfold repFieldEquals at h
  split at h
  · cases h
  · split at h
    · cases h
    · rename_i hlen
      simp only [val]
      rw [valueEqual_lists, if_pos (by simpa using hlen)]
      exact (repLoop_ok _ _ (rep_wf hl) (rep_wf hr) _ h).1

theorem mapFieldEquals_true (l r : MapF) (hl : WF (.map l)) (hr : WF (.map r))
    (h : mapFieldEquals l r = .ok true) : valueEqual (val (.map l)) (val (.map r)) = some true := by
  unfold mapFieldEquals at h
  split at h
  · cases h
  · split at h
    · cases h
    · rename_i hlen
      simp only [val]
      rw [valueEqual_maps, if_pos (by simpa using hlen)]
      exact mapLoop_ok (map_keys hr) (map_wf hr) _ (map_wf hl) _ h

/-- Elements of types of disjoint categories are never equal. -/
theorem disjoint_elems {e f : Elem} (he : ElemWF e) (hf : ElemWF f) (se : ElemSound e)
    (sf : ElemSound f) (h : fieldCategory (typeOf e) &&& fieldCategory (typeOf f) = 0) :
    valueEqual (elemVal e) (elemVal f) = some false ∧ cEqual (elemVal e) (elemVal f) = false := by
  obtain ⟨x, hx⟩ := elemAsEV_total he se
  obtain ⟨y, hy⟩ := elemAsEV_total hf sf
  obtain ⟨h1, h2⟩ := elem_equal he hf hx hy
  rw [h1, h2, disjoint_ne (elemAsEV_ok he hx).2.2.2 (elemAsEV_ok hf hy).2.2.2 h]
  exact ⟨rfl, rfl⟩

theorem repFieldEquals_eq (l r : Rep) (hl : WF (.rep l)) (hr : WF (.rep r)) (sl : Sound (.rep l))
    (sr : Sound (.rep r)) (hne : ¬ (l.elems = [] ∧ r.elems = [])) (b : Bool)
    (h : repFieldEquals l r = .ok b) :
    valueEqual (val (.rep l)) (val (.rep r)) = some b ∧ cEqual (val (.rep l)) (val (.rep r)) = b := by
  unfold repFieldEquals at h
  simp only [val]
  rw [valueEqual_lists, cEqual]
  simp only [List.length_map]
  by_cases hlen : l.elems.length = r.elems.length
  · rw [if_pos hlen, hlen]
    simp only [beq_self_eq_true, Bool.true_and]
    split at h
    · rename_i hc
      cases h
      obtain ⟨li, lt, le⟩ := l
      obtain ⟨ri, rt, re⟩ := r
      cases le with
      | nil => cases re with
        | nil => exact (hne ⟨rfl, rfl⟩).elim
        | cons f re => simp at hlen
      | cons e le => cases re with
        | nil => simp at hlen
        | cons f re =>
          have h1 := hl e List.mem_cons_self
          have h2 := hr f List.mem_cons_self
          have hd := disjoint_elems h1.1 h2.1 (sl e List.mem_cons_self) (sr f List.mem_cons_self)
            (by rw [h1.2, h2.2]; exact hc.2)
          simp only [List.map_cons]
          rw [listEqual, cEqualList, hd.1, hd.2]
          exact ⟨rfl, rfl⟩
    · rw [if_neg (by simpa using hlen)] at h
      exact repLoop_ok _ _ (rep_wf hl) (rep_wf hr) _ h
  · rw [if_neg hlen]
    have hb : b = false := by
      split at h
      · cases h; rfl
      · cases h; rfl
    subst hb
    simp [hlen]

theorem keyCategory_disjoint {k : Key} {t : KType} (h : keyCategory (keyType k) &&& keyCategory t = 0) :
    coalesce k t = none := by
  cases k <;> cases t <;> first | rfl | exact absurd h (by decide) | skip
  all_goals exact absurd h (by simp only [keyType, keyCategory]; decide)

theorem mapFieldEquals_v (l r : MapF) (hl : WF (.map l)) (hr : WF (.map r)) (sl : Sound (.map l))
    (sr : Sound (.map r)) (hne : ¬ (l.entries = [] ∧ r.entries = [])) (b : Bool)
    (h : mapFieldEquals l r = .ok b) :
    valueEqual (val (.map l)) (val (.map r)) = some b := by
  unfold mapFieldEquals at h
  simp only [val]
  rw [valueEqual_maps]
  simp only [List.length_map]
  by_cases hlen : l.entries.length = r.entries.length
  · rw [if_pos hlen]
    split at h
    · rename_i hc
      cases h
      have hk := map_keys hr
      obtain ⟨li, lk, lv, le⟩ := l
      cases le with
      | nil =>
        exact (hne ⟨rfl, List.eq_nil_of_length_eq_zero hlen.symm⟩).elim
      | cons e le =>
        obtain ⟨k, v⟩ := e
        have h1 := hl.2 _ List.mem_cons_self
        show mapEqual ((keyVal k, elemVal v) :: _) (entriesVal r.entries) = some false
        rw [mapEqual, hetFind_field hk h1.1]
        rcases hc.2 with hc | hc
        · rw [keyCategory_disjoint (by rw [h1.2.1]; exact hc)]
          rfl
        · cases hf : (coalesce k r.key).bind (lookup r.entries) with
          | none => rfl
          | some w =>
            obtain ⟨k', _, hl'⟩ := Option.bind_eq_some_iff.1 hf
            have hw := lookup_mem hl'
            have h2 := hr.2 _ hw
            have hd := disjoint_elems h1.2.2.1 h2.2.2.1 (sl _ List.mem_cons_self) (sr _ hw)
              (by rw [h1.2.2.2, h2.2.2.2]; exact hc)
            simp only [Option.map_some]
            rw [hd.1]
    · rw [if_neg (by simpa using hlen)] at h
      exact mapLoop_ok (map_keys hr) (map_wf hr) _ (map_wf hl) _ h
  · rw [if_neg hlen]
    split at h
    · cases h; rfl
    · cases h; rfl

theorem mapFieldEquals_eq (l r : MapF) (hl : WF (.map l)) (hr : WF (.map r)) (sl : Sound (.map l))
    (sr : Sound (.map r)) (hne : ¬ (l.entries = [] ∧ r.entries = [])) (b : Bool)
    (h : mapFieldEquals l r = .ok b) :
    valueEqual (val (.map l)) (val (.map r)) = some b ∧
    (¬ MixedKeys l.key r.key → cEqual (val (.map l)) (val (.map r)) = b) := by
  have hv := mapFieldEquals_v l r hl hr sl sr hne b h
  refine ⟨hv, fun hm => ?_⟩
  have := map_equal_c (map_keys hr) (map_wf hr) (map_wf hl) sl sr
    fun e he => by rw [(hl.2 e he).2.1]; exact hm
  change cEqual (val (.map l)) (val (.map r)) = true ↔ valueEqual (val (.map l)) (val (.map r)) = some true at this
  rw [hv] at this
  cases b with
  | true => exact this.2 rfl
  | false =>
    rw [Bool.eq_false_iff]
    intro hc
    cases this.1 hc

end Cel.MsgEq
