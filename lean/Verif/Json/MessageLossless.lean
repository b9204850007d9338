import Verif.Json.MessageMain

set_option linter.dupNamespace false
set_option linter.unusedSimpArgs false
set_option linter.unusedVariables false

namespace Cel.Json.Message
open Cel Cel.Num Cel.Eval Cel.Data Cel.Json Cel.Json.Spec Cel.Json.Message.Spec

theorem setInt_inj {O : Lib} {i k : Int} (h : setInt i = setInt k) : i = k :=
  (C76_integers O i .unset).2.2.2 k .unset (by simp only [convert, h])

theorem setUint_eq {i : Int} (h : 0 ≤ i) (O : Lib) : setUint i = setInt i := by
  have := (C76_integers O i .unset).2.2.1 h
  simp only [convert] at this
  injection this

theorem ofInt_inj {i k : Int} (hi : i.natAbs < 2 ^ 53) (hk : k.natAbs < 2 ^ 53)
    (h : Dbl.ofInt i = Dbl.ofInt k) : i = k := by
  have h1 := value_ofInt hi
  rw [h, value_ofInt hk] at h1
  simp only [Option.some.injEq, Num.Spec.Ext.num.injEq] at h1
  exact_mod_cast h1.symm

theorem scalarJson_inj (O : MLib) (hO : Lossless O) {s s' : Scalar} (ht : SameScalar s s')
    (hw : ScalarWF s) (hw' : ScalarWF s') (hf : FaithfulScalar s) (hf' : FaithfulScalar s')
    (h : scalarJson O s = scalarJson O s') : s = s' := by
  cases s <;> cases s' <;> simp only [SameScalar] at ht <;>
    simp only [scalarJson, ScalarWF, FaithfulScalar, setDouble] at h hw hw' hf hf'
  · injection h with h; rw [h]
  · injection h with h; rw [h]
  · injection h with h; rw [ofInt_inj (by omega) (by omega) h]
  · rw [setInt_inj (O := O.toLib) h]
  · injection h with h; rw [ofInt_inj (by omega) (by omega) h]
  · rw [setUint_eq hw.1 O.toLib, setUint_eq hw'.1 O.toLib] at h
    rw [setInt_inj (O := O.toLib) h]
  · injection h with h; rw [h]
  · injection h with h; rw [h]
  · rename_i a b
    unfold setBytes at h
    cases a with
    | nil =>
      cases b with
      | nil => rfl
      | cons y b =>
        simp only [List.isEmpty, if_true, Bool.false_eq_true, if_false] at h; injection h with h
        exact absurd h.symm (hO.base64_nonempty _ (by simp))
    | cons x a =>
      cases b with
      | nil =>
        simp only [List.isEmpty, if_true, Bool.false_eq_true, if_false] at h; injection h with h
        exact absurd h (hO.base64_nonempty _ (by simp))
      | cons y b =>
        rw [if_neg (by simp), if_neg (by simp)] at h; injection h with h
        rw [hO.base64 _ _ hf hf' h]
  · subst ht
    obtain ⟨⟨x, hx⟩, hi⟩ := hf
    obtain ⟨⟨y, hy⟩, _⟩ := hf'
    rw [hx, hy] at h
    simp only at h
    injection h with h
    rw [hi _ _ x hx (by rw [h]; exact hy)]
  · rw [hf, hf']

theorem mapScalarJson_faithful (O : MLib) {s : Scalar} (hf : FaithfulScalar s) :
    mapScalarJson O s = scalarJson O s := by
  cases s with
  | enm t n =>
    simp only [FaithfulScalar] at hf
    obtain ⟨⟨x, hx⟩, _⟩ := hf
    simp only [mapScalarJson, scalarJson, hx]
  | _ => rfl

mutual
theorem render_inj (O : MLib) (hO : Lossless O) : ∀ (m m' : Msg) (j : Json), SameMsg m m' →
    WFM m → WFM m' → Faithful m → Faithful m' → render O m = some j → render O m' = some j → m = m'
  | .wrapper n s, m', j, ht, hw, hw', hf, hf', h, h' => by
    cases m' with
    | wrapper n' s' =>
      rw [SameMsg] at ht; rw [WFM] at hw hw'; rw [Faithful] at hf hf'
      simp only [render, leafJson, opt, Option.some.injEq] at h h'
      rw [ht.1, scalarJson_inj O hO ht.2 hw hw' hf hf' (by rw [h, h'])]
    | _ => simp [SameMsg] at ht
  | .fieldMask ps, m', j, ht, hw, hw', hf, hf', h, h' => by
    cases m' with
    | fieldMask ps' =>
      rw [Faithful] at hf hf'
      simp only [render, leafJson, opt_some] at h h'
      cases h1 : maskPaths ps [] with
      | ok l =>
        cases h2 : maskPaths ps' [] with
        | ok l' =>
          rw [h1] at h; rw [h2] at h'
          injection h with h; injection h' with h'
          rw [← h'] at h; injection h with h
          rw [mask_inj h1 h2 hf hf' h]
        | err e => rw [h2] at h'; cases h'
        | ub => rw [h2] at h'; cases h'
      | err e => rw [h1] at h; cases h
      | ub => rw [h1] at h; cases h
    | _ => simp [SameMsg] at ht
  | .duration s n, m', j, ht, hw, hw', hf, hf', h, h' => by
    cases m' with
    | duration s' n' =>
      rw [Faithful] at hf hf'
      simp only [render, leafJson, opt, Option.some.injEq] at h h'
      rw [← h'] at h; injection h with h
      obtain ⟨h1, h2⟩ := hO.duration _ _ _ _ hf hf' h
      rw [h1, h2]
    | _ => simp [SameMsg] at ht
  | .timestamp s n, m', j, ht, hw, hw', hf, hf', h, h' => by
    cases m' with
    | timestamp s' n' =>
      rw [Faithful] at hf hf'
      simp only [render, leafJson, opt, Option.some.injEq] at h h'
      rw [← h'] at h; injection h with h
      obtain ⟨h1, h2⟩ := hO.timestamp _ _ _ _ hf hf' h
      rw [h1, h2]
    | _ => simp [SameMsg] at ht
  | .value v, m', j, ht, hw, hw', hf, hf', h, h' => by
    cases m' with
    | value v' =>
      simp only [render, leafJson, opt, Option.some.injEq] at h h'
      rw [h, h']
    | _ => simp [SameMsg] at ht
  | .listValue v, m', j, ht, hw, hw', hf, hf', h, h' => by
    cases m' with
    | listValue v' =>
      simp only [render, leafJson, opt, Option.some.injEq] at h h'
      rw [← h'] at h; injection h with h; rw [h]
    | _ => simp [SameMsg] at ht
  | .struct v, m', j, ht, hw, hw', hf, hf', h, h' => by
    cases m' with
    | struct v' =>
      simp only [render, leafJson, opt, Option.some.injEq] at h h'
      rw [← h'] at h; injection h with h; rw [h]
    | _ => simp [SameMsg] at ht
  | .plain n fs, m', j, ht, hw, hw', hf, hf', h, h' => by
    cases m' with
    | plain n' gs =>
      rw [SameMsg] at ht; rw [WFM] at hw hw'; rw [Faithful] at hf hf'
      rw [render, Option.map_eq_some_iff] at h h'
      obtain ⟨f, h1, rfl⟩ := h
      obtain ⟨f', h2, he⟩ := h'
      injection he with he; subst he
      rw [ht.1, renderFields_inj O hO fs gs f' ht.2 hw.2 hw'.2 hf hf' h1 h2]
    | _ => simp [SameMsg] at ht
  | .any _, m', j, ht, hw, hw', hf, hf', h, h' => by rw [Faithful] at hf; exact hf.elim
  | .badAny _, m', j, ht, hw, hw', hf, hf', h, h' => by rw [Faithful] at hf; exact hf.elim
theorem renderFields_inj (O : MLib) (hO : Lossless O) : ∀ (fs gs : List (String × FieldVal))
    (f : List (String × Json)), SameFields fs gs → WFFields fs → WFFields gs → FaithfulFields fs →
    FaithfulFields gs → renderFields O fs = some f → renderFields O gs = some f → fs = gs
  | [], [], f, _, _, _, _, _, _, _ => rfl
  | [], (k, v) :: gs, f, _, _, _, _, _, h, h' => by
    rw [renderFields] at h; injection h with h; subst h
    have := renderFields_names O _ _ h'
    simp at this
  | (k, v) :: fs, [], f, _, _, _, _, _, h, h' => by
    rw [renderFields] at h'; injection h' with h'; subst h'
    have := renderFields_names O _ _ h
    simp at this
  | (k, v) :: fs, (k', v') :: gs, f, ht, hw, hw', hf, hf', h, h' => by
    rw [SameFields] at ht; rw [WFFields] at hw hw'; rw [FaithfulFields] at hf hf'
    rw [renderFields, Option.bind_eq_some_iff] at h h'
    obtain ⟨j, hj, h⟩ := h
    obtain ⟨j', hj', h'⟩ := h'
    rw [Option.map_eq_some_iff] at h h'
    obtain ⟨r, hr, rfl⟩ := h
    obtain ⟨r', hr', he⟩ := h'
    injection he with he1 he2
    injection he1 with he1 he3
    subst he2 he1 he3
    rw [renderField_inj O hO v v' j' (ht.1 _ List.mem_cons_self rfl) hw.2.1 hw'.2.1 hf.1 hf'.1 hj hj',
      renderFields_inj O hO fs gs r' (sameFields_tail ht.2) hw.2.2 hw'.2.2 hf.2 hf'.2 hr hr']
theorem sameFields_tail : ∀ {fs : List (String × FieldVal)} {g : String × FieldVal}
    {gs : List (String × FieldVal)}, SameFields fs (g :: gs) → SameFields fs gs
  | [], _, _, _ => by rw [SameFields]; trivial
  | (k, v) :: fs, g, gs, h => by
    rw [SameFields] at h ⊢
    exact ⟨fun x hx => h.1 x (List.mem_cons_of_mem _ hx), sameFields_tail h.2⟩
theorem renderField_inj (O : MLib) (hO : Lossless O) : ∀ (v v' : FieldVal) (j : Json), SameField v v' →
    WFField v → WFField v' → FaithfulField v → FaithfulField v' → renderField O v = some j →
    renderField O v' = some j → v = v'
  | .one e, .one e', j, ht, hw, hw', hf, hf', h, h' => by
    rw [SameField] at ht; rw [WFField] at hw hw'; rw [FaithfulField] at hf hf'
    rw [renderField] at h h'
    rw [renderElem_inj O hO e e' j ht hw hw' hf hf' h h']
  | .rep l, .rep l', j, ht, hw, hw', hf, hf', h, h' => by
    rw [SameField] at ht; rw [WFField] at hw hw'; rw [FaithfulField] at hf hf'
    rw [renderField, Option.map_eq_some_iff] at h h'
    obtain ⟨a, h1, rfl⟩ := h
    obtain ⟨a', h2, he⟩ := h'
    injection he with he; subst he
    rw [renderReps_inj O hO l l' a' ht hw hw' hf hf' h1 h2]
  | .map m, .map m', j, ht, hw, hw', hf, hf', h, h' => by
    rw [SameField] at ht; rw [WFField] at hw hw'; rw [FaithfulField] at hf hf'
    rw [renderField, Option.map_eq_some_iff] at h h'
    obtain ⟨a, h1, rfl⟩ := h
    obtain ⟨a', h2, he⟩ := h'
    injection he with he; subst he
    rw [renderMap_inj O hO m m' a' ht hw.2.2 hw'.2.2 hf hf' h1 h2]
  | .one _, .rep _, _, ht, _, _, _, _, _, _ => by simp [SameField] at ht
  | .one _, .map _, _, ht, _, _, _, _, _, _ => by simp [SameField] at ht
  | .rep _, .one _, _, ht, _, _, _, _, _, _ => by simp [SameField] at ht
  | .rep _, .map _, _, ht, _, _, _, _, _, _ => by simp [SameField] at ht
  | .map _, .one _, _, ht, _, _, _, _, _, _ => by simp [SameField] at ht
  | .map _, .rep _, _, ht, _, _, _, _, _, _ => by simp [SameField] at ht
theorem renderElem_inj (O : MLib) (hO : Lossless O) : ∀ (e e' : Elem) (j : Json), SameElem e e' →
    WFElem e → WFElem e' → FaithfulElem e → FaithfulElem e' → renderElem O e = some j →
    renderElem O e' = some j → e = e'
  | .scalar s, .scalar s', j, ht, hw, hw', hf, hf', h, h' => by
    rw [SameElem] at ht; rw [WFElem] at hw hw'; rw [FaithfulElem] at hf hf'
    rw [renderElem] at h h'
    injection h with h; injection h' with h'
    rw [scalarJson_inj O hO ht hw hw' hf hf' (by rw [h, h'])]
  | .msg m, .msg m', j, ht, hw, hw', hf, hf', h, h' => by
    rw [SameElem] at ht; rw [WFElem] at hw hw'; rw [FaithfulElem] at hf hf'
    rw [renderElem] at h h'
    rw [render_inj O hO m m' j ht hw hw' hf hf' h h']
  | .scalar _, .msg _, _, ht, _, _, _, _, _, _ => by simp [SameElem] at ht
  | .msg _, .scalar _, _, ht, _, _, _, _, _, _ => by simp [SameElem] at ht
theorem renderReps_inj (O : MLib) (hO : Lossless O) : ∀ (l l' : List Elem) (a : List Json),
    SameElems l l' → WFElems l → WFElems l' → FaithfulElems l → FaithfulElems l' →
    renderReps O l = some a → renderReps O l' = some a → l = l'
  | [], [], _, _, _, _, _, _, _, _ => rfl
  | [], e :: l, a, _, _, _, _, _, h, h' => by
    rw [renderReps] at h; injection h with h; subst h
    rw [renderReps, Option.bind_eq_some_iff] at h'
    obtain ⟨j, _, h'⟩ := h'
    rw [Option.map_eq_some_iff] at h'
    obtain ⟨r, _, hr⟩ := h'; cases hr
  | e :: l, [], a, _, _, _, _, _, h, h' => by
    rw [renderReps] at h'; injection h' with h'; subst h'
    rw [renderReps, Option.bind_eq_some_iff] at h
    obtain ⟨j, _, h⟩ := h
    rw [Option.map_eq_some_iff] at h
    obtain ⟨r, _, hr⟩ := h; cases hr
  | e :: l, e' :: l', a, ht, hw, hw', hf, hf', h, h' => by
    rw [SameElems] at ht; rw [WFElems] at hw hw'; rw [FaithfulElems] at hf hf'
    rw [renderReps, Option.bind_eq_some_iff] at h h'
    obtain ⟨j, hj, h⟩ := h
    obtain ⟨j', hj', h'⟩ := h'
    rw [Option.map_eq_some_iff] at h h'
    obtain ⟨r, hr, rfl⟩ := h
    obtain ⟨r', hr', he⟩ := h'
    injection he with he1 he2
    subst he1 he2
    rw [renderElem_inj O hO e e' j' (ht.1 _ List.mem_cons_self) hw.1 hw'.1 hf.1 hf'.1 hj hj',
      renderReps_inj O hO l l' r' (sameElems_tail ht.2) hw.2 hw'.2 hf.2 hf'.2 hr hr']
theorem sameElems_tail : ∀ {l : List Elem} {g : Elem} {gs : List Elem}, SameElems l (g :: gs) → SameElems l gs
  | [], _, _, _ => by rw [SameElems]; trivial
  | e :: l, g, gs, h => by
    rw [SameElems] at h ⊢
    exact ⟨fun x hx => h.1 x (List.mem_cons_of_mem _ hx), sameElems_tail h.2⟩
theorem renderMap_inj (O : MLib) (hO : Lossless O) : ∀ (m m' : List (Key × Elem))
    (f : List (String × Json)), SameEntries m m' → WFEntries m → WFEntries m' → FaithfulEntries m →
    FaithfulEntries m' → renderMap O m = some f → renderMap O m' = some f → m = m'
  | [], [], _, _, _, _, _, _, _, _ => rfl
  | [], e :: m, a, _, _, _, _, _, h, h' => by
    rw [renderMap] at h; injection h with h; subst h
    have := renderMap_names O _ _ h'
    simp at this
  | e :: m, [], a, _, _, _, _, _, h, h' => by
    rw [renderMap] at h'; injection h' with h'; subst h'
    have := renderMap_names O _ _ h
    simp at this
  | (k, .scalar s) :: m, (k', .scalar s') :: m', f, ht, hw, hw', hf, hf', h, h' => by
    rw [SameEntries] at ht; rw [WFEntries, WFElem] at hw hw'; rw [FaithfulEntries, FaithfulElem] at hf hf'
    rw [renderMap, Option.map_eq_some_iff] at h h'
    obtain ⟨r, hr, rfl⟩ := h
    obtain ⟨r', hr', he⟩ := h'
    injection he with he1 he2
    injection he1 with he1 he3
    subst he2
    have hs := ht.1 _ List.mem_cons_self
    have h2 := hs.2
    rw [SameElem] at h2
    rw [mapScalarJson_faithful O hf.1, mapScalarJson_faithful O hf'.1] at he3
    rw [keyName_inj hs.1 he1.symm, scalarJson_inj O hO h2 hw.1 hw'.1 hf.1 hf'.1 he3.symm,
      renderMap_inj O hO m m' r' (sameEntries_tail ht.2) hw.2 hw'.2 hf.2 hf'.2 hr hr']
  | (k, .msg x) :: m, (k', .msg x') :: m', f, ht, hw, hw', hf, hf', h, h' => by
    rw [SameEntries] at ht; rw [WFEntries, WFElem] at hw hw'; rw [FaithfulEntries, FaithfulElem] at hf hf'
    rw [renderMap, Option.bind_eq_some_iff] at h h'
    obtain ⟨j, hj, h⟩ := h
    obtain ⟨j', hj', h'⟩ := h'
    rw [Option.map_eq_some_iff] at h h'
    obtain ⟨r, hr, rfl⟩ := h
    obtain ⟨r', hr', he⟩ := h'
    injection he with he1 he2
    injection he1 with he1 he3
    subst he2 he3
    have hs := ht.1 _ List.mem_cons_self
    have h2 := hs.2
    rw [SameElem] at h2
    rw [keyName_inj hs.1 he1.symm, render_inj O hO x x' j' h2 hw.1 hw'.1 hf.1 hf'.1 hj hj',
      renderMap_inj O hO m m' r' (sameEntries_tail ht.2) hw.2 hw'.2 hf.2 hf'.2 hr hr']
  | (k, .scalar s) :: m, (k', .msg x') :: m', f, ht, hw, hw', hf, hf', h, h' => by
    rw [SameEntries] at ht
    have h2 := (ht.1 _ List.mem_cons_self).2
    simp [SameElem] at h2
  | (k, .msg s) :: m, (k', .scalar x') :: m', f, ht, hw, hw', hf, hf', h, h' => by
    rw [SameEntries] at ht
    have h2 := (ht.1 _ List.mem_cons_self).2
    simp [SameElem] at h2
theorem sameEntries_tail : ∀ {l : List (Key × Elem)} {g : Key × Elem} {gs : List (Key × Elem)},
    SameEntries l (g :: gs) → SameEntries l gs
  | [], _, _, _ => by rw [SameEntries]; trivial
  | (k, e) :: l, g, gs, h => by
    rw [SameEntries] at h ⊢
    exact ⟨fun x hx => h.1 x (List.mem_cons_of_mem _ hx), sameEntries_tail h.2⟩
end

/-- The JSON form determines the message: two messages of the same type with the same JSON form are
the same, as far as they are made of what JSON distinguishes (`Faithful`). -/
theorem C78_lossless (O : MLib) (hO : Lossless O) (m m' : Msg) (p q j : Json) (ht : SameMsg m m')
    (hw : WFM m) (hw' : WFM m') (hf : Faithful m) (hf' : Faithful m') (hp : ∀ f, p ≠ .obj f)
    (hq : ∀ f, q ≠ .obj f) (h : toJson O m p = .ok j) (h' : toJson O m' q = .ok j) : m = m' :=
  render_inj O hO m m' j ht hw hw' hf hf' ((C78_json_form O m p j hw hp).1 h)
    ((C78_json_form O m' q j hw' hq).1 h')

end Cel.Json.Message
