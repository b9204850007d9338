import Verif.Data.MemberProps

set_option linter.unusedSimpArgs false
set_option linter.unusedVariables false

/-!
# C47: list and map literals; C48: `has()` and selection
-/

namespace Cel.Data
open Cel Cel.Num Cel.Eval Cel.Data.Spec

/-! ## Specification -/

/-- A value that is neither an error nor unknown. -/
def Plain (v : Value) : Prop := v.isError = false ∧ v.isUnknown = false

/-- An operand that is a plain value and whose attribute no unknown pattern touches. -/
def PlainOperand (c : StepCfg) (x : VA) : Prop :=
  Plain x.v ∧ (c.unknowns = true → checkUnknown c.pats x.t true = false)

/-- What entry number `i` contributes: an entry written `?e` contributes the content of the optional
`e`, nothing when it is absent; any other entry contributes its value. -/
def contribution (opt : Nat → Bool) (i : Nat) (v : Value) : Option Value :=
  if opt i then
    match v with
    | .opt o => o
    | _ => none
  else some v

/-- An entry written `?e` must be an optional; whatever it contributes is a plain value. -/
def EntryOK (opt : Nat → Bool) (i : Nat) (v : Value) : Prop :=
  (opt i = true → ∃ o, v = .opt o) ∧ ∀ w, contribution opt i v = some w → Plain w

/-- The entries of a literal, numbered from `i`, that are present. -/
def presentFrom (opt : Nat → Bool) (i : Nat) (vs : List Value) : List Value :=
  (vs.zipIdx i).filterMap fun p => contribution opt p.2 p.1

/-- The present associations of a map literal. -/
def presentEntries (opt : Nat → Bool) (i : Nat) (es : List (Value × Value)) : List (Value × Value) :=
  (es.zipIdx i).filterMap fun p => (contribution opt p.2 p.1.2).map fun w => (p.1.1, w)

/-! ## Lists -/

theorem plain_check {v : Value} (h : Plain v) : checkElement v = none := by
  cases v <;> simp_all [Plain, checkElement, Value.isError, Value.isUnknown]

theorem buildList_spec (c : StepCfg) (opt : Nat → Bool) (vs : List Value) :
    ∀ i acc, (∀ j v, vs[j]? = some v → EntryOK opt (i + j) v) →
      buildList c opt i vs acc = .ok (.list (acc ++ presentFrom opt i vs)) := by
  induction vs with
  | nil => intro i acc h; simp [buildList, presentFrom]
  | cons v vs ih =>
    intro i acc h
    have h0 : EntryOK opt i v := by simpa using h 0 v rfl
    have ht : ∀ j w, vs[j]? = some w → EntryOK opt (i + 1 + j) w := by
      intro j w hw
      have := h (j + 1) w (by simpa using hw)
      rwa [show i + (j + 1) = i + 1 + j by omega] at this
    simp only [buildList, presentFrom, List.zipIdx_cons]
    by_cases ho : opt i = true
    · obtain ⟨o, rfl⟩ := h0.1 ho
      rw [if_pos ho]
      cases o with
      | none =>
        simp only [ih (i + 1) acc ht, List.filterMap_cons, contribution, ho, if_true]
        rfl
      | some w =>
        have hw : Plain w := h0.2 w (by simp [contribution, ho])
        have hne : ∀ e, w ≠ .error e := by
          intro e he; subst he; simp [Plain, Value.isError] at hw
        have : buildList c opt (i + 1) vs (acc ++ [w]) =
            .ok (.list (acc ++ List.filterMap (fun p => contribution opt p.2 p.1)
              ((Value.opt (some w), i) :: vs.zipIdx (i + 1)))) := by
          rw [ih (i + 1) _ ht]
          simp [presentFrom, contribution, ho]
        cases w <;> simp_all [plain_check]
    · rw [if_neg ho]
      have hv : Plain v := h0.2 v (by simp [contribution, ho])
      rw [plain_check hv]
      simp only [ih (i + 1) _ ht, List.filterMap_cons, contribution, ho]
      simp [presentFrom, contribution]

theorem firstError_none {vs : List Value} (h : ∀ v ∈ vs, v.isError = false) : firstError vs = none := by
  induction vs with
  | nil => rfl
  | cons v vs ih =>
    have := h v List.mem_cons_self
    have ih := ih fun w hw => h w (List.mem_cons_of_mem _ hw)
    cases v <;> simp_all [firstError, Value.isError]

theorem mergeLoop_plain {vs : List Value} (h : ∀ v ∈ vs, v.isUnknown = false) (r : Option UnknownSet) :
    mergeLoop vs r = r := by
  induction vs generalizing r with
  | nil => rfl
  | cons v vs ih =>
    have := h v List.mem_cons_self
    have ih := ih (fun w hw => h w (List.mem_cons_of_mem _ hw)) r
    cases v <;> simp_all [mergeLoop, Value.isUnknown]

theorem checkForUnknowns_none {pats : List Pattern} {p : Bool} {xs : List VA}
    (h : ∀ x ∈ xs, checkUnknown pats x.t p = false) (acc : List Attr) :
    checkForUnknowns pats p xs acc = acc := by
  induction xs generalizing acc with
  | nil => rfl
  | cons x xs ih =>
    simp only [checkForUnknowns, h x List.mem_cons_self, Bool.false_eq_true, if_false]
    exact ih (fun y hy => h y (List.mem_cons_of_mem _ hy)) acc

theorem identify_plain {c : StepCfg} {xs : List VA} (h : ∀ x ∈ xs, PlainOperand c x) :
    (if c.unknowns then identifyAndMerge c.pats true xs else none) = none := by
  by_cases hu : c.unknowns = true
  · rw [if_pos hu]
    unfold identifyAndMerge
    rw [checkForUnknowns_none (fun x hx => (h x hx).2 hu)]
    simp only [if_true]
    unfold mergeUnknowns
    refine mergeLoop_plain (fun v hv => ?_) none
    obtain ⟨x, hx, rfl⟩ := List.mem_map.1 hv
    exact (h x hx).1.2
  · rw [if_neg hu]

/-- **C47 (list literals).** A list literal whose entries are plain values builds the list of its
present entries in the order written: every entry not written with `?` is there, an entry written
`?e` is there exactly when the optional `e` has a value, and nothing else is. -/
theorem C47_list_literal (c : StepCfg) (opt : Nat → Bool) (xs : List VA)
    (hp : ∀ x ∈ xs, PlainOperand c x)
    (ho : ∀ i v, (xs.map VA.v)[i]? = some v → EntryOK opt i v) :
    listStep c opt xs = .ok ⟨.list (presentFrom opt 0 (xs.map VA.v)), none⟩ := by
  unfold listStep listEval
  rw [firstError_none (by
    intro v hv
    obtain ⟨x, hx, rfl⟩ := List.mem_map.1 hv
    exact (hp x hx).1.1)]
  simp only []
  rw [identify_plain hp]
  simp only []
  rw [buildList_spec c opt _ 0 [] (by simpa using ho)]
  rfl

/-- **C47 (plain list literals).** Without `?` entries the list is exactly what is written. -/
theorem C47_list_literal_exact (c : StepCfg) (xs : List VA) (hp : ∀ x ∈ xs, PlainOperand c x) :
    listStep c (fun _ => false) xs = .ok ⟨.list (xs.map VA.v), none⟩ := by
  rw [C47_list_literal c _ xs hp]
  · congr 3
    unfold presentFrom
    simp only [contribution, Bool.false_eq_true, if_false]
    rw [show (fun p : Value × Nat => some p.1) = some ∘ Prod.fst from rfl, List.filterMap_eq_map]
    exact List.zipIdx_map_fst _ _
  · intro i v hv
    refine ⟨by simp, fun w hw => ?_⟩
    simp [contribution] at hw
    subst hw
    obtain ⟨x, hx, rfl⟩ := List.mem_map.1 (List.mem_of_getElem? hv)
    exact (hp x hx).1

theorem firstError_some {pre post : List Value} {e : Status} (h : ∀ v ∈ pre, v.isError = false) :
    firstError (pre ++ .error e :: post) = some (.error e) := by
  induction pre with
  | nil => rfl
  | cons v pre ih =>
    have := h v List.mem_cons_self
    have ih := ih fun w hw => h w (List.mem_cons_of_mem _ hw)
    cases v <;> simp_all [firstError, Value.isError]

/-- **C47 (errors surface).** If some entry of a list or map literal is an error, the result is the
leftmost error, whatever the other entries are (in particular even if some are unknown). -/
theorem C47_literal_error (c : StepCfg) (opt : Nat → Bool) (xs : List VA) (pre post : List Value)
    (e : Status) (hx : xs.map VA.v = pre ++ .error e :: post) (h : ∀ v ∈ pre, v.isError = false) :
    listStep c opt xs = .ok ⟨.error e, none⟩ ∧ mapStep c opt xs = .ok ⟨.error e, none⟩ := by
  constructor
  · unfold listStep listEval; rw [hx, firstError_some h]; rfl
  · unfold mapStep mapEval; rw [hx, firstError_some h]; rfl

theorem mergeLoop_some {vs : List Value} (r : Option UnknownSet) (hr : r.isSome = true ∨ ∃ u, Value.unknown u ∈ vs) :
    ∃ u, mergeLoop vs r = some u := by
  induction vs generalizing r with
  | nil =>
    rcases hr with h | ⟨u, h⟩
    · exact Option.isSome_iff_exists.1 h
    · simp at h
  | cons v vs ih =>
    by_cases hv : ∃ u, v = .unknown u
    · obtain ⟨u, rfl⟩ := hv
      simp only [mergeLoop]
      exact ih _ (Or.inl rfl)
    · have : mergeLoop (v :: vs) r = mergeLoop vs r := by
        cases v <;> simp_all [mergeLoop]
      rw [this]
      refine ih r ?_
      rcases hr with h | ⟨u, h⟩
      · exact Or.inl h
      · rcases List.mem_cons.1 h with h | h
        · exact absurd ⟨u, h.symm⟩ hv
        · exact Or.inr ⟨u, h⟩

/-- **C47 (unknowns surface).** With unknown processing on and no error among the entries, an unknown
entry makes the whole literal unknown; with it off, an unknown entry aborts the evaluation. -/
theorem C47_literal_unknown (c : StepCfg) (opt : Nat → Bool) (xs : List VA) (u : UnknownSet)
    (hx : Value.unknown u ∈ xs.map VA.v) (h : ∀ x ∈ xs, x.v.isError = false) (hu : c.unknowns = true) :
    (∃ w, listStep c opt xs = .ok ⟨.unknown w, none⟩) ∧ ∃ w, mapStep c opt xs = .ok ⟨.unknown w, none⟩ := by
  have hf : firstError (xs.map VA.v) = none := firstError_none (by
    intro v hv
    obtain ⟨x, hx, rfl⟩ := List.mem_map.1 hv
    exact h x hx)
  have hi : ∃ w, identifyAndMerge c.pats true xs = some w := by
    unfold identifyAndMerge
    obtain ⟨w, hw⟩ := mergeLoop_some (vs := xs.map VA.v) none (Or.inr ⟨u, hx⟩)
    unfold mergeUnknowns
    rw [hw]
    simp only []
    split
    · exact ⟨w, rfl⟩
    · exact ⟨_, rfl⟩
  obtain ⟨w, hw⟩ := hi
  refine ⟨⟨w, ?_⟩, w, ?_⟩
  · unfold listStep listEval; rw [hf, if_pos hu, hw]; rfl
  · unfold mapStep mapEval; rw [hf, if_pos hu, hw]; rfl

/-! ## Maps -/

theorem checkMapKey_none {k : Value} : checkMapKey k = none ↔ keyKind k = true := by
  cases k <;> simp [checkMapKey, keyKind]

theorem mapHas_append {m : List (Value × Value)} {k k' v : Value} :
    mapHas (m ++ [(k, v)]) k' = (mapHas m k' || keyEq k k') := by
  unfold mapHas
  induction m with
  | nil =>
    simp only [List.nil_append, mapFind]
    split <;> simp_all
  | cons e m ih =>
    obtain ⟨a, b⟩ := e
    simp only [List.cons_append, mapFind]
    split
    · simp
    · exact ih

theorem buildMap_spec (c : StepCfg) (opt : Nat → Bool) (es : List (Value × Value)) :
    ∀ i acc, (∀ e ∈ es, keyKind e.1 = true) → (∀ j e, es[j]? = some e → EntryOK opt (i + j) e.2) →
      ((presentEntries opt i es).Pairwise (fun e f => keyEq e.1 f.1 = false) ∧
        (∀ e ∈ presentEntries opt i es, mapHas acc e.1 = false) →
        buildMap c opt i es acc = .ok (.map (acc ++ presentEntries opt i es))) ∧
      (¬ ((presentEntries opt i es).Pairwise (fun e f => keyEq e.1 f.1 = false) ∧
        (∀ e ∈ presentEntries opt i es, mapHas acc e.1 = false)) →
        buildMap c opt i es acc = .err ⟨.alreadyExists, "duplicate key in map"⟩) := by
  induction es with
  | nil => intro i acc _ h; simp [buildMap, presentEntries]
  | cons e es ih =>
    obtain ⟨k, v⟩ := e
    intro i acc hk h
    have h0 : EntryOK opt i v := by simpa using h 0 (k, v) rfl
    have ht : ∀ j w, es[j]? = some w → EntryOK opt (i + 1 + j) w.2 := by
      intro j w hw
      have := h (j + 1) w (by simpa using hw)
      rwa [show i + (j + 1) = i + 1 + j by omega] at this
    have hk0 : keyKind k = true := hk (k, v) List.mem_cons_self
    have hkt : ∀ e ∈ es, keyKind e.1 = true := fun e he => hk e (List.mem_cons_of_mem _ he)
    have key : ∀ w, contribution opt i v = some w → Plain w →
        buildMap c opt i ((k, v) :: es) acc =
          (match mapPut acc k w with
           | .ok acc' => buildMap c opt (i + 1) es acc'
           | .err e => .err e
           | .ub => .ub) := by
      intro w hw hpw
      simp only [buildMap, checkMapKey_none.2 hk0]
      unfold contribution at hw
      by_cases ho : opt i = true
      · rw [if_pos ho] at hw ⊢
        obtain ⟨o, rfl⟩ := h0.1 ho
        simp only [] at hw
        subst hw
        have hne := hpw.1
        clear * - hne
        cases w <;> first | rfl | (exact absurd hne (by simp [Value.isError]))
      · rw [if_neg ho] at hw ⊢
        cases hw; rfl
    cases hc : contribution opt i v with
    | none =>
      have hpres : presentEntries opt i ((k, v) :: es) = presentEntries opt (i + 1) es := by
        simp [presentEntries, List.zipIdx_cons, hc]
      have hb : buildMap c opt i ((k, v) :: es) acc = buildMap c opt (i + 1) es acc := by
        simp only [buildMap, checkMapKey_none.2 hk0]
        unfold contribution at hc
        by_cases ho : opt i = true
        · rw [if_pos ho] at hc ⊢
          obtain ⟨o, rfl⟩ := h0.1 ho
          simp only [] at hc
          subst hc; rfl
        · rw [if_neg ho] at hc; cases hc
      rw [hpres, hb]
      exact ih (i + 1) acc hkt ht
    | some w =>
      have hpw := h0.2 w hc
      have hpres : presentEntries opt i ((k, v) :: es) = (k, w) :: presentEntries opt (i + 1) es := by
        simp [presentEntries, List.zipIdx_cons, hc]
      rw [hpres, key w hc hpw]
      simp only [mapPut, checkMapKey_none.2 hk0, plain_check hpw]
      by_cases hh : mapHas acc k = true
      · rw [if_pos hh]
        refine ⟨fun ⟨_, h2⟩ => ?_, fun _ => rfl⟩
        have := h2 (k, w) List.mem_cons_self
        rw [hh] at this; cases this
      · rw [if_neg hh]
        simp only []
        obtain ⟨ih1, ih2⟩ := ih (i + 1) (acc ++ [(k, w)]) hkt ht
        have heq : ((presentEntries opt (i + 1) es).Pairwise (fun e f => keyEq e.1 f.1 = false) ∧
              ∀ e ∈ presentEntries opt (i + 1) es, mapHas (acc ++ [(k, w)]) e.1 = false) ↔
            (((k, w) :: presentEntries opt (i + 1) es).Pairwise (fun e f => keyEq e.1 f.1 = false) ∧
              ∀ e ∈ (k, w) :: presentEntries opt (i + 1) es, mapHas acc e.1 = false) := by
          simp only [mapHas_append, Bool.or_eq_false_iff, List.pairwise_cons, List.mem_cons, forall_eq_or_imp]
          constructor
          · rintro ⟨h1, h2⟩
            exact ⟨⟨fun e he => (h2 e he).2, h1⟩, by simpa using hh, fun e he => (h2 e he).1⟩
          · rintro ⟨⟨h1, h2⟩, _, h3⟩
            exact ⟨h2, fun e he => ⟨h3 e he, h1 e he⟩⟩
        rw [← heq]
        refine ⟨fun hcond => ?_, fun hcond => ih2 hcond⟩
        rw [ih1 hcond]; simp

/-- Keys and values of the entries, as they are laid out for the step. -/
def layout (es : List (Value × Value)) : List Value := es.flatMap fun e => [e.1, e.2]

theorem pairUp_layout (es : List (Value × Value)) : pairUp (layout es) = es := by
  induction es with
  | nil => rfl
  | cons e es ih =>
    obtain ⟨k, v⟩ := e
    simp only [layout, List.flatMap_cons, List.cons_append, List.nil_append, pairUp]
    rw [show es.flatMap (fun e => [e.1, e.2]) = layout es from rfl, ih]

theorem mapStep_plain (c : StepCfg) (opt : Nat → Bool) (xs : List VA) (es : List (Value × Value))
    (hx : xs.map VA.v = layout es) (hp : ∀ x ∈ xs, PlainOperand c x) :
    mapStep c opt xs = (do return ⟨← buildMap c opt 0 es [], none⟩ : Res VA) := by
  unfold mapStep mapEval
  rw [firstError_none (by
    intro v hv
    obtain ⟨x, hx, rfl⟩ := List.mem_map.1 hv
    exact (hp x hx).1.1)]
  simp only []
  rw [identify_plain hp, hx, pairUp_layout]

/-- **C47 (map literals).** A map literal of plain values whose keys are bools, ints, uints or strings
and whose present entries have pairwise different keys builds exactly those associations; if two
present entries have the same key, the evaluation fails with "duplicate key in map". -/
theorem C47_map_literal (c : StepCfg) (opt : Nat → Bool) (xs : List VA) (es : List (Value × Value))
    (hx : xs.map VA.v = layout es) (hp : ∀ x ∈ xs, PlainOperand c x)
    (hk : ∀ e ∈ es, keyKind e.1 = true)
    (ho : ∀ i e, es[i]? = some e → EntryOK opt i e.2) :
    ((presentEntries opt 0 es).Pairwise (fun e f => e.1 ≠ f.1) →
      mapStep c opt xs = .ok ⟨.map (presentEntries opt 0 es), none⟩) ∧
    (¬ (presentEntries opt 0 es).Pairwise (fun e f => e.1 ≠ f.1) →
      mapStep c opt xs = .err ⟨.alreadyExists, "duplicate key in map"⟩) := by
  rw [mapStep_plain c opt xs es hx hp]
  obtain ⟨h1, h2⟩ := buildMap_spec c opt es 0 [] hk (by simpa using ho)
  have hkp : ∀ e ∈ presentEntries opt 0 es, keyKind e.1 = true := by
    intro e he
    unfold presentEntries at he
    obtain ⟨p, hp, hpe⟩ := List.mem_filterMap.1 he
    cases hc : contribution opt p.2 p.1.2 with
    | none => rw [hc] at hpe; cases hpe
    | some w =>
      rw [hc] at hpe; cases hpe
      exact hk p.1 (List.fst_mem_of_mem_zipIdx hp)
  have hpw : (presentEntries opt 0 es).Pairwise (fun e f => e.1 ≠ f.1) ↔
      ((presentEntries opt 0 es).Pairwise (fun e f => keyEq e.1 f.1 = false) ∧
        ∀ e ∈ presentEntries opt 0 es, mapHas [] e.1 = false) := by
    simp only [mapHas, mapFind, Option.isSome_none, implies_true, and_true]
    constructor
    · refine List.Pairwise.imp_of_mem fun he hf hne => ?_
      rw [Bool.eq_false_iff]
      intro hc; exact hne ((keyEq_iff _ _).1 hc).2
    · refine List.Pairwise.imp_of_mem fun he hf hne heq => ?_
      rw [(keyEq_iff _ _).2 ⟨hkp _ he, heq⟩] at hne; cases hne
  rw [hpw]
  refine ⟨fun h => ?_, fun h => ?_⟩
  · rw [h1 h]; rfl
  · rw [h2 h]; rfl

theorem buildMap_prefix (c : StepCfg) (opt : Nat → Bool) (pre : List (Value × Value))
    (es : List (Value × Value)) : ∀ i acc,
      (∀ e ∈ pre, keyKind e.1 = true) → (∀ j e, pre[j]? = some e → EntryOK opt (i + j) e.2) →
      (presentEntries opt i pre).Pairwise (fun e f => keyEq e.1 f.1 = false) →
      (∀ e ∈ presentEntries opt i pre, mapHas acc e.1 = false) →
      buildMap c opt i (pre ++ es) acc = buildMap c opt (i + pre.length) es (acc ++ presentEntries opt i pre) := by
  induction pre with
  | nil => intro i acc _ _ _ _; simp [presentEntries]
  | cons e pre ih =>
    obtain ⟨k, v⟩ := e
    intro i acc hk h hpw hacc
    have h0 : EntryOK opt i v := by simpa using h 0 (k, v) rfl
    have ht : ∀ j w, pre[j]? = some w → EntryOK opt (i + 1 + j) w.2 := by
      intro j w hw
      have := h (j + 1) w (by simpa using hw)
      rwa [show i + (j + 1) = i + 1 + j by omega] at this
    have hk0 : keyKind k = true := hk (k, v) List.mem_cons_self
    have hkt : ∀ e ∈ pre, keyKind e.1 = true := fun e he => hk e (List.mem_cons_of_mem _ he)
    have hlen : i + ((k, v) :: pre).length = i + 1 + pre.length := by simp; omega
    cases hc : contribution opt i v with
    | none =>
      have hpres : presentEntries opt i ((k, v) :: pre) = presentEntries opt (i + 1) pre := by
        simp [presentEntries, List.zipIdx_cons, hc]
      rw [hpres] at hpw hacc ⊢
      rw [hlen, ← ih (i + 1) acc hkt ht hpw hacc, List.cons_append]
      simp only [buildMap, checkMapKey_none.2 hk0]
      unfold contribution at hc
      by_cases ho : opt i = true
      · rw [if_pos ho] at hc ⊢
        obtain ⟨o, rfl⟩ := h0.1 ho
        simp only [] at hc
        subst hc; rfl
      · rw [if_neg ho] at hc; cases hc
    | some w =>
      have hpw' := h0.2 w hc
      have hpres : presentEntries opt i ((k, v) :: pre) = (k, w) :: presentEntries opt (i + 1) pre := by
        simp [presentEntries, List.zipIdx_cons, hc]
      rw [hpres] at hpw hacc ⊢
      rw [List.pairwise_cons] at hpw
      have hkacc := hacc (k, w) List.mem_cons_self
      have := ih (i + 1) (acc ++ [(k, w)]) hkt ht hpw.2 (by
        intro e he
        rw [mapHas_append, hacc e (List.mem_cons_of_mem _ he), hpw.1 e he]; rfl)
      rw [hlen, show acc ++ (k, w) :: presentEntries opt (i + 1) pre
        = acc ++ [(k, w)] ++ presentEntries opt (i + 1) pre by simp, ← this, List.cons_append]
      simp only [buildMap, checkMapKey_none.2 hk0]
      have hput : mapPut acc k w = .ok (acc ++ [(k, w)]) := by
        simp only [mapPut, checkMapKey_none.2 hk0, plain_check hpw', hkacc, Bool.false_eq_true, if_false]
      unfold contribution at hc
      by_cases ho : opt i = true
      · rw [if_pos ho] at hc ⊢
        obtain ⟨o, rfl⟩ := h0.1 ho
        simp only [] at hc
        subst hc
        have hne := hpw'.1
        clear * - hne hput
        cases w <;> first | (simp only [hput]; done) | (exact absurd hne (by simp [Value.isError]))
      · rw [if_neg ho] at hc ⊢
        cases hc; rw [hput]

/-- **C47 (unsupported keys).** If the entries before it are fine, a key that is not a bool, int, uint
or string makes the literal evaluate to an "Invalid map key type" error value. -/
theorem C47_map_literal_bad_key (c : StepCfg) (opt : Nat → Bool) (xs : List VA)
    (pre post : List (Value × Value)) (k v : Value)
    (hx : xs.map VA.v = layout (pre ++ (k, v) :: post)) (hp : ∀ x ∈ xs, PlainOperand c x)
    (hk : ∀ e ∈ pre, keyKind e.1 = true) (ho : ∀ i e, pre[i]? = some e → EntryOK opt i e.2)
    (hd : (presentEntries opt 0 pre).Pairwise (fun e f => e.1 ≠ f.1)) (hbad : keyKind k = false) :
    mapStep c opt xs = .ok ⟨.error (badKeyKind k), none⟩ := by
  rw [mapStep_plain c opt xs _ hx hp]
  rw [buildMap_prefix c opt pre _ 0 [] hk (by simpa using ho)
    (hd.imp (fun hne => by
      rw [Bool.eq_false_iff]
      intro hc; exact hne ((keyEq_iff _ _).1 hc).2)) (by simp [mapHas, mapFind])]
  have hkm : k ∈ xs.map VA.v := by rw [hx]; simp [layout]
  obtain ⟨x, hx', rfl⟩ := List.mem_map.1 hkm
  have hpl := (hp x hx').1
  have : checkMapKey x.v = some (badKeyKind x.v) := by
    revert hpl hbad
    cases x.v <;> simp [keyKind, checkMapKey, Plain, Value.isError]
  simp only [buildMap, this]
  rfl

/-- A map built by a literal is ordinary data as far as its keys go: permitted key kinds, no key
stored twice, and no error or unknown stored. -/
def WellBuilt (m : List (Value × Value)) : Prop :=
  (∀ e ∈ m, keyKind e.1 = true ∧ Plain e.2) ∧ m.Pairwise (fun e f => e.1 ≠ f.1)

theorem check_plain {v : Value} (h : checkElement v = none) : Plain v := by
  cases v <;> simp_all [Plain, checkElement, Value.isError, Value.isUnknown]

theorem mapPut_wellBuilt {m m' : List (Value × Value)} {k v : Value} (hm : WellBuilt m)
    (h : mapPut m k v = .ok m') : WellBuilt m' := by
  unfold mapPut at h
  split at h
  · cases h
  · rename_i hk
    split at h
    · cases h
    · rename_i hv
      split at h
      · cases h
      · rename_i hh
        cases h
        refine ⟨?_, ?_⟩
        · intro e he
          rcases List.mem_append.1 he with he | he
          · exact hm.1 e he
          · rw [List.mem_singleton.1 he]; exact ⟨checkMapKey_none.1 hk, check_plain hv⟩
        · rw [List.pairwise_append]
          refine ⟨hm.2, by simp, ?_⟩
          intro e he f hf
          rw [List.mem_singleton.1 hf]
          intro heq
          apply hh
          rw [mapHas_iff (checkMapKey_none.1 hk)]
          obtain ⟨a, b⟩ := e
          have hab : a = k := heq
          subst hab
          exact ⟨b, he⟩

theorem buildMap_wellBuilt (c : StepCfg) (opt : Nat → Bool) (es : List (Value × Value)) :
    ∀ i acc m, WellBuilt acc → buildMap c opt i es acc = .ok (.map m) → WellBuilt m := by
  induction es with
  | nil => intro i acc m h hb; simp [buildMap] at hb; rwa [← hb]
  | cons e es ih =>
    obtain ⟨k, v⟩ := e
    intro i acc m h hb
    simp only [buildMap] at hb
    split at hb
    · cases hb
    · split at hb
      · split at hb
        · exact ih _ _ _ h hb
        · cases hb
        · split at hb
          · rename_i hp; exact ih _ _ _ (mapPut_wellBuilt h hp) hb
          · cases hb
          · cases hb
        · cases hb
      · split at hb
        · rename_i hp; exact ih _ _ _ (mapPut_wellBuilt h hp) hb
        · cases hb
        · cases hb

/-- **C47 (invariant).** Whatever the operands, a map produced by a map literal has only keys of
permitted kinds, no key twice, and no error or unknown among its values. -/
theorem C47_built_maps_are_wellformed (c : StepCfg) (opt : Nat → Bool) (xs : List VA)
    (m : List (Value × Value)) (t : Trail) (h : mapStep c opt xs = .ok ⟨.map m, t⟩) : WellBuilt m := by
  unfold mapStep mapEval at h
  split at h
  · rename_i e he
    have : ∀ vs e, firstError vs = some e → ∃ s, e = .error s := by
      intro vs
      induction vs with
      | nil => simp [firstError]
      | cons v vs ih =>
        intro e h
        cases v <;> simp [firstError] at h <;> first | exact ih e h | exact ⟨_, h.symm⟩
    obtain ⟨s, rfl⟩ := this _ _ he
    cases h
  · split at h
    · cases h
    · cases hb : buildMap c opt 0 (pairUp (xs.map VA.v)) [] with
      | ok w =>
        rw [hb] at h
        have : w = .map m := by
          have h' : (Res.ok (⟨w, none⟩ : VA)) = .ok ⟨.map m, t⟩ := h
          cases h'; rfl
        subst this
        exact buildMap_wellBuilt c opt _ 0 [] m ⟨by simp, by simp⟩ hb
      | err s => rw [hb] at h; cases h
      | ub => rw [hb] at h; cases h

/-! ### Samples -/

/-- `[1, ?optional.none(), ?optional.of(2)]` is `[1, 2]`. -/
example : listStep sampleCfg (fun i => i ≠ 0)
    [⟨.int 1, none⟩, ⟨.opt none, none⟩, ⟨.opt (some (.int 2)), none⟩] = .ok ⟨.list [.int 1, .int 2], none⟩ := by
  rw [C47_list_literal]
  · rfl
  · intro x hx
    simp at hx
    rcases hx with rfl | rfl | rfl <;> exact ⟨⟨rfl, rfl⟩, fun h => by cases h⟩
  · intro i v hv
    match i with
    | 0 => cases hv; exact ⟨by simp, fun w hw => by simp [contribution] at hw; subst hw; exact ⟨rfl, rfl⟩⟩
    | 1 => cases hv; exact ⟨fun _ => ⟨none, rfl⟩, fun w hw => by simp [contribution] at hw⟩
    | 2 => cases hv; exact ⟨fun _ => ⟨_, rfl⟩, fun w hw => by simp [contribution] at hw; subst hw; exact ⟨rfl, rfl⟩⟩
    | n + 3 => simp at hv

/-- `{1: 'a', 1: 'b'}` fails; `{1: 'a', 1u: 'b'}` does not. -/
example : mapStep sampleCfg (fun _ => false)
      [⟨.int 1, none⟩, ⟨.str "a", none⟩, ⟨.int 1, none⟩, ⟨.str "b", none⟩] =
        .err ⟨.alreadyExists, "duplicate key in map"⟩ ∧
    mapStep sampleCfg (fun _ => false)
      [⟨.int 1, none⟩, ⟨.str "a", none⟩, ⟨.uint 1, none⟩, ⟨.str "b", none⟩] =
        .ok ⟨.map [(.int 1, .str "a"), (.uint 1, .str "b")], none⟩ := ⟨rfl, rfl⟩

/-! ## C48 -/

/-- **C48 (`has` and selection).** For a map operand whose field attribute is not marked unknown or
missing: `has(m.f)` is true exactly when the map stores the string key `f`; then `m.f` is the value
stored there and the optional selection is that value wrapped; otherwise `m.f` is the no-such-key
error and the optional selection is none. -/
theorem C48_has_and_selection_agree (c : StepCfg) (m : List (Value × Value)) (f : String) (t : Trail)
    (hm : IsData (.map m)) (ho : c.optionals = true)
    (hmark : markedAttribute c (if c.unknowns ∨ c.missing then t.step (.str f) else none) = none) :
    ∃ (r : Bool) (v w : Value) (t1 t2 : Trail),
      selectStep c f true [⟨.map m, t⟩] = .ok ⟨.bool r, none⟩ ∧
      selectStep c f false [⟨.map m, t⟩] = .ok ⟨v, t1⟩ ∧
      selectStep c f false [⟨.opt (some (.map m)), t⟩] = .ok ⟨w, t2⟩ ∧
      selectStep c f true [⟨.opt (some (.map m)), t⟩] = .ok ⟨.bool r, none⟩ ∧
      (r = true ↔ ∃ v, (Value.str f, v) ∈ m) ∧
      (r = true → (Value.str f, v) ∈ m ∧ w = .opt (some v)) ∧
      (r = false → v = .error (noSuchKey (c.debugString (.str f))) ∧ w = .opt none) ∧
      (r = true ↔ v.isError = false) := by
  have h1 : selectStep c f true [⟨.map m, t⟩] = .ok ⟨.bool (mapHas m (.str f)), none⟩ := by
    simp only [selectStep, selectEval, hmark, if_true, testOnlySelect]; rfl
  have h2 : selectStep c f false [⟨.map m, t⟩] =
      .ok ⟨getField c m f, if c.unknowns ∨ c.missing then t.step (.str f) else none⟩ := by
    simp only [selectStep, selectEval, hmark, Bool.false_eq_true, if_false]
  have h3 : selectStep c f false [⟨.opt (some (.map m)), t⟩] =
      .ok ⟨.opt (mapFind m (.str f)), if c.unknowns ∨ c.missing then t.step (.str f) else none⟩ := by
    simp only [selectStep, selectEval, hmark, ho, if_true, Bool.false_eq_true, if_false, performSelect]
    cases mapFind m (.str f) <;> rfl
  have h4 : selectStep c f true [⟨.opt (some (.map m)), t⟩] = .ok ⟨.bool (mapHas m (.str f)), none⟩ := by
    simp only [selectStep, selectEval, hmark, ho, if_true, testOnlySelect]; rfl
  refine ⟨_, _, _, _, _, h1, h2, h3, h4, mapHas_iff rfl, ?_, ?_, ?_⟩
  · intro h
    unfold mapHas at h
    obtain ⟨v, hv⟩ := Option.isSome_iff_exists.1 h
    rw [getField, hv]
    exact ⟨(mapFind_some hv).1, rfl⟩
  · intro h
    unfold mapHas at h
    cases hv : mapFind m (.str f) with
    | some v => rw [hv] at h; cases h
    | none => rw [getField, hv]; exact ⟨rfl, rfl⟩
  · unfold mapHas
    cases hv : mapFind m (.str f) with
    | none => rw [getField, hv]; simp [Value.isError]
    | some v =>
      rw [getField, hv]
      have := ((deep_map.1 hm).2 _ (mapFind_some hv).1).2.self
      cases v <;> simp_all [Ordinary, Value.isError]

example : ∃ r v w t1 t2, selectStep sampleCfg "k" true [⟨sample, none⟩] = .ok ⟨.bool r, none⟩ ∧
    selectStep sampleCfg "k" false [⟨sample, none⟩] = .ok ⟨v, t1⟩ ∧
    selectStep sampleCfg "k" false [⟨.opt (some sample), none⟩] = .ok ⟨w, t2⟩ ∧
    (r = true ↔ v.isError = false) := by
  obtain ⟨r, v, w, t1, t2, h1, h2, h3, -, -, -, -, h5⟩ :=
    C48_has_and_selection_agree sampleCfg _ "k" none sample_ok.1 rfl rfl
  exact ⟨r, v, w, t1, t2, h1, h2, h3, h5⟩

/-- Selecting from an absent optional is absent, and `has()` is false. -/
theorem C48_absent_optional (c : StepCfg) (f : String) (t : Trail) (ho : c.optionals = true)
    (hmark : markedAttribute c (if c.unknowns ∨ c.missing then t.step (.str f) else none) = none) :
    selectStep c f true [⟨.opt none, t⟩] = .ok ⟨.bool false, none⟩ ∧
    selectStep c f false [⟨.opt none, t⟩] = .ok ⟨.opt none, t⟩ := by
  constructor <;> simp only [selectStep, selectEval, hmark, ho, if_true, Bool.false_eq_true, if_false]

/-- A marked attribute decides the result before the map is looked at. -/
theorem C48_marked_attribute_wins (c : StepCfg) (m : List (Value × Value)) (f : String) (b : Bool)
    (t : Trail) (v : Value)
    (hmark : markedAttribute c (if c.unknowns ∨ c.missing then t.step (.str f) else none) = some v) :
    ∃ t', selectStep c f b [⟨.map m, t⟩] = .ok ⟨v, t'⟩ := by
  refine ⟨if c.unknowns ∨ c.missing then t.step (.str f) else none, ?_⟩
  simp only [selectStep, selectEval, hmark]

/-- Defect: selecting a field from an optional that holds something other than a map or message
(`optional.of(1).x`) aborts the evaluation with a status, while `1.x` is an ordinary error value. -/
theorem C48_optional_of_scalar_selection_aborts (b : Bool) :
    selectStep sampleCfg "x" b [⟨.opt (some (.int 1)), none⟩] = .err badSelectTarget ∧
    selectStep sampleCfg "x" b [⟨.int 1, none⟩] = .ok ⟨.error badSelectTarget, none⟩ := by
  cases b <;> exact ⟨rfl, rfl⟩

/-- Defect: indexing an optional list out of range yields an optional that *holds* an error
(`optional.of([1])[5]` is `optional.of(<error>)`), although errors are not values. -/
theorem C48_optional_index_holds_error :
    indexStep sampleCfg [⟨.opt (some (.list [.int 1])), none⟩, ⟨.int 5, none⟩] =
      .ok ⟨.opt (some (.error (indexRangeError 5 1))), none⟩ := by
  rfl

end Cel.Data
