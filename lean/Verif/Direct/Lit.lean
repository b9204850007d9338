import Verif.Direct.Rel
import Verif.Data.BuildProps

/-!
# List and map literals; calls
-/

set_option linter.unusedSimpArgs false
set_option linter.unusedVariables false

namespace Cel.Direct
open Cel Cel.Num Cel.Eval Cel.Data

/-! ## Accumulating unknowns -/

theorem mergeLoop_snoc : ∀ (ws : List Value) (r : Option UnknownSet) (v : Value),
    mergeLoop (ws ++ [v]) r = maybeAddV (mergeLoop ws r) v := by
  intro ws
  induction ws with
  | nil => intro r v; cases v <;> rfl
  | cons w ws ih => intro r v; cases w <;> exact ih _ v

theorem mergeLoop_snoc2 (ws : List Value) (r : Option UnknownSet) {k : Value} (hk : k.isUnknown = false) (v : Value) :
    mergeLoop (ws ++ [k, v]) r = maybeAddV (mergeLoop ws r) v := by
  rw [show ws ++ [k, v] = (ws ++ [k]) ++ [v] by simp, mergeLoop_snoc, mergeLoop_snoc]
  cases k <;> first | exact Bool.noConfusion (show true = false from hk) | rfl

theorem maybeAddV_none {acc : Option UnknownSet} {v : Value} (h : maybeAddV acc v = none) :
    acc = none ∧ v.isUnknown = false := by
  cases v with
  | unknown u => cases h
  | _ => exact ⟨h, rfl⟩

theorem identify_quiet {c : StepCfg} (hq : Quiet c) (hu : c.unknowns = true) (xs : List VA) :
    identifyAndMerge c.pats true xs = mergeLoop (xs.map VA.v) none := by
  unfold identifyAndMerge
  rw [checkForUnknowns_none (fun x _ => quiet_unknown hq hu)]
  simp only [if_true]
  rfl

/-- A value that is no error, and unknown only when unknowns are processed, is accepted by the
builder unless it is unknown. -/
theorem check_ok {v : Value} (he : v.isError = false) (hk : v.isUnknown = false) : checkElement v = none := by
  cases v <;> first
    | exact Bool.noConfusion (show true = false from he)
    | exact Bool.noConfusion (show true = false from hk)
    | rfl

theorem fine_off {unk : Bool} {v : Value} (hf : Fine unk v) (hu : unk = false) : v.isUnknown = false := by
  cases hf with
  | unknown u hk _ => rw [hk] at hu; cases hu
  | _ => rfl

/-! ## Lists -/

section
variable {c : StepCfg}

/-- The unknowns found among `ws`. -/
def accOf (c : StepCfg) (ws : List Value) : Option UnknownSet := if c.unknowns then mergeLoop ws none else none

theorem accOf_snoc (ws : List Value) (v : Value) (h : accOf c (ws ++ [v]) = none) :
    accOf c ws = none ∧ (c.unknowns = true → v.isUnknown = false) := by
  unfold accOf at *
  by_cases hu : c.unknowns = true
  · rw [if_pos hu] at h ⊢
    rw [mergeLoop_snoc] at h
    exact ⟨(maybeAddV_none h).1, fun _ => (maybeAddV_none h).2⟩
  · rw [if_neg hu]; exact ⟨rfl, fun h => absurd h hu⟩

theorem accOf_fine {ws : List Value} {u : UnknownSet} (h : accOf c ws = some u) : Fine c.unknowns (.unknown u) := by
  unfold accOf at h
  by_cases hu : c.unknowns = true
  · rw [if_pos hu] at h
    exact .unknown u hu (mergeLoop_canon _ _ (fun _ h => by cases h) u h)
  · rw [if_neg hu] at h; cases h

/-- State of the element loop after elements with values `ws`. -/
structure ListInv (c : StepCfg) (opt : Nat → Bool) (ws : List Value) (acc : Option UnknownSet)
    (out : List Value) : Prop where
  noErr : ∀ v ∈ ws, v.isError = false
  accEq : acc = accOf c ws
  build : acc = none → ∀ rest, buildList c opt 0 (ws ++ rest) [] = buildList c opt ws.length rest out
  fine : ∀ v ∈ out, Fine c.unknowns v

theorem list_start (opt : Nat → Bool) : ListInv c opt [] none [] :=
  ⟨fun v hv => (by cases hv), by unfold accOf; split <;> rfl, fun _ _ => rfl, fun v hv => (by cases hv)⟩

theorem listEval_quiet (hq : Quiet c) (opt : Nat → Bool) {xs : List VA} {ws : List Value}
    (hx : xs.map VA.v = ws) (he : ∀ v ∈ ws, v.isError = false) :
    listEval c opt xs = match accOf c ws with
      | some u => .ok (.unknown u)
      | none => buildList c opt 0 ws [] := by
  unfold listEval
  rw [hx, firstError_none he]
  unfold accOf
  by_cases hu : c.unknowns = true
  · simp only [if_pos hu]
    rw [identify_quiet hq hu, hx]
    cases mergeLoop ws none <;> rfl
  · simp only [if_neg hu]

/-- The rest of an element that is no error. -/
theorem listNext_plain (hq : Quiet c) (opt : Nat → Bool) (i : Nat) (acc : Option UnknownSet) (out : List Value)
    (x : VA) (he : x.v.isError = false) :
    listNext c opt i acc out x =
      match (if c.unknowns then maybeAddV acc x.v else acc) with
      | some u => .more (some u) out
      | none => listPut c opt i x.v out := by
  have hm : ¬ (c.missing = true ∧ checkMissing c.missingPats x.t = true) := fun h => by
    rw [quiet_missing hq h.1] at h; cases h.2
  have ha : listAcc c acc x = if c.unknowns then maybeAddV acc x.v else acc := by
    unfold listAcc
    by_cases hu : c.unknowns = true
    · rw [if_pos hu, if_pos hu]
      simp only
      rw [if_neg (by rw [quiet_unknown hq hu]; exact Bool.noConfusion)]
    · rw [if_neg hu, if_neg hu]
  unfold listNext
  rw [if_neg hm, ha]
  obtain ⟨v, t⟩ := x
  cases v <;> first | exact Bool.noConfusion (show true = false from he) | rfl

theorem accOf_next {ws : List Value} {acc : Option UnknownSet} (h : acc = accOf c ws) (v : Value) :
    (if c.unknowns then maybeAddV acc v else acc) = accOf c (ws ++ [v]) := by
  rw [h]
  unfold accOf
  by_cases hu : c.unknowns = true
  · rw [if_pos hu, if_pos hu, if_pos hu, mergeLoop_snoc]
  · rw [if_neg hu, if_neg hu, if_neg hu]

theorem list_next (hq : Quiet c) {opt : Nat → Bool} {ws : List Value} {acc : Option UnknownSet} {out : List Value}
    (inv : ListInv c opt ws acc out) {x y : VA} (h : VR c.unknowns x.v y.v) (ho : opt ws.length = false) :
    (∃ s t, y.v = .error t ∧ listNext c opt ws.length acc out x = .done (.error s) ∧ StSim s t) ∨
    ∃ acc' out', listNext c opt ws.length acc out x = .more acc' out' ∧ ListInv c opt (ws ++ [y.v]) acc' out' := by
  rcases h.split with ⟨e, hf, hne⟩ | ⟨s, t, e1, e2, hs⟩
  · right
    have hne' : ∀ v ∈ ws ++ [y.v], v.isError = false := by
      intro v hv
      rcases List.mem_append.1 hv with hv | hv
      · exact inv.noErr v hv
      · rw [List.mem_singleton.1 hv]; exact hne
    rw [listNext_plain hq opt _ acc out x (by rw [e]; exact hne), e, accOf_next inv.accEq]
    cases ha : accOf c (ws ++ [y.v]) with
    | some u => exact ⟨some u, out, rfl, ⟨hne', ha.symm, fun h => (by cases h), inv.fine⟩⟩
    | none =>
      obtain ⟨ha1, ha2⟩ := accOf_snoc ws y.v ha
      have hk : y.v.isUnknown = false := by
        by_cases hu : c.unknowns = true
        · exact ha2 hu
        · exact fine_off hf (by simpa using hu)
      have hc := check_ok hne hk
      refine ⟨none, out ++ [y.v], ?_, ⟨hne', ha.symm, fun _ rest => ?_, ?_⟩⟩
      · simp only [listPut]
        rw [if_neg (by rw [ho]; exact Bool.noConfusion), hc]
      · rw [List.append_assoc, List.singleton_append, inv.build (inv.accEq.trans ha1)]
        simp only [buildList, List.length_append, List.length_singleton]
        rw [if_neg (by rw [ho]; exact Bool.noConfusion), hc]
      · intro v hv
        rcases List.mem_append.1 hv with hv | hv
        · exact inv.fine v hv
        · rw [List.mem_singleton.1 hv]; exact hf
  · left
    refine ⟨s, t, e2, ?_, hs⟩
    unfold listNext
    rw [e1]

/-- How a list literal ends after its last element. -/
def listEnd : LitNext (List Value) → Res Value
  | .done v => .ok v
  | .fail e => .err e
  | .more (some u) _ => .ok (.unknown u)
  | .more none out => .ok (.list out)

/-- Outcomes of literals. -/
def RV (unk : Bool) : Res Value → Res Value → Prop
  | .ok x, .ok y => VR unk x y
  | .err s, .err t => StSim s t
  | .ub, .ub => True
  | _, _ => False

theorem list_end (hq : Quiet c) {opt : Nat → Bool} {ws : List Value} {acc : Option UnknownSet} {out : List Value}
    (inv : ListInv c opt ws acc out) {xs : List VA} (hx : xs.map VA.v = ws) :
    RV c.unknowns (listEnd (.more acc out)) (listEval c opt xs) := by
  rw [listEval_quiet hq opt hx inv.noErr, ← inv.accEq]
  cases ha : acc with
  | some u => exact VR.refl (accOf_fine (inv.accEq.symm.trans ha))
  | none =>
    have := inv.build ha []
    rw [List.append_nil] at this
    simp only
    rw [this]
    exact VR.refl (.list _ inv.fine)

/-- The last element may be optional. -/
theorem list_last (hq : Quiet c) {opt : Nat → Bool} {ws : List Value} {acc : Option UnknownSet} {out : List Value}
    (inv : ListInv c opt ws acc out) {x y : VA} (h : VR c.unknowns x.v y.v) {xs : List VA}
    (hx : xs.map VA.v = ws ++ [y.v]) :
    RV c.unknowns (listEnd (listNext c opt ws.length acc out x)) (listEval c opt xs) := by
  by_cases ho : opt ws.length = false
  · rcases list_next hq inv h ho with ⟨s, t, e, hn, hs⟩ | ⟨acc', out', hn, inv'⟩
    · rw [hn]
      unfold listEval
      rw [hx, e, firstError_some inv.noErr]
      exact VR.err hs
    · rw [hn]; exact list_end hq inv' hx
  · rcases h.split with ⟨e, hf, hne⟩ | ⟨s, t, e1, e2, hs⟩
    · have hne' : ∀ v ∈ ws ++ [y.v], v.isError = false := by
        intro v hv
        rcases List.mem_append.1 hv with hv | hv
        · exact inv.noErr v hv
        · rw [List.mem_singleton.1 hv]; exact hne
      rw [listEval_quiet hq opt hx hne', listNext_plain hq opt _ acc out x (by rw [e]; exact hne), e,
        accOf_next inv.accEq]
      cases ha : accOf c (ws ++ [y.v]) with
      | some u => exact VR.refl (accOf_fine ha)
      | none =>
        obtain ⟨ha1, ha2⟩ := accOf_snoc ws y.v ha
        simp only
        rw [inv.build (inv.accEq.trans ha1)]
        have ho' : opt ws.length = true := by simpa using ho
        simp only [listPut, buildList, if_pos ho']
        generalize y.v = q at *
        have hout : Fine c.unknowns (.list out) := .list _ inv.fine
        cases q with
        | opt o =>
          cases o with
          | none => exact VR.refl hout
          | some w =>
            cases hf with
            | optSome _ hw =>
              have hl : checkElement w = none → Fine c.unknowns (.list (out ++ [w])) := fun _ => by
                refine .list _ fun v hv => ?_
                rcases List.mem_append.1 hv with hv | hv
                · exact inv.fine v hv
                · rw [List.mem_singleton.1 hv]; exact hw
              cases w with
              | error e => exact VR.refl (.error _)
              | unknown u => exact StSim.refl _
              | _ => exact VR.refl (hl rfl)
        | _ => exact VR.refl (.error _)
    · unfold listEval
      rw [hx, e2, firstError_some inv.noErr]
      unfold listNext
      rw [e1]
      exact VR.err hs

/-! ## Maps -/

/-- State of the entry loop after the entries `es`. -/
structure MapInv (c : StepCfg) (opt : Nat → Bool) (es : List (Value × Value)) (acc : Option UnknownSet)
    (out : List (Value × Value)) : Prop where
  noErr : ∀ v ∈ layout es, v.isError = false
  accEq : acc = accOf c (layout es)
  build : acc = none → ∀ rest, buildMap c opt 0 (es ++ rest) [] = buildMap c opt es.length rest out
  keys : ∀ k, (∀ p ∈ es, keyEq p.1 k = false) → mapHas out k = false
  fine1 : ∀ p ∈ out, Fine c.unknowns p.1
  fine2 : ∀ p ∈ out, Fine c.unknowns p.2

theorem map_start (opt : Nat → Bool) : MapInv c opt [] none [] :=
  ⟨fun v hv => (by cases hv), by unfold accOf; split <;> rfl, fun _ _ => rfl, fun _ _ => rfl, fun v hv => (by cases hv),
    fun v hv => (by cases hv)⟩

theorem layout_snoc (es : List (Value × Value)) (k v : Value) : layout (es ++ [(k, v)]) = layout es ++ [k, v] := by
  simp [layout]

theorem keyKind_plain {k : Value} (h : keyKind k = true) : k.isError = false ∧ k.isUnknown = false := by
  cases k <;> first | exact ⟨rfl, rfl⟩ | cases h

theorem keyKind_fine {unk : Bool} {k : Value} (h : keyKind k = true) : Fine unk k := by
  cases k <;> first | (constructor; done) | cases h

theorem mapEval_quiet (hq : Quiet c) (opt : Nat → Bool) {xs : List VA} {es : List (Value × Value)}
    (hx : xs.map VA.v = layout es) (he : ∀ v ∈ layout es, v.isError = false) :
    mapEval c opt xs = match accOf c (layout es) with
      | some u => .ok (.unknown u)
      | none => buildMap c opt 0 es [] := by
  unfold mapEval
  rw [hx, firstError_none he, pairUp_layout]
  unfold accOf
  by_cases hu : c.unknowns = true
  · simp only [if_pos hu]
    rw [identify_quiet hq hu, hx]
    cases mergeLoop (layout es) none <;> rfl
  · simp only [if_neg hu]

theorem mapAcc_quiet (hq : Quiet c) (acc : Option UnknownSet) (x : VA) :
    mapAcc c acc x = if c.unknowns then maybeAddV acc x.v else acc := by
  unfold mapAcc
  by_cases hu : c.unknowns = true
  · rw [if_pos hu, if_pos hu, maybeAdd_quiet hq hu]
  · rw [if_neg hu, if_neg hu]

theorem map_key (hq : Quiet c) {k : Value} (hk : keyKind k = true) (acc : Option UnknownSet) (t : Trail) :
    mapKeyNext c acc ⟨k, t⟩ = .more acc () := by
  have h : mapAcc c acc ⟨k, t⟩ = acc := by
    rw [mapAcc_quiet hq]
    split
    · cases k <;> first | rfl | cases hk
    · rfl
  unfold mapKeyNext
  rw [checkMapKey_none.2 hk, h]
  cases k <;> first | rfl | cases hk

theorem accOf_next2 {ws : List Value} {acc : Option UnknownSet} (h : acc = accOf c ws) {k : Value}
    (hk : k.isUnknown = false) (v : Value) :
    (if c.unknowns then maybeAddV acc v else acc) = accOf c (ws ++ [k, v]) := by
  rw [h]
  unfold accOf
  by_cases hu : c.unknowns = true
  · rw [if_pos hu, if_pos hu, if_pos hu, mergeLoop_snoc2 _ _ hk]
  · rw [if_neg hu, if_neg hu, if_neg hu]

theorem accOf_snoc2 {ws : List Value} {k v : Value} (hk : k.isUnknown = false) (h : accOf c (ws ++ [k, v]) = none) :
    accOf c ws = none ∧ (c.unknowns = true → v.isUnknown = false) := by
  unfold accOf at *
  by_cases hu : c.unknowns = true
  · rw [if_pos hu] at h ⊢
    rw [mergeLoop_snoc2 _ _ hk] at h
    exact ⟨(maybeAddV_none h).1, fun _ => (maybeAddV_none h).2⟩
  · rw [if_neg hu]; exact ⟨rfl, fun h => absurd h hu⟩

theorem mapPut_new {out : List (Value × Value)} {k v : Value} (hk : keyKind k = true) (hn : mapHas out k = false) :
    mapPut out k v = match checkElement v with
      | some e => .err e
      | none => .ok (out ++ [(k, v)]) := by
  unfold mapPut
  rw [checkMapKey_none.2 hk]
  simp only
  cases checkElement v with
  | some e => rfl
  | none => simp only; rw [if_neg (by rw [hn]; exact Bool.noConfusion)]

/-- The keys found in the builder come from the entries. -/
theorem keys_snoc {es out : List (Value × Value)} {k v w : Value}
    (h : ∀ k, (∀ p ∈ es, keyEq p.1 k = false) → mapHas out k = false) :
    ∀ k', (∀ p ∈ es ++ [(k, v)], keyEq p.1 k' = false) → mapHas (out ++ [(k, w)]) k' = false := by
  intro k' hk'
  rw [mapHas_append, h k' (fun p hp => hk' p (List.mem_append_left _ hp)),
    hk' (k, v) (List.mem_append_right _ (List.mem_singleton.2 rfl))]
  rfl

theorem noErr_snoc {es : List (Value × Value)} {k v : Value} (h : ∀ v ∈ layout es, v.isError = false)
    (hk : k.isError = false) (hv : v.isError = false) : ∀ w ∈ layout (es ++ [(k, v)]), w.isError = false := by
  intro w hw
  rw [layout_snoc] at hw
  rcases List.mem_append.1 hw with hw | hw
  · exact h w hw
  · rcases List.mem_cons.1 hw with e | hw
    · rw [e]; exact hk
    · rw [List.mem_singleton.1 hw]; exact hv

theorem map_next (hq : Quiet c) {opt : Nat → Bool} {es : List (Value × Value)} {acc : Option UnknownSet}
    {out : List (Value × Value)} (inv : MapInv c opt es acc out) {k : Value} (hk : keyKind k = true)
    (hd : ∀ p ∈ es, keyEq p.1 k = false) {x y : VA} (h : VR c.unknowns x.v y.v) (ho : opt es.length = false) :
    (∃ s t, y.v = .error t ∧ mapValNext c opt es.length acc out k x = .done (.error s) ∧ StSim s t) ∨
    ∃ acc' out', mapValNext c opt es.length acc out k x = .more acc' out' ∧
      MapInv c opt (es ++ [(k, y.v)]) acc' out' := by
  rcases h.split with ⟨e, hf, hne⟩ | ⟨s, t, e1, e2, hs⟩
  · right
    have hpk := keyKind_plain hk
    have hne' := noErr_snoc inv.noErr hpk.1 hne
    have hstep : mapValNext c opt es.length acc out k x =
        match accOf c (layout (es ++ [(k, y.v)])) with
        | some u => .more (some u) out
        | none => match mapPut out k y.v with
          | .ok out' => .more none out'
          | .err e => .fail e
          | .ub => .more none out := by
      unfold mapValNext
      rw [mapAcc_quiet hq, e, accOf_next2 inv.accEq hpk.2, layout_snoc]
      rw [if_neg (by rw [ho]; exact Bool.noConfusion)]
      generalize y.v = q at *
      cases q <;> first | exact Bool.noConfusion (show true = false from hne) | rfl
    rw [hstep]
    cases ha : accOf c (layout (es ++ [(k, y.v)])) with
    | some u =>
      refine ⟨some u, out, rfl, ⟨hne', ha.symm, fun h => (by cases h), ?_, inv.fine1, inv.fine2⟩⟩
      intro k' hk'
      exact inv.keys k' (fun p hp => hk' p (List.mem_append_left _ hp))
    | none =>
      rw [layout_snoc] at ha
      obtain ⟨ha1, ha2⟩ := accOf_snoc2 hpk.2 ha
      rw [← layout_snoc] at ha
      have hku : y.v.isUnknown = false := by
        by_cases hu : c.unknowns = true
        · exact ha2 hu
        · exact fine_off hf (by simpa using hu)
      have hc := check_ok hne hku
      have hput := mapPut_new (v := y.v) hk (inv.keys k hd)
      rw [hc] at hput
      refine ⟨none, out ++ [(k, y.v)], by rw [hput], ⟨hne', ha.symm, fun _ rest => ?_, keys_snoc inv.keys, ?_, ?_⟩⟩
      · rw [List.append_assoc, List.singleton_append, inv.build (inv.accEq.trans ha1)]
        simp only [buildMap, List.length_append, List.length_singleton]
        rw [checkMapKey_none.2 hk, if_neg (by rw [ho]; exact Bool.noConfusion), hput]
      · intro v hv
        rcases List.mem_append.1 hv with hv | hv
        · exact inv.fine1 v hv
        · rw [List.mem_singleton.1 hv]; exact keyKind_fine hk
      · intro v hv
        rcases List.mem_append.1 hv with hv | hv
        · exact inv.fine2 v hv
        · rw [List.mem_singleton.1 hv]; exact hf
  · left
    refine ⟨s, t, e2, ?_, hs⟩
    unfold mapValNext
    rw [e1]

/-- How a map literal ends after its last entry. -/
def mapEnd : LitNext (List (Value × Value)) → Res Value
  | .done v => .ok v
  | .fail e => .err e
  | .more (some u) _ => .ok (.unknown u)
  | .more none out => .ok (.map out)

theorem map_end (hq : Quiet c) {opt : Nat → Bool} {es : List (Value × Value)} {acc : Option UnknownSet}
    {out : List (Value × Value)} (inv : MapInv c opt es acc out) {xs : List VA} (hx : xs.map VA.v = layout es) :
    RV c.unknowns (mapEnd (.more acc out)) (mapEval c opt xs) := by
  rw [mapEval_quiet hq opt hx inv.noErr, ← inv.accEq]
  cases ha : acc with
  | some u => exact VR.refl (accOf_fine (inv.accEq.symm.trans ha))
  | none =>
    have := inv.build ha []
    rw [List.append_nil] at this
    simp only
    rw [this]
    exact VR.refl (.map _ inv.fine1 inv.fine2)

/-- The last entry may be optional. -/
theorem map_last (hq : Quiet c) {opt : Nat → Bool} {es : List (Value × Value)} {acc : Option UnknownSet}
    {out : List (Value × Value)} (inv : MapInv c opt es acc out) {k : Value} (hk : keyKind k = true)
    (hd : ∀ p ∈ es, keyEq p.1 k = false) {x y : VA} (h : VR c.unknowns x.v y.v) {xs : List VA}
    (hx : xs.map VA.v = layout (es ++ [(k, y.v)])) :
    RV c.unknowns (mapEnd (mapValNext c opt es.length acc out k x)) (mapEval c opt xs) := by
  have hpk := keyKind_plain hk
  have herr : ∀ t, y.v = .error t → mapEval c opt xs = .ok (.error t) := by
    intro t e
    unfold mapEval
    rw [hx, layout_snoc, e, show layout es ++ [k, Value.error t] = (layout es ++ [k]) ++ Value.error t :: [] by simp,
      firstError_some]
    intro v hv
    rcases List.mem_append.1 hv with hv | hv
    · exact inv.noErr v hv
    · rw [List.mem_singleton.1 hv]; exact hpk.1
  by_cases ho : opt es.length = false
  · rcases map_next hq inv hk hd h ho with ⟨s, t, e, hn, hs⟩ | ⟨acc', out', hn, inv'⟩
    · rw [hn, herr t e]
      exact VR.err hs
    · rw [hn]; exact map_end hq inv' hx
  · have ho' : opt es.length = true := by simpa using ho
    rcases h.split with ⟨e, hf, hne⟩ | ⟨s, t, e1, e2, hs⟩
    · rw [mapEval_quiet hq opt hx (noErr_snoc inv.noErr hpk.1 hne)]
      unfold mapValNext
      rw [mapAcc_quiet hq, e, accOf_next2 inv.accEq hpk.2, if_pos ho', layout_snoc]
      cases ha : accOf c (layout es ++ [k, y.v]) with
      | some u =>
        generalize y.v = q at *
        cases q <;> first | exact Bool.noConfusion (show true = false from hne) | exact VR.refl (accOf_fine ha)
      | none =>
        obtain ⟨ha1, ha2⟩ := accOf_snoc2 hpk.2 ha
        simp only
        rw [inv.build (inv.accEq.trans ha1)]
        simp only [buildMap, if_pos ho', checkMapKey_none.2 hk]
        generalize y.v = q at *
        have hout : Fine c.unknowns (.map out) := .map _ inv.fine1 inv.fine2
        cases q with
        | error e => exact Bool.noConfusion (show true = false from hne)
        | opt o =>
          cases o with
          | none => exact VR.refl hout
          | some w =>
            cases hf with
            | optSome _ hw =>
              have hl : Fine c.unknowns (.map (out ++ [(k, w)])) := by
                refine .map _ (fun v hv => ?_) (fun v hv => ?_)
                · rcases List.mem_append.1 hv with hv | hv
                  · exact inv.fine1 v hv
                  · rw [List.mem_singleton.1 hv]; exact keyKind_fine hk
                · rcases List.mem_append.1 hv with hv | hv
                  · exact inv.fine2 v hv
                  · rw [List.mem_singleton.1 hv]; exact hw
              have hput := mapPut_new (v := w) hk (inv.keys k hd)
              cases w with
              | error e => exact VR.refl (.error _)
              | unknown u => simp only [hput]; exact StSim.refl _
              | _ => simp only [hput, checkElement]; exact VR.refl hl
        | _ => exact VR.refl (.error _)
    · rw [herr t e2]
      unfold mapValNext
      rw [e1]
      exact VR.err hs

end

/-! ## Calls -/

/-- Pairwise related values. -/
inductive VRs (unk : Bool) : List VA → List VA → Prop where
  | nil : VRs unk [] []
  | cons {x y xs ys} : VR unk x.v y.v → VRs unk xs ys → VRs unk (x :: xs) (y :: ys)

/-- Outcomes of calls: the same host state, and corresponding results. -/
def CallR {σ : Type} (unk : Bool) (a b : Res Value × σ) : Prop := a.2 = b.2 ∧ RV unk a.1 b.1

/-- The call site does not look at what distinguishes corresponding arguments, and returns fine
values. -/
def CallOK {σ : Type} (r : RCfg σ) (cs : CallSite σ) : Prop :=
  ∀ xs ys h, VRs r.c.unknowns xs ys →
    CallR r.c.unknowns (evalCall r.callOpts cs xs h) (evalCall r.callOpts cs ys h)

/-- All functions the call site can resolve to are strict, and return fine values for fine
arguments. -/
def StrictSite {σ : Type} (unk : Bool) (cs : CallSite σ) : Prop :=
  ∀ args o, cs.resolve args = .ok (some o) →
    o.desc.strict = true ∧ ∀ h v h', (∀ a ∈ args, Fine unk a) → o.impl args h = (.ok v, h') → Fine unk v

theorem kindsMatchLoop_kinds : ∀ (ks : List Nat) (as bs : List Value), as.map Value.kind = bs.map Value.kind →
    kindsMatchLoop ks as = kindsMatchLoop ks bs := by
  intro ks
  induction ks with
  | nil => intro as bs _; cases as <;> cases bs <;> rfl
  | cons k ks ih =>
    intro as bs h
    cases as with
    | nil => cases bs with
      | nil => rfl
      | cons b bs => cases h
    | cons a as => cases bs with
      | nil => cases h
      | cons b bs =>
        simp only [List.map_cons, List.cons.injEq] at h
        simp only [kindsMatchLoop, h.1, ih as bs h.2]

theorem argumentKinds_kinds (d : FnDesc) (as bs : List Value) (h : as.map Value.kind = bs.map Value.kind) :
    argumentKindsMatch d as = argumentKindsMatch d bs := by
  have hl : as.length = bs.length := by simpa using congrArg List.length h
  unfold argumentKindsMatch
  rw [hl, kindsMatchLoop_kinds _ as bs h]

theorem resolve_kinds {σ : Type} (cs : CallSite σ) (as bs : List Value) (h : as.map Value.kind = bs.map Value.kind) :
    cs.resolve as = cs.resolve bs := by
  unfold CallSite.resolve
  cases cs.resolver with
  | eager os =>
    simp only
    congr 1
    induction os with
    | nil => rfl
    | cons o os ih => simp only [resolveStatic, argumentKinds_kinds _ _ _ h, ih]
  | lazy ps =>
    simp only [resolveLazy]
    rw [h]
    generalize (none : Option (Overload σ)) = r
    induction ps generalizing r with
    | nil => rfl
    | cons p ps ih =>
      simp only [resolveLazyLoop, argumentKinds_kinds _ _ _ h]
      split
      · exact ih r
      · cases p.get _ with
        | err s => rfl
        | ub => rfl
        | ok q =>
          cases q with
          | none => exact ih r
          | some o => cases r with
            | none => exact ih _
            | some _ => rfl

theorem VRs.kinds {unk : Bool} {xs ys : List VA} (h : VRs unk xs ys) :
    (xs.map VA.v).map Value.kind = (ys.map VA.v).map Value.kind := by
  induction h with
  | nil => rfl
  | cons h _ ih =>
    simp only [List.map_cons, ih]
    rcases h.cases with ⟨e, _⟩ | ⟨s, t, e1, e2, _⟩
    · rw [e]
    · rw [e1, e2]; rfl

/-- Either both lists are the same and contain no error, or the first errors correspond. -/
theorem VRs.split {unk : Bool} {xs ys : List VA} (h : VRs unk xs ys) :
    (xs.map VA.v = ys.map VA.v ∧ (∀ v ∈ ys.map VA.v, Fine unk v) ∧ firstError (ys.map VA.v) = none) ∨
    (∃ s t, firstError (xs.map VA.v) = some (.error s) ∧ firstError (ys.map VA.v) = some (.error t) ∧ StSim s t) := by
  induction h with
  | nil => exact Or.inl ⟨rfl, fun v hv => (by cases hv), rfl⟩
  | @cons x y xs ys h _ ih =>
    rcases h.split with ⟨e, hf, hne⟩ | ⟨s, t, e1, e2, hs⟩
    · have hfe : ∀ l, firstError (y.v :: l) = firstError l := by
        intro l
        generalize y.v = q at *
        cases q <;> first | exact Bool.noConfusion (show true = false from hne) | rfl
      rcases ih with ⟨i1, i2, i3⟩ | ⟨s, t, i1, i2, i3⟩
      · refine Or.inl ⟨by simp only [List.map_cons, e, i1], fun v hv => ?_, by simp only [List.map_cons, hfe, i3]⟩
        rcases List.mem_cons.1 hv with hv | hv
        · rw [hv]; exact hf
        · exact i2 v hv
      · exact Or.inr ⟨s, t, by simp only [List.map_cons, e, hfe, i1], by simp only [List.map_cons, hfe, i2], i3⟩
    · exact Or.inr ⟨s, t, by simp only [List.map_cons, e1, firstError], by simp only [List.map_cons, e2, firstError], hs⟩

theorem checkPartial_nil (xs : List VA) : checkPartialUnknowns [] xs = xs.map VA.v := by
  induction xs with
  | nil => rfl
  | cons x xs ih =>
    simp only [checkPartialUnknowns, ih, List.map_cons]
    rw [checkUnknown_nil]; rfl

theorem should_refuse {d : FnDesc} (hd : d.strict = true) {l : List Value} {e : Value}
    (h : firstError l = some e) : shouldAcceptOverload d l = false := by
  induction l with
  | nil => cases h
  | cons v l ih =>
    simp only [shouldAcceptOverload]
    split
    · rw [hd]; rfl
    · rename_i hv
      refine ih ?_
      cases v <;> first | exact h | exact absurd (Or.inr rfl) hv

theorem noOverloadResult_err {name : String} {l : List Value} {recv unk : Bool} {e : Value}
    (h : firstError l = some e) : noOverloadResult name l recv unk = e := by
  unfold noOverloadResult; rw [h]

theorem noOverloadResult_fine {name : String} {l : List Value} {recv unk : Bool} (h : firstError l = none) :
    Fine unk (noOverloadResult name l recv unk) := by
  unfold noOverloadResult
  rw [h]
  simp only
  cases hu : (if unk = true then mergeUnknowns l else none) with
  | some u =>
    by_cases hk : unk = true
    · rw [if_pos hk] at hu
      exact .unknown u hk (mergeLoop_canon _ _ (fun _ h => by cases h) u hu)
    · rw [if_neg hk] at hu; cases hu
  | none =>
    simp only
    split
    · split <;> exact .error _
    · exact .error _

/-- **Strict functions qualify.** -/
theorem callOK_strict {σ : Type} {r : RCfg σ} {cs : CallSite σ} (hq : Quiet r.c)
    (hfr : r.fnResults = true → r.c.unknowns = true) (hs : StrictSite r.c.unknowns cs) : CallOK r cs := by
  intro xs ys h hxy
  have hargs : ∀ zs : List VA, (if r.callOpts.unknowns = true then checkPartialUnknowns r.callOpts.pats zs
      else zs.map (·.v)) = zs.map VA.v := by
    intro zs
    show (if r.c.unknowns = true then checkPartialUnknowns r.c.pats zs else zs.map (·.v)) = _
    by_cases hu : r.c.unknowns = true
    · rw [if_pos hu, hq.1 hu, checkPartial_nil]
    · rw [if_neg hu]
  unfold evalCall
  simp only [hargs]
  rw [resolve_kinds cs (xs.map VA.v) (ys.map VA.v) hxy.kinds]
  rcases hxy.split with ⟨e, hfine, hne⟩ | ⟨s, t, e1, e2, hst⟩
  · rw [e]
    have hno : Fine r.c.unknowns (noOverloadResult cs.name (ys.map VA.v) cs.receiver r.callOpts.unknowns) :=
      noOverloadResult_fine hne
    cases hres : cs.resolve (ys.map VA.v) with
    | err s => exact ⟨rfl, StSim.refl _⟩
    | ub => exact ⟨rfl, trivial⟩
    | ok q =>
      cases q with
      | none => exact ⟨rfl, VR.refl hno⟩
      | some o =>
        simp only
        split
        · refine ⟨rfl, ?_⟩
          obtain ⟨_, himp⟩ := hs _ _ hres
          unfold invoke
          cases hi : o.impl (ys.map VA.v) h with
          | mk res h' =>
            cases res with
            | err s => exact StSim.refl _
            | ub => exact trivial
            | ok v =>
              have hv := himp _ _ _ hfine hi
              cases v with
              | error st =>
                simp only
                split
                · rename_i hc
                  exact VR.refl (.unknown _ (hfr hc.1) ⟨trivial, ⟨fun _ h => (by cases h), trivial⟩⟩)
                · exact VR.refl hv
              | _ => exact VR.refl hv
        · exact ⟨rfl, VR.refl hno⟩
  · have hno : VR r.c.unknowns (noOverloadResult cs.name (xs.map VA.v) cs.receiver r.callOpts.unknowns)
        (noOverloadResult cs.name (ys.map VA.v) cs.receiver r.callOpts.unknowns) := by
      rw [noOverloadResult_err e1, noOverloadResult_err e2]; exact VR.err hst
    cases hres : cs.resolve (ys.map VA.v) with
    | err s => exact ⟨rfl, StSim.refl _⟩
    | ub => exact ⟨rfl, trivial⟩
    | ok q =>
      cases q with
      | none => exact ⟨rfl, hno⟩
      | some o =>
        simp only
        have hd := (hs _ _ hres).1
        rw [should_refuse hd e1, should_refuse hd e2]
        exact ⟨rfl, hno⟩

end Cel.Direct
