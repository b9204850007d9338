import Verif.MsgEq.Main

/-! # All operands -/

set_option linter.dupNamespace false
set_option linter.unusedSimpArgs false
set_option linter.unusedVariables false
set_option linter.unusedTactic false

namespace Cel.MsgEq
open Cel Cel.Num Cel.Eval Cel.Data Cel.Data.Spec Cel.Json Cel.MsgEq.Spec

theorem map_other {l : List (Value × Value)} {v : Value} (hd : IsData v) (h : ∀ m, v ≠ .map m) :
    (valueEqual (.map l) v = some false ∧ cEqual (.map l) v = false) ∧
      valueEqual v (.map l) = some false ∧ cEqual v (.map l) = false := by
  have ho := hd.self
  cases v <;> first | exact ⟨⟨rfl, rfl⟩, rfl, rfl⟩ | (rename_i o; cases o <;> exact ⟨⟨rfl, rfl⟩, rfl, rfl⟩) | exact (h _ rfl).elim | exact ho.elim

theorem list_other {l : List Value} {v : Value} (hd : IsData v) (h : ∀ m, v ≠ .list m) :
    (valueEqual (.list l) v = some false ∧ cEqual (.list l) v = false) ∧
      valueEqual v (.list l) = some false ∧ cEqual v (.list l) = false := by
  have ho := hd.self
  cases v <;> first | exact ⟨⟨rfl, rfl⟩, rfl, rfl⟩ | (rename_i o; cases o <;> exact ⟨⟨rfl, rfl⟩, rfl, rfl⟩) | exact (h _ rfl).elim | exact ho.elim

theorem listField_val (l : List Json) : val (.rep (listField l)) = fromJson (.arr l) := by
  simp only [val, listField, fromJson, fromJsonList_map, List.map_map]
  rfl

theorem structField_val (f : List (String × Json)) :
    val (.map (structField f)) = fromJson (.obj f) := by
  simp only [val, structField, fromJson, fromJsonMap_map, List.map_map]
  rfl

theorem listField_wf {l : List Json} (h : Json.Spec.WF (.arr l)) : WF (.rep (listField l)) := by
  intro e he
  obtain ⟨j, hj, rfl⟩ := List.mem_map.1 he
  cases h with
  | arr _ h => exact ⟨h j hj, rfl⟩

theorem structField_wf {f : List (String × Json)} (h : Json.Spec.WF (.obj f)) :
    WF (.map (structField f)) := by
  cases h with
  | obj _ hn h =>
    refine ⟨?_, ?_⟩
    · show ((f.map fun e => (Key.str e.1, Elem.msg (.value e.2))).map Prod.fst).Nodup
      rw [List.map_map]
      have : (Prod.fst ∘ fun e : String × Json => (Key.str e.1, Elem.msg (.value e.2))) = Key.str ∘ Prod.fst := rfl
      rw [this, ← List.map_map]
      exact hn.map (fun a b hab => by cases hab; rfl)
    · intro e he
      obtain ⟨x, hx, rfl⟩ := List.mem_map.1 he
      exact ⟨trivial, rfl, h x hx, rfl⟩

theorem listField_sound (l : List Json) : Sound (.rep (listField l)) := by
  intro e he
  obtain ⟨j, hj, rfl⟩ := List.mem_map.1 he
  exact trivial

theorem structField_sound (f : List (String × Json)) : Sound (.map (structField f)) := by
  intro e he
  obtain ⟨j, hj, rfl⟩ := List.mem_map.1 he
  exact trivial

/-- The field inside a message that denotes a map. -/
theorem mapOf_some {m : Msg} (hw : MsgWF m) {r : MapF} (h : mapOf m = some r) :
    val (.map r) = msgVal m ∧ WF (.map r) ∧ Sound (.map r) ∧ r.key = .str := by
  cases m with
  | value j =>
    cases j with
    | obj f => cases h; exact ⟨structField_val f, structField_wf hw, structField_sound f, rfl⟩
    | _ => cases h
  | struct f => cases h; exact ⟨structField_val f, structField_wf hw, structField_sound f, rfl⟩
  | _ => cases h

theorem mapOf_none {m : Msg} (hf : Final m) (h : mapOf m = none) : ∀ f, msgVal m ≠ .map f := by
  intro f hv
  cases m with
  | value j => cases j <;> first | (cases hv; done) | (cases h; done)
  | any url b c => cases c <;> first | exact hf.elim | cases hv
  | _ => first | (cases hv; done) | (cases h; done)

theorem listOf_some {m : Msg} (hw : MsgWF m) {r : Rep} (h : listOf m = some r) :
    val (.rep r) = msgVal m ∧ WF (.rep r) ∧ Sound (.rep r) := by
  cases m with
  | value j =>
    cases j with
    | arr f => cases h; exact ⟨listField_val f, listField_wf hw, listField_sound f⟩
    | _ => cases h
  | listValue f => cases h; exact ⟨listField_val f, listField_wf hw, listField_sound f⟩
  | _ => cases h

theorem listOf_none {m : Msg} (hf : Final m) (h : listOf m = none) : ∀ f, msgVal m ≠ .list f := by
  intro f hv
  cases m with
  | value j => cases j <;> first | (cases hv; done) | (cases h; done)
  | any url b c => cases c <;> first | exact hf.elim | cases hv
  | _ => first | (cases hv; done) | (cases h; done)

/-- The kind of a message whose value is a map. -/
theorem map_kind {m : Msg} {f : List (Value × Value)} (h : msgVal m = .map f) : m.kind.name ∈ mapNames := by
  cases m with
  | value j => simp [Msg.kind, MKind.name, mapNames]
  | struct j => simp [Msg.kind, MKind.name, mapNames]
  | any url b c => simp [Msg.kind, MKind.name, mapNames]
  | _ => cases h

theorem list_kind {m : Msg} {f : List Value} (h : msgVal m = .list f) : m.kind.name ∈ listNames := by
  cases m with
  | value j => simp [Msg.kind, MKind.name, listNames]
  | listValue j => simp [Msg.kind, MKind.name, listNames]
  | any url b c => simp [Msg.kind, MKind.name, listNames]
  | _ => cases h

/-- Unpacking for a container comparison. -/
theorem unpackFor_ok (names : List String) (m : Msg) (hw : MsgWF m) :
    (MsgSound m → ∃ u, unpackFor names m = .ok u) ∧
    ∀ u, unpackFor names m = .ok u →
      (∃ m', u = some m' ∧ MsgWF m' ∧ Final m' ∧ msgVal m' = msgVal m) ∨
      (u = none ∧ ((∃ url b i, msgVal m = .opaq url i ∧ m = .any url b .unresolved) ∨
        ∃ url b c m', m = .any url b c ∧ (c = .packed m' ∧ m'.kind.name ∉ names ∨ c = .corrupt))) := by
  cases m with
  | any url b c =>
    rw [unpackFor]
    cases hu : stripUrl url with
    | none =>
      refine ⟨fun _ => ⟨_, rfl⟩, fun u h => ?_⟩
      cases h
      have := wf_unset_any hw hu
      subst this
      exact .inr ⟨rfl, .inl ⟨url, b, _, rfl, rfl⟩⟩
    | some n =>
      simp only []
      split
      · rename_i hn
        obtain ⟨h1, h2⟩ := adaptAny_ok url b c hw
        constructor
        · intro hs
          obtain ⟨u, hu'⟩ := h1 hs
          rw [hu']
          cases u <;> exact ⟨_, rfl⟩
        · intro u h
          cases ha : adaptAny url c none with
          | ok v =>
            rw [ha] at h
            obtain ⟨r1, r2, r3, _⟩ := h2 v ha
            cases v <;> (cases h; exact .inl ⟨_, rfl, r1, r2, r3⟩)
          | err e => rw [ha] at h; cases h
          | ub => rw [ha] at h; cases h
      · rename_i hn
        refine ⟨fun _ => ⟨_, rfl⟩, fun u h => ?_⟩
        cases h
        refine .inr ⟨rfl, ?_⟩
        cases c with
        | unresolved => exact .inl ⟨url, b, _, rfl, rfl⟩
        | corrupt => exact .inr ⟨url, b, _, .boolW true, rfl, .inr rfl⟩
        | packed m' =>
          refine .inr ⟨url, b, _, m', rfl, .inl ⟨rfl, ?_⟩⟩
          have := hw.1
          rw [hu] at this
          cases this
          exact hn
  | _ =>
    refine ⟨fun _ => ⟨_, rfl⟩, fun u h => ?_⟩
    cases h
    exact .inl ⟨_, rfl, hw, trivial, rfl⟩

/-- What a container is compared with: the field inside the message, or nothing equal to it. -/
theorem mapAgainst_ok {cmp : MapF → Res Bool} {o : Operand} (hw : WF o) {b : Bool}
    (h : mapAgainst cmp o = .ok b) :
    (b = false ∧ (∀ f, val o ≠ .map f) ∨
      ∃ r, cmp r = .ok b ∧ val (.map r) = val o ∧ WF (.map r) ∧ Sound (.map r) ∧ r.key = .str) ∨ ∃ m, o = .map m := by
  have key : ∀ m, MsgWF m → ((unpackFor mapNames m).bind fun u =>
      match u.bind mapOf with
      | none => .ok false
      | some r => cmp r) = .ok b → b = false ∧ (∀ f, msgVal m ≠ .map f) ∨
      ∃ r, cmp r = .ok b ∧ val (.map r) = msgVal m ∧ WF (.map r) ∧ Sound (.map r) ∧ r.key = .str := by
    intro m hm h
    cases hu : unpackFor mapNames m with
    | err e => rw [hu] at h; cases h
    | ub => rw [hu] at h; cases h
    | ok u =>
      rw [hu] at h
      simp only [Res.bind] at h
      rcases (unpackFor_ok mapNames m hm).2 u hu with ⟨m', rfl, h1, h2, h3⟩ | ⟨rfl, h4⟩
      · simp only [Option.bind_some] at h
        cases hr : mapOf m' with
        | none =>
          rw [hr] at h
          cases h
          refine .inl ⟨rfl, ?_⟩
          rw [← h3]
          exact mapOf_none h2 hr
        | some r =>
          rw [hr] at h
          obtain ⟨r1, r2, r3, r4⟩ := mapOf_some h1 hr
          exact .inr ⟨r, h, r1.trans h3, r2, r3, r4⟩
      · simp only [Option.bind_none] at h
        cases h
        refine .inl ⟨rfl, fun f hf => ?_⟩
        rcases h4 with ⟨url, b, i, h5, _⟩ | ⟨url, b, c, m', rfl, ⟨rfl, h5⟩ | rfl⟩
        · rw [h5] at hf; cases hf
        · exact h5 (map_kind (m := m') hf)
        · cases hf
  unfold mapAgainst at h
  cases o with
  | map m => exact .inr ⟨m, rfl⟩
  | rep r => cases h; exact .inl (.inl ⟨rfl, fun f hf => by cases hf⟩)
  | msg m => exact .inl (key m hw h)
  | one o =>
    obtain ⟨i, t, e⟩ := o
    cases e with
    | msg m => exact .inl (key m hw.1 h)
    | _ => cases h; exact .inl (.inl ⟨rfl, fun f hf => by cases hf⟩)

theorem repAgainst_ok {cmp : Rep → Res Bool} {o : Operand} (hw : WF o) {b : Bool}
    (h : repAgainst cmp o = .ok b) :
    (b = false ∧ (∀ f, val o ≠ .list f) ∨
      ∃ r, cmp r = .ok b ∧ val (.rep r) = val o ∧ WF (.rep r) ∧ Sound (.rep r)) ∨ ∃ m, o = .rep m := by
  have key : ∀ m, MsgWF m → ((unpackFor listNames m).bind fun u =>
      match u.bind listOf with
      | none => .ok false
      | some r => cmp r) = .ok b → b = false ∧ (∀ f, msgVal m ≠ .list f) ∨
      ∃ r, cmp r = .ok b ∧ val (.rep r) = msgVal m ∧ WF (.rep r) ∧ Sound (.rep r) := by
    intro m hm h
    cases hu : unpackFor listNames m with
    | err e => rw [hu] at h; cases h
    | ub => rw [hu] at h; cases h
    | ok u =>
      rw [hu] at h
      simp only [Res.bind] at h
      rcases (unpackFor_ok listNames m hm).2 u hu with ⟨m', rfl, h1, h2, h3⟩ | ⟨rfl, h4⟩
      · simp only [Option.bind_some] at h
        cases hr : listOf m' with
        | none =>
          rw [hr] at h
          cases h
          refine .inl ⟨rfl, ?_⟩
          rw [← h3]
          exact listOf_none h2 hr
        | some r =>
          rw [hr] at h
          obtain ⟨r1, r2, r3⟩ := listOf_some h1 hr
          exact .inr ⟨r, h, r1.trans h3, r2, r3⟩
      · simp only [Option.bind_none] at h
        cases h
        refine .inl ⟨rfl, fun f hf => ?_⟩
        rcases h4 with ⟨url, b, i, h5, _⟩ | ⟨url, b, c, m', rfl, ⟨rfl, h5⟩ | rfl⟩
        · rw [h5] at hf; cases hf
        · exact h5 (list_kind (m := m') hf)
        · cases hf
  unfold repAgainst at h
  cases o with
  | rep m => exact .inr ⟨m, rfl⟩
  | map r => cases h; exact .inl (.inl ⟨rfl, fun f hf => by cases hf⟩)
  | msg m => exact .inl (key m hw h)
  | one o =>
    obtain ⟨i, t, e⟩ := o
    cases e with
    | msg m => exact .inl (key m hw.1 h)
    | _ => cases h; exact .inl (.inl ⟨rfl, fun f hf => by cases hf⟩)

theorem mapAgainst_total {cmp : MapF → Res Bool} {o : Operand} (hw : WF o) (hs : Sound o)
    (hc : ∀ r, WF (.map r) → Sound (.map r) → ∃ b, cmp r = .ok b) : ∃ b, mapAgainst cmp o = .ok b := by
  have key : ∀ m, MsgWF m → MsgSound m → ∃ b, ((unpackFor mapNames m).bind fun u =>
      match u.bind mapOf with
      | none => .ok false
      | some r => cmp r) = .ok b := by
    intro m hm hs
    obtain ⟨h1, h2⟩ := unpackFor_ok mapNames m hm
    obtain ⟨u, hu⟩ := h1 hs
    rw [hu]
    simp only [Res.bind]
    rcases h2 u hu with ⟨m', rfl, h3, _⟩ | ⟨rfl, _⟩
    · simp only [Option.bind_some]
      cases hr : mapOf m' with
      | none => exact ⟨_, rfl⟩
      | some r => obtain ⟨_, r2, r3, _⟩ := mapOf_some h3 hr; exact hc r r2 r3
    · exact ⟨_, rfl⟩
  unfold mapAgainst
  cases o with
  | map m => exact ⟨_, rfl⟩
  | rep m => exact ⟨_, rfl⟩
  | msg m => exact key m hw hs
  | one o =>
    obtain ⟨i, t, e⟩ := o
    cases e with
    | msg m => exact key m hw.1 hs
    | _ => exact ⟨_, rfl⟩

theorem repAgainst_total {cmp : Rep → Res Bool} {o : Operand} (hw : WF o) (hs : Sound o)
    (hc : ∀ r, WF (.rep r) → Sound (.rep r) → ∃ b, cmp r = .ok b) : ∃ b, repAgainst cmp o = .ok b := by
  have key : ∀ m, MsgWF m → MsgSound m → ∃ b, ((unpackFor listNames m).bind fun u =>
      match u.bind listOf with
      | none => .ok false
      | some r => cmp r) = .ok b := by
    intro m hm hs
    obtain ⟨h1, h2⟩ := unpackFor_ok listNames m hm
    obtain ⟨u, hu⟩ := h1 hs
    rw [hu]
    simp only [Res.bind]
    rcases h2 u hu with ⟨m', rfl, h3, _⟩ | ⟨rfl, _⟩
    · simp only [Option.bind_some]
      cases hr : listOf m' with
      | none => exact ⟨_, rfl⟩
      | some r => obtain ⟨_, r2, r3⟩ := listOf_some h3 hr; exact hc r r2 r3
    · exact ⟨_, rfl⟩
  unfold repAgainst
  cases o with
  | map m => exact ⟨_, rfl⟩
  | rep m => exact ⟨_, rfl⟩
  | msg m => exact key m hw hs
  | one o =>
    obtain ⟨i, t, e⟩ := o
    cases e with
    | msg m => exact key m hw.1 hs
    | _ => exact ⟨_, rfl⟩

/-! ## Singular operands -/

def Single.op : Single → Operand
  | .one o => .one o
  | .msg m => .msg m

theorem singleAsEV_msg (m : Msg) : singleAsEV (.msg m) = msgEV m := by
  cases m with
  | any url b c =>
    rw [singleAsEV, msgEV]
    congr 1
    funext u
    cases u <;> rfl
  | _ => rfl

theorem singleAsEV_one (o : One) : singleAsEV (.one o) = elemAsEV o.elem := by
  obtain ⟨i, t, e⟩ := o
  cases e with
  | msg m =>
    cases m with
    | any url b c => rfl
    | _ => rfl
  | _ => rfl

theorem singleAsEV_ok {s : Single} (hw : WF s.op) {x : EV} (h : singleAsEV s = .ok x) :
    evVal x = val s.op ∧ EVWF x ∧ Sound s.op ∧ Fits s.category x := by
  cases s with
  | one o =>
    rw [singleAsEV_one] at h
    obtain ⟨h1, h2, h3, h4⟩ := elemAsEV_ok hw.1 h
    rw [hw.2] at h4
    exact ⟨h1, h2, h3, h4⟩
  | msg m =>
    rw [singleAsEV_msg] at h
    exact msgEV_ok hw h

theorem singleAsEV_total {s : Single} (hw : WF s.op) (hs : Sound s.op) : ∃ x, singleAsEV s = .ok x := by
  cases s with
  | one o => rw [singleAsEV_one]; exact elemAsEV_total hw.1 hs
  | msg m => rw [singleAsEV_msg]; exact msgEV_total hw hs

theorem unpackFails_none {s : Single} (hw : WF s.op) (hs : Sound s.op) : unpackFails s = none := by
  have key : ∀ url b c, MsgWF (.any url b c) → MsgSound (.any url b c) →
      (match adaptAny url c none with
        | .err s => some s
        | _ => none) = none := by
    intro url b c hw hs
    obtain ⟨u, hu⟩ := (adaptAny_ok url b c hw).1 hs
    rw [hu]
  cases s with
  | one o =>
    obtain ⟨i, t, e⟩ := o
    cases e with
    | msg m =>
      cases m with
      | any url b c => exact key url b c hw.1 hs
      | _ => rfl
    | _ => rfl
  | msg m =>
    cases m with
    | any url b c => exact key url b c hw hs
    | _ => rfl

theorem singular_total (l r : Single) (hl : WF l.op) (hr : WF r.op) (sl : Sound l.op)
    (sr : Sound r.op) : ∃ b, singularFieldEquals l r = .ok b := by
  unfold singularFieldEquals
  split
  · exact ⟨_, rfl⟩
  · rw [unpackFails_none hl sl, unpackFails_none hr sr]
    obtain ⟨x, hx⟩ := singleAsEV_total hl sl
    obtain ⟨y, hy⟩ := singleAsEV_total hr sr
    simp only []
    rw [hx, hy]
    exact ⟨_, rfl⟩

theorem singular_run {l r : Single} (hl : WF l.op) (hr : WF r.op) {b : Bool}
    (h : (match unpackFails l, unpackFails r with
    | some s, _ => Res.err s
    | none, some s => .err s
    | none, none =>
      (singleAsEV l).bind fun x => (singleAsEV r).bind fun y => .ok (evEquals x y)) = .ok b) :
    valueEqual (val l.op) (val r.op) = some b ∧ cEqual (val l.op) (val r.op) = b := by
  split at h
  · cases h
  · cases h
  · cases hx : singleAsEV l with
    | err e => rw [hx] at h; cases h
    | ub => rw [hx] at h; cases h
    | ok x =>
      cases hy : singleAsEV r with
      | err e => rw [hx, hy] at h; cases h
      | ub => rw [hx, hy] at h; cases h
      | ok y =>
        rw [hx, hy] at h
        cases h
        obtain ⟨h1, h2, _⟩ := singleAsEV_ok hl hx
        obtain ⟨h3, h4, _⟩ := singleAsEV_ok hr hy
        rw [← h1, ← h3]
        exact ⟨evEquals_v x y h2 h4, (evEquals_c x y).symm⟩

theorem singular_eq (l r : Single) (hl : WF l.op) (hr : WF r.op) (sl : Sound l.op)
    (sr : Sound r.op) (b : Bool) (h : singularFieldEquals l r = .ok b) :
    valueEqual (val l.op) (val r.op) = some b ∧ cEqual (val l.op) (val r.op) = b := by
  unfold singularFieldEquals at h
  split at h
  · rename_i hc
    cases h
    obtain ⟨x, hx⟩ := singleAsEV_total hl sl
    obtain ⟨y, hy⟩ := singleAsEV_total hr sr
    obtain ⟨h1, h2, _, h5⟩ := singleAsEV_ok hl hx
    obtain ⟨h3, h4, _, h6⟩ := singleAsEV_ok hr hy
    have := disjoint_ne h5 h6 hc.2
    rw [← h1, ← h3, evEquals_v x y h2 h4, ← evEquals_c, this]
    exact ⟨rfl, rfl⟩
  · exact singular_run hl hr h

theorem singular_true (l r : Single) (hl : WF l.op) (hr : WF r.op)
    (h : singularFieldEquals l r = .ok true) : valueEqual (val l.op) (val r.op) = some true := by
  unfold singularFieldEquals at h
  split at h
  · cases h
  · exact (singular_run hl hr h).1

/-! ## The operands are data -/

theorem val_data {o : Operand} (hw : WF o) (hs : Sound o) : IsData (val o) := by
  cases o with
  | rep r =>
    refine deep_list.2 ⟨trivial, fun v hv => ?_⟩
    obtain ⟨e, he, rfl⟩ := List.mem_map.1 hv
    exact elemData (hw e he).1 (hs e he)
  | map m =>
    refine deep_map.2 ⟨⟨fun e he => ?_, ?_⟩, fun v hv => ?_⟩
    · obtain ⟨x, hx, rfl⟩ := List.mem_map.1 he
      exact keyVal_kind _
    · have hn := hw.1
      rw [List.Nodup, List.pairwise_map] at hn
      rw [List.pairwise_map]
      refine hn.imp_of_mem fun {a b} ha hb hab => ?_
      cases hk : keyEq (keyVal a.1) (keyVal b.1) with
      | false => rfl
      | true =>
        exfalso
        have := ((keyEq_iff _ _).1 hk).2
        exact hab (sameKey_type ((keyId_same _ _).1 (by rw [this]))
          (by rw [(hw.2 a ha).2.1, (hw.2 b hb).2.1]))
    · obtain ⟨x, hx, rfl⟩ := List.mem_map.1 hv
      exact ⟨keyKind_deep (keyVal_kind _) (keyVal_ordinary (hw.2 x hx).1),
        elemData (hw.2 x hx).2.2.1 (hs x hx)⟩
  | one o => exact elemData hw.1 hs
  | msg m =>
    have : elemVal (.msg m) = val (.msg m) := rfl
    rw [← this]
    exact elemData (e := .msg m) hw hs

/-- **C79 (no spurious errors).** Comparing operands without a corrupt `Any` and without an invalid
duration or timestamp gives a boolean. -/
theorem C79_total (a b : Operand) (ha : WF a) (hb : WF b) (sa : Sound a) (sb : Sound b) :
    ∃ r, fieldEquals a b = .ok r := by
  have hm : ∀ l, WF (.map l) → Sound (.map l) → ∀ r, WF (.map r) → Sound (.map r) →
      ∃ b, mapFieldEquals l r = .ok b := fun l h1 h2 r h3 h4 => mapFieldEquals_total l r h1 h3 h2 h4
  have hr : ∀ l, WF (.rep l) → Sound (.rep l) → ∀ r, WF (.rep r) → Sound (.rep r) →
      ∃ b, repFieldEquals l r = .ok b := fun l h1 h2 r h3 h4 => repFieldEquals_total l r h1 h3 h2 h4
  cases a with
  | map l =>
    cases b with
    | map r => exact hm l ha sa r hb sb
    | rep r => exact mapAgainst_total hb sb (hm l ha sa)
    | one r => exact mapAgainst_total hb sb (hm l ha sa)
    | msg r => exact mapAgainst_total hb sb (hm l ha sa)
  | rep l =>
    cases b with
    | map r => exact mapAgainst_total ha sa fun l' h1 h2 => hm l' h1 h2 r hb sb
    | rep r => exact hr l ha sa r hb sb
    | one r => exact repAgainst_total hb sb (hr l ha sa)
    | msg r => exact repAgainst_total hb sb (hr l ha sa)
  | one l =>
    cases b with
    | map r => exact mapAgainst_total ha sa fun l' h1 h2 => hm l' h1 h2 r hb sb
    | rep r => exact repAgainst_total ha sa fun l' h1 h2 => hr l' h1 h2 r hb sb
    | one r => exact singular_total (.one l) (.one r) ha hb sa sb
    | msg r => exact singular_total (.one l) (.msg r) ha hb sa sb
  | msg l =>
    cases b with
    | map r => exact mapAgainst_total ha sa fun l' h1 h2 => hm l' h1 h2 r hb sb
    | rep r => exact repAgainst_total ha sa fun l' h1 h2 => hr l' h1 h2 r hb sb
    | one r => exact singular_total (.msg l) (.one r) ha hb sa sb
    | msg r => exact singular_total (.msg l) (.msg r) ha hb sa sb

theorem entries_nil {m : MapF} (h : val (.map m) ≠ .map []) : m.entries ≠ [] := by
  intro h'; apply h; simp [val, h']

theorem elems_nil {m : Rep} (h : val (.rep m) ≠ .list []) : m.elems ≠ [] := by
  intro h'; apply h; simp [val, h']

theorem str_unmixed (k : KType) : ¬ MixedKeys k .str ∧ ¬ MixedKeys .str k := by
  unfold MixedKeys Signed Unsigned; simp

theorem map_branch {l : MapF} {o : Operand} (hl : WF (.map l)) (ho : WF o) (sl : Sound (.map l))
    (so : Sound o) (hno : ∀ m, o ≠ .map m) (hne : ¬ (val (.map l) = .map [] ∧ val o = .map [])) {b : Bool} :
    (mapAgainst (fun r => mapFieldEquals l r) o = .ok b →
      valueEqual (val (.map l)) (val o) = some b ∧ cEqual (val (.map l)) (val o) = b) ∧
    (mapAgainst (fun r => mapFieldEquals r l) o = .ok b →
      valueEqual (val o) (val (.map l)) = some b ∧ cEqual (val o) (val (.map l)) = b) := by
  have hd := val_data ho so
  constructor
  · intro h
    rcases mapAgainst_ok ho h with (⟨rfl, h1⟩ | ⟨r, h1, h2, h3, h4, h5⟩) | ⟨m, rfl⟩
    · exact (map_other hd h1).1
    · rw [← h2] at hne ⊢
      obtain ⟨r1, r2⟩ := mapFieldEquals_eq l r hl h3 sl h4
        (fun h => hne ⟨by simp [val, h.1], by simp [val, h.2]⟩) b h1
      exact ⟨r1, r2 (by rw [h5]; exact (str_unmixed _).1)⟩
    · exact (hno m rfl).elim
  · intro h
    rcases mapAgainst_ok ho h with (⟨rfl, h1⟩ | ⟨r, h1, h2, h3, h4, h5⟩) | ⟨m, rfl⟩
    · exact (map_other hd h1).2
    · rw [← h2] at hne ⊢
      obtain ⟨r1, r2⟩ := mapFieldEquals_eq r l h3 hl h4 sl
        (fun h => hne ⟨by simp [val, h.2], by simp [val, h.1]⟩) b h1
      exact ⟨r1, r2 (by rw [h5]; exact (str_unmixed _).2)⟩
    · exact (hno m rfl).elim

theorem rep_branch {l : Rep} {o : Operand} (hl : WF (.rep l)) (ho : WF o) (sl : Sound (.rep l))
    (so : Sound o) (hno : ∀ m, o ≠ .rep m) (hne : ¬ (val (.rep l) = .list [] ∧ val o = .list [])) {b : Bool} :
    (repAgainst (fun r => repFieldEquals l r) o = .ok b →
      valueEqual (val (.rep l)) (val o) = some b ∧ cEqual (val (.rep l)) (val o) = b) ∧
    (repAgainst (fun r => repFieldEquals r l) o = .ok b →
      valueEqual (val o) (val (.rep l)) = some b ∧ cEqual (val o) (val (.rep l)) = b) := by
  have hd := val_data ho so
  constructor
  · intro h
    rcases repAgainst_ok ho h with (⟨rfl, h1⟩ | ⟨r, h1, h2, h3, h4⟩) | ⟨m, rfl⟩
    · exact (list_other hd h1).1
    · rw [← h2] at hne ⊢
      exact repFieldEquals_eq l r hl h3 sl h4 (fun h => hne ⟨by simp [val, h.1], by simp [val, h.2]⟩) b h1
    · exact (hno m rfl).elim
  · intro h
    rcases repAgainst_ok ho h with (⟨rfl, h1⟩ | ⟨r, h1, h2, h3, h4⟩) | ⟨m, rfl⟩
    · exact (list_other hd h1).2
    · rw [← h2] at hne ⊢
      exact repFieldEquals_eq r l h3 hl h4 sl (fun h => hne ⟨by simp [val, h.2], by simp [val, h.1]⟩) b h1
    · exact (hno m rfl).elim

theorem agrees (a b : Operand) (ha : WF a) (hb : WF b) (sa : Sound a) (sb : Sound b)
    (hne : ¬ BothEmpty a b) :
    ∃ r, fieldEquals a b = .ok r ∧ valueEqual (val a) (val b) = some r ∧
      (¬ Mixed a b → cEqual (val a) (val b) = r) := by
  obtain ⟨r, hr⟩ := C79_total a b ha hb sa sb
  refine ⟨r, hr, ?_⟩
  have hc : ∀ {x y : Operand}, ¬ BothEmpty x y → IsContainer x ∨ IsContainer y →
      ¬ (val x = .list [] ∧ val y = .list []) ∧ ¬ (val x = .map [] ∧ val y = .map []) :=
    fun h2 h1 => ⟨fun h => h2 ⟨h1, .inl h⟩, fun h => h2 ⟨h1, .inr h⟩⟩
  have swap : ∀ {p q : Prop}, ¬ (p ∧ q) → ¬ (q ∧ p) := fun h h' => h ⟨h'.2, h'.1⟩
  have weak : ∀ {p q c : Prop}, p ∧ q → p ∧ (c → q) := fun h => ⟨h.1, fun _ => h.2⟩
  cases a with
  | map l =>
    have hne' := hc hne (.inl trivial)
    cases b with
    | map m =>
      exact mapFieldEquals_eq l m ha hb sa sb (fun h => hne'.2 ⟨by simp [val, h.1], by simp [val, h.2]⟩) r hr
    | rep m => exact weak ((map_branch ha hb sa sb nofun hne'.2).1 hr)
    | one m => exact weak ((map_branch ha hb sa sb nofun hne'.2).1 hr)
    | msg m => exact weak ((map_branch ha hb sa sb nofun hne'.2).1 hr)
  | rep l =>
    have hne' := hc hne (.inl trivial)
    cases b with
    | map m => exact weak ((map_branch hb ha sb sa nofun (swap hne'.2)).2 hr)
    | rep m =>
      exact weak (repFieldEquals_eq l m ha hb sa sb
        (fun h => hne'.1 ⟨by simp [val, h.1], by simp [val, h.2]⟩) r hr)
    | one m => exact weak ((rep_branch ha hb sa sb nofun hne'.1).1 hr)
    | msg m => exact weak ((rep_branch ha hb sa sb nofun hne'.1).1 hr)
  | one l =>
    cases b with
    | map m => exact weak ((map_branch hb ha sb sa nofun (swap (hc hne (.inr trivial)).2)).2 hr)
    | rep m => exact weak ((rep_branch hb ha sb sa nofun (swap (hc hne (.inr trivial)).1)).2 hr)
    | one m => exact weak (singular_eq (.one l) (.one m) ha hb sa sb r hr)
    | msg m => exact weak (singular_eq (.one l) (.msg m) ha hb sa sb r hr)
  | msg l =>
    cases b with
    | map m => exact weak ((map_branch hb ha sb sa nofun (swap (hc hne (.inr trivial)).2)).2 hr)
    | rep m => exact weak ((rep_branch hb ha sb sa nofun (swap (hc hne (.inr trivial)).1)).2 hr)
    | one m => exact weak (singular_eq (.msg l) (.one m) ha hb sa sb r hr)
    | msg m => exact weak (singular_eq (.msg l) (.msg m) ha hb sa sb r hr)

/-- **C79 (agreement).** Comparing two fields or messages gives exactly what the `==` operator gives on
the CEL values they denote: lists element by element, maps by keys of the same value whatever the
integer types of their keys, wrappers and JSON messages as the values in them, an `Any` as what it
packs.  The only exception are two empty containers, see `C79_empty`. -/
theorem C79_agrees (a b : Operand) (ha : WF a) (hb : WF b) (sa : Sound a) (sb : Sound b)
    (hne : ¬ BothEmpty a b) :
    ∃ r, fieldEquals a b = .ok r ∧ valueEqual (val a) (val b) = some r := by
  obtain ⟨r, h1, h2, _⟩ := agrees a b ha hb sa sb hne
  exact ⟨r, h1, h2⟩

/-- **C79 (`Value::Equal`).** The same holds of `Value::Equal`, unless one operand is a map field with
signed and the other a map field with unsigned keys (`C79_int_uint_keys`). -/
theorem C79_agrees_with_equal (a b : Operand) (ha : WF a) (hb : WF b) (sa : Sound a) (sb : Sound b)
    (hne : ¬ BothEmpty a b) (hm : ¬ Mixed a b) :
    fieldEquals a b = .ok (cEqual (val a) (val b)) := by
  obtain ⟨r, h1, _, h3⟩ := agrees a b ha hb sa sb hne
  rw [h1, h3 hm]

/-- **C79 (`true` is always right).** Whatever errors hide in the operands, two that are found equal
denote equal values. -/
theorem C79_true (a b : Operand) (ha : WF a) (hb : WF b) (h : fieldEquals a b = .ok true) :
    valueEqual (val a) (val b) = some true := by
  have hm : ∀ {l : MapF} {o : Operand}, WF (.map l) → WF o → (∀ m, o ≠ .map m) →
      (mapAgainst (fun r => mapFieldEquals l r) o = .ok true → valueEqual (val (.map l)) (val o) = some true) ∧
      (mapAgainst (fun r => mapFieldEquals r l) o = .ok true → valueEqual (val o) (val (.map l)) = some true) := by
    intro l o hl ho hno
    constructor
    · intro h
      rcases mapAgainst_ok ho h with (⟨h1, _⟩ | ⟨r, h1, h2, h3, _⟩) | ⟨m, rfl⟩
      · cases h1
      · rw [← h2]; exact mapFieldEquals_true l r hl h3 h1
      · exact (hno m rfl).elim
    · intro h
      rcases mapAgainst_ok ho h with (⟨h1, _⟩ | ⟨r, h1, h2, h3, _⟩) | ⟨m, rfl⟩
      · cases h1
      · rw [← h2]; exact mapFieldEquals_true r l h3 hl h1
      · exact (hno m rfl).elim
  have hr : ∀ {l : Rep} {o : Operand}, WF (.rep l) → WF o → (∀ m, o ≠ .rep m) →
      (repAgainst (fun r => repFieldEquals l r) o = .ok true → valueEqual (val (.rep l)) (val o) = some true) ∧
      (repAgainst (fun r => repFieldEquals r l) o = .ok true → valueEqual (val o) (val (.rep l)) = some true) := by
    intro l o hl ho hno
    constructor
    · intro h
      rcases repAgainst_ok ho h with (⟨h1, _⟩ | ⟨r, h1, h2, h3, _⟩) | ⟨m, rfl⟩
      · cases h1
      · rw [← h2]; exact repFieldEquals_true l r hl h3 h1
      · exact (hno m rfl).elim
    · intro h
      rcases repAgainst_ok ho h with (⟨h1, _⟩ | ⟨r, h1, h2, h3, _⟩) | ⟨m, rfl⟩
      · cases h1
      · rw [← h2]; exact repFieldEquals_true r l h3 hl h1
      · exact (hno m rfl).elim
  cases a with
  | map l =>
    cases b with
    | map m => exact mapFieldEquals_true l m ha hb h
    | rep m => exact (hm ha hb nofun).1 h
    | one m => exact (hm ha hb nofun).1 h
    | msg m => exact (hm ha hb nofun).1 h
  | rep l =>
    cases b with
    | map m => exact (hm hb ha nofun).2 h
    | rep m => exact repFieldEquals_true l m ha hb h
    | one m => exact (hr ha hb nofun).1 h
    | msg m => exact (hr ha hb nofun).1 h
  | one l =>
    cases b with
    | map m => exact (hm hb ha nofun).2 h
    | rep m => exact (hr hb ha nofun).2 h
    | one m => exact singular_true (.one l) (.one m) ha hb h
    | msg m => exact singular_true (.one l) (.msg m) ha hb h
  | msg l =>
    cases b with
    | map m => exact (hm hb ha nofun).2 h
    | rep m => exact (hr hb ha nofun).2 h
    | one m => exact singular_true (.msg l) (.one m) ha hb h
    | msg m => exact singular_true (.msg l) (.msg m) ha hb h

/-- **C79 (messages).** Comparing two messages gives what both equalities give on their values. -/
theorem C79_messages (l r : Msg) (hl : MsgWF l) (hr : MsgWF r) (sl : MsgSound l) (sr : MsgSound r) :
    ∃ b, messageEquals l r = .ok b ∧ valueEqual (msgVal l) (msgVal r) = some b ∧
      cEqual (msgVal l) (msgVal r) = b := by
  have ht : ∃ b, messageEquals l r = .ok b := by
    unfold messageEquals
    rw [unpackFails_none (s := .msg l) hl sl, unpackFails_none (s := .msg r) hr sr]
    obtain ⟨x, hx⟩ := singleAsEV_total (s := .msg l) hl sl
    obtain ⟨y, hy⟩ := singleAsEV_total (s := .msg r) hr sr
    simp only []
    rw [hx, hy]
    exact ⟨_, rfl⟩
  obtain ⟨b, hb⟩ := ht
  exact ⟨b, hb, singular_run (l := .msg l) (r := .msg r) hl hr hb⟩

end Cel.MsgEq
