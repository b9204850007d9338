import Verif.MsgEq.Agree

/-! # Symmetry, empty containers, and where the comparison is not an equality -/

set_option linter.dupNamespace false
set_option linter.unusedSimpArgs false
set_option linter.unusedVariables false
set_option linter.unusedTactic false

namespace Cel.MsgEq
open Cel Cel.Num Cel.Eval Cel.Data Cel.Data.Spec Cel.Json Cel.MsgEq.Spec

/-! ## Symmetry -/

theorem fromJson_unmixed {j : Json} (h : Json.Spec.WF j) : Deep UnmixedKeys (fromJson j) := by
  induction j using json_induct with
  | h0 => exact (deep_leaf (v := .null) trivial).2 trivial
  | h1 => exact (deep_leaf (v := .null) trivial).2 trivial
  | h2 b => exact (deep_leaf (v := .bool b) trivial).2 trivial
  | h3 d => exact (deep_leaf (v := .dbl d) trivial).2 trivial
  | h4 s => exact (deep_leaf (v := .str s) trivial).2 trivial
  | h5 l ih =>
    cases h with
    | arr _ h =>
      simp only [fromJson, fromJsonList_map]
      refine deep_list.2 ⟨trivial, fun x hx => ?_⟩
      obtain ⟨j, hj, rfl⟩ := List.mem_map.1 hx
      exact ih j hj (h j hj)
  | h6 f ih =>
    cases h with
    | obj _ hn h =>
      simp only [fromJson, fromJsonMap_map]
      refine deep_map.2 ⟨?_, fun x hx => ?_⟩
      · show ((f.map fun e => (Value.str e.1, fromJson e.2)).map fun e => keyId e.1).Nodup
        rw [List.map_map]
        have : ((fun e : Value × Value => keyId e.1) ∘ fun e : String × Json => (Value.str e.1, fromJson e.2)) =
            (fun s => some (KeyId.s s)) ∘ Prod.fst := rfl
        rw [this, ← List.map_map]
        exact hn.map fun a b hab => by simpa using hab
      · obtain ⟨e, he, rfl⟩ := List.mem_map.1 hx
        exact ⟨(deep_leaf (v := .str e.1) trivial).2 trivial, ih e he (h e he)⟩

theorem ev_unmixed {x : EV} (h : EVWF x) : Deep UnmixedKeys (evVal x) := by
  cases x <;> first
    | exact fromJson_unmixed h
    | (refine (deep_leaf (P := UnmixedKeys) ?_).2 ?_
       · exact trivial
       · exact trivial)

theorem elem_unmixed {e : Elem} (he : ElemWF e) (hs : ElemSound e) : Deep UnmixedKeys (elemVal e) := by
  obtain ⟨x, hx⟩ := elemAsEV_total he hs
  obtain ⟨h1, h2, _⟩ := elemAsEV_ok he hx
  rw [← h1]; exact ev_unmixed h2

theorem val_unmixed {o : Operand} (hw : WF o) (hs : Sound o) : Deep UnmixedKeys (val o) := by
  cases o with
  | rep r =>
    refine deep_list.2 ⟨trivial, fun v hv => ?_⟩
    obtain ⟨e, he, rfl⟩ := List.mem_map.1 hv
    exact elem_unmixed (hw e he).1 (hs e he)
  | map m =>
    refine deep_map.2 ⟨?_, fun v hv => ?_⟩
    · show ((m.entries.map fun e => (keyVal e.1, elemVal e.2)).map fun e => keyId e.1).Nodup
      have hn := hw.1
      rw [List.Nodup, List.pairwise_map] at hn
      rw [List.map_map, List.Nodup, List.pairwise_map]
      refine hn.imp_of_mem fun {a b} ha hb hab h => hab ?_
      exact sameKey_type ((keyId_same _ _).1 h) (by rw [(hw.2 a ha).2.1, (hw.2 b hb).2.1])
    · obtain ⟨x, hx, rfl⟩ := List.mem_map.1 hv
      refine ⟨keyKind_deep (keyVal_kind _) ?_, elem_unmixed (hw.2 x hx).2.2.1 (hs x hx)⟩
      cases x.1 <;> exact trivial
  | one o => exact elem_unmixed hw.1 hs
  | msg m => exact elem_unmixed (e := .msg m) hw hs

theorem mapFieldEquals_comm (l r : MapF) (hl : WF (.map l)) (hr : WF (.map r)) (sl : Sound (.map l))
    (sr : Sound (.map r)) : mapFieldEquals l r = mapFieldEquals r l := by
  by_cases hne : l.entries = [] ∧ r.entries = []
  · unfold mapFieldEquals
    rw [hne.1, hne.2, Nat.and_comm (keyCategory l.key), Nat.and_comm (fieldCategory l.val)]
    simp only [ne_comm (a := l.id), List.length_nil, mapLoop]
  · obtain ⟨b, hb⟩ := mapFieldEquals_total l r hl hr sl sr
    obtain ⟨c, hc⟩ := mapFieldEquals_total r l hr hl sr sl
    have h1 := (mapFieldEquals_eq l r hl hr sl sr hne b hb).1
    have h2 := (mapFieldEquals_eq r l hr hl sr sl (fun h => hne ⟨h.2, h.1⟩) c hc).1
    obtain ⟨s, h3, h4⟩ := C34_equality_symmetric_partial _ _ (val_data hl sl) (val_data hr sr)
      (val_unmixed hl sl) (val_unmixed hr sr)
    rw [h1] at h3; rw [h2] at h4
    cases h3; cases h4
    rw [hb, hc]

theorem repFieldEquals_comm (l r : Rep) (hl : WF (.rep l)) (hr : WF (.rep r)) (sl : Sound (.rep l))
    (sr : Sound (.rep r)) : repFieldEquals l r = repFieldEquals r l := by
  by_cases hne : l.elems = [] ∧ r.elems = []
  · unfold repFieldEquals
    rw [hne.1, hne.2, Nat.and_comm (fieldCategory l.type)]
    simp only [ne_comm (a := l.id), List.length_nil, repLoop]
  · obtain ⟨b, hb⟩ := repFieldEquals_total l r hl hr sl sr
    obtain ⟨c, hc⟩ := repFieldEquals_total r l hr hl sr sl
    have h1 := (repFieldEquals_eq l r hl hr sl sr hne b hb).1
    have h2 := (repFieldEquals_eq r l hr hl sr sl (fun h => hne ⟨h.2, h.1⟩) c hc).1
    obtain ⟨s, h3, h4⟩ := C34_equality_symmetric_partial _ _ (val_data hl sl) (val_data hr sr)
      (val_unmixed hl sl) (val_unmixed hr sr)
    rw [h1] at h3; rw [h2] at h4
    cases h3; cases h4
    rw [hb, hc]

theorem mapAgainst_congr {f g : MapF → Res Bool} {o : Operand} (hw : WF o)
    (h : ∀ r, WF (.map r) → Sound (.map r) → f r = g r) : mapAgainst f o = mapAgainst g o := by
  have key : ∀ m, MsgWF m → ((unpackFor mapNames m).bind fun u =>
      match u.bind mapOf with
      | none => .ok false
      | some r => f r) = (unpackFor mapNames m).bind fun u =>
      match u.bind mapOf with
      | none => .ok false
      | some r => g r := by
    intro m hm
    cases hu : unpackFor mapNames m with
    | err e => rfl
    | ub => rfl
    | ok u =>
      simp only [Res.bind]
      rcases (unpackFor_ok mapNames m hm).2 u hu with ⟨m', rfl, h3, _⟩ | ⟨rfl, _⟩
      · simp only [Option.bind_some]
        cases hr : mapOf m' with
        | none => rfl
        | some r => obtain ⟨_, r2, r3, _⟩ := mapOf_some h3 hr; exact h r r2 r3
      · rfl
  unfold mapAgainst
  cases o with
  | map m => rfl
  | rep m => rfl
  | msg m => exact key m hw
  | one o =>
    obtain ⟨i, t, e⟩ := o
    cases e with
    | msg m => exact key m hw.1
    | _ => rfl

theorem repAgainst_congr {f g : Rep → Res Bool} {o : Operand} (hw : WF o)
    (h : ∀ r, WF (.rep r) → Sound (.rep r) → f r = g r) : repAgainst f o = repAgainst g o := by
  have key : ∀ m, MsgWF m → ((unpackFor listNames m).bind fun u =>
      match u.bind listOf with
      | none => .ok false
      | some r => f r) = (unpackFor listNames m).bind fun u =>
      match u.bind listOf with
      | none => .ok false
      | some r => g r := by
    intro m hm
    cases hu : unpackFor listNames m with
    | err e => rfl
    | ub => rfl
    | ok u =>
      simp only [Res.bind]
      rcases (unpackFor_ok listNames m hm).2 u hu with ⟨m', rfl, h3, _⟩ | ⟨rfl, _⟩
      · simp only [Option.bind_some]
        cases hr : listOf m' with
        | none => rfl
        | some r => obtain ⟨_, r2, r3⟩ := listOf_some h3 hr; exact h r r2 r3
      · rfl
  unfold repAgainst
  cases o with
  | map m => rfl
  | rep m => rfl
  | msg m => exact key m hw
  | one o =>
    obtain ⟨i, t, e⟩ := o
    cases e with
    | msg m => exact key m hw.1
    | _ => rfl

theorem singular_comm (l r : Single) (hl : WF l.op) (hr : WF r.op) (sl : Sound l.op)
    (sr : Sound r.op) : singularFieldEquals l r = singularFieldEquals r l := by
  obtain ⟨b, hb⟩ := singular_total l r hl hr sl sr
  obtain ⟨c, hc⟩ := singular_total r l hr hl sr sl
  have h1 := (singular_eq l r hl hr sl sr b hb).1
  have h2 := (singular_eq r l hr hl sr sl c hc).1
  obtain ⟨s, h3, h4⟩ := C34_equality_symmetric_partial _ _ (val_data hl sl) (val_data hr sr)
    (val_unmixed hl sl) (val_unmixed hr sr)
  rw [h1] at h3; rw [h2] at h4
  cases h3; cases h4
  rw [hb, hc]

/-- **C79 (symmetry).** The order of the operands does not matter, for all of the pairs of fields and
messages, empty ones included. -/
theorem C79_symmetric (a b : Operand) (ha : WF a) (hb : WF b) (sa : Sound a) (sb : Sound b) :
    fieldEquals a b = fieldEquals b a := by
  cases a with
  | map l =>
    cases b with
    | map r => exact mapFieldEquals_comm l r ha hb sa sb
    | rep r => exact mapAgainst_congr hb fun r h1 h2 => mapFieldEquals_comm l r ha h1 sa h2
    | one r => exact mapAgainst_congr hb fun r h1 h2 => mapFieldEquals_comm l r ha h1 sa h2
    | msg r => exact mapAgainst_congr hb fun r h1 h2 => mapFieldEquals_comm l r ha h1 sa h2
  | rep l =>
    cases b with
    | map r => exact mapAgainst_congr ha fun l h1 h2 => mapFieldEquals_comm l r h1 hb h2 sb
    | rep r => exact repFieldEquals_comm l r ha hb sa sb
    | one r => exact repAgainst_congr hb fun r h1 h2 => repFieldEquals_comm l r ha h1 sa h2
    | msg r => exact repAgainst_congr hb fun r h1 h2 => repFieldEquals_comm l r ha h1 sa h2
  | one l =>
    cases b with
    | map r => exact mapAgainst_congr ha fun l h1 h2 => mapFieldEquals_comm l r h1 hb h2 sb
    | rep r => exact repAgainst_congr ha fun l h1 h2 => repFieldEquals_comm l r h1 hb h2 sb
    | one r => exact singular_comm (.one l) (.one r) ha hb sa sb
    | msg r => exact singular_comm (.one l) (.msg r) ha hb sa sb
  | msg l =>
    cases b with
    | map r => exact mapAgainst_congr ha fun l h1 h2 => mapFieldEquals_comm l r h1 hb h2 sb
    | rep r => exact repAgainst_congr ha fun l h1 h2 => repFieldEquals_comm l r h1 hb h2 sb
    | one r => exact singular_comm (.msg l) (.one r) ha hb sa sb
    | msg r => exact singular_comm (.msg l) (.msg r) ha hb sa sb

/-! ## Empty containers -/

/-- **C79 (empty containers, exactly).** Two empty repeated fields, or two empty map fields, are equal
exactly when they are the same field or the categories of their types overlap. -/
theorem C79_empty (l r : Rep) (m n : MapF) (hl : l.elems = []) (hr : r.elems = [])
    (hm : m.entries = []) (hn : n.entries = []) :
    fieldEquals (.rep l) (.rep r) =
      .ok (decide (l.id = r.id ∨ fieldCategory l.type &&& fieldCategory r.type ≠ 0)) ∧
    fieldEquals (.map m) (.map n) =
      .ok (decide (m.id = n.id ∨ (keyCategory m.key &&& keyCategory n.key ≠ 0 ∧
        fieldCategory m.val &&& fieldCategory n.val ≠ 0))) := by
  constructor
  · show repFieldEquals l r = _
    unfold repFieldEquals
    rw [hl, hr]
    by_cases h1 : l.id = r.id <;> by_cases h2 : fieldCategory l.type &&& fieldCategory r.type = 0 <;>
      simp [h1, h2, repLoop]
  · show mapFieldEquals m n = _
    unfold mapFieldEquals
    rw [hm, hn]
    by_cases h1 : m.id = n.id <;> by_cases h2 : keyCategory m.key &&& keyCategory n.key = 0 <;>
      by_cases h3 : fieldCategory m.val &&& fieldCategory n.val = 0 <;>
      simp [h1, h2, h3, mapLoop]

/-- Two empty fields of the same type are equal. -/
theorem C79_empty_same_type (l r : Rep) (m n : MapF) (hl : l.elems = []) (hr : r.elems = [])
    (hm : m.entries = []) (hn : n.entries = []) (ht : l.type = r.type) (hk : m.key = n.key)
    (hv : m.val = n.val) :
    fieldEquals (.rep l) (.rep r) = .ok true ∧ fieldEquals (.map m) (.map n) = .ok true := by
  obtain ⟨h1, h2⟩ := C79_empty l r m n hl hr hm hn
  have hf : ∀ t, fieldCategory t ≠ 0 := by
    intro t
    cases t with
    | msg k => cases k <;> exact Nat.succ_ne_zero _
    | _ => exact Nat.succ_ne_zero _
  have hkk : ∀ t, keyCategory t ≠ 0 := by intro t; cases t <;> exact Nat.succ_ne_zero _
  rw [h1, h2, ht, hk, hv, Nat.and_self, Nat.and_self, Nat.and_self]
  simp [hf, hkk]

/-! ## Where it is no equality -/

/-- **C79 (empty fields of different types).** Two empty repeated fields of `string` and `int64`, and an
empty field of `bytes` and the empty JSON list, are not equal, although each is equal to the empty
list `[]`; likewise two empty map fields with keys of type `string` and `int32`.  So equality of lists
and maps is not transitive. -/
theorem C79_empty_not_transitive :
    fieldEquals (.rep ⟨2, .str, []⟩) (.rep ⟨3, .i64, []⟩) = .ok false ∧
    fieldEquals (.rep ⟨2, .bytes, []⟩) (.msg (.listValue [])) = .ok false ∧
    fieldEquals (.map ⟨2, .str, .i32, []⟩) (.map ⟨3, .i32, .i32, []⟩) = .ok false ∧
    (∀ r : Rep, r.elems = [] → valueEqual (val (.rep r)) (.list []) = some true ∧
      cEqual (val (.rep r)) (.list []) = true) ∧
    (∀ m : MapF, m.entries = [] → valueEqual (val (.map m)) (.map []) = some true ∧
      cEqual (val (.map m)) (.map []) = true) ∧
    valueEqual (msgVal (.listValue [])) (.list []) = some true := by
  refine ⟨rfl, rfl, rfl, fun r h => ?_, fun m h => ?_, rfl⟩
  · simp only [val, h, List.map_nil]; exact ⟨rfl, rfl⟩
  · simp only [val, h, List.map_nil]; exact ⟨rfl, rfl⟩

/-- **C79 (signed and unsigned keys).** Map fields with the key 1 of type `int64` and `uint64` are
equal, as `==` has it; the CEL maps `{1: true}` and `{1u: true}` are not by `Value::Equal`. -/
theorem C79_int_uint_keys :
    fieldEquals (.map ⟨2, .i64, .bool, [(.i64 1, .bool true)]⟩)
      (.map ⟨3, .u64, .bool, [(.u64 1, .bool true)]⟩) = .ok true ∧
    cEqual (.map [(.int 1, .bool true)]) (.map [(.uint 1, .bool true)]) = false := by
  exact ⟨rfl, rfl⟩

/-- **C79 (the same field).** A field compared with itself (the same field of the same message) is
equal without looking at it, even if it has a NaN; an equal copy of it is not. -/
theorem C79_same_field :
    (∀ p a, fieldEqualsAt p p true a a = .ok true) ∧
    fieldEqualsAt 0 1 true (.rep ⟨2, .dbl, [.dbl .nan]⟩) (.rep ⟨2, .dbl, [.dbl .nan]⟩) = .ok false ∧
    ∀ p q s a b, p ≠ q → fieldEqualsAt p q s a b = fieldEquals a b := by
  refine ⟨fun p a => ?_, rfl, fun p q s a b h => ?_⟩
  · unfold fieldEqualsAt; simp
  · unfold fieldEqualsAt; simp [h]

/-- **C79 (errors depend on the order).** With a corrupt `Any` in a field the result depends on what
comes before: an error, or `false` if an earlier element differs, or the lengths, or the types. -/
theorem C79_corrupt :
    fieldEquals (.rep ⟨2, .msg .any, [.msg (.any "type.googleapis.com/a.B" [1] .corrupt)]⟩)
      (.rep ⟨2, .msg .any, [.msg (.any "type.googleapis.com/a.B" [1] .corrupt)]⟩) =
      .err (unpackError "a.B") ∧
    fieldEquals (.rep ⟨2, .msg .any, [.msg (.any "type.googleapis.com/a.B" [1] .corrupt)]⟩)
      (.rep ⟨2, .msg .any, []⟩) = .ok false ∧
    fieldEquals (.rep ⟨2, .msg .any, [.msg (.any "x" [] .unresolved),
        .msg (.any "type.googleapis.com/a.B" [1] .corrupt)]⟩)
      (.rep ⟨2, .msg .any, [.msg (.any "y" [] .unresolved),
        .msg (.any "type.googleapis.com/a.B" [1] .corrupt)]⟩) = .ok false := by
  refine ⟨by decide +kernel, by decide +kernel, by decide +kernel⟩

/-! ## The hypotheses are met -/

/-- An `Any` holding an `Any` holding a JSON list, and the repeated field it equals. -/
def sampleAny : Msg :=
  .any "type.googleapis.com/google.protobuf.Any" [1]
    (.packed (.any "type.googleprod.com/google.protobuf.Value" [2]
      (.packed (.value (.arr [.num (.fin false (2 ^ 1074)), .null])))))

def sampleRep : Rep := ⟨2, .msg .any, [
  .msg (.any "type.googleapis.com/google.protobuf.Int32Value" [8, 1] (.packed (.i32W 1))),
  .msg (.any "type.googleapis.com/google.protobuf.Value" [] (.packed (.value .unset)))]⟩

example : WF (.msg sampleAny) ∧ WF (.rep sampleRep) ∧ Sound (.msg sampleAny) ∧ Sound (.rep sampleRep) ∧
    ¬ BothEmpty (.msg sampleAny) (.rep sampleRep) ∧ ¬ Mixed (.msg sampleAny) (.rep sampleRep) := by
  refine ⟨?_, ?_, trivial, ?_, ?_, fun h => h⟩
  · refine ⟨by decide +kernel, by decide +kernel, .arr _ ?_⟩
    intro j hj
    simp only [List.mem_cons, List.not_mem_nil, or_false] at hj
    rcases hj with rfl | rfl
    · exact .num _ (⟨1, 1074, by decide, by decide, by rw [Nat.one_mul]⟩ : RepMag (2 ^ 1074))
    · exact .null
  · intro e he
    simp only [sampleRep, List.mem_cons, List.not_mem_nil, or_false] at he
    rcases he with rfl | rfl
    · exact ⟨⟨by decide +kernel, by unfold MsgWF In32; omega⟩, rfl⟩
    · exact ⟨⟨by decide +kernel, .unset⟩, rfl⟩
  · intro e he
    simp only [sampleRep, List.mem_cons, List.not_mem_nil, or_false] at he
    rcases he with rfl | rfl <;> exact trivial
  · rintro ⟨_, ⟨h, _⟩ | ⟨h, _⟩⟩ <;> cases h

/-- Two map fields that meet the hypotheses, with keys and values of different types, and are equal. -/
example : WF (.map ⟨2, .i32, .flt, [(.i32 7, .flt .nan), (.i32 (-1), .flt (.fin false 0))]⟩) ∧
    Sound (.map ⟨2, .i32, .flt, [(.i32 7, .flt .nan), (.i32 (-1), .flt (.fin false 0))]⟩) := by
  refine ⟨⟨by decide, fun e he => ?_⟩, fun e he => ?_⟩
  · simp only [List.mem_cons, List.not_mem_nil, or_false] at he
    rcases he with rfl | rfl
    · exact ⟨by unfold KeyWF In32; omega, rfl, trivial, rfl⟩
    · exact ⟨by unfold KeyWF In32; omega, rfl, (⟨0, 0, by decide, by decide, rfl⟩ : RepMag 0), rfl⟩
  · simp only [List.mem_cons, List.not_mem_nil, or_false] at he
    rcases he with rfl | rfl <;> exact trivial

end Cel.MsgEq
