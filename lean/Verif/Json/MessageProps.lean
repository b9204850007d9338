import Verif.Json.MessageSpec
import Verif.Json.Props

set_option linter.dupNamespace false
set_option linter.unusedSimpArgs false
set_option linter.unusedVariables false

namespace Cel.Json.Message
open Cel Cel.Num Cel.Eval Cel.Data Cel.Json Cel.Json.Spec Cel.Json.Message.Spec

theorem opt_bind {α β : Type} (r : Res α) (f : α → Res β) :
    opt (r.bind f) = (opt r).bind fun a => opt (f a) := by cases r <;> rfl

theorem opt_some {α : Type} {r : Res α} {a : α} : opt r = some a ↔ r = .ok a := by
  cases r <;> simp [opt]

theorem keyName_inj {a b : Key} (hs : SameKey a b) (h : keyName a = keyName b) : a = b := by
  cases a <;> cases b <;> simp only [SameKey] at hs <;> simp only [keyName] at h
  · rename_i x y; cases x <;> cases y <;> simp_all
  · rw [decimal_inj h]
  · rw [decimal_inj h]
  · rw [h]

theorem keyNames_nodup {m : List (Key × Elem)} (h : (m.map Prod.fst).Nodup)
    (hp : m.Pairwise (fun a b => SameKey a.1 b.1)) : (m.map fun e => keyName e.1).Nodup := by
  induction m with
  | nil => exact List.nodup_nil
  | cons e m ih =>
    rw [List.map_cons, List.nodup_cons] at h ⊢
    rw [List.pairwise_cons] at hp
    refine ⟨?_, ih h.2 hp.2⟩
    intro hm
    obtain ⟨e', he', heq⟩ := List.mem_map.1 hm
    exact h.1 (List.mem_map.2 ⟨e', he', (keyName_inj (hp.1 e' he') heq.symm).symm⟩)

theorem field_setField_other {f : List (String × Json)} {a b : String} {j : Json} (h : a ≠ b) :
    field (setField f a j) b = field f b := by
  induction f with
  | nil => simp [setField, field, h]
  | cons e f ih =>
    obtain ⟨k, v⟩ := e
    rw [setField]
    by_cases hk : k = a
    · rw [if_pos hk, field, field]; subst hk; rw [if_neg h, if_neg h]
    · rw [if_neg hk, field, field, ih]

mutual
/-- The conversion into a target that is not already an object gives the JSON form. -/
theorem toJson_render (O : MLib) : ∀ (m : Msg) (prev : Json), WFM m → objOf prev = [] →
    opt (toJson O m prev) = render O m
  | .plain n fs, prev, h, hp => by
    rw [WFM] at h
    rw [toJson, render, opt_bind, hp, fieldsJson_render O fs [] h.2 h.1 (by simp)]
    cases renderFields O fs <;> rfl
  | .badAny s, prev, h, hp => by rw [toJson, render]; rfl
  | .any m, prev, h, hp => by
    rw [WFM] at h
    rw [render]; exact anyJson_render O m prev h hp
  | .wrapper _ _, _, _, _ => by rw [toJson, render] <;> (try exact nofun)
  | .fieldMask _, _, _, _ => by rw [toJson, render] <;> (try exact nofun)
  | .duration _ _, _, _, _ => by rw [toJson, render] <;> (try exact nofun)
  | .timestamp _ _, _, _, _ => by rw [toJson, render] <;> (try exact nofun)
  | .value _, _, _, _ => by rw [toJson, render] <;> (try exact nofun)
  | .listValue _, _, _, _ => by rw [toJson, render] <;> (try exact nofun)
  | .struct _, _, _, _ => by rw [toJson, render] <;> (try exact nofun)
theorem anyJson_render (O : MLib) : ∀ (m : Msg) (prev : Json), WFM m → objOf prev = [] →
    opt (toJson O (.any m) prev) = renderAny O m
  | .badAny s, prev, h, hp => by rw [toJson, renderAny]; rfl
  | .any m, prev, h, hp => by
    rw [WFM] at h
    rw [toJson, renderAny]; exact anyJson_render O m prev h hp
  | .plain n fs, prev, h, hp => by
    rw [WFM] at h
    rw [toJson, renderAny, hp]
    simp only [setField]
    split
    · simp [opt, objOf, field]
    · rw [opt_bind, fieldsJson_render O fs _ h.2 h.1 (by
        intro k hk
        have : ∀ fs : List (String × FieldVal), WFFields fs → "@type" ∉ fs.map Prod.fst := by
          intro fs
          induction fs with
          | nil => simp
          | cons e fs ih =>
            obtain ⟨k, v⟩ := e
            intro hw; rw [WFFields] at hw
            simp only [List.map_cons, List.mem_cons, not_or]
            exact ⟨fun hh => hw.1 hh.symm, ih hw.2.2⟩
        simp only [List.map_cons, List.map_nil, List.mem_singleton]
        rintro rfl; exact this fs h.2 hk)]
      cases renderFields O fs <;> rfl
  | .wrapper _ _, _, _, hp => by
    rw [toJson, renderAny, opt_bind, hp]
    · cases opt (leafJson O _) <;> simp [setField, opt]
    all_goals exact nofun
  | .fieldMask _, _, _, hp => by
    rw [toJson, renderAny, opt_bind, hp]
    · cases opt (leafJson O _) <;> simp [setField, opt]
    all_goals exact nofun
  | .duration _ _, _, _, hp => by
    rw [toJson, renderAny, opt_bind, hp]
    · cases opt (leafJson O _) <;> simp [setField, opt]
    all_goals exact nofun
  | .timestamp _ _, _, _, hp => by
    rw [toJson, renderAny, opt_bind, hp]
    · cases opt (leafJson O _) <;> simp [setField, opt]
    all_goals exact nofun
  | .value _, _, _, hp => by
    rw [toJson, renderAny, opt_bind, hp]
    · cases opt (leafJson O _) <;> simp [setField, opt]
    all_goals exact nofun
  | .listValue _, _, _, hp => by
    rw [toJson, renderAny, opt_bind, hp]
    · cases opt (leafJson O _) <;> simp [setField, opt]
    all_goals exact nofun
  | .struct _, _, _, hp => by
    rw [toJson, renderAny, opt_bind, hp]
    · cases opt (leafJson O _) <;> simp [setField, opt]
    all_goals exact nofun
theorem fieldsJson_render (O : MLib) : ∀ (fs : List (String × FieldVal)) (acc : List (String × Json)),
    WFFields fs → (fs.map Prod.fst).Nodup → (∀ k ∈ fs.map Prod.fst, k ∉ acc.map Prod.fst) →
    opt (fieldsJson O fs acc) = (renderFields O fs).map (acc ++ ·)
  | [], acc, _, _, _ => by rw [fieldsJson, renderFields]; simp [opt]
  | (k, v) :: fs, acc, h, hn, hd => by
    rw [WFFields] at h
    rw [List.map_cons, List.nodup_cons] at hn
    have hk := hd k (by simp)
    rw [fieldsJson, renderFields, opt_bind, field_none hk, fieldJson_render O v .unset h.2.1 rfl rfl]
    cases renderField O v with
    | none => rfl
    | some j =>
      simp only [Option.bind_some]
      rw [setField_new hk, fieldsJson_render O fs _ h.2.2 hn.2 (by
        intro k' hk' hm
        rw [List.map_append, List.mem_append] at hm
        rcases hm with hm | hm
        · exact hd k' (by rw [List.map_cons]; exact List.mem_cons_of_mem _ hk') hm
        · simp only [List.map_cons, List.map_nil, List.mem_singleton] at hm
          subst hm; exact hn.1 hk')]
      cases renderFields O fs <;> simp
theorem fieldJson_render (O : MLib) : ∀ (v : FieldVal) (prev : Json), WFField v → objOf prev = [] →
    arrOf prev = [] → opt (fieldJson O v prev) = renderField O v
  | .one e, prev, h, hp, _ => by
    rw [WFField] at h
    rw [fieldJson, renderField, elemJson_render O e prev h hp]
  | .rep l, prev, h, _, hp => by
    rw [WFField] at h
    rw [fieldJson, renderField, opt_bind, hp, repJson_render O l [] h]
    cases renderReps O l <;> rfl
  | .map m, prev, h, hp, _ => by
    rw [WFField] at h
    rw [fieldJson, renderField, opt_bind, hp, mapJson_render O m [] h.2.2 (keyNames_nodup h.1 h.2.1) (by simp)]
    cases renderMap O m <;> rfl
theorem elemJson_render (O : MLib) : ∀ (e : Elem) (prev : Json), WFElem e → objOf prev = [] →
    opt (elemJson O e prev) = renderElem O e
  | .scalar s, _, _, _ => by rw [elemJson, renderElem]; rfl
  | .msg m, prev, h, hp => by
    rw [WFElem] at h
    rw [elemJson, renderElem, toJson_render O m prev h hp]
theorem repJson_render (O : MLib) : ∀ (l : List Elem) (acc : List Json), WFElems l →
    opt (repJson O l acc) = (renderReps O l).map (acc ++ ·)
  | [], acc, _ => by rw [repJson, renderReps]; simp [opt]
  | e :: l, acc, h => by
    rw [WFElems] at h
    rw [repJson, renderReps, opt_bind, elemJson_render O e .unset h.1 rfl]
    cases renderElem O e with
    | none => rfl
    | some j =>
      simp only [Option.bind_some]
      rw [repJson_render O l _ h.2]
      cases renderReps O l <;> simp
theorem mapJson_render (O : MLib) : ∀ (m : List (Key × Elem)) (acc : List (String × Json)),
    WFEntries m → (m.map fun e => keyName e.1).Nodup →
    (∀ k ∈ m.map (fun e => keyName e.1), k ∉ acc.map Prod.fst) →
    opt (mapJson O m acc) = (renderMap O m).map (acc ++ ·)
  | [], acc, _, _, _ => by rw [mapJson, renderMap]; simp [opt]
  | (k, e) :: m, acc, h, hn, hd => by
    rw [WFEntries] at h
    rw [List.map_cons, List.nodup_cons] at hn
    have hk := hd (keyName k) (by simp)
    have hrest : ∀ j : Json, opt (mapJson O m (acc ++ [(keyName k, j)])) =
        (renderMap O m).map (acc ++ [(keyName k, j)] ++ ·) := by
      intro j
      refine mapJson_render O m _ h.2 hn.2 ?_
      intro k' hk' hm
      rw [List.map_append, List.mem_append] at hm
      rcases hm with hm | hm
      · exact hd k' (by rw [List.map_cons]; exact List.mem_cons_of_mem _ hk') hm
      · simp only [List.map_cons, List.map_nil, List.mem_singleton] at hm
        subst hm; exact hn.1 hk'
    rw [mapJson, opt_bind, field_none hk]
    cases e with
    | scalar s =>
      rw [mapElemJson, renderMap]
      rw [show opt (Res.ok (mapScalarJson O s)) = some (mapScalarJson O s) from rfl, Option.bind_some,
        setField_new hk, hrest]
      cases renderMap O m <;> simp
    | msg x =>
      have hx := h.1
      rw [WFElem] at hx
      rw [mapElemJson, renderMap, toJson_render O x .unset hx rfl]
      cases render O x with
      | none => rfl
      | some j =>
        simp only [Option.bind_some]
        rw [setField_new hk, hrest]
        cases renderMap O m <;> simp
end

end Cel.Json.Message
