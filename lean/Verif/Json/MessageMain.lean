import Verif.Json.MessageCamel

set_option linter.dupNamespace false
set_option linter.unusedSimpArgs false
set_option linter.unusedVariables false

namespace Cel.Json.Message
open Cel Cel.Num Cel.Eval Cel.Data Cel.Json Cel.Json.Spec Cel.Json.Message.Spec

/-! ## Which messages convert -/

/-- Success. -/
def Ok {α : Type} (r : Res α) : Prop := ∃ a, r = .ok a

theorem ok_ok {α : Type} (a : α) : Ok (.ok a) := ⟨a, rfl⟩
theorem ok_err {α : Type} (s : Status) : ¬ Ok (.err s : Res α) := by rintro ⟨a, h⟩; cases h

theorem ok_bind {α β : Type} (r : Res α) (f : α → Res β) :
    Ok (r.bind f) ↔ ∃ a, r = .ok a ∧ Ok (f a) := by
  cases r with
  | ok a => simp [Ok]
  | err s => simp [Ok, Res.bind]
  | ub => simp [Ok, Res.bind]

theorem ok_bind_ok {α β : Type} (r : Res α) (f : α → β) :
    Ok (r.bind fun a => .ok (f a)) ↔ Ok r := by
  rw [ok_bind]
  exact ⟨fun ⟨a, h, _⟩ => ⟨a, h⟩, fun ⟨a, h⟩ => ⟨a, h, ok_ok _⟩⟩

theorem leaf_ok_mask (O : MLib) (ps : List String) :
    Ok (leafJson O (.fieldMask ps)) ↔ ∀ p ∈ ps, GoodPath p := by
  rw [leafJson, ok_bind_ok, ← maskPaths_iff ps []]; rfl

mutual
theorem toJson_ok (O : MLib) : ∀ (m : Msg) (prev : Json), Ok (toJson O m prev) ↔ Convertible m
  | .plain n fs, prev => by
    rw [toJson, Convertible, ok_bind_ok, fieldsJson_ok O fs]
  | .badAny s, prev => by rw [toJson, Convertible]; exact ⟨fun h => ok_err s h, False.elim⟩
  | .any m, prev => anyJson_ok O m prev
  | .fieldMask ps, prev => by
    rw [toJson, Convertible, leaf_ok_mask] <;> exact nofun
  | .wrapper _ _, prev => by
    rw [toJson, Convertible, leafJson] <;> first | exact ⟨fun _ => trivial, fun _ => ok_ok _⟩ | exact nofun
  | .duration _ _, prev => by
    rw [toJson, Convertible, leafJson] <;> first | exact ⟨fun _ => trivial, fun _ => ok_ok _⟩ | exact nofun
  | .timestamp _ _, prev => by
    rw [toJson, Convertible, leafJson] <;> first | exact ⟨fun _ => trivial, fun _ => ok_ok _⟩ | exact nofun
  | .value _, prev => by
    rw [toJson, Convertible, leafJson] <;> first | exact ⟨fun _ => trivial, fun _ => ok_ok _⟩ | exact nofun
  | .listValue _, prev => by
    rw [toJson, Convertible, leafJson] <;> first | exact ⟨fun _ => trivial, fun _ => ok_ok _⟩ | exact nofun
  | .struct _, prev => by
    rw [toJson, Convertible, leafJson] <;> first | exact ⟨fun _ => trivial, fun _ => ok_ok _⟩ | exact nofun
theorem anyJson_ok (O : MLib) : ∀ (m : Msg) (prev : Json),
    Ok (toJson O (.any m) prev) ↔ Convertible (.any m)
  | .plain n fs, prev => by
    rw [toJson, Convertible]
    by_cases hn : n = "google.protobuf.Empty"
    · rw [if_pos hn]; exact ⟨fun _ => Or.inl hn, fun _ => ok_ok _⟩
    · rw [if_neg hn, ok_bind_ok, fieldsJson_ok O fs]
      exact ⟨Or.inr, fun h => h.resolve_left hn⟩
  | .badAny s, prev => by
    rw [toJson, Convertible, Convertible]
    · exact ⟨fun h => ok_err s h, False.elim⟩
    all_goals exact nofun
  | .any m, prev => by
    rw [toJson, Convertible, anyJson_ok O m prev]; exact nofun
  | .fieldMask ps, prev => by
    rw [toJson, Convertible, Convertible]
    · rw [ok_bind_ok, leaf_ok_mask]
    all_goals exact nofun
  | .wrapper _ _, prev => by
    rw [toJson, Convertible, Convertible]
    · exact ⟨fun _ => trivial, fun _ => ok_ok _⟩
    all_goals exact nofun
  | .duration _ _, prev => by
    rw [toJson, Convertible, Convertible]
    · exact ⟨fun _ => trivial, fun _ => ok_ok _⟩
    all_goals exact nofun
  | .timestamp _ _, prev => by
    rw [toJson, Convertible, Convertible]
    · exact ⟨fun _ => trivial, fun _ => ok_ok _⟩
    all_goals exact nofun
  | .value _, prev => by
    rw [toJson, Convertible, Convertible]
    · exact ⟨fun _ => trivial, fun _ => ok_ok _⟩
    all_goals exact nofun
  | .listValue _, prev => by
    rw [toJson, Convertible, Convertible]
    · exact ⟨fun _ => trivial, fun _ => ok_ok _⟩
    all_goals exact nofun
  | .struct _, prev => by
    rw [toJson, Convertible, Convertible]
    · exact ⟨fun _ => trivial, fun _ => ok_ok _⟩
    all_goals exact nofun
theorem fieldsJson_ok (O : MLib) : ∀ (fs : List (String × FieldVal)) (acc : List (String × Json)),
    Ok (fieldsJson O fs acc) ↔ ConvertibleFields fs
  | [], acc => by rw [fieldsJson, ConvertibleFields]; exact ⟨fun _ => trivial, fun _ => ok_ok _⟩
  | (k, v) :: fs, acc => by
    rw [fieldsJson, ConvertibleFields, ok_bind, ← fieldJson_ok O v (field acc k)]
    constructor
    · rintro ⟨j, hj, h⟩; exact ⟨⟨j, hj⟩, (fieldsJson_ok O fs _).1 h⟩
    · rintro ⟨⟨j, hj⟩, h⟩; exact ⟨j, hj, (fieldsJson_ok O fs _).2 h⟩
theorem fieldJson_ok (O : MLib) : ∀ (v : FieldVal) (prev : Json),
    Ok (fieldJson O v prev) ↔ ConvertibleField v
  | .one e, prev => by rw [fieldJson, ConvertibleField, elemJson_ok O e prev]
  | .rep l, prev => by rw [fieldJson, ConvertibleField, ok_bind_ok, repJson_ok O l]
  | .map m, prev => by rw [fieldJson, ConvertibleField, ok_bind_ok, mapJson_ok O m]
theorem elemJson_ok (O : MLib) : ∀ (e : Elem) (prev : Json), Ok (elemJson O e prev) ↔ ConvertibleElem e
  | .scalar s, _ => by rw [elemJson, ConvertibleElem]; exact ⟨fun _ => trivial, fun _ => ok_ok _⟩
  | .msg m, prev => by rw [elemJson, ConvertibleElem, toJson_ok O m prev]
theorem mapElemJson_ok (O : MLib) : ∀ (e : Elem) (prev : Json), Ok (mapElemJson O e prev) ↔ ConvertibleElem e
  | .scalar s, _ => by rw [mapElemJson, ConvertibleElem]; exact ⟨fun _ => trivial, fun _ => ok_ok _⟩
  | .msg m, prev => by rw [mapElemJson, ConvertibleElem, toJson_ok O m prev]
theorem repJson_ok (O : MLib) : ∀ (l : List Elem) (acc : List Json), Ok (repJson O l acc) ↔ ConvertibleElems l
  | [], acc => by rw [repJson, ConvertibleElems]; exact ⟨fun _ => trivial, fun _ => ok_ok _⟩
  | e :: l, acc => by
    rw [repJson, ConvertibleElems, ok_bind, ← elemJson_ok O e .unset]
    constructor
    · rintro ⟨j, hj, h⟩; exact ⟨⟨j, hj⟩, (repJson_ok O l _).1 h⟩
    · rintro ⟨⟨j, hj⟩, h⟩; exact ⟨j, hj, (repJson_ok O l _).2 h⟩
theorem mapJson_ok (O : MLib) : ∀ (m : List (Key × Elem)) (acc : List (String × Json)),
    Ok (mapJson O m acc) ↔ ConvertibleEntries m
  | [], acc => by rw [mapJson, ConvertibleEntries]; exact ⟨fun _ => trivial, fun _ => ok_ok _⟩
  | (k, e) :: m, acc => by
    rw [mapJson, ConvertibleEntries, ok_bind, ← mapElemJson_ok O e (field acc (keyName k))]
    constructor
    · rintro ⟨j, hj, h⟩; exact ⟨⟨j, hj⟩, (mapJson_ok O m _).1 h⟩
    · rintro ⟨⟨j, hj⟩, h⟩; exact ⟨j, hj, (mapJson_ok O m _).2 h⟩
end

/-- A message has a JSON form just when every field mask in it has good paths and every `Any` in it
can be unpacked; what the target held does not matter. -/
theorem C78_converts_iff (O : MLib) (m : Msg) (prev : Json) :
    (∃ j, toJson O m prev = .ok j) ↔ Convertible m := toJson_ok O m prev

/-- Into a target that is not already a JSON object, the conversion of a message writes its JSON form:
one member per set field, named by the field's JSON name, one member per map entry, one element per
repeated element, nothing else and nothing lost. -/
theorem C78_json_form (O : MLib) (m : Msg) (prev j : Json) (h : WFM m) (hp : ∀ f, prev ≠ .obj f) :
    toJson O m prev = .ok j ↔ render O m = some j := by
  rw [← opt_some, toJson_render O m prev h]
  cases prev <;> first | rfl | exact absurd rfl (hp _)

/-- The same for the values of message fields: lists and maps. -/
theorem C78_field_form (O : MLib) (v : FieldVal) (prev j : Json) (h : WFField v)
    (hp : ∀ f, prev ≠ .obj f) (hl : ∀ l, prev ≠ .arr l) :
    fieldConvert O v prev = .ok j ↔ renderField O v = some j := by
  rw [← opt_some, fieldConvert, fieldJson_render O v prev h]
  · cases prev <;> first | rfl | exact absurd rfl (hp _)
  · cases prev <;> first | rfl | exact absurd rfl (hl _)

/-! ## The result is a JSON message -/

theorem scalarJson_wf (O : MLib) (s : Scalar) (h : ScalarWF s) : WF (scalarJson O s) := by
  cases s with
  | dbl d => exact .num d h
  | flt d => exact .num d h
  | i32 i => exact .num _ (wf_ofInt i (by simp only [ScalarWF] at h; omega))
  | u32 i => exact .num _ (wf_ofInt i (by simp only [ScalarWF] at h; omega))
  | i64 i =>
    simp only [scalarJson, setInt]; split
    · exact .str _
    · exact .num _ (wf_ofInt i (by simp only [ScalarWF] at h; omega))
  | u64 i =>
    simp only [scalarJson, setUint]; split
    · exact .str _
    · exact .num _ (wf_ofInt i (by simp only [ScalarWF] at h; omega))
  | bool b => exact .bool b
  | str s => exact .str s
  | bytes b => simp only [scalarJson, setBytes]; split <;> exact .str _
  | enm t n => simp only [scalarJson]; split <;> exact .str _
  | nul n => exact .null

theorem mapScalarJson_wf (O : MLib) (s : Scalar) (h : ScalarWF s) : WF (mapScalarJson O s) := by
  cases s with
  | enm t n =>
    simp only [mapScalarJson]; split
    · exact .str _
    · exact .num _ (wf_ofInt n (by simp only [ScalarWF] at h; omega))
  | _ => exact scalarJson_wf O _ h

theorem leafJson_wf (O : MLib) (m : Msg) (j : Json) (h : WFM m) (hj : opt (leafJson O m) = some j) :
    WF j := by
  rw [opt_some] at hj
  cases m <;> simp only [leafJson] at hj <;> first
    | (injection hj with hj; subst hj; simp only [WFM] at h; first | exact scalarJson_wf O _ h | exact h | exact .str _)
    | cases hj
    | skip
  cases hm : maskPaths _ [] with
  | ok l => rw [hm] at hj; injection hj with hj; subst hj; exact .str _
  | err e => rw [hm] at hj; cases hj
  | ub => rw [hm] at hj; cases hj

theorem renderFields_names (O : MLib) (fs : List (String × FieldVal)) : ∀ f,
    renderFields O fs = some f → f.map Prod.fst = fs.map Prod.fst := by
  induction fs with
  | nil => intro f h; rw [renderFields] at h; injection h with h; subst h; rfl
  | cons e fs ih =>
    obtain ⟨k, v⟩ := e
    intro f h
    rw [renderFields, Option.bind_eq_some_iff] at h
    obtain ⟨j, _, h⟩ := h
    rw [Option.map_eq_some_iff] at h
    obtain ⟨f', hf', rfl⟩ := h
    simp [ih f' hf']

theorem renderMap_names (O : MLib) (m : List (Key × Elem)) : ∀ f,
    renderMap O m = some f → f.map Prod.fst = m.map fun e => keyName e.1 := by
  induction m with
  | nil => intro f h; rw [renderMap] at h; injection h with h; subst h; rfl
  | cons e m ih =>
    obtain ⟨k, v⟩ := e
    intro f h
    cases v with
    | scalar s =>
      rw [renderMap, Option.map_eq_some_iff] at h
      obtain ⟨f', hf', rfl⟩ := h
      simp [ih f' hf']
    | msg x =>
      rw [renderMap, Option.bind_eq_some_iff] at h
      obtain ⟨j, _, h⟩ := h
      rw [Option.map_eq_some_iff] at h
      obtain ⟨f', hf', rfl⟩ := h
      simp [ih f' hf']

theorem type_not_name : ∀ fs : List (String × FieldVal), WFFields fs → "@type" ∉ fs.map Prod.fst := by
  intro fs
  induction fs with
  | nil => simp
  | cons e fs ih =>
    obtain ⟨k, v⟩ := e
    intro hw; rw [WFFields] at hw
    simp only [List.map_cons, List.mem_cons, not_or]
    exact ⟨fun hh => hw.1 hh.symm, ih hw.2.2⟩

mutual
theorem render_wf (O : MLib) : ∀ (m : Msg) (j : Json), WFM m → render O m = some j → WF j
  | .plain n fs, j, h, hj => by
    rw [WFM] at h
    rw [render, Option.map_eq_some_iff] at hj
    obtain ⟨f, hf, rfl⟩ := hj
    exact .obj f (by rw [renderFields_names O fs f hf]; exact h.1) (renderFields_wf O fs f h.2 hf)
  | .badAny s, j, h, hj => by rw [render] at hj; cases hj
  | .any m, j, h, hj => by
    rw [WFM] at h; rw [render] at hj
    exact renderAny_wf O m j h hj
  | .wrapper _ _, j, h, hj => by
    rw [render] at hj
    · exact leafJson_wf O _ j h hj
    all_goals exact nofun
  | .fieldMask _, j, h, hj => by
    rw [render] at hj
    · exact leafJson_wf O _ j h hj
    all_goals exact nofun
  | .duration _ _, j, h, hj => by
    rw [render] at hj
    · exact leafJson_wf O _ j h hj
    all_goals exact nofun
  | .timestamp _ _, j, h, hj => by
    rw [render] at hj
    · exact leafJson_wf O _ j h hj
    all_goals exact nofun
  | .value _, j, h, hj => by
    rw [render] at hj
    · exact leafJson_wf O _ j h hj
    all_goals exact nofun
  | .listValue _, j, h, hj => by
    rw [render] at hj
    · exact leafJson_wf O _ j h hj
    all_goals exact nofun
  | .struct _, j, h, hj => by
    rw [render] at hj
    · exact leafJson_wf O _ j h hj
    all_goals exact nofun
theorem renderAny_wf (O : MLib) : ∀ (m : Msg) (j : Json), WFM m → renderAny O m = some j → WF j
  | .badAny s, j, h, hj => by rw [renderAny] at hj; cases hj
  | .any m, j, h, hj => by
    rw [WFM] at h; rw [renderAny] at hj
    exact renderAny_wf O m j h hj
  | .plain n fs, j, h, hj => by
    rw [WFM] at h; rw [renderAny] at hj
    split at hj
    · injection hj with hj; subst hj
      refine .obj _ (by simp) ?_
      intro e he
      rcases List.mem_cons.1 he with rfl | he
      · exact .str _
      · rw [List.mem_singleton] at he; subst he
        exact .obj [] (by simp) (by simp)
    · rw [Option.map_eq_some_iff] at hj
      obtain ⟨f, hf, rfl⟩ := hj
      refine .obj _ ?_ ?_
      · rw [List.map_cons, List.nodup_cons, renderFields_names O fs f hf]
        exact ⟨type_not_name fs h.2, h.1⟩
      · intro e he
        rcases List.mem_cons.1 he with rfl | he
        · exact .str _
        · exact renderFields_wf O fs f h.2 hf e he
  | .wrapper n s, j, h, hj => wf_value O (.wrapper n s) j h (by rw [renderAny] at hj; exact hj; all_goals exact nofun)
  | .fieldMask ps, j, h, hj => wf_value O (.fieldMask ps) j h (by rw [renderAny] at hj; exact hj; all_goals exact nofun)
  | .duration s n, j, h, hj => wf_value O (.duration s n) j h (by rw [renderAny] at hj; exact hj; all_goals exact nofun)
  | .timestamp s n, j, h, hj => wf_value O (.timestamp s n) j h (by rw [renderAny] at hj; exact hj; all_goals exact nofun)
  | .value v, j, h, hj => wf_value O (.value v) j h (by rw [renderAny] at hj; exact hj; all_goals exact nofun)
  | .listValue l, j, h, hj => wf_value O (.listValue l) j h (by rw [renderAny] at hj; exact hj; all_goals exact nofun)
  | .struct f, j, h, hj => wf_value O (.struct f) j h (by rw [renderAny] at hj; exact hj; all_goals exact nofun)
theorem wf_value (O : MLib) : ∀ (m : Msg) (j : Json), WFM m →
    (opt (leafJson O m)).map (fun j =>
      Json.obj [("@type", .str ("type.googleapis.com/" ++ typeName m)), ("value", j)]) = some j → WF j
  | m, j, h, hj => by
    rw [Option.map_eq_some_iff] at hj
    obtain ⟨f, hf, rfl⟩ := hj
    refine .obj _ (by simp) ?_
    intro e he
    rcases List.mem_cons.1 he with rfl | he
    · exact .str _
    · rw [List.mem_singleton] at he; subst he
      exact leafJson_wf O m f h hf
theorem renderFields_wf (O : MLib) : ∀ (fs : List (String × FieldVal)) (f : List (String × Json)),
    WFFields fs → renderFields O fs = some f → ∀ e ∈ f, WF e.2
  | [], f, _, hf => by rw [renderFields] at hf; injection hf with hf; subst hf; simp
  | (k, v) :: fs, f, h, hf => by
    rw [WFFields] at h
    rw [renderFields, Option.bind_eq_some_iff] at hf
    obtain ⟨j, hj, hf⟩ := hf
    rw [Option.map_eq_some_iff] at hf
    obtain ⟨f', hf', rfl⟩ := hf
    intro e he
    rcases List.mem_cons.1 he with rfl | he
    · exact renderField_wf O v j h.2.1 hj
    · exact renderFields_wf O fs f' h.2.2 hf' e he
theorem renderField_wf (O : MLib) : ∀ (v : FieldVal) (j : Json), WFField v → renderField O v = some j → WF j
  | .one e, j, h, hj => by
    rw [WFField] at h; rw [renderField] at hj; exact renderElem_wf O e j h hj
  | .rep l, j, h, hj => by
    rw [WFField] at h; rw [renderField, Option.map_eq_some_iff] at hj
    obtain ⟨a, ha, rfl⟩ := hj
    exact .arr a (renderReps_wf O l a h ha)
  | .map m, j, h, hj => by
    rw [WFField] at h; rw [renderField, Option.map_eq_some_iff] at hj
    obtain ⟨f, hf, rfl⟩ := hj
    exact .obj f (by rw [renderMap_names O m f hf]; exact keyNames_nodup h.1 h.2.1) (renderMap_wf O m f h.2.2 hf)
theorem renderElem_wf (O : MLib) : ∀ (e : Elem) (j : Json), WFElem e → renderElem O e = some j → WF j
  | .scalar s, j, h, hj => by
    rw [WFElem] at h; rw [renderElem] at hj; injection hj with hj; subst hj
    exact scalarJson_wf O s h
  | .msg m, j, h, hj => by
    rw [WFElem] at h; rw [renderElem] at hj; exact render_wf O m j h hj
theorem renderReps_wf (O : MLib) : ∀ (l : List Elem) (a : List Json), WFElems l →
    renderReps O l = some a → ∀ j ∈ a, WF j
  | [], a, _, ha => by rw [renderReps] at ha; injection ha with ha; subst ha; simp
  | e :: l, a, h, ha => by
    rw [WFElems] at h
    rw [renderReps, Option.bind_eq_some_iff] at ha
    obtain ⟨j, hj, ha⟩ := ha
    rw [Option.map_eq_some_iff] at ha
    obtain ⟨a', ha', rfl⟩ := ha
    intro x hx
    rcases List.mem_cons.1 hx with rfl | hx
    · exact renderElem_wf O e _ h.1 hj
    · exact renderReps_wf O l a' h.2 ha' x hx
theorem renderMap_wf (O : MLib) : ∀ (m : List (Key × Elem)) (f : List (String × Json)),
    WFEntries m → renderMap O m = some f → ∀ e ∈ f, WF e.2
  | [], f, _, hf => by rw [renderMap] at hf; injection hf with hf; subst hf; simp
  | (k, .scalar s) :: m, f, h, hf => by
    rw [WFEntries, WFElem] at h
    rw [renderMap, Option.map_eq_some_iff] at hf
    obtain ⟨f', hf', rfl⟩ := hf
    intro e he
    rcases List.mem_cons.1 he with rfl | he
    · exact mapScalarJson_wf O s h.1
    · exact renderMap_wf O m f' h.2 hf' e he
  | (k, .msg x) :: m, f, h, hf => by
    rw [WFEntries, WFElem] at h
    rw [renderMap, Option.bind_eq_some_iff] at hf
    obtain ⟨j, hj, hf⟩ := hf
    rw [Option.map_eq_some_iff] at hf
    obtain ⟨f', hf', rfl⟩ := hf
    intro e he
    rcases List.mem_cons.1 he with rfl | he
    · exact render_wf O x j h.1 hj
    · exact renderMap_wf O m f' h.2 hf' e he
end

/-- What is written is a JSON message: no name twice, and only doubles that exist. -/
theorem C78_well_formed (O : MLib) (m : Msg) (prev j : Json) (h : WFM m) (hp : ∀ f, prev ≠ .obj f)
    (hj : toJson O m prev = .ok j) : WF j :=
  render_wf O m j h ((C78_json_form O m prev j h hp).1 hj)

/-- The members of a message's JSON object are its set fields, by JSON name and in order, each with
the JSON form of the field. -/
theorem C78_members (O : MLib) (n : String) (fs : List (String × FieldVal)) (prev j : Json)
    (h : WFM (.plain n fs)) (hp : ∀ f, prev ≠ .obj f) :
    toJson O (.plain n fs) prev = .ok j ↔
      ∃ f, j = .obj f ∧
        List.Forall₂ (fun a e => a.1 = e.1 ∧ fieldConvert O a.2 .unset = .ok e.2) fs f := by
  rw [C78_json_form O _ prev j h hp, render, Option.map_eq_some_iff]
  rw [WFM] at h
  have key : ∀ fs : List (String × FieldVal), WFFields fs → ∀ f, renderFields O fs = some f ↔
      List.Forall₂ (fun a e => a.1 = e.1 ∧ fieldConvert O a.2 .unset = .ok e.2) fs f := by
    intro fs
    induction fs with
    | nil =>
      intro _ f; rw [renderFields]
      constructor
      · intro h; injection h with h; subst h; exact .nil
      · intro h; cases h; rfl
    | cons e fs ih =>
      obtain ⟨k, v⟩ := e
      intro hw f
      rw [WFFields] at hw
      rw [renderFields, Option.bind_eq_some_iff]
      constructor
      · rintro ⟨x, hx, hf⟩
        rw [Option.map_eq_some_iff] at hf
        obtain ⟨f', hf', rfl⟩ := hf
        exact .cons ⟨rfl, (C78_field_form O v .unset x hw.2.1 nofun nofun).2 hx⟩ ((ih hw.2.2 f').1 hf')
      · intro h
        cases h with
        | cons h1 h2 =>
          rename_i e' f'
          obtain ⟨k', x⟩ := e'
          obtain ⟨rfl, hx⟩ := h1
          exact ⟨x, (C78_field_form O v .unset x hw.2.1 nofun nofun).1 hx, by
            rw [(ih hw.2.2 f').2 h2]; rfl⟩
  constructor
  · rintro ⟨f, hf, rfl⟩; exact ⟨f, rfl, (key fs h.2 f).1 hf⟩
  · rintro ⟨f, rfl, hf⟩; exact ⟨f, (key fs h.2 f).2 hf, rfl⟩

/-- The entries of a map field's JSON object: one for each entry of the field, under the text of its
key.  No two keys of the field have the same text. -/
theorem C78_map_entries (O : MLib) (m : List (Key × Elem)) (prev j : Json)
    (h : WFField (.map m)) (hp : ∀ f, prev ≠ .obj f) (hl : ∀ l, prev ≠ .arr l) :
    (m.map fun e => keyName e.1).Nodup ∧
    (fieldConvert O (.map m) prev = .ok j →
      ∃ f, j = .obj f ∧ f.map Prod.fst = m.map fun e => keyName e.1) := by
  refine ⟨?_, ?_⟩
  · rw [WFField] at h; exact keyNames_nodup h.1 h.2.1
  · intro hj
    rw [C78_field_form O _ prev j h hp hl, renderField, Option.map_eq_some_iff] at hj
    obtain ⟨f, hf, rfl⟩ := hj
    exact ⟨f, rfl, renderMap_names O m f hf⟩

/-- Converting a scalar field, and selecting it in CEL and converting the value, give the same JSON,
except for enums: the field becomes a name, the selected value is an integer and becomes a number. -/
theorem C78_select_then_convert (O : MLib) (s : Scalar) (p : Json) (h : ScalarWF s) :
    (∀ t n, s ≠ .enm t n) → convert O.toLib (scalarValue s) p = .ok (scalarJson O s) := by
  intro he
  cases s with
  | i32 i =>
    simp only [ScalarWF] at h
    simp only [scalarValue, convert, scalarJson, setDouble, setInt]
    rw [if_neg (by unfold jsonMinInt jsonMaxInt; omega)]
  | u32 i =>
    simp only [ScalarWF] at h
    simp only [scalarValue, convert, scalarJson, setDouble, setUint]
    rw [if_neg (by unfold jsonMaxUint; omega)]
  | enm t n => exact absurd rfl (he t n)
  | _ => simp only [scalarValue, convert, scalarJson]

end Cel.Json.Message
