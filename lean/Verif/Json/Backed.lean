import Verif.Json.Props

/-! # JSON-backed lists and maps behave like the values they denote -/

set_option linter.dupNamespace false
set_option linter.unusedSimpArgs false
set_option linter.unusedVariables false

namespace Cel.Json
open Cel Cel.Num Cel.Eval Cel.Data Cel.Data.Spec Cel.Json.Spec

theorem mapFind_fromJson (f : List (String × Json)) (s : String) :
    mapFind (fromJsonMap f) (.str s) = (findField f s).map fromJson := by
  induction f with
  | nil => rfl
  | cons e f ih =>
    obtain ⟨k, j⟩ := e
    simp only [fromJsonMap, mapFind, findField, keyEq, beq_iff_eq]
    split
    · rfl
    · exact ih

theorem mapFind_fromJson_other (f : List (String × Json)) (k : Value) (h : ∀ s, k ≠ .str s) :
    mapFind (fromJsonMap f) k = none := by
  induction f with
  | nil => rfl
  | cons e f ih =>
    obtain ⟨s, j⟩ := e
    simp only [fromJsonMap, mapFind]
    have : keyEq (.str s) k = false := by
      cases k <;> first | rfl | exact (h _ rfl).elim
    rw [this, if_neg (by simp), ih]

theorem fromJsonMap_length (f : List (String × Json)) : (fromJsonMap f).length = f.length := by
  rw [fromJsonMap_map, List.length_map]

theorem fromJsonList_length (l : List Json) : (fromJsonList l).length = l.length := by
  rw [fromJsonList_map, List.length_map]

theorem jsonEqualsList_eq (a : List Json) (ih : ∀ x ∈ a, ∀ y, jsonEquals x y = cEqual (fromJson x) (fromJson y)) :
    ∀ b, jsonEqualsList a b = cEqualList (fromJsonList a) (fromJsonList b) := by
  induction a with
  | nil => intro b; rfl
  | cons x a ihl =>
    intro b
    cases b with
    | nil => rfl
    | cons y b =>
      simp only [jsonEqualsList, fromJsonList, cEqualList]
      rw [ih x List.mem_cons_self, ihl fun z hz => ih z (List.mem_cons_of_mem _ hz)]

theorem jsonEqualsMap_eq (a : List (String × Json))
    (ih : ∀ e ∈ a, ∀ y, jsonEquals e.2 y = cEqual (fromJson e.2) (fromJson y)) :
    ∀ b, jsonEqualsMap a b = cEqualMap (fromJsonMap a) (fromJsonMap b) := by
  induction a with
  | nil => intro b; rfl
  | cons x a ihl =>
    intro b
    obtain ⟨k, j⟩ := x
    simp only [jsonEqualsMap, fromJsonMap, cEqualMap, mapFind_fromJson]
    cases findField b k with
    | none => rfl
    | some y =>
      simp only [Option.map_some]
      rw [ih _ List.mem_cons_self, ihl fun z hz => ih z (List.mem_cons_of_mem _ hz)]

theorem jsonEquals_eq (a : Json) : ∀ b, jsonEquals a b = cEqual (fromJson a) (fromJson b) := by
  induction a using json_induct with
  | h5 l ih =>
    intro b
    cases b <;> first | rfl | skip
    simp only [jsonEquals, fromJson, cEqual, fromJsonList_length]
    rw [jsonEqualsList_eq l ih]
  | h6 f ih =>
    intro b
    cases b <;> first | rfl | skip
    simp only [jsonEquals, fromJson, cEqual, fromJsonMap_length]
    rw [jsonEqualsMap_eq f ih]
    cases f <;> simp [fromJsonMap, cEqualMap]
  | _ => intro b; cases b <;> rfl

/-- A data value without integer keys of type `uint` (JSON has string keys only). -/
theorem fromJson_noUintKeys (j : Json) : Deep NoUintKeys (fromJson j) := by
  induction j using json_induct with
  | h0 => exact (deep_leaf (v := .null) trivial).2 trivial
  | h1 => exact (deep_leaf (v := .null) trivial).2 trivial
  | h2 b => exact (deep_leaf (v := .bool b) trivial).2 trivial
  | h3 d => exact (deep_leaf (v := .dbl d) trivial).2 trivial
  | h4 s => exact (deep_leaf (v := .str s) trivial).2 trivial
  | h5 l ih =>
    simp only [fromJson, fromJsonList_map]
    refine deep_list.2 ⟨trivial, fun x hx => ?_⟩
    obtain ⟨j, hj, rfl⟩ := List.mem_map.1 hx
    exact ih j hj
  | h6 f ih =>
    simp only [fromJson, fromJsonMap_map]
    refine deep_map.2 ⟨?_, fun x hx => ?_⟩
    · intro e he
      obtain ⟨x, hx, rfl⟩ := List.mem_map.1 he
      rfl
    · obtain ⟨e, he, rfl⟩ := List.mem_map.1 hx
      exact ⟨(deep_leaf (v := .str e.1) trivial).2 trivial, ih e he⟩

/-- Comparing two JSON messages directly gives what comparing the values they denote gives, both
with `Value::Equal` and with the `==` operator. -/
theorem C77_equality (a b : Json) :
    jsonEquals a b = cEqual (fromJson a) (fromJson b) ∧
    (WF a → WF b → valueEqual (fromJson a) (fromJson b) = some (jsonEquals a b)) := by
  refine ⟨jsonEquals_eq a b, fun ha hb => ?_⟩
  have da := fromJson_isData ha
  have db := fromJson_isData hb
  rw [jsonEquals_eq]
  obtain ⟨r, hr⟩ := valueEqual_total _ _ (da.mono fun _ => NoErr.of_ordinary)
    (db.mono fun _ => NoErr.of_ordinary)
  cases hc : cEqual (fromJson a) (fromJson b) with
  | true => exact cEqual_imp_valueEqual _ _ da db hc
  | false =>
    rw [hr]
    cases r with
    | false => rfl
    | true =>
      have := valueEqual_imp_cEqual _ _ da db (fromJson_noUintKeys a) (fromJson_noUintKeys b) hr
      rw [hc] at this; cases this

/-- Lookup, presence and size of a JSON-backed map are those of the map it denotes, for every key. -/
theorem C77_map (f : List (String × Json)) (key : Value) :
    backedFind f key = mapFind (fromJsonMap f) key ∧
    (key.isError = false → key.isUnknown = false →
      backedHas f key = .bool (mapHas (fromJsonMap f) key)) ∧
    (key.isError = true ∨ key.isUnknown = true → backedHas f key = key) ∧
    (fromJsonMap f).length = f.length ∧
    (fromJsonMap f).map Prod.fst = f.map fun e => .str e.1 := by
  have h1 : backedFind f key = mapFind (fromJsonMap f) key := by
    cases key <;> first
      | (simp only [backedFind, mapFind_fromJson]; done)
      | (simp only [backedFind]; rw [mapFind_fromJson_other _ _ (by simp)])
  refine ⟨h1, fun he hu => ?_, fun h => ?_, fromJsonMap_length f, ?_⟩
  · cases key <;> first
      | (simp only [backedHas, mapHas, mapFind_fromJson, Option.isSome_map]; done)
      | (simp only [backedHas, mapHas]; rw [mapFind_fromJson_other _ _ (by simp)]; rfl)
      | (cases he; done)
      | (cases hu; done)
  · cases key <;> simp_all [Value.isError, Value.isUnknown, backedHas]
  · rw [fromJsonMap_map, List.map_map]; rfl

/-- Indexing a JSON-backed list gives the element of the denoted list, and an error exactly when the
index is out of range. -/
theorem C77_list_get (l : List Json) (i : Nat) :
    (∀ v, (fromJsonList l)[i]? = some v → backedGet l i = v) ∧
    ((fromJsonList l)[i]? = none → ∃ e, backedGet l i = .error e ∧ e.code = .invalidArgument) ∧
    (fromJsonList l).length = l.length := by
  refine ⟨fun v h => ?_, fun h => ?_, fromJsonList_length l⟩
  · rw [fromJsonList_map, List.getElem?_map] at h
    unfold backedGet
    by_cases hi : i < l.length
    · rw [dif_pos hi]
      rw [List.getElem?_eq_getElem hi] at h
      simpa using h
    · rw [List.getElem?_eq_none (by omega)] at h; simp at h
  · rw [fromJsonList_map, List.getElem?_map] at h
    unfold backedGet
    by_cases hi : i < l.length
    · rw [List.getElem?_eq_getElem hi] at h; simp at h
    · rw [dif_neg hi]; exact ⟨_, rfl, rfl⟩

theorem cEqual_comm (a b : Value) (ha : IsData a) (hb : IsData b) : cEqual a b = cEqual b a := by
  cases h : cEqual a b with
  | true => rw [cEqual_symm _ _ ha hb h]
  | false =>
    cases h' : cEqual b a with
    | false => rfl
    | true => rw [cEqual_symm _ _ hb ha h'] at h; cases h

theorem any_congr {α : Type} {l : List α} {p q : α → Bool} (h : ∀ x ∈ l, p x = q x) :
    l.any p = l.any q := by
  induction l with
  | nil => rfl
  | cons x l ih =>
    simp only [List.any_cons]
    rw [h x List.mem_cons_self, ih fun y hy => h y (List.mem_cons_of_mem _ hy)]

/-- `x in jsonList` answers as for the denoted list, for every ordinary value `x`. -/
theorem C77_list_contains (l : List Json) (x : Value) (hl : ∀ j ∈ l, WF j) (hx : IsData x) :
    backedContains l x = .bool (listContains (fromJsonList l) x) := by
  have hsym : ∀ j ∈ l, cEqual x (fromJson j) = cEqual (fromJson j) x :=
    fun j hj => cEqual_comm _ _ hx (fromJson_isData (hl j hj))
  have hany : ∀ p : Json → Bool, (∀ j ∈ l, p j = cEqual (fromJson j) x) →
      l.any p = listContains (fromJsonList l) x := by
    intro p hp
    rw [listContains, fromJsonList_map, List.any_map]
    exact any_congr hp
  have hd := hx.self
  cases x with
  | error e => exact hd.elim
  | unknown u => exact hd.elim
  | null =>
    simp only [backedContains]; rw [hany _ fun j hj => ?_]
    cases j <;> rfl
  | bool b =>
    simp only [backedContains]; rw [hany _ fun j hj => ?_]
    cases j <;> rfl
  | int b =>
    simp only [backedContains]; rw [hany _ fun j hj => ?_]
    cases j <;> rfl
  | uint b =>
    simp only [backedContains]; rw [hany _ fun j hj => ?_]
    cases j <;> rfl
  | dbl b =>
    simp only [backedContains]; rw [hany _ fun j hj => ?_]
    cases j <;> first | rfl | skip
    rename_i d
    simp only [fromJson, cEqual, Number.eq, Number.compare, doubleCompare_eq]
  | str b =>
    simp only [backedContains]; rw [hany _ fun j hj => ?_]
    cases j <;> first | rfl | skip
    rename_i t
    simp only [fromJson, cEqual]
    exact Bool.beq_comm
  | list b =>
    simp only [backedContains]; rw [hany _ fun j hj => ?_]
    cases j <;> exact hsym _ hj
  | map b =>
    simp only [backedContains]; rw [hany _ fun j hj => ?_]
    cases j <;> exact hsym _ hj
  | _ =>
    simp only [backedContains]
    rw [← hany (fun _ => false) fun j hj => ?_]
    · simp
    · cases j <;> rfl

/-! ## Equal values have equal JSON -/

theorem fromJson_exact (j : Json) : Deep ExactNumber (fromJson j) := by
  induction j using json_induct with
  | h0 => exact (deep_leaf (v := .null) trivial).2 trivial
  | h1 => exact (deep_leaf (v := .null) trivial).2 trivial
  | h2 b => exact (deep_leaf (v := .bool b) trivial).2 trivial
  | h3 d => exact (deep_leaf (v := .dbl d) trivial).2 trivial
  | h4 s => exact (deep_leaf (v := .str s) trivial).2 trivial
  | h5 l ih =>
    simp only [fromJson, fromJsonList_map]
    refine deep_list.2 ⟨trivial, fun x hx => ?_⟩
    obtain ⟨j, hj, rfl⟩ := List.mem_map.1 hx
    exact ih j hj
  | h6 f ih =>
    simp only [fromJson, fromJsonMap_map]
    refine deep_map.2 ⟨trivial, fun x hx => ?_⟩
    obtain ⟨e, he, rfl⟩ := List.mem_map.1 hx
    exact ⟨(deep_leaf (v := .str e.1) trivial).2 trivial, ih e he⟩

theorem native_exact {v : Value} (h : IsData v) (hn : Deep Native v) : Deep ExactNumber v := by
  intro w hw
  have h1 := hn w hw
  have h2 := h w hw
  cases w with
  | int i => exact ⟨i.natAbs, 0, by simp only [Native] at h1; omega, by simp⟩
  | uint i =>
    have := h2.1
    exact ⟨i.natAbs, 0, by simp only [Native] at h1; omega, by simp⟩
  | _ => trivial

/-- Two values JSON represents exactly are equal just when their JSON is. -/
theorem C76_equal_iff_json_equal (O : Lib) (a b : Value) (p q ja jb : Json) (ha : IsData a) (hb : IsData b)
    (na : Deep Native a) (nb : Deep Native b) (ca : convert O a p = .ok ja) (cb : convert O b q = .ok jb) :
    jsonEquals ja jb = cEqual a b := by
  obtain ⟨j, h1, wa, -, -, e1, e2⟩ := C76_round_trip O a p ha na
  rw [ca] at h1; cases h1
  obtain ⟨j, h1, wb, -, -, e3, e4⟩ := C76_round_trip O b q hb nb
  rw [cb] at h1; cases h1
  have da := fromJson_isData wa
  have db := fromJson_isData wb
  have xa := native_exact ha na
  have xb := native_exact hb nb
  rw [jsonEquals_eq, Bool.eq_iff_iff]
  constructor
  · intro h
    have h1 := cEqual_trans _ _ _ ha da db xa (fromJson_exact ja) (fromJson_exact jb) e1 h
    exact cEqual_trans _ _ _ ha db hb xa (fromJson_exact jb) xb h1 e4
  · intro h
    have h1 := cEqual_trans _ _ _ da ha hb (fromJson_exact ja) xa xb e2 h
    exact cEqual_trans _ _ _ da hb db (fromJson_exact ja) xb (fromJson_exact jb) h1 e3

end Cel.Json
