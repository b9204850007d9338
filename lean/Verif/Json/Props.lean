import Verif.Json.Spec
import Verif.Data.MemberProps

set_option linter.dupNamespace false
set_option linter.unusedSimpArgs false
set_option linter.unusedVariables false

namespace Cel.Json
open Cel Cel.Num Cel.Eval Cel.Data Cel.Data.Spec Cel.Json.Spec

theorem json_induct {P : Json → Prop} (h0 : P .unset) (h1 : P .null) (h2 : ∀ b, P (.bool b))
    (h3 : ∀ d, P (.num d)) (h4 : ∀ s, P (.str s)) (h5 : ∀ l, (∀ j ∈ l, P j) → P (.arr l))
    (h6 : ∀ f : List (String × Json), (∀ e ∈ f, P e.2) → P (.obj f)) (j : Json) : P j :=
  match j with
  | .unset => h0
  | .null => h1
  | .bool b => h2 b
  | .num d => h3 d
  | .str s => h4 s
  | .arr l => h5 l fun x hx =>
      have := List.sizeOf_lt_of_mem hx
      json_induct h0 h1 h2 h3 h4 h5 h6 x
  | .obj f => h6 f fun e he =>
      have := List.sizeOf_lt_of_mem he
      have h2' : sizeOf e = 1 + sizeOf e.1 + sizeOf e.2 := rfl
      json_induct h0 h1 h2 h3 h4 h5 h6 e.2
termination_by sizeOf j
decreasing_by all_goals (simp_wf; omega)

theorem fromJsonList_map (l : List Json) : fromJsonList l = l.map fromJson := by
  induction l with
  | nil => rfl
  | cons j l ih => simp [fromJsonList, ih]

theorem fromJsonMap_map (f : List (String × Json)) :
    fromJsonMap f = f.map fun e => (.str e.1, fromJson e.2) := by
  induction f with
  | nil => rfl
  | cons j l ih => simp [fromJsonMap, ih]

/-! ## Which values convert -/

theorem field_none {f : List (String × Json)} {s : String} (h : s ∉ f.map Prod.fst) :
    field f s = .unset := by
  induction f with
  | nil => rfl
  | cons e f ih =>
    simp only [List.map_cons, List.mem_cons, not_or] at h
    rw [field, if_neg (fun hh => h.1 hh.symm), ih h.2]

theorem setField_new {f : List (String × Json)} {s : String} {j : Json} (h : s ∉ f.map Prod.fst) :
    setField f s j = f ++ [(s, j)] := by
  induction f with
  | nil => rfl
  | cons e f ih =>
    simp only [List.map_cons, List.mem_cons, not_or] at h
    rw [setField, if_neg (fun hh => h.1 hh.symm), ih h.2]; rfl

/-- Conversion does not depend on the previous contents of the target. -/
theorem convert_prev (O : Lib) (v : Value) : Deep NoMessage v → ∀ p q, convert O v p = convert O v q := by
  intro h p q
  cases v <;> first | rfl | (simp only [convert]; done) | skip
  exact (h.self).elim

theorem convertList_eq (O : Lib) (l : List Value) : ∀ acc,
    convertList O l acc = (convertList O l []).bind fun a => .ok (acc ++ a) := by
  induction l with
  | nil => intro acc; simp [convertList]
  | cons v l ih =>
    intro acc
    simp only [convertList]
    cases convert O v .unset with
    | ok j =>
      simp only [Res.bind_ok]
      rw [ih (acc ++ [j]), ih ([] ++ [j])]
      cases convertList O l [] <;> simp
    | err s => rfl
    | ub => rfl

/-- The list loop, element by element. -/
theorem convertList_ok (O : Lib) (l : List Value) (a : List Json) :
    convertList O l [] = .ok a ↔ List.Forall₂ (fun v j => convert O v .unset = .ok j) l a := by
  induction l generalizing a with
  | nil =>
    simp only [convertList]
    constructor
    · rintro ⟨⟩; exact .nil
    · rintro ⟨⟩; rfl
  | cons v l ih =>
    simp only [convertList]
    cases hc : convert O v .unset with
    | ok j =>
      simp only [Res.bind_ok]
      rw [convertList_eq]
      cases hl : convertList O l [] with
      | ok b =>
        simp only [Res.bind_ok, List.nil_append, List.singleton_append, Res.ok.injEq]
        constructor
        · rintro rfl; exact .cons hc ((ih b).1 hl)
        · intro h
          cases h with
          | cons h1 h2 =>
            rw [hc] at h1; cases h1
            rw [(ih _).2 h2] at hl; cases hl; rfl
      | err s =>
        simp only [Res.bind_err]
        constructor
        · rintro ⟨⟩
        · intro h; cases h with | cons h1 h2 => rw [(ih _).2 h2] at hl; cases hl
      | ub =>
        simp only [Res.bind_ub]
        constructor
        · rintro ⟨⟩
        · intro h; cases h with | cons h1 h2 => rw [(ih _).2 h2] at hl; cases hl
    | err s =>
      simp only [Res.bind_err]
      constructor
      · rintro ⟨⟩
      · intro h; cases h with | cons h1 h2 => rw [hc] at h1; cases h1
    | ub =>
      simp only [Res.bind_ub]
      constructor
      · rintro ⟨⟩
      · intro h; cases h with | cons h1 h2 => rw [hc] at h1; cases h1

theorem forall₂_exists {α β : Type} {R : α → β → Prop} (l : List α) :
    (∃ a, List.Forall₂ R l a) ↔ ∀ x ∈ l, ∃ y, R x y := by
  induction l with
  | nil => exact ⟨fun _ x hx => (nomatch hx), fun _ => ⟨[], .nil⟩⟩
  | cons x l ih =>
    constructor
    · rintro ⟨a, h⟩ y hy
      cases h with
      | cons h1 h2 =>
        rcases List.mem_cons.1 hy with rfl | hy
        · exact ⟨_, h1⟩
        · exact ih.1 ⟨_, h2⟩ y hy
    · intro h
      obtain ⟨y, hy⟩ := h x List.mem_cons_self
      obtain ⟨a, ha⟩ := ih.2 fun z hz => h z (List.mem_cons_of_mem _ hz)
      exact ⟨y :: a, .cons hy ha⟩

theorem convertMap_ok_iff (O : Lib) (m : List (Value × Value))
    (hp : ∀ e ∈ m, ∀ p q, convert O e.2 p = convert O e.2 q) : ∀ acc,
    ((∃ f, convertMap O m acc = .ok f) ↔
      ∀ e ∈ m, (∃ s, e.1 = .str s) ∧ ∃ j, convert O e.2 .unset = .ok j) := by
  induction m with
  | nil => intro acc; simp [convertMap]
  | cons e m ih =>
    intro acc
    obtain ⟨k, v⟩ := e
    have hp' := fun e he => hp e (List.mem_cons_of_mem _ he)
    cases k with
    | str s =>
      simp only [convertMap]
      rw [hp _ List.mem_cons_self (field acc s) .unset]
      cases hc : convert O v .unset with
      | ok j =>
        simp only [Res.bind_ok]
        rw [ih hp' (setField acc s j)]
        simp [hc]
      | err s => simp [hc]
      | ub => simp [hc]
    | _ => simp [convertMap]

theorem C76_converts_iff (O : Lib) (v : Value) (p : Json) (h : Deep NoMessage v) :
    (∃ j, convert O v p = .ok j) ↔ Deep HasJson v := by
  have key : ∀ v, Deep NoMessage v → ∀ p, ((∃ j, convert O v p = .ok j) ↔ Deep HasJson v) := by
    intro v
    induction v using value_induct with
    | hleaf v hv =>
      intro h p
      rw [deep_leaf hv]
      cases v <;> first | (simp [convert, HasJson]; done) | (exact hv.elim) | skip
      exact h.self.elim
    | hlist l ih =>
      intro h p
      rw [deep_list] at h ⊢
      have hl : ((∃ a, convertList O l [] = .ok a) ↔ ∀ x ∈ l, Deep HasJson x) := by
        simp only [convertList_ok]
        rw [forall₂_exists]
        exact forall₂_congr fun x hx => ih x hx (h.2 x hx) .unset
      simp only [HasJson, true_and]
      rw [← hl]
      simp only [convert]
      cases convertList O l [] <;> simp
    | hmap m ih =>
      intro h p
      rw [deep_map] at h ⊢
      have hl := convertMap_ok_iff O m
        (fun e he p q => convert_prev O e.2 (h.2 e he).2 p q) []
      have : (∃ j, convert O (.map m) p = .ok j) ↔ ∃ f, convertMap O m [] = .ok f := by
        simp only [convert]
        cases convertMap O m [] <;> simp
      rw [this, hl]
      constructor
      · intro hh
        refine ⟨fun e he => (hh e he).1, fun e he => ⟨?_, ?_⟩⟩
        · obtain ⟨s, hs⟩ := (hh e he).1
          rw [hs, deep_leaf (v := .str s) trivial]; trivial
        · exact ((ih e he).2 (h.2 e he).2 .unset).1 (hh e he).2
      · rintro ⟨h1, h2⟩ e he
        exact ⟨h1 e he, ((ih e he).2 (h.2 e he).2 .unset).2 (h2 e he).2⟩
    | hopt v ih =>
      intro h p
      rw [deep_opt]
      simp [convert, HasJson]
  exact key v h p


/-- A refusal is a FAILED_PRECONDITION (no JSON form) or an INVALID_ARGUMENT (key that is not a
string); nothing is undefined. -/
theorem C76_errors (O : Lib) (v : Value) (p : Json) (h : Deep NoMessage v) :
    convert O v p ≠ .ub ∧
    ∀ e, convert O v p = .err e → e.code = .failedPrecondition ∨ e.code = .invalidArgument := by
  let Good : {α : Type} → Res α → Prop := fun r => r ≠ .ub ∧
    ∀ e, r = .err e → e.code = .failedPrecondition ∨ e.code = .invalidArgument
  have gbind : ∀ {α β : Type} (r : Res α) (f : α → Res β), Good r → (∀ a, Good (f a)) → Good (r.bind f) := by
    intro α β r f h1 h2
    cases r with
    | ok a => exact h2 a
    | err e => exact ⟨by simp, fun e' he => by cases he; exact h1.2 _ rfl⟩
    | ub => exact (h1.1 rfl).elim
  have gok : ∀ {α : Type} (a : α), Good (Res.ok a) := fun a => ⟨by simp, by simp⟩
  have gerr : ∀ {α : Type} (e : Status), (e.code = .failedPrecondition ∨ e.code = .invalidArgument) →
      Good (Res.err e : Res α) := fun e he => ⟨by simp, fun e' h => by cases h; exact he⟩
  have key : ∀ v, Deep NoMessage v → ∀ p, Good (convert O v p) := by
    intro v
    induction v using value_induct with
    | hleaf v hv =>
      intro h p
      cases v <;> first
        | (simp only [convert]; exact gok _)
        | (simp only [convert]; exact gerr _ (.inl rfl))
        | exact hv.elim
        | exact h.self.elim
    | hlist l ih =>
      intro h p
      rw [deep_list] at h
      have : ∀ acc, Good (convertList O l acc) := by
        have h2 := h.2
        clear h
        induction l with
        | nil => intro acc; exact gok _
        | cons v l ihl =>
          intro acc
          simp only [convertList]
          exact gbind _ _ (ih v List.mem_cons_self (h2 v List.mem_cons_self) _) fun j =>
            ihl (fun x hx => ih x (List.mem_cons_of_mem _ hx)) (fun x hx => h2 x (List.mem_cons_of_mem _ hx)) _
      simp only [convert]
      exact gbind _ _ (this _) fun _ => gok _
    | hmap m ih =>
      intro h p
      rw [deep_map] at h
      have : ∀ acc, Good (convertMap O m acc) := by
        have h2 := h.2
        clear h
        induction m with
        | nil => intro acc; exact gok _
        | cons e l ihl =>
          intro acc
          obtain ⟨k, v⟩ := e
          cases k with
          | str s =>
            simp only [convertMap]
            exact gbind _ _ ((ih _ List.mem_cons_self).2 (h2 _ List.mem_cons_self).2 _) fun j =>
              ihl (fun x hx => ih x (List.mem_cons_of_mem _ hx))
                (fun x hx => h2 x (List.mem_cons_of_mem _ hx)) _
          | _ => simp only [convertMap]; exact gerr _ (.inr rfl)
      simp only [convert]
      exact gbind _ _ (this _) fun _ => gok _
    | hopt v ih => intro h p; simp only [convert]; exact gerr _ (.inl rfl)
  exact key v h p

/-- What the target message held does not matter. -/
theorem C76_target_irrelevant (O : Lib) (v : Value) (p q : Json) (h : Deep NoMessage v) :
    convert O v p = convert O v q := convert_prev O v h p q

/-! ## Round trips -/

theorem convertMap_eq (O : Lib) (m : List (Value × Value)) (g : Value → Json)
    (hs : ∀ e ∈ m, ∃ s, e.1 = .str s)
    (hc : ∀ e ∈ m, ∀ p, convert O e.2 p = .ok (g e.2)) : ∀ acc : List (String × Json),
    (∀ e ∈ m, ∀ s, e.1 = .str s → s ∉ acc.map Prod.fst) →
    m.Pairwise (fun e f => keyEq e.1 f.1 = false) →
    ∃ f, convertMap O m acc = .ok (acc ++ f) ∧
      List.Forall₂ (fun (e : Value × Value) (x : String × Json) => e.1 = .str x.1 ∧ x.2 = g e.2) m f := by
  induction m with
  | nil => intro acc _ _; exact ⟨[], by simp [convertMap], .nil⟩
  | cons e m ih =>
    intro acc hd hp
    obtain ⟨k, v⟩ := e
    obtain ⟨s, hk⟩ := hs _ List.mem_cons_self
    simp only at hk
    subst hk
    simp only [convertMap]
    rw [hc _ List.mem_cons_self]
    simp only [Res.bind_ok]
    have hn := hd _ List.mem_cons_self s rfl
    rw [setField_new hn]
    rw [List.pairwise_cons] at hp
    obtain ⟨f, hf, hff⟩ := ih (fun e he => hs e (List.mem_cons_of_mem _ he))
      (fun e he => hc e (List.mem_cons_of_mem _ he)) (acc ++ [(s, g v)])
      (by
        intro e he t ht hmem
        simp only [List.map_append, List.map_cons, List.map_nil, List.mem_append, List.mem_singleton] at hmem
        rcases hmem with hmem | hmem
        · exact hd e (List.mem_cons_of_mem _ he) t ht hmem
        · have := hp.1 e he
          rw [ht, hmem] at this
          simp [keyEq] at this)
      hp.2
    exact ⟨(s, g v) :: f, by rw [hf]; simp, .cons ⟨rfl, rfl⟩ hff⟩

theorem fromJson_isData {j : Json} (h : WF j) : IsData (fromJson j) := by
  induction h with
  | unset => exact (deep_leaf (v := .null) trivial).2 trivial
  | null => exact (deep_leaf (v := .null) trivial).2 trivial
  | bool b => exact (deep_leaf (v := .bool b) trivial).2 trivial
  | num d hd => exact (deep_leaf (v := .dbl d) trivial).2 hd
  | str s => exact (deep_leaf (v := .str s) trivial).2 trivial
  | arr l _ ih =>
    simp only [fromJson, fromJsonList_map]
    refine deep_list.2 ⟨trivial, fun x hx => ?_⟩
    obtain ⟨j, hj, rfl⟩ := List.mem_map.1 hx
    exact ih j hj
  | obj f hn _ ih =>
    simp only [fromJson, fromJsonMap_map]
    refine deep_map.2 ⟨⟨?_, ?_⟩, fun x hx => ?_⟩
    · intro e he
      obtain ⟨x, hx, rfl⟩ := List.mem_map.1 he
      rfl
    · rw [List.pairwise_map]
      rw [List.Nodup, List.pairwise_map] at hn
      exact hn.imp fun hne => by simpa [keyEq] using hne
    · obtain ⟨e, he, rfl⟩ := List.mem_map.1 hx
      exact ⟨(deep_leaf (v := .str e.1) trivial).2 trivial, ih e he⟩

theorem cEqual_intDbl (i : Int) (h : InI64 i) : cEqual (.int i) (.dbl (Dbl.ofInt i)) = true := by
  rw [cEqual_num (x := .int i) (y := .dbl (Dbl.ofInt i)) rfl rfl]
  have : (Number.dbl (Dbl.ofInt i)).eq (.dbl (Dbl.ofInt i)) = true := by
    rw [number_eq_self]; simp [Dbl.ofInt]
  simp only [Number.eq, Number.compare] at this ⊢
  rw [doubleVsInt_eq _ _ h, doubleCompare_invert]
  exact this

theorem cEqual_uintDbl (i : Int) (h : InU64 i) : cEqual (.uint i) (.dbl (Dbl.ofInt i)) = true := by
  rw [cEqual_num (x := .uint i) (y := .dbl (Dbl.ofInt i)) rfl rfl]
  have : (Number.dbl (Dbl.ofInt i)).eq (.dbl (Dbl.ofInt i)) = true := by
    rw [number_eq_self]; simp [Dbl.ofInt]
  simp only [Number.eq, Number.compare] at this ⊢
  rw [doubleVsUint_eq _ _ h, doubleCompare_invert]
  exact this

theorem forall₂_map_right {α β γ : Type} {R : α → γ → Prop} {g : β → γ} {l : List α} {a : List β} :
    List.Forall₂ R l (a.map g) ↔ List.Forall₂ (fun x y => R x (g y)) l a :=
  List.forall₂_map_right_iff

theorem forall₂_mem_left {α β : Type} {R : α → β → Prop} {l : List α} {a : List β}
    (h : List.Forall₂ R l a) {x : α} (hx : x ∈ l) : ∃ y ∈ a, R x y := by
  induction h with
  | nil => cases hx
  | cons h1 _ ih =>
    rcases List.mem_cons.1 hx with rfl | hx
    · exact ⟨_, List.mem_cons_self, h1⟩
    · obtain ⟨y, hy, hr⟩ := ih hx; exact ⟨y, List.mem_cons_of_mem _ hy, hr⟩

theorem forall₂_mem_right {α β : Type} {R : α → β → Prop} {l : List α} {a : List β}
    (h : List.Forall₂ R l a) {y : β} (hy : y ∈ a) : ∃ x ∈ l, R x y := by
  induction h with
  | nil => cases hy
  | cons h1 _ ih =>
    rcases List.mem_cons.1 hy with rfl | hy
    · exact ⟨_, List.mem_cons_self, h1⟩
    · obtain ⟨x, hx, hr⟩ := ih hy; exact ⟨x, List.mem_cons_of_mem _ hx, hr⟩

theorem roundTrip (O : Lib) (v : Value) : IsData v → Deep Native v →
    ∃ j, (∀ p, convert O v p = .ok j) ∧ WF j ∧ cEqual v (fromJson j) = true := by
  induction v using value_induct with
  | hleaf v hv =>
    intro h hn
    have hn := hn.self
    have hd := h.self
    cases v with
    | null => exact ⟨.null, fun p => rfl, .null, rfl⟩
    | bool b => exact ⟨.bool b, fun p => rfl, .bool b, by simp [fromJson, cEqual]⟩
    | str b => exact ⟨.str b, fun p => rfl, .str b, by simp [fromJson, cEqual]⟩
    | dbl d =>
      refine ⟨.num d, fun p => rfl, .num d hd, ?_⟩
      simp only [fromJson, cEqual, Num.eq_self]
      simp only [Native] at hn
      cases d <;> simp_all [Dbl.isNaN]
    | int i =>
      simp only [Native] at hn
      have e : setInt i = .num (Dbl.ofInt i) := by
        unfold setInt jsonMinInt jsonMaxInt
        rw [if_neg (by omega)]
      refine ⟨.num (Dbl.ofInt i), fun p => by simp only [convert, e], .num _ (wf_ofInt _ (by omega)), ?_⟩
      exact cEqual_intDbl i hd
    | uint i =>
      simp only [Native] at hn
      have h0 := hd.1
      have e : setUint i = .num (Dbl.ofInt i) := by
        unfold setUint jsonMaxUint
        rw [if_neg (by omega)]
      refine ⟨.num (Dbl.ofInt i), fun p => by simp only [convert, e], .num _ (wf_ofInt _ (by omega)), ?_⟩
      exact cEqual_uintDbl i hd
    | list l => exact hv.elim
    | map l => exact hv.elim
    | _ => exact hn.elim
  | hlist l ih =>
    intro h hn
    rw [IsData, deep_list] at h
    rw [deep_list] at hn
    obtain ⟨a, ha⟩ := (forall₂_exists (R := fun v j => (∀ p, convert O v p = .ok j) ∧ WF j ∧
      cEqual v (fromJson j) = true) l).2 fun x hx => ih x hx (h.2 x hx) (hn.2 x hx)
    refine ⟨.arr a, fun p => ?_, .arr a fun j hj => ?_, ?_⟩
    · simp only [convert]
      rw [(convertList_ok O l a).2 (ha.imp fun _ _ h => h.1 _)]
      rfl
    · obtain ⟨x, _, hr⟩ := forall₂_mem_right ha hj
      exact hr.2.1
    · simp only [fromJson, fromJsonList_map]
      rw [cEqual_list, forall₂_map_right]
      exact ha.imp fun _ _ h => h.2.2
  | hmap m ih =>
    intro h hn
    rw [IsData, deep_map] at h
    rw [deep_map] at hn
    let g : Value → Json := fun v => match convert O v .unset with | .ok j => j | _ => .unset
    have hg : ∀ e ∈ m, (∀ p, convert O e.2 p = .ok (g e.2)) ∧ WF (g e.2) ∧
        cEqual e.2 (fromJson (g e.2)) = true := by
      intro e he
      obtain ⟨j, h1, h2, h3⟩ := (ih e he).2 (h.2 e he).2 (hn.2 e he).2
      have : g e.2 = j := by simp only [g, h1]
      rw [this]; exact ⟨h1, h2, h3⟩
    obtain ⟨f, hf, hff⟩ := convertMap_eq O m g hn.1 (fun e he => (hg e he).1) []
      (fun _ _ _ _ hm => by cases hm) h.1.2
    have hwf : WF (.obj f) := by
      refine .obj f ?_ fun x hx => ?_
      · have hk := keys_nodup h.1
        have : m.map Prod.fst = (f.map Prod.fst).map Value.str := by
          clear hf hk hg hn h ih
          induction hff with
          | nil => rfl
          | cons h1 _ ih => simp only [List.map_cons, ih, h1.1]
        rw [this] at hk
        exact hk.of_map _
      · obtain ⟨e, he, hr⟩ := forall₂_mem_right hff hx
        rw [hr.2]; exact (hg e he).2.1
    refine ⟨.obj f, fun p => ?_, hwf, ?_⟩
    · simp only [convert, hf, Res.bind_ok, List.nil_append]
    · have hd := fromJson_isData hwf
      simp only [fromJson, fromJsonMap_map] at hd ⊢
      rw [cEqual_map]
      refine ⟨by simp [hff.length_eq], fun e he => ?_⟩
      obtain ⟨x, hx, hr⟩ := forall₂_mem_left hff he
      refine ⟨fromJson x.2, ?_, ?_⟩
      · rw [hr.1]
        exact mapFind_of_mem hd.self (List.mem_map.2 ⟨x, hx, rfl⟩)
      · rw [hr.2]; exact (hg e he).2.2
  | hopt v ih =>
    intro h hn
    exact hn.self.elim

/-- Converting to JSON and reading the result back gives an equal value, in either order of the
operands, under `==` and under `Value::Equal`. -/
theorem C76_round_trip (O : Lib) (v : Value) (p : Json) (h : IsData v) (hn : Deep Native v) :
    ∃ j, convert O v p = .ok j ∧ WF j ∧
      valueEqual v (fromJson j) = some true ∧ valueEqual (fromJson j) v = some true ∧
      cEqual v (fromJson j) = true ∧ cEqual (fromJson j) v = true := by
  obtain ⟨j, h1, h2, h3⟩ := roundTrip O v h hn
  have hd := fromJson_isData h2
  have h4 := cEqual_symm _ _ h hd h3
  exact ⟨j, h1 p, h2, cEqual_imp_valueEqual _ _ h hd h3, cEqual_imp_valueEqual _ _ hd h h4, h3, h4⟩

theorem normalList_map (l : List Json) : normalList l = l.map normal := by
  induction l with
  | nil => rfl
  | cons j l ih => simp [normalList, ih]

theorem normalMap_map (f : List (String × Json)) :
    normalMap f = f.map fun e => (e.1, normal e.2) := by
  induction f with
  | nil => rfl
  | cons j l ih => simp [normalMap, ih]

theorem fromJson_normal (j : Json) : fromJson (normal j) = fromJson j := by
  induction j using json_induct with
  | h5 l ih =>
    simp only [normal, fromJson, fromJsonList_map, normalList_map, List.map_map]
    rw [Value.list.injEq]
    exact List.map_congr_left ih
  | h6 f ih =>
    simp only [normal, fromJson, fromJsonMap_map, normalMap_map, List.map_map]
    rw [Value.map.injEq]
    exact List.map_congr_left fun e he => by simp [ih e he]
  | _ => rfl

theorem convertMap_strs (O : Lib) (f : List (String × Json))
    (hc : ∀ e ∈ f, ∀ p, convert O (fromJson e.2) p = .ok (normal e.2))
    (hn : (f.map Prod.fst).Nodup) : ∀ acc : List (String × Json),
    (∀ e ∈ f, e.1 ∉ acc.map Prod.fst) →
    convertMap O (fromJsonMap f) acc = .ok (acc ++ normalMap f) := by
  induction f with
  | nil => intro acc _; simp [fromJsonMap, normalMap, convertMap]
  | cons e f ih =>
    intro acc hd
    obtain ⟨s, j⟩ := e
    simp only [fromJsonMap, convertMap]
    rw [hc _ List.mem_cons_self]
    simp only [Res.bind_ok]
    rw [setField_new (hd _ List.mem_cons_self)]
    simp only [List.map_cons, List.nodup_cons] at hn
    rw [ih (fun e he => hc e (List.mem_cons_of_mem _ he)) hn.2]
    · simp [normalMap]
    · intro e he hmem
      simp only [List.map_append, List.map_cons, List.map_nil, List.mem_append, List.mem_singleton] at hmem
      rcases hmem with hmem | hmem
      · exact hd e (List.mem_cons_of_mem _ he) hmem
      · exact hn.1 (hmem ▸ List.mem_map_of_mem he)

/-- Reading a JSON message and converting it again gives the message with unset parts made null,
whatever the target held; the two messages denote the same value. -/
theorem C76_read_then_convert (O : Lib) (j p : Json) (h : WF j) :
    convert O (fromJson j) p = .ok (normal j) ∧ fromJson (normal j) = fromJson j := by
  refine ⟨?_, fromJson_normal j⟩
  have key : ∀ p, convert O (fromJson j) p = .ok (normal j) := by
    clear p
    induction h with
    | arr l _ ih =>
      intro p
      have : convertList O (fromJsonList l) [] = .ok (normalList l) := by
        rw [convertList_ok, fromJsonList_map, normalList_map, List.forall₂_map_left_iff,
          List.forall₂_map_right_iff, List.forall₂_same]
        exact fun x hx => ih x hx .unset
      simp only [fromJson, convert, this, Res.bind_ok, normal]
    | obj f hn _ ih =>
      intro p
      have := convertMap_strs O f (fun e he p => ih e he p) hn [] (fun _ _ h => by cases h)
      simp only [fromJson, convert, this, Res.bind_ok, normal, List.nil_append]
    | _ => intro p; rfl
  exact key p

/-! ## Integers -/

theorem revDigits_bound : ∀ (fuel n : Nat), n.log2 ≤ fuel → ∀ c ∈ Conv.revDigits 10 fuel n, c < 128 := by
  intro fuel
  have hb : ∀ n, Conv.digitByte (n % 10) < 128 := by
    intro n; unfold Conv.digitByte; split <;> omega
  induction fuel with
  | zero =>
    intro n _ c hc
    simp only [Conv.revDigits, List.mem_singleton] at hc
    rw [hc]; exact hb n
  | succ k ih =>
    intro n hl c hc
    rw [Conv.revDigits] at hc
    split at hc
    · rename_i h
      simp only [List.mem_singleton] at hc
      rw [hc]; have := hb n; rwa [Nat.mod_eq_of_lt h] at this
    · rename_i h
      rcases List.mem_cons.1 hc with rfl | hc
      · exact hb n
      · have := Conv.log2_div (b := 10) (n := n) (by omega) (by omega)
        exact ih _ (by omega) c hc

theorem decimal_inj {i j : Int} (h : decimal i = decimal j) : i = j := by
  unfold decimal at h
  have h1 := String.ofList_injective h
  have key : ∀ i : Int, ∀ c ∈ Conv.signedNumeral 10 i, c < 128 := by
    intro i c hc
    have : ∀ n, c ∈ Conv.numeral 10 n → c < 128 := by
      intro n hn
      unfold Conv.numeral at hn
      rw [List.mem_reverse] at hn
      exact revDigits_bound _ _ (Nat.le_refl _) c hn
    unfold Conv.signedNumeral at hc
    split at hc
    · rcases List.mem_cons.1 hc with rfl | hc
      · decide
      · exact this _ hc
    · exact this _ hc
  have hinj : ∀ (a b : List Nat), (∀ c ∈ a, c < 128) → (∀ c ∈ b, c < 128) →
      a.map Char.ofNat = b.map Char.ofNat → a = b := by
    intro a
    induction a with
    | nil => intro b _ _ h; cases b <;> simp_all
    | cons x a ih =>
      intro b ha hb h
      cases b with
      | nil => simp at h
      | cons y b =>
        simp only [List.map_cons, List.cons.injEq] at h
        have hx := ha x List.mem_cons_self
        have hy := hb y List.mem_cons_self
        have hch : ∀ n, n < 128 → (Char.ofNat n).toNat = n := by
          intro n hn
          unfold Char.ofNat
          rw [dif_pos (Or.inl (by omega))]
          rfl
        have hxy : x = y := by rw [← hch x hx, ← hch y hy, h.1]
        rw [hxy, ih b (fun c hc => ha c (List.mem_cons_of_mem _ hc))
          (fun c hc => hb c (List.mem_cons_of_mem _ hc)) h.2]
  have h2 := hinj _ _ (key i) (key j) h1
  have r1 := Conv.signedNumeral_reads (b := 10) (by omega) (by omega) i
  have r2 := Conv.signedNumeral_reads (b := 10) (by omega) (by omega) j
  rw [← h2] at r2
  exact r1.value_unique r2

theorem value_ofInt {i : Int} (h : i.natAbs < 2 ^ 53) :
    Num.Spec.value (.dbl (Dbl.ofInt i)) = some (.num i) := by
  unfold Dbl.ofInt
  rw [round53_small h]
  simp only [Num.Spec.value, Option.some.injEq, Num.Spec.Ext.num.injEq, decide_eq_true_eq]
  have hu : ((unit1 : Nat) : ℚ) = 2 ^ 1074 := by unfold unit1; push_cast; rfl
  rw [Nat.cast_mul, hu]
  have hne : (2 : ℚ) ^ 1074 ≠ 0 := pow_ne_zero _ (by norm_num)
  have ha : ((i.natAbs : Nat) : ℚ) = if i < 0 then -(i : ℚ) else (i : ℚ) := by
    split
    · rename_i hi
      have : ((i.natAbs : Int)) = -i := by omega
      calc ((i.natAbs : Nat) : ℚ) = (((i.natAbs : Int)) : ℚ) := (Int.cast_natCast _).symm
        _ = ((-i : Int) : ℚ) := by rw [this]
        _ = _ := Int.cast_neg i
    · rename_i hi
      have : ((i.natAbs : Int)) = i := by omega
      calc ((i.natAbs : Nat) : ℚ) = (((i.natAbs : Int)) : ℚ) := (Int.cast_natCast _).symm
        _ = (i : ℚ) := by rw [this]
  rw [ha]
  split
  · rw [neg_mul, neg_neg, mul_div_assoc, div_self hne, mul_one]
  · rw [mul_div_assoc, div_self hne, mul_one]

/-- An integer of at most 53 bits becomes the JSON number of exactly that value, any other its
decimal numeral as a string; no two integers become the same JSON. -/
theorem C76_integers (O : Lib) (i : Int) (p : Json) :
    (-(2 ^ 53) < i ∧ i < 2 ^ 53 → ∃ d, convert O (.int i) p = .ok (.num d) ∧
      Num.Spec.value (.dbl d) = some (.num i)) ∧
    (¬ (-(2 ^ 53) < i ∧ i < 2 ^ 53) → ∃ t, convert O (.int i) p = .ok (.str t) ∧
      ∃ ds, t = String.ofList (ds.map Char.ofNat) ∧ Conv.ReadsSigned 10 ds i) ∧
    (0 ≤ i → convert O (.uint i) p = convert O (.int i) p) ∧
    (∀ k q, convert O (.int i) p = convert O (.int k) q → i = k) := by
  have hin : ∀ i, (-(2 ^ 53) < i ∧ i < 2 ^ 53) → setInt i = .num (Dbl.ofInt i) := by
    intro i h; unfold setInt jsonMinInt jsonMaxInt; rw [if_neg (by omega)]
  have hout : ∀ i, ¬ (-(2 ^ 53) < i ∧ i < 2 ^ 53) → setInt i = .str (decimal i) := by
    intro i h; unfold setInt jsonMinInt jsonMaxInt; rw [if_pos (by omega)]
  simp only [convert]
  refine ⟨fun h => ⟨_, by rw [hin i h], value_ofInt (by omega)⟩,
    fun h => ⟨decimal i, by rw [hout i h], _, rfl, Conv.signedNumeral_reads (by omega) (by omega) i⟩, ?_, ?_⟩
  · intro h0
    unfold setUint setInt jsonMaxUint jsonMinInt jsonMaxInt
    by_cases h : i > 2 ^ 53 - 1
    · rw [if_pos h, if_pos (by omega)]
    · rw [if_neg h, if_neg (by omega)]
  · intro k q h
    injection h with h
    by_cases h1 : -(2 ^ 53) < i ∧ i < 2 ^ 53 <;> by_cases h2 : -(2 ^ 53) < k ∧ k < 2 ^ 53
    · rw [hin i h1, hin k h2] at h
      injection h with h
      have e1 := value_ofInt (i := i) (by omega)
      have e2 := value_ofInt (i := k) (by omega)
      rw [h, e2] at e1
      injection e1 with e1; injection e1 with e1
      exact_mod_cast e1.symm
    · rw [hin i h1, hout k h2] at h; cases h
    · rw [hout i h1, hin k h2] at h; cases h
    · rw [hout i h1, hout k h2] at h
      injection h with h
      exact decimal_inj h

end Cel.Json
