import Verif.Select.Front

/-! # Selects that are optimized have the outcome of selects that are not -/

set_option linter.unusedSimpArgs false
set_option linter.unusedVariables false

namespace Cel.Select
open Cel

/-! ## The plain steps -/

theorem wrapField_unset {L : Lib} {N : Env} {m : Msg} {d : FDesc}
    (h : N.unsetNull = true ∨ ∀ t, d.shape = .one (.msg t) → L.wk t = .wrapper →
      (cont m d).isSome = true) : wrapField L N.unsetNull m d = wrapField L true m d := by
  rcases h with h | h
  · rw [h]
  · rcases hs : d.shape with (z | t) | t | ⟨k, t⟩
    · simp [wrapField, hs]
    · simp only [wrapField, hs]
      by_cases hw : L.wk t = .wrapper
      · simp [h t hs hw]
      · simp [hw]
    · simp [wrapField, hs]
    · simp [wrapField, hs]

theorem candSelect_message {L : Lib} {T f : String} {q : SQ} (h : candSelect L (.message T) f = some q) :
    ∃ d, byName L T f = some d ∧ d.name = f ∧ q = .field d.number f := by
  simp only [candSelect] at h
  split at h
  · rcases hb : byName L T f with _ | d
    · rw [hb] at h; cases h
    · rw [hb] at h
      simp only [Option.map_some, Option.some.injEq] at h
      have hn := List.find?_some hb
      simp only [beq_iff_eq] at hn
      exact ⟨d, rfl, hn, by rw [← h, hn]⟩
  · cases h

theorem select_good {L : Lib} {N : Env} {v : Val} {t : OType} {f : String} {q : SQ}
    (hf : SelFine L N v t f false) (hv : isError v = false) (hq : candSelect L t f = some q) :
    Good L v q (selectStep L N.unsetNull v f false) := by
  cases t with
  | other => simp [candSelect] at hq
  | message T =>
    obtain ⟨d, hb, hn, rfl⟩ := candSelect_message hq
    rcases hf with hf | ⟨m, rfl, rfl, hm, hu⟩
    · simp [hv] at hf
    · refine ⟨m, d, rfl, hm, hb, rfl, ?_⟩
      simp only [selectStep, hb, Bool.false_eq_true, if_false]
      refine wrapField_unset ?_
      rcases hu with hu | hu | hu
      · cases hu
      · exact .inl hu
      · exact .inr fun t hs hw => hu d t hb hs hw
  | map =>
    simp only [candSelect, Option.some.injEq] at hq
    subst hq
    rcases hf with hf | ⟨k, l, rfl, _⟩
    · simp [hv] at hf
    · refine ⟨trivial, .rfl' _, fun s hs => ?_⟩
      cases k <;> simp [mapKeyOf] at hs <;> rfl

theorem has_good {L : Lib} {N : Env} {v : Val} {t : OType} {f : String} {q : SQ}
    (hf : SelFine L N v t f true) (hv : isError v = false) (hq : candSelect L t f = some q) :
    GoodHas L v q (selectStep L N.unsetNull v f true) := by
  cases t with
  | other => simp [candSelect] at hq
  | message T =>
    obtain ⟨d, hb, hn, rfl⟩ := candSelect_message hq
    rcases hf with hf | ⟨m, rfl, rfl, hm, hu⟩
    · simp [hv] at hf
    · refine ⟨m, d, rfl, hm, hb, rfl, ?_⟩
      simp only [selectStep, hb, if_true]
  | map =>
    simp only [candSelect, Option.some.injEq] at hq
    subst hq
    rcases hf with hf | ⟨k, l, rfl, hk⟩
    · simp [hv] at hf
    · cases hk rfl
      exact ⟨f, l, rfl, rfl, rfl⟩

theorem lookup_list (het : Bool) (l : List Val) (c : Const) (i : Int) (h : listIndex het c = some i) :
    VAgree (if i < 0 then .error negativeIndex else
          match l[i.toNat]? with
          | some v => v
          | none => .error outOfBounds) (lookupInList het l c) := by
  rw [lookupInList, h]
  simp only []
  by_cases hi : i < 0
  · rw [if_pos hi, if_pos (.inl hi)]; exact .inr ⟨rfl, rfl⟩
  · rw [if_neg hi]
    by_cases hl : i ≥ (l.length : Int)
    · rw [if_pos (.inr hl)]
      have : l[i.toNat]? = none := by rw [List.getElem?_eq_none]; omega
      rw [this]; exact .inr ⟨rfl, rfl⟩
    · rw [if_neg (by omega)]
      exact .rfl' _

theorem lookup_list_none (het : Bool) (l : List Val) (c : Const) (h : listIndex het c = none) :
    isError (lookupInList het l c) = true := by
  rw [lookupInList, h]; rfl

/-- Looking a key of one kind up in a map with keys of another. -/
theorem find_int_uint (k : KType) (l : List (Key × Val)) (i : Int) :
    find k l (.int i) = find k l (.uint i) := rfl

theorem get_error {k : KType} {l : List (Key × Val)} {a : AQ} (h : find k l a = none) :
    isError (get k l a) = true := by
  rw [get, h]; rfl

theorem find_none_of {k : KType} {l : List (Key × Val)} {a : AQ} (h : protoKey k a = none) :
    find k l a = none := by
  rw [find, h]

/-- The kind of a key that is looked up in a map is that of the map. -/
theorem mapKeyOf_err_int {k : KType} {i : Int} {s : Status} (h1 : k ≠ .u32) (h2 : k ≠ .u64)
    (h : mapKeyOf k (.int i) = .err s) : protoKey k (.int i) = none := by
  cases k <;> simp_all [mapKeyOf, protoKey, keyInRange]
  · split at h
    · omega
    · cases h

theorem mapKeyOf_err_uint {k : KType} {i : Int} {s : Status} (h1 : k ≠ .i32) (h2 : k ≠ .i64)
    (h : mapKeyOf k (.uint i) = .err s) : protoKey k (.uint i) = none := by
  cases k <;> simp_all [mapKeyOf, protoKey, keyInRange]
  · split at h
    · omega
    · cases h

theorem get_of {k : KType} {l : List (Key × Val)} {a : AQ} {w : Val}
    (h1 : ∀ v, find k l a = some v → w = v) (h2 : find k l a = none → isError w = true) :
    VAgree (get k l a) w := by
  rcases h : find k l a with _ | v
  · exact .inr ⟨get_error h, h2 h⟩
  · rw [get, h, h1 v h]; exact .rfl' _

/-- A map looked up with a constant finds what the qualifier made of it finds. -/
theorem lookup_map {het : Bool} {k : KType} {l : List (Key × Val)} {c : Const} {a : AQ}
    (hc : constOK c) (hq : candIndex c = some (.attr a))
    (hd : ∀ x y, c = .dbl x y → het = true) :
    VAgree (get k l a) (lookupInMap het k l c) := by
  cases c with
  | bool b => cases hq; cases het <;> exact .rfl' _
  | str b => cases hq; cases het <;> exact .rfl' _
  | int i =>
    cases hq
    cases het
    · exact .rfl' _
    · refine get_of (fun v h => ?_) (fun h => ?_)
      · simp only [lookupInMap, h]
      · simp only [lookupInMap, h, ← find_int_uint, ite_self]; rfl
  | uint i =>
    cases hq
    cases het
    · exact .rfl' _
    · refine get_of (fun v h => ?_) (fun h => ?_)
      · simp only [lookupInMap, h]
      · simp only [lookupInMap, h, find_int_uint, ite_self]; exact get_error h
  | dbl x y =>
    have := hd x y rfl
    subst this
    cases x with
    | some i =>
      cases hq
      have hy := (hc.1 i rfl).2
      refine get_of (fun v h => ?_) (fun h => ?_)
      · simp only [lookupInMap, Option.bind_some, h]
      · simp only [lookupInMap, Option.bind_some, h]
        subst hy
        split
        · rename_i hh
          split at hh
          · simp only [Option.bind_some, ← find_int_uint, h] at hh; cases hh
          · simp at hh
        · rfl
    | none =>
      cases y with
      | none => cases hq
      | some i =>
        cases hq
        refine get_of (fun v h => ?_) (fun h => ?_)
        · simp only [lookupInMap, Option.bind_some, Option.bind_none, h]
        · simp only [lookupInMap, Option.bind_some, Option.bind_none, h]; rfl

theorem candIndex_ok {c : Const} {q : SQ} (hc : constOK c) (hq : candIndex c = some q) :
    ∃ a, q = .attr a ∧ aqOK a := by
  cases c with
  | int i => cases hq; exact ⟨_, rfl, hc⟩
  | uint i => cases hq; exact ⟨_, rfl, hc⟩
  | bool i => cases hq; exact ⟨_, rfl, trivial⟩
  | str i => cases hq; exact ⟨_, rfl, trivial⟩
  | dbl x y =>
    cases x with
    | some i => cases hq; exact ⟨_, rfl, (hc.1 i rfl).1⟩
    | none =>
      cases y with
      | none => cases hq
      | some i =>
        cases hq
        have := hc.2 i rfl
        exact ⟨_, rfl, this.1, this.2.1⟩

theorem index_good {L : Lib} {N : Env} {v : Val} {c : Const} {q : SQ} (hc : constOK c)
    (hf : IdxFine N v c) (hv : isError v = false) (hq : candIndex c = some q) :
    Good L v q (indexStep N.het v c) := by
  obtain ⟨a, rfl, ha⟩ := candIndex_ok hc hq
  refine ⟨ha, ?_⟩
  cases v with
  | scal n => rfl
  | bool n => rfl
  | null => rfl
  | msg n => rfl
  | error n => rfl
  | list l =>
    simp only [indexStep]
    cases c with
    | int i => cases hq; exact ⟨hf, lookup_list _ _ _ _ rfl⟩
    | uint i =>
      cases hq
      simp only []
      rcases hf with hf | hf
      · exact lookup_list_none _ _ _ (by simp [listIndex, hf])
      · simp only [lookupInList]
        split
        · rfl
        · rename_i j hj
          simp only [listIndex] at hj
          split at hj
          · cases hj; rw [if_pos (.inr hf)]; rfl
          · cases hj
    | bool b => cases hq; rfl
    | str b => cases hq; rfl
    | dbl x y =>
      cases x with
      | some i =>
        cases hq
        obtain ⟨h1, h2⟩ := hf
        exact ⟨h2, lookup_list _ _ _ _ (by simp [listIndex, h1])⟩
      | none =>
        cases y with
        | none => cases hq
        | some i => cases hq; exact lookup_list_none _ _ _ (by simp [listIndex])
  | map k l =>
    simp only [indexStep]
    have hd : ∀ x y, c = .dbl x y → N.het = true := by
      rintro x y rfl
      cases x with
      | some i => exact hf.1
      | none => exact hf.1
    have hg := lookup_map (het := N.het) (k := k) (l := l) hc hq hd
    refine ⟨hg, fun s hs => hg.err (get_error (find_none_of ?_))⟩
    cases c with
    | int i => cases hq; exact mapKeyOf_err_int hf.1 hf.2 hs
    | uint i => cases hq; exact mapKeyOf_err_uint hf.1 hf.2 hs
    | bool b => cases hq; cases k <;> simp [mapKeyOf] at hs <;> rfl
    | str b => cases hq; cases k <;> simp [mapKeyOf] at hs <;> rfl
    | dbl x y =>
      cases x with
      | some i => cases hq; exact mapKeyOf_err_int hf.2.1 hf.2.2 hs
      | none =>
        cases y with
        | none => cases hq
        | some i => cases hq; exact mapKeyOf_err_uint hf.2.1 hf.2.2 hs

end Cel.Select
