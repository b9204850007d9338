import Verif.Select.Rewrite

/-! # The optimized traversal follows the plain one -/

set_option linter.unusedSimpArgs false
set_option linter.unusedVariables false

namespace Cel.Select
open Cel

theorem VAgree.rfl' (v : Val) : VAgree v v := .inl rfl

theorem VAgree.symm {v w : Val} (h : VAgree v w) : VAgree w v := by
  rcases h with h | ⟨a, b⟩
  · exact .inl h.symm
  · exact .inr ⟨b, a⟩

theorem VAgree.trans {u v w : Val} (h : VAgree u v) (g : VAgree v w) : VAgree u w := by
  rcases h with rfl | ⟨a, b⟩
  · exact g
  · rcases g with rfl | ⟨c, d⟩
    · exact .inr ⟨a, b⟩
    · exact .inr ⟨a, d⟩

theorem VAgree.ok {v w : Val} (h : VAgree v w) (e : isError v = false) : v = w := by
  rcases h with rfl | ⟨a, b⟩
  · rfl
  · simp [e] at a

theorem VAgree.err {v w : Val} (h : VAgree v w) (e : isError v = true) : isError w = true := by
  rcases h with rfl | ⟨a, b⟩
  · exact e
  · exact b

/-! ## Lookups -/

theorem lookupKey_map (L : Lib) (l : List (Key × Elem)) (key : Key) :
    lookupKey (l.map fun e => (e.1, wrapElem L e.2)) key = (lookupElem l key).map (wrapElem L) := by
  induction l with
  | nil => rfl
  | cons a l ih =>
    obtain ⟨k, e⟩ := a
    simp only [List.map_cons, lookupKey, lookupElem]
    split <;> simp [ih]

theorem lookupElem_mem {l : List (Key × Elem)} {key : Key} {e : Elem} (h : lookupElem l key = some e) :
    ∃ k, (k, e) ∈ l := by
  induction l with
  | nil => simp [lookupElem] at h
  | cons a l ih =>
    obtain ⟨k, e'⟩ := a
    rw [lookupElem] at h
    split at h
    · cases h; exact ⟨k, by simp⟩
    · obtain ⟨k', hk⟩ := ih h; exact ⟨k', by simp [hk]⟩

/-- The key the optimizer uses is of 64 bits. -/
def aqOK : AQ → Prop
  | .int i => -(2 ^ 63) ≤ i ∧ i ≤ 2 ^ 63 - 1
  | .uint i => 0 ≤ i ∧ i ≤ 2 ^ 64 - 1
  | _ => True

theorem mapKeyOf_ok {k : KType} {a : AQ} {key : Key} (ha : aqOK a) (h : mapKeyOf k a = .ok key) :
    protoKey k a = some key := by
  cases k <;> cases a <;> simp only [mapKeyOf] at h <;>
    first
    | cases h; done
    | (cases h; simp [protoKey]; done)
    | (cases h; simp only [aqOK] at ha; rw [protoKey]
       rw [if_pos (by rw [keyInRange]; exact decide_eq_true (by omega))]; done)
    | (split at h
       · cases h
       · cases h; simp only [aqOK] at ha; rw [protoKey]
         rw [if_pos (by rw [keyInRange]; exact decide_eq_true (by omega))])

theorem mapKeyOf_ub (k : KType) (a : AQ) : mapKeyOf k a ≠ .ub := by
  cases k <;> cases a <;> simp only [mapKeyOf] <;> first | simp; done | (split <;> simp)

/-- What is used of the plain evaluation of one step, for the qualifier of that step. -/
def Good (L : Lib) (v : Val) (q : SQ) (w : Val) : Prop :=
  match q with
  | .field n f => ∃ m d, v = .msg m ∧ MsgOK L m ∧ byName L m.type f = some d ∧ d.number = n ∧
      w = wrapField L true m d
  | .attr a =>
    aqOK a ∧
    match v with
    | .list l =>
      match a with
      | .int i => In32 i ∧ VAgree (if i < 0 then .error negativeIndex else
          match l[i.toNat]? with
          | some v => v
          | none => .error outOfBounds) w
      | _ => isError w = true
    | .map k l => VAgree (get k l a) w ∧ ∀ s, mapKeyOf k a = .err s → isError w = true
    | _ => isError w = true

theorem byName_mem {L : Lib} {t f : String} {d : FDesc} (h : byName L t f = some d) :
    d ∈ L.fields t := List.mem_of_find?_eq_some h

theorem byNumber_of {L : Lib} {m : Msg} {f : String} {d : FDesc} (hm : MsgOK L m)
    (h : byName L m.type f = some d) : byNumber L m.type d.number = some d := by
  have hd := byName_mem h
  rcases hn : byNumber L m.type d.number with _ | d'
  · rw [byNumber, List.find?_eq_none] at hn
    exact absurd (hn d hd) (by simp)
  · have h1 := List.mem_of_find?_eq_some hn
    have h2 := List.find?_some hn
    simp only [beq_iff_eq] at h2
    rw [hm.names d' h1 d hd h2]

theorem good_apply {L : Lib} {v : Val} {q : SQ} {w : Val} (h : Good L v q w) :
    VAgree (applyQualifier L v q) w := by
  cases q with
  | field n f =>
    obtain ⟨m, d, rfl, hm, hd, _, rfl⟩ := h
    simp only [applyQualifier, hd]
    exact .rfl' _
  | attr a =>
    obtain ⟨ha, h⟩ := h
    cases v with
    | list l =>
      cases a with
      | int i => exact h.2
      | uint i => exact .inr ⟨rfl, h⟩
      | bool i => exact .inr ⟨rfl, h⟩
      | str i => exact .inr ⟨rfl, h⟩
    | map k l => exact h.1
    | scal n => exact .inr ⟨rfl, h⟩
    | bool n => exact .inr ⟨rfl, h⟩
    | null => exact .inr ⟨rfl, h⟩
    | msg n => exact .inr ⟨rfl, h⟩
    | error n => exact .inr ⟨rfl, h⟩

/-! ## The state of the traversal and the plain value -/

/-- A value from which nothing can be selected. -/
def Opaque (v : Val) : Prop := v = .null ∨ (∃ n, v = .scal n) ∨ ∃ b, v = .bool b

def Rel (L : Lib) (s : QS) (v : Val) : Prop :=
  match s.rep with
  | none => (L.wk s.msg.type = .none ∧ v = .msg s.msg) ∨ Opaque v
  | some d => MsgOK L s.msg ∧ d ∈ L.fields s.msg.type ∧
      ((∃ t, d.shape = .rep t) ∨ ∃ k t, d.shape = .map k t) ∧ v = wrapField L true s.msg d

theorem Rel.noError {L : Lib} {s : QS} {v : Val} (h : Rel L s v) : isError v = false := by
  obtain ⟨m, r⟩ := s
  cases r with
  | none =>
    rcases h with ⟨_, rfl⟩ | rfl | ⟨_, rfl⟩ | ⟨_, rfl⟩ <;> rfl
  | some d =>
    obtain ⟨_, _, h, rfl⟩ := h
    rcases h with ⟨t, h⟩ | ⟨k, t, h⟩ <;> simp [wrapField, h, isError]

/-- The next message, or the value of a type that is not traversed. -/
theorem wrapMsg_rel {L : Lib} (hL : LibOK L) (m : Msg) (h : unsupported L m.type = false) :
    Rel L ⟨m, none⟩ (wrapMsg L m) := by
  simp only [unsupported] at h
  simp only [Rel, wrapMsg]
  rcases hw : L.wk m.type with _ | _ | _ | _ | _ <;> simp only [hw] at h
  · exact .inl ⟨rfl, by simp⟩
  · rcases hL m (.inl hw) with ⟨n, hn⟩ | ⟨n, hn⟩
    · exact .inr (.inr (.inl ⟨n, by simp [hn]⟩))
    · exact .inr (.inr (.inr ⟨n, by simp [hn]⟩))
  · rcases hL m (.inr hw) with ⟨n, hn⟩ | ⟨n, hn⟩
    · exact .inr (.inr (.inl ⟨n, by simp [hn]⟩))
    · exact .inr (.inr (.inr ⟨n, by simp [hn]⟩))
  · simp at h
  · simp at h

theorem getMessage_type {L : Lib} {m : Msg} (hm : MsgOK L m) {d : FDesc} (hd : d ∈ L.fields m.type)
    {t : String} (hs : d.shape = .one (.msg t)) : (getMessage m d t).type = t := by
  rw [getMessage]
  rcases hc : cont m d with _ | c
  · rfl
  · obtain ⟨e, rfl, he⟩ := hm.one d hd _ _ hs hc
    cases e with
    | scal n => obtain ⟨z, hz⟩ := he; cases hz
    | msg m' => simp only [elemOK] at he; cases he; rfl

theorem toInt32_of {i : Int} (h : In32 i) : toInt32 i = i := by
  rw [toInt32]; simp only [In32] at h; omega

/-- `checkListIndex` and the plain index. -/
theorem checkList {L : Lib} {m : Msg} {d : FDesc} {t : FT} (hs : d.shape = .rep t) {a : AQ} {w : Val}
    (h : Good L (wrapField L true m d) (.attr a) w) :
    (∃ s, checkListIndex m d a = .err s ∧ isError w = true) ∨
      ∃ e, checkListIndex m d a = .ok e ∧ e ∈ repElems m d ∧ VAgree (wrapElem L e) w := by
  obtain ⟨ha, h⟩ := h
  have hv : wrapField L true m d = .list ((repElems m d).map (wrapElem L)) := by
    simp [wrapField, hs]
  rw [hv] at h
  cases a with
  | uint i => exact .inl ⟨_, rfl, h⟩
  | bool i => exact .inl ⟨_, rfl, h⟩
  | str i => exact .inl ⟨_, rfl, h⟩
  | int i =>
    obtain ⟨h32, h⟩ := h
    simp only [checkListIndex, toInt32_of h32]
    by_cases hi : i < 0
    · rw [if_pos hi] at h
      exact .inl ⟨_, by rw [if_pos (.inl hi)], h.err rfl⟩
    · rw [if_neg hi] at h
      rcases hg : (repElems m d)[i.toNat]? with _ | e
      · simp only [List.getElem?_map, hg, Option.map_none] at h
        left
        by_cases h2 : i < 0 ∨ i ≥ ((repElems m d).length : Int)
        · exact ⟨_, by rw [if_pos h2], h.err rfl⟩
        · exact ⟨_, by rw [if_neg h2], h.err rfl⟩
      · simp only [List.getElem?_map, hg, Option.map_some] at h
        have hlt : i.toNat < (repElems m d).length := by
          rw [List.getElem?_eq_some_iff] at hg; exact hg.1
        right
        refine ⟨e, ?_, List.mem_of_getElem? hg, h⟩
        rw [if_neg (by omega)]

theorem checkMap {L : Lib} {m : Msg} {d : FDesc} {k : KType} {t : FT} (hs : d.shape = .map k t) {a : AQ}
    {w : Val} (h : Good L (wrapField L true m d) (.attr a) w) :
    (∃ s, checkMapIndex m d k a = .err s ∧ isError w = true) ∨
      ∃ e key, checkMapIndex m d k a = .ok e ∧ (key, e) ∈ mapEntries m d ∧ VAgree (wrapElem L e) w := by
  obtain ⟨ha, h⟩ := h
  have hv : wrapField L true m d = .map k ((mapEntries m d).map fun e => (e.1, wrapElem L e.2)) := by
    simp [wrapField, hs]
  rw [hv] at h
  obtain ⟨h, h'⟩ := h
  rw [checkMapIndex]
  rcases hk : mapKeyOf k a with key | s | _
  · simp only [get, find, mapKeyOf_ok ha hk, lookupKey_map] at h
    rcases hl : lookupElem (mapEntries m d) key with _ | e
    · simp only [hl, Option.map_none] at h
      exact .inl ⟨_, by simp only [hl]; rfl, h.err rfl⟩
    · simp only [hl, Option.map_some] at h
      obtain ⟨k', hm⟩ := lookupElem_mem hl
      exact .inr ⟨e, k', by simp only [hl], hm, h⟩
  · exact .inl ⟨s, rfl, h' s hk⟩
  · exact absurd hk (mapKeyOf_ub k a)

/-- What one step of the traversal does, against the plain value `w`. -/
def StepOK (L : Lib) (w : Val) : Step → Prop
  | .next s => Rel L s w
  | .result r => VAgree r w
  | .status e => e.code = .unimplemented

theorem elem_step {L : Lib} (hL : LibOK L) {t : String} {m' : Msg} {w : Val} (ht : t = m'.type)
    (h : VAgree (wrapElem L (.msg m')) w) :
    StepOK L w (if unsupported L t then .result (wrapElem L (.msg m')) else .next ⟨m', none⟩) := by
  subst ht
  rcases hu : unsupported L m'.type with _ | _
  · have hr := wrapMsg_rel hL m' hu
    have : w = wrapMsg L m' := (h.ok hr.noError).symm
    subst this
    exact hr
  · exact h

/-- A step that is not the last. -/
theorem step_ok {L : Lib} (hL : LibOK L) {s : QS} {v w : Val} {q : SQ} (hr : Rel L s v)
    (hg : Good L v q w) (hd : ∀ d z, s.rep = some d → d.shape ≠ .rep (.scalar z)) :
    StepOK L w (applySelectQualifier L s q) := by
  obtain ⟨m, r⟩ := s
  cases q with
  | attr a =>
    cases r with
    | none => rfl
    | some d =>
      obtain ⟨hm, hd', hsh, rfl⟩ := hr
      simp only [applySelectQualifier, applyAttr]
      rcases hsh with ⟨t, hs⟩ | ⟨k, t, hs⟩
      · cases t with
        | scalar z => exact absurd hs (hd d z rfl)
        | msg t =>
          simp only [hs]
          rcases checkList hs hg with ⟨s, h1, h2⟩ | ⟨e, h1, h2, h3⟩
          · rw [h1]; exact .inr ⟨rfl, h2⟩
          · rw [h1]
            have he := hm.rep d hd' _ hs e h2
            cases e with
            | scal n => obtain ⟨z, hz⟩ := he; cases hz
            | msg m' => exact elem_step hL (by simpa [elemOK] using he) h3
      · simp only [hs]
        rcases checkMap hs hg with ⟨s, h1, h2⟩ | ⟨e, key, h1, h2, h3⟩
        · rw [h1]; exact .inr ⟨rfl, h2⟩
        · rw [h1]
          have he := hm.map d hd' _ _ hs (key, e) h2
          cases t with
          | scalar z => exact h3
          | msg t =>
            cases e with
            | scal n => exact h3
            | msg m' => exact elem_step hL (by simpa [elemOK] using he) h3
  | field n f =>
    obtain ⟨m', d, rfl, hm, hd', rfl, rfl⟩ := hg
    cases r with
    | some d' => rfl
    | none =>
      rcases hr with ⟨_, hr⟩ | hr | ⟨_, hr⟩ | ⟨_, hr⟩
      · cases hr
        simp only [applySelectQualifier, applyField, byNumber_of hm hd']
        rcases hs : d.shape with (z | t) | t | ⟨k, t⟩
        · exact .rfl' _
        · rcases hu : unsupported L t with _ | _
          · simp only [hu, Bool.false_eq_true, if_false, StepOK]
            have hty := getMessage_type hm (byName_mem hd') hs
            have h1 := wrapMsg_rel hL (getMessage m d t) (by rw [hty]; exact hu)
            simp only [wrapField, hs]
            split
            · exact .inr (.inl rfl)
            · exact h1
          · simp only [hu, if_true]
            exact .rfl' _
        · exact ⟨hm, byName_mem hd', .inl ⟨_, hs⟩, rfl⟩
        · exact ⟨hm, byName_mem hd', .inr ⟨_, _, hs⟩, rfl⟩
      · cases hr
      · cases hr
      · cases hr

def LastOK (w : Val) : Res Val → Prop
  | .ok r => VAgree r w
  | .err e => e.code = .unimplemented
  | .ub => False

/-- The last step. -/
theorem last_ok {L : Lib} {s : QS} {v w : Val} {q : SQ} (hr : Rel L s v)
    (hg : Good L v q w) : LastOK w (lastGet L s q) := by
  obtain ⟨m, r⟩ := s
  cases q with
  | attr a =>
    cases r with
    | none => rfl
    | some d =>
      obtain ⟨hm, hd', hsh, rfl⟩ := hr
      simp only [lastGet]
      rcases hsh with ⟨t, hs⟩ | ⟨k, t, hs⟩
      · simp only [hs]
        rcases checkList hs hg with ⟨s, h1, h2⟩ | ⟨e, h1, h2, h3⟩
        · rw [h1]; exact .inr ⟨rfl, h2⟩
        · rw [h1]; exact h3
      · simp only [hs]
        rcases checkMap hs hg with ⟨s, h1, h2⟩ | ⟨e, key, h1, h2, h3⟩
        · rw [h1]; exact .inr ⟨rfl, h2⟩
        · rw [h1]; exact h3
  | field n f =>
    obtain ⟨m', d, rfl, hm, hd', rfl, rfl⟩ := hg
    cases r with
    | some d' => rfl
    | none =>
      rcases hr with ⟨_, hr⟩ | hr | ⟨_, hr⟩ | ⟨_, hr⟩
      · cases hr
        simp only [lastGet, byNumber_of hm hd']
        exact .rfl' _
      · cases hr
      · cases hr
      · cases hr

/-- What is used of a plain presence test. -/
def GoodHas (L : Lib) (v : Val) (q : SQ) (w : Val) : Prop :=
  match q with
  | .field n f => ∃ m d, v = .msg m ∧ MsgOK L m ∧ byName L m.type f = some d ∧ d.number = n ∧
      w = .bool (hasField m d)
  | .attr a => ∃ f l, a = .str f ∧ v = .map .str l ∧ w = .bool (find .str l (.str f)).isSome

theorem goodHas_fallback {L : Lib} {v : Val} {q : SQ} {w : Val} (h : GoodHas L v q w) :
    fallbackHas L v q = .ok w := by
  cases q with
  | field n f =>
    obtain ⟨m, d, rfl, hm, hd, _, rfl⟩ := h
    simp only [fallbackHas, hd]
  | attr a =>
    obtain ⟨f, l, rfl, rfl, rfl⟩ := h
    rfl

theorem lastHas_ok {L : Lib} {s : QS} {v w : Val} {q : SQ} (hr : Rel L s v)
    (hg : GoodHas L v q w) : LastOK w (lastHas L s q) := by
  obtain ⟨m, r⟩ := s
  cases q with
  | attr a =>
    obtain ⟨f, l, rfl, rfl, rfl⟩ := hg
    cases r with
    | none => rcases hr with ⟨_, hr⟩ | hr | ⟨_, hr⟩ | ⟨_, hr⟩ <;> cases hr
    | some d =>
      obtain ⟨hm, hd', hsh, hv⟩ := hr
      rcases hsh with ⟨t, hs⟩ | ⟨k, t, hs⟩
      · simp [wrapField, hs] at hv
      · simp only [wrapField, hs, Val.map.injEq] at hv
        obtain ⟨rfl, rfl⟩ := hv
        simp only [lastHas, hs, mapKeyOf, LastOK, find, protoKey, if_true, lookupKey_map]
        left
        cases lookupElem (mapEntries m d) (Key.str f) <;> rfl
  | field n f =>
    obtain ⟨m', d, rfl, hm, hd', rfl, rfl⟩ := hg
    cases r with
    | none =>
      rcases hr with ⟨_, hr⟩ | hr | ⟨_, hr⟩ | ⟨_, hr⟩
      · cases hr
        simp only [lastHas, byNumber_of hm hd']
        exact .rfl' _
      · cases hr
      · cases hr
      · cases hr
    | some d' =>
      obtain ⟨_, _, hsh, hv⟩ := hr
      rcases hsh with ⟨t, hs⟩ | ⟨k, t, hs⟩ <;> simp [wrapField, hs] at hv

end Cel.Select
