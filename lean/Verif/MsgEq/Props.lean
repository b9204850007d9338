import Verif.MsgEq.Spec
import Verif.Json.Backed
import Verif.Data.EqualProps

/-! # Elements: conversion, comparison, categories -/

set_option linter.dupNamespace false
set_option linter.unusedSimpArgs false
set_option linter.unusedVariables false
set_option linter.unusedTactic false
set_option linter.unreachableTactic false

namespace Cel.MsgEq
open Cel Cel.Num Cel.Eval Cel.Data Cel.Data.Spec Cel.Json Cel.MsgEq.Spec

/-- The CEL value of an `EquatableValue`. -/
def evVal : EV → Value
  | .null => .null
  | .bool b => .bool b
  | .int i => .int i
  | .uint i => .uint i
  | .dbl d => .dbl d
  | .bytes b => .bytes b
  | .str s => .str s
  | .dur d => .dur d
  | .ts t => .ts t
  | .list l => fromJson (.arr l)
  | .struct f => fromJson (.obj f)
  | .any u b => .opaq u (Encodable.encode b)
  | .msg n i => .struct n i

def EVWF : EV → Prop
  | .int i => InI64 i
  | .uint i => InU64 i
  | .dbl d => d.WF
  | .list l => Json.Spec.WF (.arr l)
  | .struct f => Json.Spec.WF (.obj f)
  | _ => True

theorem evEquals_c (x y : EV) : evEquals x y = cEqual (evVal x) (evVal y) := by
  cases x <;> cases y <;> first
    | rfl
    | (simp only [evEquals, evVal, jsonEquals_eq])
  simp only [cEqual]
  congr 1
  rw [Bool.eq_iff_iff]
  simp [Encodable.encode_inj]

theorem evEquals_v (x y : EV) (hx : EVWF x) (hy : EVWF y) :
    valueEqual (evVal x) (evVal y) = some (evEquals x y) := by
  cases x <;> cases y <;> first
    | rfl
    | exact (C77_equality _ _).2 hx hy
    | skip
  simp only [evEquals, evVal, valueEqual]
  congr 2
  rw [Bool.eq_iff_iff]
  simp [Encodable.encode_inj]

theorem evData {x : EV} (h : EVWF x) : IsData (evVal x) := by
  cases x <;> first
    | exact fromJson_isData h
    | (refine (deep_leaf (P := Ordinary) ?_).2 ?_
       · exact trivial
       · exact h)

/-- A message that unpacking stops at. -/
def Final : Msg → Prop
  | .any _ _ (.packed _) => False
  | .any _ _ .corrupt => False
  | _ => True

theorem in32_64 {i : Int} (h : In32 i) : InI64 i := by
  unfold In32 at h; unfold InI64 i64Min i64Max; omega
theorem inU32_64 {i : Int} (h : InU32 i) : InU64 i := by
  unfold InU32 at h; unfold InU64 u64Max; omega

theorem wf_unset_any {url : String} {b : List Nat} {c : Content} (h : MsgWF (.any url b c))
    (hs : stripUrl url = none) : c = .unresolved := by
  cases c with
  | unresolved => rfl
  | corrupt => obtain ⟨n, hn⟩ := h; rw [hs] at hn; cases hn
  | packed m => have := h.1; rw [hs] at this; cases this

theorem toAbslDuration_ok (s n : Int) :
    (∃ d, toAbslDuration s n = .ok d) ↔ MsgSound (.duration s n) := by
  unfold toAbslDuration MsgSound
  constructor
  · rintro ⟨d, h⟩
    split at h
    · cases h
    · split at h
      · cases h
      · split at h
        · cases h
        · omega
  · intro h
    rw [if_neg (by omega), if_neg (by omega), if_neg (by omega)]
    exact ⟨_, rfl⟩

theorem toAbslTime_ok (s n : Int) :
    (∃ d, toAbslTime s n = .ok d) ↔ MsgSound (.timestamp s n) := by
  unfold toAbslTime MsgSound
  constructor
  · rintro ⟨d, h⟩
    split at h
    · cases h
    · split at h
      · cases h
      · omega
  · intro h
    rw [if_neg (by omega), if_neg (by omega)]
    exact ⟨_, rfl⟩

theorem toAbslDuration_val {s n : Int} {d : Dur} (h : toAbslDuration s n = .ok d) :
    d = .fin (s * tps + n * tpn) := by
  unfold toAbslDuration at h
  split at h
  · cases h
  · split at h
    · cases h
    · split at h
      · cases h
      · cases h; rfl

theorem toAbslTime_val {s n : Int} {d : Tm} (h : toAbslTime s n = .ok d) :
    d = .fin (s * tps + n * tpn) := by
  unfold toAbslTime at h
  split at h
  · cases h
  · split at h
    · cases h
    · cases h; rfl

/-- The bit of a value. -/
def evBit : EV → Nat
  | .null => kNullLike
  | .bool _ => kBoolLike
  | .int _ | .uint _ | .dbl _ => kNumericLike
  | .bytes _ => kBytesLike
  | .str _ => kStringLike
  | .dur _ => kDuration
  | .ts _ => kTimestamp
  | .list _ => kList
  | .struct _ => kMap
  | .any _ _ => kMessage
  | .msg _ _ => kMessage

theorem evBit_pos (x : EV) : evBit x ≠ 0 := by cases x <;> exact Nat.succ_ne_zero _

theorem evBit_eq {x y : EV} (h : evEquals x y = true) : evBit x = evBit y := by
  cases x <;> cases y <;> first | rfl | cases h

theorem evBit_any (x : EV) : kAny &&& evBit x = evBit x := by
  cases x <;> first | rfl | (simp only [evBit]; decide)

/-- A category contains the bit of the value. -/
def Fits (c : Nat) (x : EV) : Prop := c &&& evBit x = evBit x

theorem disjoint_ne {c d : Nat} {x y : EV} (hc : Fits c x) (hd : Fits d y) (h : c &&& d = 0) :
    evEquals x y = false := by
  cases he : evEquals x y with
  | false => rfl
  | true =>
    exfalso
    have hb := evBit_eq he
    unfold Fits at hc hd
    rw [hb] at hc
    have : (c &&& d) &&& evBit y = evBit y := by rw [Nat.and_assoc, hd, hc]
    rw [h, Nat.zero_and] at this
    exact evBit_pos y this.symm

/-- What a successful conversion of a message gives. -/
theorem msgAsEV_ok {m : Msg} (hw : MsgWF m) (hf : Final m) {x : EV} (h : msgAsEV m = .ok x) :
    evVal x = msgVal m ∧ EVWF x ∧ MsgSound m ∧ Fits (msgCategory m.kind) x := by
  cases m with
  | boolW b => cases h; exact ⟨rfl, trivial, trivial, by first | rfl | (simp only [Fits, evBit, msgCategory, fieldCategory, typeOf, Msg.kind]; decide)⟩
  | fltW d => cases h; exact ⟨rfl, hw, trivial, by first | rfl | (simp only [Fits, evBit, msgCategory, fieldCategory, typeOf, Msg.kind]; decide)⟩
  | dblW d => cases h; exact ⟨rfl, hw, trivial, by first | rfl | (simp only [Fits, evBit, msgCategory, fieldCategory, typeOf, Msg.kind]; decide)⟩
  | i32W i => cases h; exact ⟨rfl, in32_64 hw, trivial, by first | rfl | (simp only [Fits, evBit, msgCategory, fieldCategory, typeOf, Msg.kind]; decide)⟩
  | u32W i => cases h; exact ⟨rfl, inU32_64 hw, trivial, by first | rfl | (simp only [Fits, evBit, msgCategory, fieldCategory, typeOf, Msg.kind]; decide)⟩
  | i64W i => cases h; exact ⟨rfl, hw, trivial, by first | rfl | (simp only [Fits, evBit, msgCategory, fieldCategory, typeOf, Msg.kind]; decide)⟩
  | u64W i => cases h; exact ⟨rfl, hw, trivial, by first | rfl | (simp only [Fits, evBit, msgCategory, fieldCategory, typeOf, Msg.kind]; decide)⟩
  | bytesW b => cases h; exact ⟨rfl, trivial, trivial, by first | rfl | (simp only [Fits, evBit, msgCategory, fieldCategory, typeOf, Msg.kind]; decide)⟩
  | strW s => cases h; exact ⟨rfl, trivial, trivial, by first | rfl | (simp only [Fits, evBit, msgCategory, fieldCategory, typeOf, Msg.kind]; decide)⟩
  | value j =>
    cases j with
    | unset => cases h; exact ⟨rfl, trivial, trivial, by first | rfl | (simp only [Fits, evBit, msgCategory, fieldCategory, typeOf, Msg.kind]; decide)⟩
    | null => cases h; exact ⟨rfl, trivial, trivial, by first | rfl | (simp only [Fits, evBit, msgCategory, fieldCategory, typeOf, Msg.kind]; decide)⟩
    | bool b => cases h; exact ⟨rfl, trivial, trivial, by first | rfl | (simp only [Fits, evBit, msgCategory, fieldCategory, typeOf, Msg.kind]; decide)⟩
    | num d => cases h; exact ⟨rfl, by cases hw; assumption, trivial, by first | rfl | (simp only [Fits, evBit, msgCategory, fieldCategory, typeOf, Msg.kind]; decide)⟩
    | str s => cases h; exact ⟨rfl, trivial, trivial, by first | rfl | (simp only [Fits, evBit, msgCategory, fieldCategory, typeOf, Msg.kind]; decide)⟩
    | arr l => cases h; exact ⟨rfl, hw, trivial, by first | rfl | (simp only [Fits, evBit, msgCategory, fieldCategory, typeOf, Msg.kind]; decide)⟩
    | obj f => cases h; exact ⟨rfl, hw, trivial, by first | rfl | (simp only [Fits, evBit, msgCategory, fieldCategory, typeOf, Msg.kind]; decide)⟩
  | listValue l => cases h; exact ⟨rfl, hw, trivial, by first | rfl | (simp only [Fits, evBit, msgCategory, fieldCategory, typeOf, Msg.kind]; decide)⟩
  | struct f => cases h; exact ⟨rfl, hw, trivial, by first | rfl | (simp only [Fits, evBit, msgCategory, fieldCategory, typeOf, Msg.kind]; decide)⟩
  | any url b c =>
    cases c with
    | unresolved => cases h; exact ⟨rfl, trivial, trivial, by first | rfl | (simp only [Fits, evBit, msgCategory, fieldCategory, typeOf, Msg.kind]; decide)⟩
    | corrupt => exact hf.elim
    | packed m => exact hf.elim
  | duration s n =>
    rw [msgAsEV] at h
    cases hd : toAbslDuration s n with
    | ok d =>
      rw [hd] at h
      cases h
      refine ⟨?_, trivial, (toAbslDuration_ok s n).1 ⟨d, hd⟩, by first | rfl | (simp only [Fits, evBit, msgCategory, fieldCategory, typeOf, Msg.kind]; decide)⟩
      rw [toAbslDuration_val hd]; rfl
    | err e => rw [hd] at h; cases h
    | ub => rw [hd] at h; cases h
  | timestamp s n =>
    rw [msgAsEV] at h
    cases hd : toAbslTime s n with
    | ok d =>
      rw [hd] at h
      cases h
      refine ⟨?_, trivial, (toAbslTime_ok s n).1 ⟨d, hd⟩, by first | rfl | (simp only [Fits, evBit, msgCategory, fieldCategory, typeOf, Msg.kind]; decide)⟩
      rw [toAbslTime_val hd]; rfl
    | err e => rw [hd] at h; cases h
    | ub => rw [hd] at h; cases h
  | other n i => cases h; exact ⟨rfl, trivial, trivial, by first | rfl | (simp only [Fits, evBit, msgCategory, fieldCategory, typeOf, Msg.kind]; decide)⟩

theorem msgAsEV_total {m : Msg} (hs : MsgSound m) : ∃ x, msgAsEV m = .ok x := by
  cases m with
  | value j => cases j <;> exact ⟨_, rfl⟩
  | duration s n =>
    obtain ⟨d, hd⟩ := (toAbslDuration_ok s n).2 hs
    exact ⟨_, by rw [msgAsEV, hd]; rfl⟩
  | timestamp s n =>
    obtain ⟨d, hd⟩ := (toAbslTime_ok s n).2 hs
    exact ⟨_, by rw [msgAsEV, hd]; rfl⟩
  | _ => exact ⟨_, rfl⟩

/-- Unpacking: it succeeds on a sound message and keeps the value; success shows the message's `Any`s
to be parsable. -/
theorem adaptPacked_ok : ∀ (m : Msg), MsgWF m →
    (MsgSound m → ∃ m', adaptPacked m = .ok (some m')) ∧
    ∀ u, adaptPacked m = .ok u → ∃ m', u = some m' ∧ MsgWF m' ∧ Final m' ∧ msgVal m' = msgVal m ∧
      (MsgSound m' ↔ MsgSound m)
  | .any url b c, hw => by
    rw [adaptPacked]
    cases hu : stripUrl url with
    | none =>
      have hc := wf_unset_any hw hu
      subst hc
      refine ⟨fun _ => ⟨_, rfl⟩, fun u h => ?_⟩
      cases h
      exact ⟨_, rfl, hw, trivial, rfl, Iff.rfl⟩
    | some name =>
      cases c with
      | unresolved =>
        refine ⟨fun _ => ⟨_, rfl⟩, fun u h => ?_⟩
        cases h
        exact ⟨_, rfl, hw, trivial, rfl, Iff.rfl⟩
      | corrupt => exact ⟨fun h => h.elim, fun u h => by cases h⟩
      | packed m' =>
        have ih := adaptPacked_ok m' hw.2
        exact ih
  | .boolW _, hw => ⟨fun _ => ⟨_, rfl⟩, fun u h => by cases h; exact ⟨_, rfl, hw, trivial, rfl, Iff.rfl⟩⟩
  | .fltW _, hw => ⟨fun _ => ⟨_, rfl⟩, fun u h => by cases h; exact ⟨_, rfl, hw, trivial, rfl, Iff.rfl⟩⟩
  | .dblW _, hw => ⟨fun _ => ⟨_, rfl⟩, fun u h => by cases h; exact ⟨_, rfl, hw, trivial, rfl, Iff.rfl⟩⟩
  | .i32W _, hw => ⟨fun _ => ⟨_, rfl⟩, fun u h => by cases h; exact ⟨_, rfl, hw, trivial, rfl, Iff.rfl⟩⟩
  | .u32W _, hw => ⟨fun _ => ⟨_, rfl⟩, fun u h => by cases h; exact ⟨_, rfl, hw, trivial, rfl, Iff.rfl⟩⟩
  | .i64W _, hw => ⟨fun _ => ⟨_, rfl⟩, fun u h => by cases h; exact ⟨_, rfl, hw, trivial, rfl, Iff.rfl⟩⟩
  | .u64W _, hw => ⟨fun _ => ⟨_, rfl⟩, fun u h => by cases h; exact ⟨_, rfl, hw, trivial, rfl, Iff.rfl⟩⟩
  | .bytesW _, hw => ⟨fun _ => ⟨_, rfl⟩, fun u h => by cases h; exact ⟨_, rfl, hw, trivial, rfl, Iff.rfl⟩⟩
  | .strW _, hw => ⟨fun _ => ⟨_, rfl⟩, fun u h => by cases h; exact ⟨_, rfl, hw, trivial, rfl, Iff.rfl⟩⟩
  | .value _, hw => ⟨fun _ => ⟨_, rfl⟩, fun u h => by cases h; exact ⟨_, rfl, hw, trivial, rfl, Iff.rfl⟩⟩
  | .listValue _, hw => ⟨fun _ => ⟨_, rfl⟩, fun u h => by cases h; exact ⟨_, rfl, hw, trivial, rfl, Iff.rfl⟩⟩
  | .struct _, hw => ⟨fun _ => ⟨_, rfl⟩, fun u h => by cases h; exact ⟨_, rfl, hw, trivial, rfl, Iff.rfl⟩⟩
  | .duration _ _, hw => ⟨fun _ => ⟨_, rfl⟩, fun u h => by cases h; exact ⟨_, rfl, hw, trivial, rfl, Iff.rfl⟩⟩
  | .timestamp _ _, hw => ⟨fun _ => ⟨_, rfl⟩, fun u h => by cases h; exact ⟨_, rfl, hw, trivial, rfl, Iff.rfl⟩⟩
  | .other _ _, hw => ⟨fun _ => ⟨_, rfl⟩, fun u h => by cases h; exact ⟨_, rfl, hw, trivial, rfl, Iff.rfl⟩⟩

/-- The message `Any` unpacking ends with: the unpacked one, or the `Any` itself. -/
def settle (url : String) (b : List Nat) (c : Content) : Option Msg → Msg
  | some m => m
  | none => .any url b c

theorem adaptAny_eq (url : String) (b : List Nat) (c : Content) (hw : MsgWF (.any url b c)) :
    (adaptAny url c none).bind (fun u => .ok (settle url b c u)) =
      (adaptPacked (.any url b c)).bind fun u => .ok (settle url b c u) := by
  rw [adaptAny, adaptPacked]
  cases hu : stripUrl url with
  | none =>
    have hc := wf_unset_any hw hu
    subst hc; rfl
  | some n =>
    cases c with
    | unresolved => rfl
    | corrupt => rfl
    | packed m => simp only [adaptContent]

theorem adaptAny_ok (url : String) (b : List Nat) (c : Content) (hw : MsgWF (.any url b c)) :
    (MsgSound (.any url b c) → ∃ u, adaptAny url c none = .ok u) ∧
    ∀ u, adaptAny url c none = .ok u →
      MsgWF (settle url b c u) ∧ Final (settle url b c u) ∧
      msgVal (settle url b c u) = msgVal (.any url b c) ∧
      (MsgSound (settle url b c u) ↔ MsgSound (.any url b c)) := by
  have he := adaptAny_eq url b c hw
  obtain ⟨h1, h2⟩ := adaptPacked_ok (.any url b c) hw
  constructor
  · intro hs
    obtain ⟨m', hm'⟩ := h1 hs
    rw [hm'] at he
    cases ha : adaptAny url c none with
    | ok u => exact ⟨u, rfl⟩
    | err e => rw [ha] at he; cases he
    | ub => rw [ha] at he; cases he
  · intro u hu
    rw [hu] at he
    cases hp : adaptPacked (.any url b c) with
    | ok v =>
      rw [hp] at he
      obtain ⟨m', rfl, hr⟩ := h2 v hp
      have : settle url b c u = m' := by cases he; rfl
      rw [this]
      exact hr
    | err e => rw [hp] at he; cases he
    | ub => rw [hp] at he; cases he

/-- Conversion of a message after unpacking. -/
def msgEV (m : Msg) : Res EV :=
  match m with
  | .any url b c => (adaptAny url c none).bind fun u => msgAsEV (settle url b c u)
  | m => msgAsEV m

theorem elemAsEV_msg (m : Msg) : elemAsEV (.msg m) = msgEV m := by
  cases m with
  | any url b c =>
    rw [elemAsEV, msgEV]
    congr 1
    funext u
    cases u <;> rfl
  | _ => rfl

theorem msgEV_ok {m : Msg} (hw : MsgWF m) {x : EV} (h : msgEV m = .ok x) :
    evVal x = msgVal m ∧ EVWF x ∧ MsgSound m ∧ Fits (msgCategory m.kind) x := by
  cases m with
  | any url b c =>
    rw [msgEV] at h
    cases ha : adaptAny url c none with
    | err e => rw [ha] at h; cases h
    | ub => rw [ha] at h; cases h
    | ok u =>
      rw [ha] at h
      obtain ⟨h1, h2, h3, h4⟩ := (adaptAny_ok url b c hw).2 u ha
      obtain ⟨r1, r2, r3, r4⟩ := msgAsEV_ok h1 h2 h
      exact ⟨r1.trans h3, r2, h4.1 r3, evBit_any x⟩
  | _ => exact msgAsEV_ok hw trivial h

theorem msgEV_total {m : Msg} (hw : MsgWF m) (hs : MsgSound m) : ∃ x, msgEV m = .ok x := by
  cases m with
  | any url b c =>
    rw [msgEV]
    obtain ⟨h1, h2⟩ := adaptAny_ok url b c hw
    obtain ⟨u, hu⟩ := h1 hs
    rw [hu]
    exact msgAsEV_total ((h2 u hu).2.2.2.2 hs)
  | _ => exact msgAsEV_total hs

theorem elemAsEV_ok {e : Elem} (hw : ElemWF e) {x : EV} (h : elemAsEV e = .ok x) :
    evVal x = elemVal e ∧ EVWF x ∧ ElemSound e ∧ Fits (fieldCategory (typeOf e)) x := by
  cases e with
  | msg m => rw [elemAsEV_msg] at h; exact msgEV_ok hw h
  | i32 i => cases h; exact ⟨rfl, in32_64 hw, trivial, by first | rfl | (simp only [Fits, evBit, msgCategory, fieldCategory, typeOf, Msg.kind]; decide)⟩
  | i64 i => cases h; exact ⟨rfl, hw, trivial, by first | rfl | (simp only [Fits, evBit, msgCategory, fieldCategory, typeOf, Msg.kind]; decide)⟩
  | u32 i => cases h; exact ⟨rfl, inU32_64 hw, trivial, by first | rfl | (simp only [Fits, evBit, msgCategory, fieldCategory, typeOf, Msg.kind]; decide)⟩
  | u64 i => cases h; exact ⟨rfl, hw, trivial, by first | rfl | (simp only [Fits, evBit, msgCategory, fieldCategory, typeOf, Msg.kind]; decide)⟩
  | dbl i => cases h; exact ⟨rfl, hw, trivial, by first | rfl | (simp only [Fits, evBit, msgCategory, fieldCategory, typeOf, Msg.kind]; decide)⟩
  | flt i => cases h; exact ⟨rfl, hw, trivial, by first | rfl | (simp only [Fits, evBit, msgCategory, fieldCategory, typeOf, Msg.kind]; decide)⟩
  | bool i => cases h; exact ⟨rfl, trivial, trivial, by first | rfl | (simp only [Fits, evBit, msgCategory, fieldCategory, typeOf, Msg.kind]; decide)⟩
  | enm i => cases h; exact ⟨rfl, in32_64 hw, trivial, by first | rfl | (simp only [Fits, evBit, msgCategory, fieldCategory, typeOf, Msg.kind]; decide)⟩
  | nul i => cases h; exact ⟨rfl, trivial, trivial, by first | rfl | (simp only [Fits, evBit, msgCategory, fieldCategory, typeOf, Msg.kind]; decide)⟩
  | str i => cases h; exact ⟨rfl, trivial, trivial, by first | rfl | (simp only [Fits, evBit, msgCategory, fieldCategory, typeOf, Msg.kind]; decide)⟩
  | bytes i => cases h; exact ⟨rfl, trivial, trivial, by first | rfl | (simp only [Fits, evBit, msgCategory, fieldCategory, typeOf, Msg.kind]; decide)⟩

theorem elemAsEV_total {e : Elem} (hw : ElemWF e) (hs : ElemSound e) : ∃ x, elemAsEV e = .ok x := by
  cases e with
  | msg m => rw [elemAsEV_msg]; exact msgEV_total hw hs
  | _ => exact ⟨_, rfl⟩

/-- The element comparison, on the values. -/
theorem elem_equal {e f : Elem} (he : ElemWF e) (hf : ElemWF f) {x y : EV} (hx : elemAsEV e = .ok x)
    (hy : elemAsEV f = .ok y) :
    valueEqual (elemVal e) (elemVal f) = some (evEquals x y) ∧
    cEqual (elemVal e) (elemVal f) = evEquals x y := by
  obtain ⟨h1, h2, _⟩ := elemAsEV_ok he hx
  obtain ⟨h3, h4, _⟩ := elemAsEV_ok hf hy
  rw [← h1, ← h3]
  exact ⟨evEquals_v x y h2 h4, (evEquals_c x y).symm⟩

theorem elemData {e : Elem} (he : ElemWF e) (hs : ElemSound e) : IsData (elemVal e) := by
  obtain ⟨x, hx⟩ := elemAsEV_total he hs
  obtain ⟨h1, h2, _⟩ := elemAsEV_ok he hx
  rw [← h1]; exact evData h2

end Cel.MsgEq
