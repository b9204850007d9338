import Verif.Opt.Model

/-!
# C69, C70: optional values
-/

set_option linter.unusedSimpArgs false
set_option linter.unusedVariables false

namespace Cel.Opt
open Cel Cel.Num Cel.Eval Cel.Data Cel.Data.Spec

variable {σ : Type}

/-! ## Specification -/

/-- The zero values of the language: `null`, `false`, `0`, `0u`, `0.0`, `-0.0`, `""`, `b""`, `[]`,
`{}`, the zero duration, the epoch, and messages without set fields. -/
inductive Zero (sz : String → Nat → Bool) : Value → Prop
  | null : Zero sz .null
  | bool : Zero sz (.bool false)
  | int : Zero sz (.int 0)
  | uint : Zero sz (.uint 0)
  | dbl (neg : Bool) : Zero sz (.dbl (.fin neg 0))
  | str : Zero sz (.str "")
  | bytes : Zero sz (.bytes [])
  | list : Zero sz (.list [])
  | map : Zero sz (.map [])
  | dur : Zero sz (.dur (.fin 0))
  | ts : Zero sz (.ts (.fin 0))
  | msg (n : String) (i : Nat) : sz n i = true → Zero sz (.struct n i)

/-- What an access yields, as the plain operators report it: the value, or an error when absent. -/
def orElseError (o : Option Value) (e : Status) : Value :=
  match o with
  | some v => v
  | none => .error e

/-- The runtime options without unknown or missing-attribute processing. -/
def quiet (c : StepCfg) : StepCfg := { c with unknowns := false, missing := false }

/-- `a.or(b)` / `a.orValue(b)` on values. -/
def orSpec (orValue : Bool) : Value → Value → Value
  | .error e, _ => .error e
  | .unknown u, _ => .unknown u
  | .opt (some v), _ => if orValue then v else .opt (some v)
  | .opt none, r =>
    if orValue then r
    else match r with
      | .opt o => .opt o
      | .error e => .error e
      | .unknown u => .unknown u
      | _ => .error (noOverload "or")
  | _, _ => .error (noOverload (if orValue then "orValue" else "or"))

/-- The value and effects of a step, without its attribute trail. -/
def outcome (p : Res VA × σ) : Res Value × σ :=
  match p with
  | (.ok x, h) => (.ok x.v, h)
  | (.err e, h) => (.err e, h)
  | (.ub, h) => (.ub, h)

/-! ## Calls on plain operands -/

theorem checkPartial_plain (c : StepCfg) (hu : c.unknowns = true) : ∀ xs : List VA,
    (∀ x ∈ xs, PlainOperand c x) → checkPartialUnknowns c.pats xs = xs.map VA.v
  | [], _ => rfl
  | x :: xs, h => by
    have hx := (h x (by simp)).2 hu
    rw [checkPartialUnknowns, hx, checkPartial_plain c hu xs (fun y hy => h y (by simp [hy]))]
    simp

theorem evalCall_plain (c : StepCfg) (fr : Bool) (site : CallSite σ) (xs : List VA) (h : σ)
    (hp : ∀ x ∈ xs, PlainOperand c x) :
    evalCall ⟨c.unknowns, fr, c.pats⟩ site xs h =
      evalCall ⟨false, fr, []⟩ site (xs.map fun x => ⟨x.v, none⟩) h ∨
    evalCall ⟨c.unknowns, fr, c.pats⟩ site xs h =
      evalCall ⟨true, fr, []⟩ site (xs.map fun x => ⟨x.v, none⟩) h := by
  have e : ∀ l : List VA, checkPartialUnknowns [] (l.map fun x => (⟨x.v, none⟩ : VA)) = l.map VA.v := by
    intro l
    induction l with
    | nil => rfl
    | cons x l ih => simp [checkPartialUnknowns, ih, checkUnknown]
  by_cases hu : c.unknowns = true
  · right
    unfold evalCall
    simp only [hu, if_true, checkPartial_plain c hu xs hp, e]
    rfl
  · left
    have hu : c.unknowns = false := by simpa using hu
    unfold evalCall
    simp only [hu, Bool.false_eq_true, if_false, List.map_map, Function.comp_def]
    rfl

theorem plain_accept {v : Value} (h : Plain v) (d : FnDesc) (vs : List Value) :
    shouldAcceptOverload d (v :: vs) = shouldAcceptOverload d vs := by
  rw [shouldAcceptOverload, if_neg (by rw [h.1, h.2]; simp)]

theorem plain_list {l : List Value} : Plain (.list l) := ⟨rfl, rfl⟩
theorem plain_map {m : List (Value × Value)} : Plain (.map m) := ⟨rfl, rfl⟩
theorem plain_opt {o : Option Value} : Plain (.opt o) := ⟨rfl, rfl⟩

/-- A two-argument call whose overload is the one resolved. -/
theorem call2 (c : StepCfg) (fr : Bool) (site : CallSite σ) (x y : VA) (h : σ)
    (hx : PlainOperand c x) (hy : PlainOperand c y) (w : Res Value)
    (hr : ∃ o, site.resolve [x.v, y.v] = .ok (some o) ∧ o.impl [x.v, y.v] h = (w, h)) (hw : ∀ e, w = .ok (.error e) → e.code ≠ .unknownFunctionResult) :
    Macro.callOp c fr site [x, y] h =
      (match w with | .ok v => .ok ⟨v, none⟩ | .err e => .err e | .ub => .ub, h) := by
  obtain ⟨o, hr, hi⟩ := hr
  have key : evalCall ⟨c.unknowns, fr, c.pats⟩ site [x, y] h = (w, h) := by
    unfold evalCall
    have : (if c.unknowns = true then checkPartialUnknowns c.pats [x, y] else [x, y].map (·.v)) = [x.v, y.v] := by
      split
      · rename_i hu
        rw [checkPartial_plain c hu _ (by simp [hx, hy])]; rfl
      · rfl
    simp only [this, hr]
    rw [plain_accept hx.1, plain_accept hy.1]
    simp only [shouldAcceptOverload, if_true, invoke, hi]
    rcases w with v | e | -
    · cases v <;> simp_all
    · rfl
    · rfl
  unfold Macro.callOp
  rw [key]
  rcases w with v | e | - <;> rfl

theorem call1 (c : StepCfg) (fr : Bool) (site : CallSite σ) (x : VA) (h : σ)
    (hx : PlainOperand c x) (w : Value)
    (hr : ∃ o, site.resolve [x.v] = .ok (some o) ∧ o.impl [x.v] h = (.ok w, h)) (hw : ∀ e, w = .error e → e.code ≠ .unknownFunctionResult) :
    Macro.callOp c fr site [x] h = (.ok ⟨w, none⟩, h) := by
  obtain ⟨o, hr, hi⟩ := hr
  have key : evalCall ⟨c.unknowns, fr, c.pats⟩ site [x] h = (.ok w, h) := by
    unfold evalCall
    have : (if c.unknowns = true then checkPartialUnknowns c.pats [x] else [x].map (·.v)) = [x.v] := by
      split
      · rename_i hu
        rw [checkPartial_plain c hu _ (by simp [hx])]; rfl
      · rfl
    simp only [this, hr]
    rw [plain_accept hx.1]
    simp only [shouldAcceptOverload, if_true, invoke, hi]
    cases w <;> simp_all
  unfold Macro.callOp
  rw [key]

theorem nonZero_resolve (sz : String → Nat → Bool) (v w : Value) (h : σ)
    (hw : optionalOfNonZeroValue sz v = w) :
    ∃ o, (ofNonZeroSite sz : CallSite σ).resolve [v] = .ok (some o) ∧ o.impl [v] h = (.ok w, h) := by
  subst hw; cases v <;> exact ⟨_, rfl, rfl⟩

theorem idx_map (m : List (Value × Value)) (k w : Value) (h : σ) (hw : mapOptIndex m k = w) :
    ∃ o, (optIndexSite : CallSite σ).resolve [.map m, k] = .ok (some o) ∧ o.impl [.map m, k] h = (.ok w, h) := by
  subst hw; cases k <;> exact ⟨_, rfl, rfl⟩

theorem idx_list (l : List Value) (i : Int) (w : Value) (h : σ) (hw : listOptIndex l i = w) :
    ∃ o, (optIndexSite : CallSite σ).resolve [.list l, .int i] = .ok (some o) ∧
      o.impl [.list l, .int i] h = (.ok w, h) := by
  subst hw; exact ⟨_, rfl, rfl⟩

theorem idx_opt (o : Option Value) (k w : Value) (h : σ) (hw : optionalOptIndex (.opt o) k = w) :
    ∃ f, (optIndexSite : CallSite σ).resolve [.opt o, k] = .ok (some f) ∧ f.impl [.opt o, k] h = (.ok w, h) := by
  subst hw; cases k <;> exact ⟨_, rfl, rfl⟩

/-! ## Indexing -/

theorem lossless_int_int {i : Int} (h : InI64 i) : losslessInt (.int i) = some i :=
  (losslessInt_iff (.int i) h i).2 ⟨h, rfl⟩

theorem lossless_uint_uint {i : Int} (h : InU64 i) : losslessUint (.uint i) = some i :=
  (losslessUint_iff (.uint i) h i).2 ⟨h, rfl⟩

theorem lossless_int_uint {i : Int} (h : InI64 i) :
    losslessUint (.int i) = if i ≥ 0 then some i else none := by
  split
  · rename_i h0
    exact (losslessUint_iff (.int i) h i).2 ⟨⟨h0, by have := h.2; simp only [u64Max, i64Max] at *; omega⟩, rfl⟩
  · rename_i h0
    cases hh : losslessUint (.int i) with
    | none => rfl
    | some j =>
      have := (losslessUint_iff (.int i) h j).1 hh
      have he : j = i := by
        have := this.2
        simp [Num.Spec.value] at this
        omega
      exact absurd this.1.1 (by omega)

theorem lossless_uint_int {i : Int} (h : InU64 i) :
    losslessInt (.uint i) = if i ≤ 9223372036854775807 then some i else none := by
  split
  · rename_i h0
    exact (losslessInt_iff (.uint i) h i).2 ⟨⟨by have := h.1; simp only [i64Min] at *; omega, by simpa [i64Max] using h0⟩, rfl⟩
  · rename_i h0
    cases hh : losslessInt (.uint i) with
    | none => rfl
    | some j =>
      have := (losslessInt_iff (.uint i) h j).1 hh
      have he : j = i := by
        have := this.2
        simp [Num.Spec.value] at this
        omega
      exact absurd this.1.2 (by simp only [i64Max]; omega)

/-- The optional lookup finds what the plain lookup finds. -/
theorem mapOptIndex_spec (c : StepCfg) (m : List (Value × Value)) (k : Value) (hk : Ordinary k)
    (hl : lookupKind k = true) :
    ∃ o, mapOptIndex m k = .opt o ∧
      lookupInMap c m k = orElseError o (noSuchKey (c.debugString k)) ∧
      (∀ v, o = some v → ∃ s, (s, v) ∈ m) := by
  have mem : ∀ {q v}, mapFind m q = some v → ∃ s, (s, v) ∈ m := fun hf => ⟨_, (mapFind_some hf).1⟩
  cases k with
  | bool b =>
    simp only [mapOptIndex, lookupInMap, numOf, keyKind, if_true]
    cases hf : mapFind m (.bool b) with
    | none => exact ⟨none, rfl, rfl, by simp⟩
    | some v => exact ⟨some v, rfl, rfl, by rintro w ⟨⟩; exact mem hf⟩
  | str b =>
    simp only [mapOptIndex, lookupInMap, numOf, keyKind, if_true]
    cases hf : mapFind m (.str b) with
    | none => exact ⟨none, rfl, rfl, by simp⟩
    | some v => exact ⟨some v, rfl, rfl, by rintro w ⟨⟩; exact mem hf⟩
  | int i =>
    simp only [mapOptIndex, lookupInMap, numOf, isUint, findInt, findUint, lossless_int_int hk,
      lossless_int_uint hk, Bool.false_eq_true, if_false]
    cases hf : mapFind m (.int i) with
    | some v => exact ⟨some v, rfl, rfl, by rintro w ⟨⟩; exact mem hf⟩
    | none =>
      by_cases h0 : i ≥ 0
      · simp only [if_pos h0]
        cases hg : mapFind m (.uint i) with
        | none => exact ⟨none, rfl, rfl, by simp⟩
        | some v => exact ⟨some v, rfl, rfl, by rintro w ⟨⟩; exact mem hg⟩
      · simp only [if_neg h0]
        exact ⟨none, rfl, rfl, by simp⟩
  | uint i =>
    simp only [mapOptIndex, lookupInMap, numOf, isUint, findInt, findUint, lossless_uint_uint hk,
      lossless_uint_int hk, if_true]
    cases hf : mapFind m (.uint i) with
    | some v => exact ⟨some v, rfl, rfl, by rintro w ⟨⟩; exact mem hf⟩
    | none =>
      by_cases h0 : i ≤ 9223372036854775807
      · simp only [if_pos h0]
        cases hg : mapFind m (.int i) with
        | none => exact ⟨none, rfl, rfl, by simp⟩
        | some v => exact ⟨some v, rfl, rfl, by rintro w ⟨⟩; exact mem hg⟩
      · simp only [if_neg h0]
        exact ⟨none, rfl, rfl, by simp⟩
  | dbl d =>
    simp only [mapOptIndex, lookupInMap, numOf, isUint, Bool.false_eq_true, if_false]
    have m1 : ∀ {v}, findInt m (.dbl d) = some v → ∃ s, (s, v) ∈ m := by
      intro v hv; unfold findInt at hv; split at hv
      · exact mem hv
      · cases hv
    have m2 : ∀ {v}, findUint m (.dbl d) = some v → ∃ s, (s, v) ∈ m := by
      intro v hv; unfold findUint at hv; split at hv
      · exact mem hv
      · cases hv
    cases hf : findInt m (.dbl d) with
    | some v => exact ⟨some v, rfl, rfl, by rintro w ⟨⟩; exact m1 hf⟩
    | none =>
      cases hg : findUint m (.dbl d) with
      | none => exact ⟨none, rfl, rfl, by simp⟩
      | some v => exact ⟨some v, rfl, rfl, by rintro w ⟨⟩; exact m2 hg⟩
  | _ => simp [lookupKind, keyKind, isDbl] at hl

theorem mapOptIndex_opt (m : List (Value × Value)) (k : Value) : ∃ o, mapOptIndex m k = .opt o := by
  unfold mapOptIndex
  repeat' split
  all_goals exact ⟨_, rfl⟩

theorem quiet_index (c : StepCfg) (v k : Value) (hv : Ordinary v) (hk : Ordinary k)
    (ho : ∀ o, v ≠ .opt o) :
    indexStep (quiet c) [⟨v, none⟩, ⟨k, none⟩] = .ok ⟨lookupIn (quiet c) v k, none⟩ := by
  cases v <;> cases k <;> simp_all [indexStep, indexEval, indexTrail, Ordinary, quiet]

theorem ordinary_elem {m : List (Value × Value)} (hm : IsData (.map m)) {s v : Value} (h : (s, v) ∈ m) :
    Plain v := by
  have := ((deep_map.1 hm).2 _ h).2.self
  cases v <;> simp_all [Ordinary, Plain, Value.isError, Value.isUnknown]

/-- **C69 (optional indexing of maps).** For every map of data and every key that is a bool, string or
number: `m[?k]` evaluates to an optional, never to an error; it is present exactly when `k in m`, it
then holds exactly the value of `m[k]`, and it is absent exactly when `m[k]` is the no-such-key
error. -/
theorem C69_map_index (c : StepCfg) (fr : Bool) (m : List (Value × Value)) (k : Value) (t1 t2 : Trail)
    (h : σ) (hm : IsData (.map m)) (hk : IsData k) (hl : lookupKind k = true)
    (p1 : PlainOperand c ⟨.map m, t1⟩) (p2 : PlainOperand c ⟨k, t2⟩) :
    ∃ o, Macro.callOp c fr optIndexSite [⟨.map m, t1⟩, ⟨k, t2⟩] h = (.ok ⟨.opt o, none⟩, h) ∧
      indexStep (quiet c) [⟨.map m, none⟩, ⟨k, none⟩] =
        .ok ⟨orElseError o (noSuchKey (c.debugString k)), none⟩ ∧
      (∀ v, o = some v → Plain v) ∧
      inStep (quiet c) [⟨k, none⟩, ⟨.map m, none⟩] = .ok ⟨.bool o.isSome, none⟩ := by
  obtain ⟨o, h1, h2, h3⟩ := mapOptIndex_spec (quiet c) m k hk.self hl
  have hi : indexStep (quiet c) [⟨.map m, none⟩, ⟨k, none⟩] =
      .ok ⟨orElseError o (noSuchKey (c.debugString k)), none⟩ := by
    rw [quiet_index c (.map m) k hm.self hk.self (by simp)]
    simp only [lookupIn, h2]; rfl
  have hpl : ∀ v, o = some v → Plain v := fun v hv => by
    obtain ⟨s, hs⟩ := h3 v hv; exact ordinary_elem hm hs
  refine ⟨o, ?_, hi, hpl, ?_⟩
  · rw [call2 c fr optIndexSite ⟨.map m, t1⟩ ⟨k, t2⟩ h p1 p2 (.ok (.opt o)) (idx_map m k _ h h1) (by simp)]
  · obtain ⟨hin, -⟩ := C35_in_map_agrees_with_indexing (quiet c) m k rfl hm hk
    obtain ⟨r, v, e1, e2, -, -, -, e3⟩ := hin hl
    rw [e1]
    rw [hi] at e2
    have ev : v = orElseError o (noSuchKey (c.debugString k)) := by injection e2 with e; injection e with e _; exact e.symm
    subst ev
    have hb : r = o.isSome := by
      cases o with
      | none => 
        have : ¬ r = true := fun hr => by simpa [orElseError, Value.isError] using e3.1 hr
        simpa using this
      | some w => exact e3.2 (hpl w rfl).1
    rw [hb]

/-- **C69 (optional indexing of lists).** For every list and every `int` index: `l[?i]` evaluates to an
optional, present exactly when `0 ≤ i < size(l)`, holding then the element, which is also the value of
`l[i]`; it is absent exactly when `l[i]` is the out-of-range error. -/
theorem C69_list_index (c : StepCfg) (fr : Bool) (l : List Value) (i : Int) (t1 t2 : Trail)
    (h : σ) (hi : InI64 i)
    (p1 : PlainOperand c ⟨.list l, t1⟩) (p2 : PlainOperand c ⟨.int i, t2⟩) :
    ∃ o, Macro.callOp c fr optIndexSite [⟨.list l, t1⟩, ⟨.int i, t2⟩] h = (.ok ⟨.opt o, none⟩, h) ∧
      (o = none ↔ (i < 0 ∨ i ≥ l.length)) ∧ (∀ v, o = some v ↔ (0 ≤ i ∧ l[i.toNat]? = some v)) ∧
      indexStep (quiet c) [⟨.list l, none⟩, ⟨.int i, none⟩] =
        .ok ⟨orElseError o (indexRangeError i l.length), none⟩ := by
  have key : ∀ o, listOptIndex l i = .opt o →
      Macro.callOp c fr optIndexSite [⟨.list l, t1⟩, ⟨.int i, t2⟩] h = (.ok ⟨.opt o, none⟩, h) := by
    intro o ho
    rw [call2 c fr optIndexSite ⟨.list l, t1⟩ ⟨.int i, t2⟩ h p1 p2 (.ok (.opt o)) (idx_list _ _ _ h ho) (by simp)]
  have hq : indexStep (quiet c) [⟨.list l, none⟩, ⟨.int i, none⟩] = .ok ⟨lookupInList l (.int i), none⟩ := rfl
  by_cases hb : i < 0 ∨ i ≥ l.length
  · refine ⟨none, key _ (by rw [listOptIndex, if_pos hb]), by simp [hb], ?_, ?_⟩
    · intro v
      constructor
      · intro hv; cases hv
      · rintro ⟨h0, hv⟩
        have := (List.getElem?_eq_some_iff.1 hv).1
        omega
    · rw [hq]; unfold lookupInList
      simp only [numOf, lossless_int_int hi, if_pos hb, orElseError]
  · have hlt : i.toNat < l.length := by omega
    refine ⟨some l[i.toNat], key _ (by rw [listOptIndex, if_neg hb]; simp [hlt]), by simp [hb], ?_, ?_⟩
    · intro v
      simp only [List.getElem?_eq_getElem hlt]
      constructor
      · intro hv; exact ⟨by omega, hv⟩
      · exact fun hv => hv.2
    · rw [hq]; unfold lookupInList
      simp only [numOf, lossless_int_int hi, if_neg hb, List.getElem?_eq_getElem hlt, orElseError]

/-- **C69 (optional indexing through an optional).** Indexing an absent optional is absent; indexing a
present one is indexing its content. -/
theorem C69_optional_index (c : StepCfg) (fr : Bool) (k : Value) (t1 t2 : Trail) (h : σ)
    (p2 : PlainOperand c ⟨k, t2⟩) (pt : ∀ v, Plain v → PlainOperand c ⟨v, t1⟩) :
    Macro.callOp c fr optIndexSite [⟨.opt none, t1⟩, ⟨k, t2⟩] h = (.ok ⟨.opt none, none⟩, h) ∧
    (∀ m, Macro.callOp c fr optIndexSite [⟨.opt (some (.map m)), t1⟩, ⟨k, t2⟩] h =
      Macro.callOp c fr optIndexSite [⟨.map m, t1⟩, ⟨k, t2⟩] h) ∧
    (∀ l i, k = .int i → Macro.callOp c fr optIndexSite [⟨.opt (some (.list l)), t1⟩, ⟨k, t2⟩] h =
      Macro.callOp c fr optIndexSite [⟨.list l, t1⟩, ⟨k, t2⟩] h) := by
  refine ⟨?_, ?_, ?_⟩
  · rw [call2 c fr optIndexSite ⟨.opt none, t1⟩ ⟨k, t2⟩ h (pt _ plain_opt) p2 (.ok (.opt none)) (idx_opt _ _ _ h rfl) (by simp)]
  · intro m
    obtain ⟨o, ho⟩ := mapOptIndex_opt m k
    rw [call2 c fr optIndexSite ⟨.opt (some (.map m)), t1⟩ ⟨k, t2⟩ h (pt _ plain_opt) p2 (.ok (.opt o)) (idx_opt _ _ _ h (by rw [optionalOptIndex, ho])) (by simp)]
    rw [call2 c fr optIndexSite ⟨.map m, t1⟩ ⟨k, t2⟩ h (pt _ plain_map) p2 (.ok (.opt o)) (idx_map _ _ _ h ho) (by simp)]
  · rintro l i rfl
    have ho : ∃ o, listOptIndex l i = .opt o := by
      unfold listOptIndex; repeat' split
      all_goals exact ⟨_, rfl⟩
    obtain ⟨o, ho⟩ := ho
    rw [call2 c fr optIndexSite ⟨.opt (some (.list l)), t1⟩ ⟨.int i, t2⟩ h (pt _ plain_opt) p2 (.ok (.opt o)) (idx_opt _ _ _ h (by rw [optionalOptIndex, ho])) (by simp)]
    rw [call2 c fr optIndexSite ⟨.list l, t1⟩ ⟨.int i, t2⟩ h (pt _ plain_list) p2 (.ok (.opt o)) (idx_list _ _ _ h ho) (by simp)]

/-- **C69 (unsupported keys).** A key of a kind that maps cannot have is never found: `m[?k]` is absent,
although `m[k]` and `k in m` are errors. -/
theorem C69_unsupported_key_absent (c : StepCfg) (fr : Bool) (m : List (Value × Value)) (k : Value)
    (t1 t2 : Trail) (h : σ) (hm : IsData (.map m)) (hk : IsData k) (hl : lookupKind k = false)
    (p1 : PlainOperand c ⟨.map m, t1⟩) (p2 : PlainOperand c ⟨k, t2⟩) :
    Macro.callOp c fr optIndexSite [⟨.map m, t1⟩, ⟨k, t2⟩] h = (.ok ⟨.opt none, none⟩, h) ∧
    indexStep (quiet c) [⟨.map m, none⟩, ⟨k, none⟩] = .ok ⟨.error (badKeyKind k), none⟩ := by
  obtain ⟨-, h2⟩ := C35_in_map_agrees_with_indexing (quiet c) m k rfl hm hk
  refine ⟨?_, (h2 hl).2⟩
  have hf : mapOptIndex m k = .opt none := by
    have hn : mapFind m k = none := by
      cases hf : mapFind m k with
      | none => rfl
      | some v =>
        have hmm := mapFind_some hf
        have := (hm.self : Ordinary (.map m)).1 _ hmm.1
        have hke := hmm.2
        cases k <;> simp_all [lookupKind, keyKind, isDbl]
    cases k <;> simp_all [mapOptIndex, lookupKind, keyKind, isDbl]
  rw [call2 c fr optIndexSite ⟨.map m, t1⟩ ⟨k, t2⟩ h p1 p2 (.ok (.opt none)) (idx_map _ _ _ h hf) (by simp)]

/-- Lists are indexed optionally by `int` only: for a `uint` or `double` index `l[i]` is an element,
and `l[?i]` an error. -/
theorem C69_list_index_other_numbers_witness (c : StepCfg) (h : σ) (hu : c.unknowns = false) :
    (∃ e, Macro.callOp c false optIndexSite [⟨.list [.int 7], none⟩, ⟨.uint 0, none⟩] h =
      (.ok ⟨.error e, none⟩, h)) ∧
    indexStep (quiet c) [⟨.list [.int 7], none⟩, ⟨.uint 0, none⟩] = .ok ⟨.int 7, none⟩ := by
  constructor
  · refine ⟨noOverload ("_[?_]" ++ callArgTypeString [.list [.int 7], .uint 0]), ?_⟩
    simp only [Macro.callOp, evalCall, hu]
    rfl
  · rfl

/-- **C69 (errors and unknowns).** An error in either operand of `_[?_]` is the result (the first one if
both are errors), and an unknown operand beside a plain one makes the result unknown: neither becomes
an absent optional. -/
theorem C69_index_operand_errors (c : StepCfg) (fr : Bool) (x y : Value) (h : σ) (e : Status) :
    (c.unknowns = false → Macro.callOp c fr optIndexSite [⟨.error e, none⟩, ⟨y, none⟩] h =
      (.ok ⟨.error e, none⟩, h)) ∧
    (c.unknowns = false → x.isError = false → Macro.callOp c fr optIndexSite [⟨x, none⟩, ⟨.error e, none⟩] h =
      (.ok ⟨.error e, none⟩, h)) ∧
    (c.unknowns = true → Plain x → ∀ u, ∃ u', Macro.callOp c fr optIndexSite [⟨x, none⟩, ⟨.unknown u, none⟩] h =
      (.ok ⟨.unknown u', none⟩, h)) := by
  refine ⟨?_, ?_, ?_⟩
  · intro hu
    simp only [Macro.callOp, evalCall, hu]
    cases y <;> rfl
  · intro hu hx
    simp only [Macro.callOp, evalCall, hu]
    cases x <;> simp_all [Value.isError] <;> rfl
  · intro hu hx u
    simp only [Macro.callOp, evalCall, hu]
    cases x <;> simp_all [Plain, Value.isError, Value.isUnknown] <;> exact ⟨_, rfl⟩

/-! ## Selection -/

/-- **C69 (optional selection on maps).** `m.?f` evaluates to an optional, present exactly when
`has(m.f)`, holding then the value of `m.f`; absent exactly when `m.f` is the no-such-key error.  The
same through an optional holding the map; an absent optional stays absent. -/
theorem C69_map_select (c : StepCfg) (fr : Bool) (m : List (Value × Value)) (f : String) (t1 t2 : Trail)
    (h : σ) (p2 : PlainOperand c ⟨.str f, t2⟩) (pt : ∀ v, Plain v → PlainOperand c ⟨v, t1⟩) :
    (∃ o, Macro.callOp c fr (optSelectSite c) [⟨.map m, t1⟩, ⟨.str f, t2⟩] h = (.ok ⟨.opt o, none⟩, h) ∧
      Macro.callOp c fr (optSelectSite c) [⟨.opt (some (.map m)), t1⟩, ⟨.str f, t2⟩] h =
        (.ok ⟨.opt o, none⟩, h) ∧
      selectStep (quiet c) f true [⟨.map m, none⟩] = .ok ⟨.bool o.isSome, none⟩ ∧
      selectStep (quiet c) f false [⟨.map m, none⟩] =
        .ok ⟨orElseError o (noSuchKey (c.debugString (.str f))), none⟩) ∧
    Macro.callOp c fr (optSelectSite c) [⟨.opt none, t1⟩, ⟨.str f, t2⟩] h = (.ok ⟨.opt none, none⟩, h) := by
  constructor
  · refine ⟨mapFind m (.str f), ?_, ?_, ?_, ?_⟩
    · rw [call2 c fr (optSelectSite c) ⟨.map m, t1⟩ ⟨.str f, t2⟩ h (pt _ plain_map) p2 
        (.ok (.opt (mapFind m (.str f)))) ⟨_, rfl, ?_⟩ (by simp)]
      show (_, _) = _
      unfold selectOptionalFieldMap; cases mapFind m (.str f) <;> rfl
    · rw [call2 c fr (optSelectSite c) ⟨.opt (some (.map m)), t1⟩ ⟨.str f, t2⟩ h (pt _ plain_opt) p2 
        (.ok (.opt (mapFind m (.str f)))) ⟨_, rfl, ?_⟩ (by simp)]
      show (_, _) = _
      rw [show selectOptionalField c f (.opt (some (.map m))) = .ok (selectOptionalFieldMap m f) from rfl]
      unfold selectOptionalFieldMap; cases mapFind m (.str f) <;> rfl
    · rfl
    · show Res.ok (⟨getField (quiet c) m f, none⟩ : VA) = _
      unfold getField; cases mapFind m (.str f) <;> rfl
  · rw [call2 c fr (optSelectSite c) ⟨.opt none, t1⟩ ⟨.str f, t2⟩ h (pt _ plain_opt) p2
      (.ok (.opt none)) ⟨_, rfl, rfl⟩ (by simp)]

/-- **C69 (optional selection on messages).** If `has(msg.f)` is the boolean `b`, then `msg.?f` is absent
when `b` is false, and holds the value of `msg.f` when `b` is true and reading the field succeeds. -/
theorem C69_struct_select (c : StepCfg) (fr : Bool) (n : String) (i : Nat) (f : String) (t1 t2 : Trail)
    (h : σ) (p2 : PlainOperand c ⟨.str f, t2⟩) (pt : ∀ v, Plain v → PlainOperand c ⟨v, t1⟩)
    (b : Bool) (hb : selectStep (quiet c) f true [⟨.struct n i, none⟩] = .ok ⟨.bool b, none⟩) :
    (b = false → Macro.callOp c fr (optSelectSite c) [⟨.struct n i, t1⟩, ⟨.str f, t2⟩] h =
      (.ok ⟨.opt none, none⟩, h)) ∧
    (b = true → ∀ v, c.structGet n i f = .ok v →
      selectStep (quiet c) f false [⟨.struct n i, none⟩] = .ok ⟨v, none⟩ ∧
      Macro.callOp c fr (optSelectSite c) [⟨.struct n i, t1⟩, ⟨.str f, t2⟩] h =
      (.ok ⟨.opt (some v), none⟩, h)) := by
  have hs : c.structHas n i f = .ok b := by
    have : selectStep (quiet c) f true [⟨.struct n i, none⟩] =
        (do return ⟨← testOnlySelect (quiet c) f (.struct n i), none⟩) := rfl
    rw [this] at hb
    simp only [testOnlySelect, quiet] at hb
    cases hh : c.structHas n i f with
    | ok b' => rw [hh] at hb; injection hb with hb; injection hb with hb; injection hb with hb; rw [hb]
    | err e => rw [hh] at hb; injection hb with hb; injection hb with hb; cases hb
    | ub => rw [hh] at hb; cases hb
  have ps : PlainOperand c ⟨.struct n i, t1⟩ := pt _ ⟨rfl, rfl⟩
  constructor
  · rintro rfl
    rw [call2 c fr (optSelectSite c) ⟨.struct n i, t1⟩ ⟨.str f, t2⟩ h ps p2
      (.ok (.opt none)) ⟨_, rfl, ?_⟩ (by simp)]
    show (_, _) = _
    unfold selectOptionalFieldStruct; rw [hs]; rfl
  · rintro rfl v hv
    constructor
    · show (do return ⟨← orError (c.structGet n i f), none⟩ : Res VA) = _
      rw [hv]; rfl
    · rw [call2 c fr (optSelectSite c) ⟨.struct n i, t1⟩ ⟨.str f, t2⟩ h ps p2
        (.ok (.opt (some v))) ⟨_, rfl, ?_⟩ (by simp)]
      show (_, _) = _
      unfold selectOptionalFieldStruct; rw [hs]
      show (do let v ← c.structGet n i f; return Value.opt (some v), h) = _
      rw [hv]; rfl

/-! ## Construction and lists -/

/-- **C69 (`optional.ofNonZeroValue`).** Absent exactly for the zero values, otherwise holding the
argument. -/
theorem C69_of_non_zero (c : StepCfg) (fr : Bool) (sz : String → Nat → Bool) (v : Value) (t : Trail) (h : σ)
    (p : PlainOperand c ⟨v, t⟩) :
    ∃ o, Macro.callOp c fr (ofNonZeroSite sz) [⟨v, t⟩] h = (.ok ⟨.opt o, none⟩, h) ∧
      (o = none ↔ Zero sz v) ∧ (∀ w, o = some w → w = v) := by
  have hz : isZeroValue sz v = true ↔ Zero sz v := by
    constructor
    · intro hh
      cases v with
      | dbl d => cases d <;> simp_all [isZeroValue]; exact .dbl _
      | null => exact .null
      | bool b => cases b <;> simp_all [isZeroValue]; exact .bool
      | int i => simp [isZeroValue] at hh; subst hh; exact .int
      | uint i => simp [isZeroValue] at hh; subst hh; exact .uint
      | str i => simp [isZeroValue] at hh; subst hh; exact .str
      | bytes i => simp [isZeroValue] at hh; subst hh; exact .bytes
      | list i => simp [isZeroValue] at hh; subst hh; exact .list
      | map i => simp [isZeroValue] at hh; subst hh; exact .map
      | dur i => simp [isZeroValue] at hh; subst hh; exact .dur
      | ts i => simp [isZeroValue] at hh; subst hh; exact .ts
      | struct n i => exact .msg _ _ (by simpa [isZeroValue] using hh)
      | _ => simp [isZeroValue] at hh
    · intro hh; cases hh <;> simp_all [isZeroValue]
  by_cases hh : isZeroValue sz v = true
  · refine ⟨none, ?_, by simp [hz.1 hh], by simp⟩
    rw [call1 c fr (ofNonZeroSite sz) ⟨v, t⟩ h p (.opt none) (nonZero_resolve sz v _ h
      (by rw [optionalOfNonZeroValue, if_pos hh])) (by simp)]
  · refine ⟨some v, ?_, by simp [← hz, hh], by simp⟩
    rw [call1 c fr (ofNonZeroSite sz) ⟨v, t⟩ h p (.opt (some v)) (nonZero_resolve sz v _ h
      (by rw [optionalOfNonZeroValue, if_neg hh])) (by simp [p.1.1] )]

/-- **C69 (`first`, `last`).** The first / last element of a list, absent for the empty list. -/
theorem C69_first_last (c : StepCfg) (fr : Bool) (l : List Value) (t : Trail) (h : σ)
    (p : PlainOperand c ⟨.list l, t⟩) :
    Macro.callOp c fr firstSite [⟨.list l, t⟩] h = (.ok ⟨.opt l.head?, none⟩, h) ∧
    Macro.callOp c fr lastSite [⟨.list l, t⟩] h = (.ok ⟨.opt l.getLast?, none⟩, h) := by
  constructor
  · rw [call1 c fr firstSite ⟨.list l, t⟩ h p (.opt l.head?) ⟨_, rfl, ?_⟩ (by simp)]
    show (_, _) = _
    cases l <;> simp [listFirst]
  · rw [call1 c fr lastSite ⟨.list l, t⟩ h p (.opt l.getLast?) ⟨_, rfl, ?_⟩ (by simp)]
    show (_, _) = _
    cases l with
    | nil => simp [listLast]
    | cons a l => rw [listLast, if_neg (by simp), ← List.getLast?_eq_getElem?]; simp [List.getLast?_cons]

/-- The content of an optional element. -/
def held : Value → Option Value
  | .opt o => o
  | _ => none

theorem unwrap_spec (c : StepCfg) : ∀ (l acc : List Value),
    (∀ v ∈ l, ∃ o, v = .opt o ∧ ∀ w, o = some w → Plain w) →
    unwrapLoop c l acc = .list (acc ++ l.filterMap held)
  | [], acc, _ => by simp [unwrapLoop]
  | v :: l, acc, hh => by
    have ih := unwrap_spec c l
    obtain ⟨o, rfl, ho⟩ := hh v (by simp)
    have ht : ∀ v ∈ l, ∃ o, v = .opt o ∧ ∀ w, o = some w → Plain w := fun v hv => hh v (by simp [hv])
    cases o with
    | none => simp only [unwrapLoop]; rw [ih _ ht]; rfl
    | some w =>
      simp only [unwrapLoop, plain_check (ho w rfl)]
      rw [ih _ ht]; simp [held]

theorem unwrap_bad (c : StepCfg) (v : Value) (post : List Value) (hv : ∀ o, v ≠ .opt o) :
    ∀ (l acc : List Value), (∀ v ∈ l, ∃ o, v = .opt o ∧ ∀ w, o = some w → Plain w) →
    unwrapLoop c (l ++ v :: post) acc = .error (unwrapError c v)
  | [], acc, _ => by cases v <;> simp_all [unwrapLoop]
  | u :: l, acc, hh => by
    have ih := unwrap_bad c v post hv l
    obtain ⟨o, rfl, ho⟩ := hh u (by simp)
    have ht : ∀ v ∈ l, ∃ o, v = .opt o ∧ ∀ w, o = some w → Plain w := fun v hv => hh v (by simp [hv])
    cases o with
    | none => simp only [List.cons_append, unwrapLoop]; rw [ih _ ht]
    | some w =>
      simp only [List.cons_append, unwrapLoop, plain_check (ho w rfl)]
      rw [ih _ ht]

/-- **C69 (`optional.unwrap` / `unwrapOpt`).** On a list of optionals: the list of the values held, in
order.  If an element is not an optional, an error naming the type of the first such element. -/
theorem C69_unwrap (c : StepCfg) (fr : Bool) (name : String) (receiver : Bool) (pre : List Value) (t : Trail)
    (h : σ) (ho : ∀ v ∈ pre, ∃ o, v = .opt o ∧ ∀ w, o = some w → Plain w)
    (pt : ∀ l, PlainOperand c ⟨.list l, t⟩) :
    Macro.callOp c fr (unwrapSite c name receiver) [⟨.list pre, t⟩] h =
      (.ok ⟨.list (pre.filterMap held), none⟩, h) ∧
    ∀ v post, (∀ o, v ≠ .opt o) →
      Macro.callOp c fr (unwrapSite c name receiver) [⟨.list (pre ++ v :: post), t⟩] h =
        (.ok ⟨.error (unwrapError c v), none⟩, h) := by
  constructor
  · rw [call1 c fr (unwrapSite c name receiver) ⟨.list pre, t⟩ h (pt _) (.list (pre.filterMap held)) ⟨_, rfl, ?_⟩ (by simp)]
    show (_, _) = _
    rw [unwrap_spec c pre [] ho]; simp
  · intro v post hv
    rw [call1 c fr (unwrapSite c name receiver) ⟨.list (pre ++ v :: post), t⟩ h (pt _)
      (.error (unwrapError c v)) ⟨_, rfl, ?_⟩ (by rintro e ⟨⟩; simp [unwrapError])]
    show (_, _) = _
    rw [unwrap_bad c v post hv pre [] ho]

/-! ## `or` and `orValue` -/

/-- **C70 (`or`/`orValue`).** Whatever evaluates the two operands, and whatever their effects: the
recursive evaluator evaluates `b` exactly when `a` is an absent optional; its value is the specified
one. -/
theorem C70_or_direct (ov : Bool) (a b : Step σ) (h : σ) :
    outcome (directOr ov a b h) =
      match a h with
      | (.err e, h1) => (.err e, h1)
      | (.ub, h1) => (.ub, h1)
      | (.ok x, h1) =>
        match x.v with
        | .opt none => (match b h1 with
          | (.err e, h2) => (.err e, h2)
          | (.ub, h2) => (.ub, h2)
          | (.ok y, h2) => (.ok (orSpec ov (.opt none) y.v), h2))
        | v => (.ok (orSpec ov v .null), h1) := by
  unfold directOr outcome
  rcases a h with ⟨x | e | -, h1⟩
  · obtain ⟨x, t⟩ := x
    cases x with
    | opt o =>
      cases o with
      | some v => cases ov <;> rfl
      | none =>
        simp only
        rcases b h1 with ⟨y | e | -, h2⟩
        · obtain ⟨y, t2⟩ := y
          cases ov <;> cases y <;> rfl
        · rfl
        · rfl
    | _ => cases ov <;> rfl
  · rfl
  · rfl

/-- The stack machine gives the same value and effects as the recursive evaluator whenever the
receiver is an optional, an error or unknown (that is, in every type-checked expression). -/
theorem C70_or_iterative (ov : Bool) (a b : Step σ) (h : σ)
    (ht : ∀ x h1, a h = (.ok x, h1) → x.v.isError = true ∨ x.v.isUnknown = true ∨ ∃ o, x.v = .opt o) :
    outcome (iterativeOr ov a b h) = outcome (directOr ov a b h) := by
  unfold directOr iterativeOr outcome
  rcases ha : a h with ⟨x | e | -, h1⟩
  · have := ht x h1 ha
    obtain ⟨x, t⟩ := x
    cases x with
    | opt o =>
      cases o with
      | some v => cases ov <;> rfl
      | none =>
        simp only [hasValueJump]
        rcases b h1 with ⟨y | e | -, h2⟩
        · obtain ⟨y, t2⟩ := y
          cases ov <;> cases y <;> rfl
        · rfl
        · rfl
    | error e => rfl
    | unknown u => rfl
    | _ => simp [Value.isError, Value.isUnknown] at this
  · rfl
  · rfl

/-- Without short circuiting the value is the same whenever both operands complete, for every
receiver; both operands are evaluated. -/
theorem C70_or_exhaustive (ov : Bool) (a b : Step σ) (h h1 h2 : σ) (x y : VA)
    (ha : a h = (.ok x, h1)) (hb : b h1 = (.ok y, h2)) :
    outcome (exhaustiveOr ov a b h) = (.ok (orSpec ov x.v y.v), h2) ∧
    (outcome (directOr ov a b h)).1 = .ok (orSpec ov x.v y.v) ∧
    (outcome (iterativeOr ov a b h)).1 = .ok (orSpec ov x.v y.v) := by
  unfold directOr iterativeOr exhaustiveOr outcome
  rw [ha]
  simp only [hb]
  obtain ⟨x, t⟩ := x
  obtain ⟨y, t2⟩ := y
  cases x with
  | opt o =>
    cases o with
    | some v => cases ov <;> exact ⟨rfl, rfl, rfl⟩
    | none =>
      simp only [hasValueJump, hb]
      cases ov <;> cases y <;> exact ⟨rfl, rfl, rfl⟩
  | _ =>
    simp only [hasValueJump, hb]
    cases ov <;> exact ⟨rfl, rfl, rfl⟩

/-- **C70 (`or` is associative)**, values, effects and attribute trails, for the recursive evaluator. -/
theorem C70_or_assoc (a b d : Step σ) :
    directOr false (directOr false a b) d = directOr false a (directOr false b d) := by
  funext h
  unfold directOr
  rcases a h with ⟨x | e | -, h1⟩
  · obtain ⟨x, t⟩ := x
    cases x with
    | opt o =>
      cases o with
      | some v => rfl
      | none =>
        simp only [Bool.false_eq_true, if_false]
        rcases b h1 with ⟨y | e | -, h2⟩
        · obtain ⟨y, t2⟩ := y
          cases y with
          | opt o =>
            cases o with
            | some v => rfl
            | none =>
              simp only
              rcases d h2 with ⟨z | e | -, h3⟩
              · obtain ⟨z, t3⟩ := z
                cases z <;> rfl
              · rfl
              · rfl
          | _ => rfl
        · rfl
        · rfl
    | _ => rfl
  · rfl
  · rfl

/-- **C70 (`or` then `orValue`).** When the middle operand is an optional, an error or unknown,
`a.or(b).orValue(d)` is `a.orValue(b.orValue(d))`. -/
theorem C70_or_orValue (a b d : Step σ) (h : σ)
    (ta : ∀ x h1, a h = (.ok x, h1) → x.v.isError = true ∨ x.v.isUnknown = true ∨ ∃ o, x.v = .opt o)
    (tb : ∀ h x h1, b h = (.ok x, h1) → x.v.isError = true ∨ x.v.isUnknown = true ∨ ∃ o, x.v = .opt o) :
    directOr true (directOr false a b) d h = directOr true a (directOr true b d) h := by
  unfold directOr
  rcases ha : a h with ⟨x | e | -, h1⟩
  · have := ta x h1 ha
    obtain ⟨x, t⟩ := x
    cases x with
    | opt o =>
      cases o with
      | some v => rfl
      | none =>
        simp only [Bool.false_eq_true, if_false, if_true]
        rcases hb : b h1 with ⟨y | e | -, h2⟩
        · have := tb h1 y h2 hb
          obtain ⟨y, t2⟩ := y
          cases y with
          | opt o =>
            cases o with
            | some v => rfl
            | none =>
              simp only
              rcases d h2 with ⟨z | e | -, h3⟩ <;> rfl
          | error e => rfl
          | unknown u => rfl
          | _ => simp [Value.isError, Value.isUnknown] at this
        · rfl
        · rfl
    | error e => rfl
    | unknown u => rfl
    | _ => simp [Value.isError, Value.isUnknown] at this
  · rfl
  · rfl

/-- Defect: the stack machine forgets which attribute a value obtained by `orValue` came from.  With
`v.f.g` declared unknown and `v` bound to an optional map, `v.f.orValue({}).g` is unknown under the
recursive evaluator and the exhaustive stack machine, but the concrete value under the
short-circuiting stack machine. -/
theorem C70_orValue_forgets_attribute_witness (dbg : Value → String) (tn : Value → String)
    (sg : String → Nat → String → Res Value) (sh : String → Nat → String → Res Bool) :
    let c : StepCfg := ⟨true, false, true, [⟨"v", [some (.str "f"), some (.str "g")]⟩], [], dbg, tn, sg, sh⟩
    let v : Value := .opt (some (.map [(.str "f", .map [(.str "g", .int 1)])]))
    let a : Step Unit := fun u => (selectStep c "f" false [⟨v, some ⟨"v", []⟩⟩], u)
    let b : Step Unit := fun u => (.ok ⟨.map [], none⟩, u)
    let g : Res VA × Unit → Res Value := fun p => match p with
      | (.ok x, _) => (match selectStep c "g" false [x] with | .ok y => .ok y.v | .err e => .err e | .ub => .ub)
      | _ => .ub
    g (directOr true a b ()) = .ok (.unknown (unknownOf ⟨"v", [.str "f", .str "g"]⟩)) ∧
    g (exhaustiveOr true a b ()) = .ok (.unknown (unknownOf ⟨"v", [.str "f", .str "g"]⟩)) ∧
    g (iterativeOr true a b ()) = .ok (.int 1) := by
  refine ⟨rfl, rfl, rfl⟩

/-- The stack machine evaluates the alternative of a receiver that is not an optional, the recursive
evaluator does not; both give the same error. -/
theorem C70_or_untyped_receiver_effects_witness :
    let a : Step Nat := fun n => (.ok ⟨.int 1, none⟩, n)
    let b : Step Nat := fun n => (.ok ⟨.opt none, none⟩, n + 1)
    outcome (directOr false a b 0) = (.ok (.error (noOverload "or")), 0) ∧
    outcome (iterativeOr false a b 0) = (.ok (.error (noOverload "or")), 1) := by
  exact ⟨rfl, rfl⟩

/-! ## Samples -/

/-- A map keyed by the `uint` 1 is found under `1`, `1u` and `1.0`; `2` is absent. -/
example (h : Unit) : ∃ o, Macro.callOp sampleCfg false optIndexSite
    [⟨.map [(.uint 1, .str "a")], none⟩, ⟨.int 1, none⟩] h = (.ok ⟨.opt o, none⟩, h) ∧ o = some (.str "a") ∧
    Macro.callOp sampleCfg false optIndexSite
    [⟨.map [(.uint 1, .str "a")], none⟩, ⟨.int 2, none⟩] h = (.ok ⟨.opt none, none⟩, h) :=
  ⟨_, rfl, rfl, rfl⟩

/-- The hypotheses of the map theorem are met by a map with mixed keys. -/
example (h : Unit) : ∃ o, Macro.callOp sampleCfg false optIndexSite
    [⟨.map [(.uint 1, .str "a"), (.str "k", .list [])], none⟩, ⟨.int 1, none⟩] h = (.ok ⟨.opt o, none⟩, h) ∧
    indexStep (quiet sampleCfg) [⟨.map [(.uint 1, .str "a"), (.str "k", .list [])], none⟩, ⟨.int 1, none⟩] =
      .ok ⟨orElseError o (noSuchKey ""), none⟩ := by
  have hm : IsData (.map [(.uint 1, .str "a"), (.str "k", .list [])]) := by
    rw [IsData, deep_map]
    refine ⟨⟨by simp [keyKind], by simp [keyEq]⟩, ?_⟩
    intro e he
    simp only [List.mem_cons, List.not_mem_nil, or_false] at he
    rcases he with rfl | rfl
    · constructor <;> simp [Deep, nested, Ordinary, InU64, u64Max]
    · constructor <;> simp [Deep, nested, Ordinary, nestedList]
  have hk : IsData (.int 1) := by simp [IsData, Deep, nested, Ordinary, InI64, i64Min, i64Max]
  obtain ⟨o, h1, h2, -, -⟩ := C69_map_index sampleCfg false _ (.int 1) none none h hm hk rfl
    ⟨plain_map, fun hh => by cases hh⟩ ⟨⟨rfl, rfl⟩, fun hh => by cases hh⟩
  exact ⟨o, h1, h2⟩

/-- `[optional.of(1), optional.none(), optional.of("x")].unwrapOpt()` is `[1, "x"]`. -/
example (h : Unit) : Macro.callOp sampleCfg false (unwrapSite sampleCfg "unwrapOpt" true)
    [⟨.list [.opt (some (.int 1)), .opt none, .opt (some (.str "x"))], none⟩] h =
      (.ok ⟨.list [.int 1, .str "x"], none⟩, h) := by
  have := (C69_unwrap sampleCfg false "unwrapOpt" true
    [.opt (some (.int 1)), .opt none, .opt (some (.str "x"))] none h (by
      intro v hv
      simp only [List.mem_cons, List.not_mem_nil, or_false] at hv
      rcases hv with rfl | rfl | rfl
      · exact ⟨_, rfl, by rintro w ⟨⟩; exact ⟨rfl, rfl⟩⟩
      · exact ⟨_, rfl, by rintro w ⟨⟩⟩
      · exact ⟨_, rfl, by rintro w ⟨⟩; exact ⟨rfl, rfl⟩⟩) (fun l => ⟨plain_list, fun hh => by cases hh⟩)).1
  exact this

/-- The typed-receiver hypotheses are met by operands with effects. -/
example : directOr true (directOr false (fun n : Nat => (.ok ⟨.opt none, none⟩, n + 1))
      (fun n => (.ok ⟨.opt none, none⟩, n + 10))) (fun n => (.ok ⟨.int 5, none⟩, n + 100)) 0 =
    (.ok ⟨.int 5, none⟩, 111) := by
  rw [C70_or_orValue]
  · rfl
  · rintro x h1 ⟨⟩; exact Or.inr (Or.inr ⟨_, rfl⟩)
  · rintro h x h1 ⟨⟩; exact Or.inr (Or.inr ⟨_, rfl⟩)

end Cel.Opt
