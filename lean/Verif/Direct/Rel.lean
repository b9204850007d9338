import Verif.Direct.Model
import Verif.Eval.AttributeProps

/-!
# How values of the two evaluators are related, operator by operator
-/

set_option linter.unusedSimpArgs false
set_option linter.unusedVariables false

namespace Cel.Direct
open Cel Cel.Num Cel.Eval Cel.Data

/-! ## Unknown sets in canonical form -/

/-- The sets of an unknown value are kept in order without repetition (`AttributeSet` and
`FunctionResultSet` are ordered sets: `base/attribute_set.h`, `base/function_result_set.h`). -/
def Canon (u : UnknownSet) : Prop := Ascending Attr.lt u.attrs ∧ Ascending FnResult.lt u.fns

theorem ascending_unique {α : Type} {lt : α → α → Bool} (sw : StrictWeak lt) : ∀ {l : List α} {x y : α},
    Ascending lt l → x ∈ l → y ∈ l → StrictWeak.Equiv lt x y → x = y := by
  intro l
  induction l with
  | nil => intro x y _ hx; cases hx
  | cons a l ih =>
    intro x y h hx hy he
    rcases List.mem_cons.1 hx with hx | hx <;> rcases List.mem_cons.1 hy with hy | hy
    · rw [hx, hy]
    · rw [hx] at he; have := h.1 y hy; rw [he.1] at this; cases this
    · rw [hy] at he; have := h.1 x hx; rw [he.2] at this; cases this
    · exact ih h.2 hx hy he

/-- Copying an ordered set element by element gives the same set. -/
theorem setUnion_nil_of_ascending {α : Type} {lt : α → α → Bool} (sw : StrictWeak lt) {l : List α}
    (h : Ascending lt l) : setUnion lt [] l = l := by
  refine ascending_ext sw (ascending_setUnion sw trivial) h fun z => ⟨fun hz => ?_, fun hz => ?_⟩
  · rcases mem_setUnion hz with h | h
    · cases h
    · exact h
  · obtain ⟨w, hw, he⟩ := setUnion_has_right (lt := lt) sw (xs := []) hz
    have : w ∈ l := by
      rcases mem_setUnion hw with h | h
      · cases h
      · exact h
    rw [ascending_unique sw h hz this he]; exact hw

theorem canon_empty : Canon ⟨[], []⟩ := ⟨trivial, trivial⟩

theorem canon_copy {u : UnknownSet} (h : Canon u) :
    (⟨attrUnion [] u.attrs, fnUnion [] u.fns⟩ : UnknownSet) = u := by
  cases u with
  | mk a f =>
    show UnknownSet.mk (setUnion _ [] a) (setUnion _ [] f) = _
    rw [setUnion_nil_of_ascending attrLt_sw h.1, setUnion_nil_of_ascending fnResultLt_sw h.2]

theorem canon_union {u w : UnknownSet} (h : Canon u) : Canon ⟨attrUnion u.attrs w.attrs, fnUnion u.fns w.fns⟩ :=
  ⟨ascending_setUnion attrLt_sw h.1, ascending_setUnion fnResultLt_sw h.2⟩

/-! ## Values -/

/-- Values the evaluators can come across: every unknown set in them is canonical, and there are none
when unknown processing is off. -/
inductive Fine (unk : Bool) : Value → Prop where
  | null : Fine unk .null
  | bool (b) : Fine unk (.bool b)
  | int (i) : Fine unk (.int i)
  | uint (u) : Fine unk (.uint u)
  | dbl (d) : Fine unk (.dbl d)
  | str (s) : Fine unk (.str s)
  | bytes (b) : Fine unk (.bytes b)
  | dur (d) : Fine unk (.dur d)
  | ts (t) : Fine unk (.ts t)
  | typ (n) : Fine unk (.typ n)
  | list (l) : (∀ v ∈ l, Fine unk v) → Fine unk (.list l)
  | map (m) : (∀ p ∈ m, Fine unk p.1) → (∀ p ∈ m, Fine unk p.2) → Fine unk (.map m)
  | optNone : Fine unk (.opt none)
  | optSome (v) : Fine unk v → Fine unk (.opt (some v))
  | opaq (n i) : Fine unk (.opaq n i)
  | struct (n i) : Fine unk (.struct n i)
  | error (s) : Fine unk (.error s)
  | unknown (u) : unk = true → Canon u → Fine unk (.unknown u)

/-- Statuses of the two evaluators (recursive one first): equal, except for the name in the error for
a `?:` whose condition is not a boolean (`eval/eval/ternary_step.cc` line 74,
`eval/eval/jump_step.cc` line 110). -/
def StSim (s t : Status) : Prop :=
  s = t ∨ (s = noOverload "_?_:_" ∧ t = noOverload "<jump_condition>")

theorem StSim.refl (s : Status) : StSim s s := Or.inl rfl

/-- Values of the two evaluators: equal, or errors with corresponding statuses. -/
def VSim (v w : Value) : Prop := v = w ∨ ∃ s t, v = .error s ∧ w = .error t ∧ StSim s t

theorem VSim.refl (v : Value) : VSim v v := Or.inl rfl

theorem VSim.err {s t : Status} (h : StSim s t) : VSim (.error s) (.error t) := Or.inr ⟨s, t, rfl, rfl, h⟩

/-- Corresponding values, with the invariant on unknowns. -/
def VR (unk : Bool) (v w : Value) : Prop := VSim v w ∧ Fine unk w

theorem VR.refl {unk : Bool} {v : Value} (h : Fine unk v) : VR unk v v := ⟨.refl v, h⟩

theorem VR.err {unk : Bool} {s t : Status} (h : StSim s t) : VR unk (.error s) (.error t) := ⟨.err h, .error t⟩

/-- Either the values are the same, or both are errors. -/
theorem VR.cases {unk : Bool} {v w : Value} (h : VR unk v w) :
    (v = w ∧ Fine unk w) ∨ ∃ s t, v = .error s ∧ w = .error t ∧ StSim s t := by
  rcases h.1 with e | e
  · exact Or.inl ⟨e, h.2⟩
  · exact Or.inr e

theorem VR.fine {unk : Bool} {v w : Value} (h : VR unk v w) : Fine unk v := by
  rcases h.cases with ⟨e, hf⟩ | ⟨s, t, e, _⟩
  · rw [e]; exact hf
  · rw [e]; exact .error s

/-- A case split in which the related pair is either an error on both sides or one value that is no
error. -/
theorem VR.split {unk : Bool} {v w : Value} (h : VR unk v w) :
    (v = w ∧ Fine unk w ∧ w.isError = false) ∨ ∃ s t, v = .error s ∧ w = .error t ∧ StSim s t := by
  rcases h.cases with ⟨e, hf⟩ | h
  · cases w with
    | error s => exact Or.inr ⟨s, s, e, rfl, .refl s⟩
    | _ => exact Or.inl ⟨e, hf, rfl⟩
  · exact Or.inr h

/-! ## Results -/

/-- Outcomes of operators. -/
def RR (unk : Bool) : Res VA → Res VA → Prop
  | .ok x, .ok y => VR unk x.v y.v
  | .err s, .err t => StSim s t
  | .ub, .ub => True
  | _, _ => False

/-- Nothing is marked unknown or missing by attribute patterns. -/
def Quiet (c : StepCfg) : Prop :=
  (c.unknowns = true → c.pats = []) ∧ (c.missing = true → c.missingPats = [])

theorem checkUnknown_nil (t : Trail) (b : Bool) : checkUnknown [] t b = false := by
  cases t <;> rfl

theorem checkMissing_nil (t : Trail) : checkMissing [] t = false := by
  cases t <;> rfl

section
variable {c : StepCfg} (hq : Quiet c)
include hq

theorem quiet_unknown {t : Trail} {b : Bool} (hu : c.unknowns = true) : checkUnknown c.pats t b = false := by
  rw [hq.1 hu]; exact checkUnknown_nil t b

theorem quiet_missing {t : Trail} (hm : c.missing = true) : checkMissing c.missingPats t = false := by
  rw [hq.2 hm]; exact checkMissing_nil t

theorem maybeAdd_quiet (hu : c.unknowns = true) (acc : Option UnknownSet) (x : VA) :
    maybeAdd c.pats acc x = maybeAddV acc x.v := by
  obtain ⟨v, t⟩ := x
  cases v <;> simp [maybeAdd, maybeAddV, quiet_unknown hq hu]

theorem marked_quiet (t : Trail) : markedAttribute c t = none := by
  cases t with
  | none => rfl
  | some a =>
    unfold markedAttribute
    simp only
    rw [if_neg (fun h => by rw [quiet_unknown hq h.1] at h; cases h.2),
      if_neg (fun h => by rw [quiet_missing hq h.1] at h; cases h.2)]

/-! ## `!`, `@not_strictly_false` -/

theorem not_rel {x y : VA} (h : VR c.unknowns x.v y.v) :
    VR c.unknowns (notStep c.unknowns c.pats x).v (notStep c.unknowns c.pats y).v := by
  have hn : ∀ z : VA, notStep c.unknowns c.pats z =
      match z.v with
      | .bool b => ⟨.bool (!b), none⟩
      | .unknown _ => z
      | .error _ => z
      | _ => ⟨.error (noOverload "!_"), none⟩ := by
    intro z
    unfold notStep
    rw [if_neg (fun h => by rw [quiet_unknown hq h.1] at h; cases h.2)]
    cases z.v <;> rfl
  rw [hn, hn]
  obtain ⟨v, tv⟩ := x
  obtain ⟨w, tw⟩ := y
  rcases h.split with ⟨e, hf, hne⟩ | ⟨s, t, e1, e2, hs⟩
  · simp only at e; subst e
    cases v <;> first | exact VR.refl hf | exact VR.refl (.bool _) | exact VR.refl (.error _)
  · simp only at e1 e2; subst e1; subst e2
    exact VR.err hs

omit hq in
theorem nsf_rel {x y : VA} (h : VR c.unknowns x.v y.v) :
    VR c.unknowns (notStrictlyFalse x).v (notStrictlyFalse y).v := by
  obtain ⟨v, tv⟩ := x
  obtain ⟨w, tw⟩ := y
  rcases h.split with ⟨e, hf, hne⟩ | ⟨s, t, e1, e2, hs⟩
  · simp only at e; subst e
    cases v <;> first | exact VR.refl hf | exact VR.refl (.bool _) | exact VR.refl (.error _)
  · simp only at e1 e2; subst e1; subst e2
    exact VR.refl (.bool true)

/-! ## Comparisons -/

omit hq in
theorem maybeAddV_canon {acc : Option UnknownSet} {v : Value} (ha : ∀ u, acc = some u → Canon u) :
    ∀ u, maybeAddV acc v = some u → Canon u := by
  intro u hu
  cases v with
  | unknown w =>
    simp only [maybeAddV, Option.some.injEq] at hu
    subst hu
    cases acc with
    | none => exact canon_union canon_empty
    | some a => exact canon_union (ha a rfl)
  | _ => exact ha u hu

omit hq in
theorem maybeAddV_error (acc : Option UnknownSet) (s : Status) : maybeAddV acc (.error s) = acc := rfl

/-- The unknowns of two operands. -/
theorem add2_quiet (x y : VA) :
    (if c.unknowns then maybeAdd c.pats (maybeAdd c.pats none x) y else none) =
      if c.unknowns then maybeAddV (maybeAddV none x.v) y.v else none := by
  by_cases hu : c.unknowns = true
  · rw [if_pos hu, if_pos hu, maybeAdd_quiet hq hu, maybeAdd_quiet hq hu]
  · rw [if_neg hu, if_neg hu]

omit hq in
theorem add2_fine {x y : Value} {u : UnknownSet}
    (h : (if c.unknowns then maybeAddV (maybeAddV none x) y else none) = some u) :
    Fine c.unknowns (.unknown u) := by
  by_cases hu : c.unknowns = true
  · rw [if_pos hu] at h
    exact .unknown u hu (maybeAddV_canon (maybeAddV_canon (fun _ h => by cases h)) u h)
  · rw [if_neg hu] at h; cases h

theorem eq_rel (neg : Bool) {x y x' y' : VA} (hx : VR c.unknowns x.v x'.v) (hy : VR c.unknowns y.v y'.v) :
    VR c.unknowns (eqEval c neg x y) (eqEval c neg x' y') := by
  have hn : ∀ a b : VA, a.v.isError = false → b.v.isError = false → eqEval c neg a b =
      match (if c.unknowns then maybeAddV (maybeAddV none a.v) b.v else none) with
      | some u => .unknown u
      | none =>
        match valueEqual a.v b.v with
        | none => .error (noOverload (if neg then "_!=_" else "_==_"))
        | some b => .bool (if neg then !b else b) := by
    intro a b ha hb
    obtain ⟨v, tv⟩ := a
    obtain ⟨w, tw⟩ := b
    unfold eqEval
    rw [add2_quiet hq]
    cases v <;> cases w <;> first | rfl | exact Bool.noConfusion (show true = false from ha) | exact Bool.noConfusion (show true = false from hb)
  rcases hx.split with ⟨e, hf, hne⟩ | ⟨s, t, e1, e2, hs⟩
  · rcases hy.split with ⟨e', hf', hne'⟩ | ⟨s, t, e1, e2, hs⟩
    · rw [hn x y (by rw [e]; exact hne) (by rw [e']; exact hne'), hn x' y' hne hne', e, e']
      cases hu : (if c.unknowns then maybeAddV (maybeAddV none x'.v) y'.v else none) with
      | some u => exact VR.refl (add2_fine hu)
      | none =>
        simp only
        cases valueEqual x'.v y'.v with
        | none => exact VR.refl (.error _)
        | some b => exact VR.refl (.bool _)
    · have h1 : eqEval c neg x y = .error s := by
        unfold eqEval; rw [e1]
        rw [e] at *
        cases hxv : x'.v <;> first | rfl | (rw [hxv] at hne; cases hne)
      have h2 : eqEval c neg x' y' = .error t := by
        unfold eqEval; rw [e2]
        cases hxv : x'.v <;> first | rfl | (rw [hxv] at hne; cases hne)
      rw [h1, h2]; exact VR.err hs
  · have h1 : eqEval c neg x y = .error s := by unfold eqEval; rw [e1]
    have h2 : eqEval c neg x' y' = .error t := by unfold eqEval; rw [e2]
    rw [h1, h2]; exact VR.err hs

omit hq in
theorem inMap_cases (item : Value) (m : List (Value × Value)) :
    (∃ b, inMap item m = .bool b) ∨ ∃ s, inMap item m = .error s := by
  cases item <;> first | exact Or.inl ⟨_, rfl⟩ | exact Or.inr ⟨_, rfl⟩

theorem in_rel {x y x' y' : VA} (hx : VR c.unknowns x.v x'.v) (hy : VR c.unknowns y.v y'.v) :
    VR c.unknowns (inEval c x y) (inEval c x' y') := by
  have hn : ∀ a b : VA, a.v.isError = false → b.v.isError = false → inEval c a b =
      match (if c.unknowns then maybeAddV (maybeAddV none a.v) b.v else none) with
      | some u => .unknown u
      | none =>
        match b.v with
        | .list l => .bool (listContains l a.v)
        | .map m => inMap a.v m
        | _ => .error (noOverload "@in") := by
    intro a b ha hb
    obtain ⟨v, tv⟩ := a
    obtain ⟨w, tw⟩ := b
    unfold inEval
    rw [add2_quiet hq]
    cases v <;> cases w <;> first | rfl | exact Bool.noConfusion (show true = false from ha) | exact Bool.noConfusion (show true = false from hb)
  rcases hx.split with ⟨e, hf, hne⟩ | ⟨s, t, e1, e2, hs⟩
  · rcases hy.split with ⟨e', hf', hne'⟩ | ⟨s, t, e1, e2, hs⟩
    · rw [hn x y (by rw [e]; exact hne) (by rw [e']; exact hne'), hn x' y' hne hne', e, e']
      cases hu : (if c.unknowns then maybeAddV (maybeAddV none x'.v) y'.v else none) with
      | some u => exact VR.refl (add2_fine hu)
      | none =>
        simp only
        cases y'.v with
        | list l => exact VR.refl (.bool _)
        | map m =>
          rcases inMap_cases x'.v m with ⟨b, h⟩ | ⟨b, h⟩
          · simp only [h]; exact VR.refl (.bool _)
          · simp only [h]; exact VR.refl (.error _)
        | _ => exact VR.refl (.error _)
    · have h1 : inEval c x y = .error s := by
        unfold inEval; rw [e1]
        rw [e] at *
        cases hxv : x'.v <;> first | rfl | (rw [hxv] at hne; cases hne)
      have h2 : inEval c x' y' = .error t := by
        unfold inEval; rw [e2]
        cases hxv : x'.v <;> first | rfl | (rw [hxv] at hne; cases hne)
      rw [h1, h2]; exact VR.err hs
  · have h1 : inEval c x y = .error s := by unfold inEval; rw [e1]
    have h2 : inEval c x' y' = .error t := by unfold inEval; rw [e2]
    rw [h1, h2]; exact VR.err hs

theorem bin_rel (k : Bin) {x y x' y' : VA} (hx : VR c.unknowns x.v x'.v) (hy : VR c.unknowns y.v y'.v) :
    VR c.unknowns (binEval c k x y) (binEval c k x' y') := by
  cases k with
  | eq neg => exact eq_rel hq neg hx hy
  | isIn => exact in_rel hq hx hy

/-! ## Indexing -/

omit hq in
theorem mapFind_fine {unk : Bool} {m : List (Value × Value)} (hm : ∀ p ∈ m, Fine unk p.2) {k v : Value}
    (h : mapFind m k = some v) : Fine unk v := by
  induction m with
  | nil => cases h
  | cons p m ih =>
    obtain ⟨a, b⟩ := p
    unfold mapFind at h
    by_cases hk : keyEq a k = true
    · rw [if_pos hk] at h; cases h; exact hm _ List.mem_cons_self
    · rw [if_neg hk] at h; exact ih (fun p hp => hm p (List.mem_cons_of_mem _ hp)) h

omit hq in
theorem lookupInMap_fine {m : List (Value × Value)} (hm : ∀ p ∈ m, Fine c.unknowns p.2) (k : Value) :
    Fine c.unknowns (lookupInMap c m k) := by
  have hfi : ∀ n v, findInt m n = some v → Fine c.unknowns v := by
    intro n v h
    unfold findInt at h
    split at h
    · exact mapFind_fine hm h
    · cases h
  have hfu : ∀ n v, findUint m n = some v → Fine c.unknowns v := by
    intro n v h
    unfold findUint at h
    split at h
    · exact mapFind_fine hm h
    · cases h
  unfold lookupInMap
  split
  · split
    · rename_i v h
      split at h
      · exact mapFind_fine hm h
      · cases h
    · split
      · rename_i h; exact hfi _ _ h
      · split
        · rename_i h; exact hfu _ _ h
        · exact .error _
  · split
    · split
      · rename_i h; exact mapFind_fine hm h
      · exact .error _
    · exact .error _

omit hq in
theorem lookupIn_fine {v : Value} (hv : Fine c.unknowns v) (k : Value) : Fine c.unknowns (lookupIn c v k) := by
  cases v with
  | map m => cases hv with | map _ h1 h2 => exact lookupInMap_fine h2 k
  | list l =>
    cases hv with
    | list _ h =>
      show Fine c.unknowns (lookupInList l k)
      unfold lookupInList
      split
      · exact .error _
      · split
        · exact .error _
        · split
          · rename_i w hw; exact h w (List.mem_of_getElem? hw)
          · exact .error _
  | _ => exact .error _

/-- What indexing does with operands that are neither errors nor unknown. -/
def indexPlain (c : StepCfg) (v k : Value) : Value :=
  match v with
  | .opt o =>
    if c.optionals then
      match o with
      | none => .opt none
      | some v =>
        match lookupIn c v k with
        | .error e => if isNoSuchKey e then .opt none else .opt (some (.error e))
        | w => .opt (some w)
    else lookupIn c (.opt o) k
  | v => lookupIn c v k

omit hq in
theorem indexPlain_fine {v : Value} (hv : Fine c.unknowns v) (k : Value) : Fine c.unknowns (indexPlain c v k) := by
  cases v with
  | opt o =>
    unfold indexPlain
    simp only
    split
    · cases o with
      | none => exact .optNone
      | some w =>
        cases hv with
        | optSome _ hw =>
          have := lookupIn_fine hw k
          simp only
          split
          · split
            · exact .optNone
            · exact .optSome _ (.error _)
          · exact .optSome _ this
    · exact .error _
  | _ => exact lookupIn_fine hv k

/-- The value of an index step in the regime without patterns. -/
theorem indexEval_quiet (x k : VA) : (indexEval c x k).v =
    match (if c.unknowns then maybeAddV (maybeAddV none x.v) k.v else none) with
    | some u => .unknown u
    | none =>
      match x.v, k.v with
      | .error e, _ => .error e
      | _, .error e => .error e
      | v, k => indexPlain c v k := by
  unfold indexEval
  cases (if c.unknowns then maybeAddV (maybeAddV none x.v) k.v else none) with
  | some u => rfl
  | none =>
    simp only
    rw [if_neg (fun h => by rw [quiet_unknown hq h.1] at h; cases h.2)]
    obtain ⟨v, tv⟩ := x
    obtain ⟨w, tw⟩ := k
    simp only
    cases v with
    | error e => rfl
    | opt o =>
      cases w with
      | error e => rfl
      | _ =>
        simp only [indexPlain]
        by_cases ho : c.optionals = true
        · rw [if_pos ho, if_pos ho]
          cases o with
          | none => rfl
          | some v =>
            simp only
            generalize lookupIn c v _ = q
            cases q with
            | error e => simp only; split <;> rfl
            | _ => rfl
        · rw [if_neg ho, if_neg ho]
    | _ => cases w <;> rfl

theorem index_rel {x y x' y' : VA} (cur : Trail) (hx : VR c.unknowns x.v x'.v) (hy : VR c.unknowns y.v y'.v) :
    VR c.unknowns (indexD c cur x y).v (indexEval c x' y').v := by
  have hd : (indexD c cur x y).v = (indexEval c x y).v := by
    unfold indexD
    cases h : (if c.unknowns then maybeAddV (maybeAddV none x.v) y.v else none) with
    | some u => simp only; unfold indexEval; rw [h]
    | none => rfl
  rw [hd, indexEval_quiet hq, indexEval_quiet hq]
  have hmu : ∀ {v w : Value}, VR c.unknowns v w → ∀ acc, maybeAddV acc v = maybeAddV acc w := by
    intro v w h acc
    rcases h.cases with ⟨e, _⟩ | ⟨s, t, e1, e2, _⟩
    · rw [e]
    · rw [e1, e2]; rfl
  rw [hmu hx, hmu hy]
  cases h : (if c.unknowns then maybeAddV (maybeAddV none x'.v) y'.v else none) with
  | some u => exact VR.refl (add2_fine h)
  | none =>
    simp only
    rcases hx.split with ⟨e, hf, hne⟩ | ⟨s, t, e1, e2, hs⟩
    · rw [e]
      rcases hy.split with ⟨e', hf', hne'⟩ | ⟨s, t, e1, e2, hs⟩
      · rw [e']
        have : Fine c.unknowns (match x'.v, y'.v with
            | .error e, _ => .error e
            | _, .error e => .error e
            | v, k => indexPlain c v k) := by
          split
          · exact .error _
          · exact .error _
          · exact indexPlain_fine hf _
        exact VR.refl this
      · rw [e1, e2]
        cases hxv : x'.v <;> first | exact VR.err hs | (rw [hxv] at hne; cases hne)
    · rw [e1, e2]
      exact VR.err hs

/-! ## Selection -/

omit hq in
theorem res_bind_ok {α β : Type} (a : α) (f : α → Res β) : (Res.ok a >>= f) = f a := rfl
omit hq in
theorem res_bind_err {α β : Type} (e : Status) (f : α → Res β) : ((Res.err e : Res α) >>= f) = .err e := rfl
omit hq in
theorem res_bind_ub {α β : Type} (f : α → Res β) : ((Res.ub : Res α) >>= f) = .ub := rfl
omit hq in
theorem res_pure {α : Type} (a : α) : (pure a : Res α) = .ok a := rfl

/-- Reading a field of a message yields fine values. -/
def StructOK (c : StepCfg) : Prop := ∀ n i f v, c.structGet n i f = .ok v → Fine c.unknowns v

omit hq in
theorem performSelect_fine (hs : StructOK c) {f : String} {v w : Value} (hv : Fine c.unknowns v)
    (h : performSelect c f v = .ok (some w)) : Fine c.unknowns w := by
  cases v with
  | map m =>
    cases hv with
    | map _ h1 h2 =>
      simp only [performSelect, Res.ok.injEq] at h
      exact mapFind_fine h2 h
  | struct n i =>
    simp only [performSelect] at h
    cases hh : c.structHas n i f with
    | ok b =>
      rw [hh, res_bind_ok] at h
      by_cases hb : b = true
      · rw [if_pos hb] at h
        cases hg : c.structGet n i f with
        | ok z => rw [hg, res_bind_ok, res_pure] at h; cases h; exact hs _ _ _ _ hg
        | err e => rw [hg] at h; cases h
        | ub => rw [hg] at h; cases h
      · rw [if_neg hb] at h; cases h
    | err e => rw [hh] at h; cases h
    | ub => rw [hh] at h; cases h
  | _ => cases h

/-- **Selection.** -/
theorem select_rel (hs : StructOK c) {f : String} {test : Bool} (ht : test = true → c.optionals = false)
    {x y : VA} (h : VR c.unknowns x.v y.v) : RR c.unknowns (selectD c f test x) (selectEval c f test y) := by
  obtain ⟨v, tv⟩ := x
  obtain ⟨w, tw⟩ := y
  rcases h.split with ⟨e, hf, hne⟩ | ⟨s, t, e1, e2, hst⟩
  · simp only at e; subst e
    have hm : ∀ t : Trail, (if (c.unknowns || c.missing) = true then markedAttribute c t else none) = none := by
      intro t; rw [marked_quiet hq]; split <;> rfl
    have hm' := marked_quiet hq
    cases v with
    | unknown u => exact VR.refl hf
    | error e => cases hne
    | map m =>
      cases hf with
      | map _ h1 h2 =>
        simp only [selectD, selectEval]
        rw [hm, hm']
        simp only
        by_cases hb : test = true
        · rw [if_pos hb, if_pos hb]; exact VR.refl (.bool _)
        · rw [if_neg hb, if_neg hb]
          refine VR.refl ?_
          unfold getField
          split
          · rename_i hfd; exact mapFind_fine h2 hfd
          · exact .error _
    | struct n i =>
      simp only [selectD, selectEval]
      rw [hm, hm']
      simp only
      by_cases hb : test = true
      · rw [if_pos hb, if_pos hb]
        simp only [testD, testOnlySelect]
        cases c.structHas n i f with
        | ok b => exact VR.refl (.bool _)
        | err e => exact VR.refl (.error _)
        | ub => exact trivial
      · rw [if_neg hb, if_neg hb]
        cases hg : c.structGet n i f with
        | ok z => exact VR.refl (hs _ _ _ _ hg)
        | err e => exact VR.refl (.error _)
        | ub => exact trivial
    | opt o =>
      simp only [selectD, selectEval]
      rw [hm]
      by_cases ho : c.optionals = true
      · simp only [if_pos ho]
        have hb : ¬ test = true := fun hb => by rw [ht hb] at ho; cases ho
        rw [hm']
        cases o with
        | none =>
          simp only [if_neg hb]
          exact VR.refl .optNone
        | some z =>
          simp only [if_neg hb]
          cases hf with
          | optSome _ hz =>
            cases hp : performSelect c f z with
            | err e => exact StSim.refl _
            | ub => exact trivial
            | ok q =>
              cases q with
              | none => exact VR.refl .optNone
              | some q => exact VR.refl (.optSome _ (performSelect_fine hs hz hp))
      · simp only [if_neg ho]
        exact VR.refl (.error _)
    | _ =>
      simp only [selectD, selectEval]
      rw [hm]
      exact VR.refl (.error _)
  · simp only at e1 e2; subst e1; subst e2
    exact VR.err hst

/-! ## Logic -/

omit hq in
theorem mergeLoop_canon : ∀ (vs : List Value) (r : Option UnknownSet), (∀ u, r = some u → Canon u) →
    ∀ u, mergeLoop vs r = some u → Canon u := by
  intro vs
  induction vs with
  | nil => intro r hr u hu; exact hr u hu
  | cons v vs ih =>
    intro r hr u hu
    cases v with
    | unknown w =>
      refine ih _ ?_ u hu
      intro q hq
      cases hq
      cases r with
      | none => exact canon_union canon_empty
      | some z => exact canon_union (hr z rfl)
    | _ => exact ih r hr u hu

omit hq in
/-- The unknowns of a pair of related values. -/
theorem merge2_left {a b : Value} {u : UnknownSet} (ha : a = .unknown u) (h : Canon u) (hb : b.isUnknown = false) :
    mergeUnknowns [a, b] = some u := by
  subst ha
  unfold mergeUnknowns
  cases b with
  | unknown w => cases hb
  | _ =>
    show some _ = some u
    exact congrArg some (canon_copy h)

omit hq in
theorem merge2_right {a b : Value} {u : UnknownSet} (hb : b = .unknown u) (h : Canon u) (ha : a.isUnknown = false) :
    mergeUnknowns [a, b] = some u := by
  subst hb
  unfold mergeUnknowns
  cases a with
  | unknown w => cases ha
  | _ =>
    show some _ = some u
    exact congrArg some (canon_copy h)

omit hq in
theorem merge2_none {a b : Value} (ha : a.isUnknown = false) (hb : b.isUnknown = false) :
    mergeUnknowns [a, b] = none := by
  unfold mergeUnknowns
  cases a <;> first
    | exact Bool.noConfusion (show true = false from ha)
    | (cases b <;> first | exact Bool.noConfusion (show true = false from hb) | rfl)

omit hq in
/-- The shared tail of the recursive logic steps agrees with the iterative one. -/
theorem returnLogic_val (o unk : Bool) {l r : VA} (hl : Fine unk l.v) (hr : Fine unk r.v) :
    (returnLogic o unk l r).v =
      match l.v, r.v with
      | .bool x, .bool _ => .bool x
      | a, b => calcLogic.rest o unk a b := by
  obtain ⟨v, tv⟩ := l
  obtain ⟨w, tw⟩ := r
  simp only at hl hr
  cases unk with
  | false =>
    cases hl <;> cases hr <;> rfl
  | true =>
    cases hl with
    | unknown u _ hcu =>
      cases hr with
      | unknown w' _ hcw => rfl
      | _ =>
        simp only [returnLogic, calcLogic.rest, if_true]
        rw [merge2_left rfl hcu rfl]
    | _ =>
      cases hr with
      | unknown w' _ hcw =>
        simp only [returnLogic, calcLogic.rest, if_true]
        rw [merge2_right rfl hcw rfl]
      | _ =>
        rfl

omit hq in
theorem calc_rest_rel (o unk : Bool) {a b a' b' : Value} (ha : VR unk a a') (hb : VR unk b b') :
    VR unk (calcLogic.rest o unk a b) (calcLogic.rest o unk a' b') := by
  have hm : mergeUnknowns [a, b] = mergeUnknowns [a', b'] := by
    rcases ha.cases with ⟨e, _⟩ | ⟨s, t, e1, e2, _⟩ <;> rcases hb.cases with ⟨e', _⟩ | ⟨s', t', e1', e2', _⟩
    · rw [e, e']
    · rw [e, e1', e2']; cases a' <;> rfl
    · rw [e1, e2, e']; cases b' <;> rfl
    · rw [e1, e2, e1', e2']; rfl
  unfold calcLogic.rest
  rw [hm]
  cases hu : (if unk = true then mergeUnknowns [a', b'] else none) with
  | some u =>
    simp only
    by_cases hk : unk = true
    · rw [if_pos hk] at hu
      exact VR.refl (.unknown u hk (mergeLoop_canon _ _ (fun _ h => by cases h) u hu))
    · rw [if_neg hk] at hu; cases hu
  | none =>
    simp only
    rcases ha.split with ⟨e, _, hne⟩ | ⟨s, t, e1, e2, hs⟩
    · rw [e]
      rcases hb.split with ⟨e', _, hne'⟩ | ⟨s', t', e1', e2', hs'⟩
      · rw [e']
        cases a' <;> first
          | exact Bool.noConfusion (show true = false from hne)
          | (cases b' <;> first
            | exact Bool.noConfusion (show true = false from hne')
            | exact VR.refl (.error _))
      · rw [e1', e2']
        cases a' <;> first
          | exact Bool.noConfusion (show true = false from hne)
          | exact VR.err hs'
    · rw [e1, e2]; exact VR.err hs

omit hq in
/-- **`&&`, `||`.** -/
theorem logic_rel (o unk : Bool) {x z x' z' : VA} (hx : VR unk x.v x'.v) (hz : VR unk z.v z'.v) :
    VR unk (directLogic o unk x z).v (calcLogic o unk x'.v z'.v) := by
  have hfx := hx.fine
  have hfz := hz.fine
  have hd : (directLogic o unk x z).v = calcLogic o unk x.v z.v := by
    obtain ⟨v, tv⟩ := x
    obtain ⟨w, tw⟩ := z
    have hr := returnLogic_val o unk (l := ⟨v, tw⟩) (r := ⟨w, none⟩) hfx hfz
    have hr' := returnLogic_val o unk (l := ⟨v, tw⟩) (r := ⟨w, none⟩) hfx hfz
    cases v with
    | bool a =>
      cases w with
      | bool b =>
        simp only [directLogic, directLogic.tail, calcLogic] at hr ⊢
        by_cases h1 : a = o
        · rw [if_pos h1, if_pos h1]
        · rw [if_neg h1, if_neg h1]
          by_cases h2 : b = o
          · rw [if_pos h2, if_pos h2]
          · rw [if_neg h2, if_neg h2, hr]
            cases o <;> cases a <;> cases b <;> first | rfl | exact absurd rfl h1 | exact absurd rfl h2
      | _ =>
        simp only [directLogic, directLogic.tail, calcLogic] at hr ⊢
        by_cases h1 : a = o
        · rw [if_pos h1, if_pos h1]
        · rw [if_neg h1, if_neg h1, hr]
    | _ =>
      cases w with
      | bool b =>
        simp only [directLogic, directLogic.tail, calcLogic] at hr ⊢
        by_cases h2 : b = o
        · rw [if_pos h2, if_pos h2]
        · rw [if_neg h2, if_neg h2, hr]
      | _ =>
        simp only [directLogic, directLogic.tail, calcLogic] at hr ⊢
        exact hr
  rw [hd]
  rcases hx.split with ⟨e, hf, hne⟩ | ⟨s, t, e1, e2, hs⟩
  · rw [e]
    rcases hz.split with ⟨e', hf', hne'⟩ | ⟨s', t', e1', e2', hs'⟩
    · rw [e']
      have hrr := calc_rest_rel o unk (VR.refl hf) (VR.refl hf')
      generalize x'.v = a at *
      generalize z'.v = b at *
      refine VR.refl ?_
      have hb : ∀ q, Fine unk (.bool q) := fun q => .bool q
      cases a <;> cases b <;> simp only [calcLogic] <;> repeat' split
      all_goals first | exact hb _ | exact hrr.2
    · rw [e1', e2']
      have hrr := calc_rest_rel o unk (VR.refl hf) (VR.err (unk := unk) hs')
      generalize x'.v = a at *
      cases a <;> first
        | exact hrr
        | (simp only [calcLogic]
           split
           · exact VR.refl (.bool _)
           · exact hrr)
  · rw [e1, e2]
    have hrr := calc_rest_rel o unk (VR.err (unk := unk) hs) hz
    rcases hz.cases with ⟨e', hf'⟩ | ⟨s', t', e1', e2', hs'⟩
    · rw [e'] at hrr ⊢
      generalize z'.v = b at *
      cases b <;> first
        | exact hrr
        | (simp only [calcLogic]
           split
           · exact VR.refl (.bool _)
           · exact hrr)
    · rw [e1', e2'] at hrr ⊢
      exact hrr

/-! ## `?:` -/

/-- What the two evaluators make of the condition of a `?:`. -/
inductive TR (unk : Bool) : TernRes → TernRes → Prop where
  | yes : TR unk .yes .yes
  | no : TR unk .no .no
  | stop (x y) : VR unk x.v y.v → TR unk (.stop x) (.stop y)

omit hq in
theorem tern_rel {unk : Bool} (cur : Trail) {x y : VA} (h : VR unk x.v y.v) : TR unk (ternD cur x) (ternOf y) := by
  obtain ⟨v, tv⟩ := x
  obtain ⟨w, tw⟩ := y
  rcases h.split with ⟨e, hf, hne⟩ | ⟨s, t, e1, e2, hs⟩
  · simp only at e; subst e
    cases v with
    | bool b => cases b <;> constructor
    | unknown u => exact .stop _ _ (VR.refl hf)
    | error e => exact .stop _ _ (VR.refl hf)
    | _ => exact .stop _ _ (VR.err (Or.inr ⟨rfl, rfl⟩))
  · simp only at e1 e2; subst e1; subst e2
    exact .stop _ _ (VR.err hs)

/-- Choosing among values already computed (`eval/eval/ternary_step.cc` lines 97-114). -/
def ternPick (cur : Trail) (x y z : VA) : VA :=
  match ternD cur x with
  | .stop w => w
  | .yes => y
  | .no => z

omit hq in
/-- **`?:`, exhaustive.** -/
theorem ternary_rel {unk : Bool} (cur : Trail) {x y z x' y' z' : VA} (hx : VR unk x.v x'.v)
    (hy : VR unk y.v y'.v) (hz : VR unk z.v z'.v) :
    VR unk (ternPick cur x y z).v (ternaryStep unk x' y' z').v := by
  obtain ⟨v, tv⟩ := x
  obtain ⟨w, tw⟩ := x'
  rcases hx.split with ⟨e, hf, hne⟩ | ⟨s, t, e1, e2, hs⟩
  · simp only at e; subst e
    cases v with
    | bool b => cases b <;> first | exact hy | exact hz
    | unknown u =>
      cases hf with
      | unknown _ hk hc =>
        simp only [ternPick, ternD, ternaryStep]
        rw [if_pos hk]
        exact VR.refl (.unknown u hk hc)
    | error e => exact VR.refl hf
    | _ => exact VR.refl (.error _)
  · simp only at e1 e2; subst e1; subst e2
    exact VR.err hs

/-! ## Iteration ranges -/

/-- Items whose parts are fine. -/
def ItemsFine (unk : Bool) (l : List Item) : Prop := ∀ it ∈ l, Fine unk it.key ∧ Fine unk it.val ∧ Fine unk it.one

omit hq in
theorem listItems_fine {unk : Bool} : ∀ {l : List Value} (i : Int), (∀ v ∈ l, Fine unk v) →
    ItemsFine unk (listItems i l) := by
  intro l
  induction l with
  | nil => intro i _ it hit; cases hit
  | cons v l ih =>
    intro i h it hit
    rcases List.mem_cons.1 hit with e | hit
    · subst e; exact ⟨.int _, h v List.mem_cons_self, h v List.mem_cons_self⟩
    · exact ih _ (fun w hw => h w (List.mem_cons_of_mem _ hw)) it hit

omit hq in
theorem mapItems_fine {unk : Bool} : ∀ {m : List (Value × Value)}, (∀ p ∈ m, Fine unk p.1) →
    (∀ p ∈ m, Fine unk p.2) → ItemsFine unk (mapItems m) := by
  intro m
  induction m with
  | nil => intro _ _ it hit; cases hit
  | cons p m ih =>
    intro h1 h2 it hit
    obtain ⟨k, v⟩ := p
    rcases List.mem_cons.1 hit with e | hit
    · subst e; exact ⟨h1 _ List.mem_cons_self, h2 _ List.mem_cons_self, h1 _ List.mem_cons_self⟩
    · exact ih (fun w hw => h1 w (List.mem_cons_of_mem _ hw)) (fun w hw => h2 w (List.mem_cons_of_mem _ hw)) it hit

/-- What the two evaluators make of a range. -/
inductive RgR (unk : Bool) : RangeRes → RangeRes → Prop where
  | items (l) : ItemsFine unk l → RgR unk (.items l) (.items l)
  | stop (x y) : VR unk x.v y.v → RgR unk (.stop x) (.stop y)

theorem range_rel {x y : VA} (h : VR c.unknowns x.v y.v) :
    RgR c.unknowns (rangeOf c.unknowns c.pats x) (rangeOf c.unknowns c.pats y) := by
  obtain ⟨v, tv⟩ := x
  obtain ⟨w, tw⟩ := y
  rcases h.split with ⟨e, hf, hne⟩ | ⟨s, t, e1, e2, hs⟩
  · simp only at e; subst e
    cases v with
    | list l => cases hf with | list _ h => exact .items _ (listItems_fine 0 h)
    | map m =>
      cases hf with
      | map _ h1 h2 =>
        simp only [rangeOf]
        rw [if_neg (fun h => by rw [quiet_unknown hq h.1] at h; cases h.2),
          if_neg (fun h => by rw [quiet_unknown hq h.1] at h; cases h.2)]
        exact .items _ (mapItems_fine h1 h2)
    | unknown u => exact .stop _ _ (VR.refl hf)
    | error e => exact .stop _ _ (VR.refl hf)
    | _ => exact .stop _ _ (VR.refl (.error _))
  · simp only at e1 e2; subst e1; subst e2
    exact .stop _ _ (VR.err hs)

theorem item1_val (t : Trail) (it : Item) : (item1 c.unknowns c.pats t it).v = it.one := by
  unfold item1
  by_cases hu : c.unknowns = true
  · simp only [if_pos hu, quiet_unknown hq hu]; rfl
  · simp only [if_neg hu]

theorem item2_val (t : Trail) (it : Item) :
    (item2 c.unknowns c.pats t it).1.v = it.key ∧ (item2 c.unknowns c.pats t it).2.v = it.val := by
  unfold item2
  by_cases hu : c.unknowns = true
  · simp only [if_pos hu, quiet_unknown hq hu]; exact ⟨rfl, rfl⟩
  · simp only [if_neg hu]; exact ⟨trivial, trivial⟩

/-- What the two evaluators make of a loop condition. -/
inductive CR (unk : Bool) : CondRes → CondRes → Prop where
  | go : CR unk .go .go
  | brk : CR unk .brk .brk
  | stop (x y) : VR unk x.v y.v → CR unk (.stop x) (.stop y)

omit hq in
theorem cond_rel {unk : Bool} (sc : Bool) {x y : VA} (h : VR unk x.v y.v) : CR unk (condOf sc x) (condOf sc y) := by
  obtain ⟨v, tv⟩ := x
  obtain ⟨w, tw⟩ := y
  rcases h.split with ⟨e, hf, hne⟩ | ⟨s, t, e1, e2, hs⟩
  · simp only at e; subst e
    cases v with
    | bool b =>
      simp only [condOf]
      split
      · exact .brk
      · exact .go
    | unknown u => exact .stop _ _ (VR.refl hf)
    | error e => exact .stop _ _ (VR.refl hf)
    | _ => exact .stop _ _ (VR.refl (.error _))
  · simp only at e1 e2; subst e1; subst e2
    exact .stop _ _ (VR.err hs)

end

end Cel.Direct
