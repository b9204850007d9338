import Verif.Checker.Termination

/-!
# C37: what an assignability check means

`Fits` says when a value of one type may be used where another is expected, for types whose parameters stand for themselves. On types
without parameters the check decides exactly this; with parameters, a successful check that did not widen a binding makes the substituted
types fit. Widening can break it (`C37_widening_unsound`).
-/

set_option linter.unusedSimpArgs false
set_option linter.unusedVariables false
set_option linter.unusedTactic false

namespace Cel.Checker
open Relation

/-! ## Specification -/

/-- A wrapper type and what it wraps. -/
inductive Wraps : Base → Base → Prop
  | bool : Wraps .boolWrapper .bool
  | int : Wraps .intWrapper .int
  | uint : Wraps .uintWrapper .uint
  | double : Wraps .doubleWrapper .double
  | string : Wraps .stringWrapper .string
  | bytes : Wraps .bytesWrapper .bytes

/-- `any`, `dyn` and the error type go with everything. -/
inductive Wild : Ty → Prop
  | any {ps} : Wild (.con (.base .any) ps)
  | dyn {ps} : Wild (.con (.base .dyn) ps)
  | error {ps} : Wild (.con (.base .error) ps)

/-- What is nullable under the legacy rule. -/
inductive LegacyNullable : Head → Prop
  | struct {n} : LegacyNullable (.struct n)
  | duration : LegacyNullable (.base .duration)
  | timestamp : LegacyNullable (.base .timestamp)
  | any : LegacyNullable (.base .any)
  | opaque {n} : LegacyNullable (.opaque n)

/-- `Fits legacy a b`: a value of type `a` may be used where `b` is expected. -/
inductive Fits (legacy : Bool) : Ty → Ty → Prop
  | same (x) : Fits legacy (.param x) (.param x)
  | base {b ps qs} : Fits legacy (.con (.base b) ps) (.con (.base b) qs)
  | wildL {a} (b) : Wild a → Fits legacy a b
  | wildR (a) {b} : Wild b → Fits legacy a b
  | nullToWrapper {w p ps qs} : Wraps w p → Fits legacy (.con (.base .null) ps) (.con (.base w) qs)
  | wrap {w p ps qs} : Wraps w p → Fits legacy (.con (.base p) ps) (.con (.base w) qs)
  | unwrap {w p ps qs} : Wraps w p → Fits legacy (.con (.base w) ps) (.con (.base p) qs)
  | enumToInt {e ps qs} : Fits legacy (.con (.enum e) ps) (.con (.base .int) qs)
  | intToEnum {e ps qs} : Fits legacy (.con (.base .int) ps) (.con (.enum e) qs)
  | enumToWrapper {e ps qs} : Fits legacy (.con (.enum e) ps) (.con (.base .intWrapper) qs)
  | wrapperToEnum {e ps qs} : Fits legacy (.con (.base .intWrapper) ps) (.con (.enum e) qs)
  | nullTo {h ps qs} : legacy = true → LegacyNullable h → Fits legacy (.con (.base .null) ps) (.con h qs)
  | toNull {h ps qs} : legacy = true → LegacyNullable h → Fits legacy (.con h ps) (.con (.base .null) qs)
  | typeType {ps qs} : Fits legacy (.con .type ps) (.con .type qs)
  | params {h ps qs} : ps.length = qs.length → (∀ q ∈ ps.zip qs, Fits legacy q.1 q.2) → Fits legacy (.con h ps) (.con h qs)

/-- No type parameter occurs in it. -/
def Ground (t : Ty) : Prop := ∀ x, ¬ Occurs x t

/-- A type as the checker builds it: only lists, maps, opaque types and `type` have parameters. -/
inductive Shaped : Ty → Prop
  | param (x) : Shaped (.param x)
  | leaf (h) : Shaped (.con h [])
  | node {h ps} : hasTypeParams h = true → (∀ p ∈ ps, Shaped p) → Shaped (.con h ps)

/-- Every type variable in it has been instantiated. -/
def Known (c : Ctx) (t : Ty) : Prop := ∀ x, Occurs x t → c.bindings x ≠ none

/-- A context as the checker builds it: bound to shaped types over instantiated variables. -/
def Proper (c : Ctx) : Prop := ∀ x t, c.sub x = some t → Shaped t ∧ Known c t

/-! ## Equality of types -/

mutual
theorem eq_refl (t : Ty) : t.eq t = true := by
  cases t with
  | param x => rw [Ty.eq]; simp
  | con h ps =>
    rw [Ty.eq]
    split
    · rename_i e; simp [e]
    · rw [eqAll_refl ps]; simp

theorem eqAll_refl (ps : List Ty) : Ty.eqAll ps ps = true := by
  cases ps with
  | nil => rw [Ty.eqAll]
  | cons p ps => rw [Ty.eqAll, eq_refl p, eqAll_refl ps]; rfl
end

/-- `Fits` under bindings. -/
inductive FitsIn (legacy : Bool) (σ : Sub) : Ty → Ty → Prop
  | derefL {x t b} : σ x = some t → FitsIn legacy σ t b → FitsIn legacy σ (.param x) b
  | derefR {x t a} : σ x = some t → FitsIn legacy σ a t → FitsIn legacy σ a (.param x)
  | same (x) : FitsIn legacy σ (.param x) (.param x)
  | wildL {a} (b) : Wild a → FitsIn legacy σ a b
  | wildR (a) {b} : Wild b → FitsIn legacy σ a b
  | flat {h k ps qs} : (∀ ps qs, Fits legacy (.con h ps) (.con k qs)) → FitsIn legacy σ (.con h ps) (.con k qs)
  | params {h ps qs} : ps.length = qs.length → (∀ q ∈ ps.zip qs, FitsIn legacy σ q.1 q.2) → FitsIn legacy σ (.con h ps) (.con h qs)

mutual
theorem fitsIn_of_eq (legacy : Bool) (σ : Sub) (a b : Ty) (h : b.eq a = true) : FitsIn legacy σ a b := by
  cases a with
  | param x =>
    cases b with
    | param y =>
      rw [Ty.eq] at h
      have h := of_decide_eq_true h
      rw [h]; exact .same x
    | con k qs => unfold Ty.eq at h; exact nomatch h
  | con k ps =>
    cases b with
    | param y => unfold Ty.eq at h; exact nomatch h
    | con k' qs =>
      rw [Ty.eq] at h
      split at h
      · rename_i e
        have h := of_decide_eq_true h
        rw [e, h]; exact .flat (fun _ _ => .typeType)
      · rw [Bool.and_eq_true] at h
        have e := of_decide_eq_true h.1
        rw [e]
        obtain ⟨h1, h2⟩ := fitsAll_of_eq legacy σ ps qs h.2
        exact .params h1 h2

theorem fitsAll_of_eq (legacy : Bool) (σ : Sub) (ps qs : List Ty) (h : Ty.eqAll qs ps = true) :
    ps.length = qs.length ∧ ∀ q ∈ ps.zip qs, FitsIn legacy σ q.1 q.2 := by
  cases ps with
  | nil =>
    cases qs with
    | nil => exact ⟨rfl, fun q hq => nomatch hq⟩
    | cons q qs => unfold Ty.eqAll at h; exact nomatch h
  | cons p ps =>
    cases qs with
    | nil => unfold Ty.eqAll at h; exact nomatch h
    | cons q qs =>
      rw [Ty.eqAll, Bool.and_eq_true] at h
      obtain ⟨h1, h2⟩ := fitsAll_of_eq legacy σ ps qs h.2
      have h3 := fitsIn_of_eq legacy σ p q h.1
      refine ⟨by simp [h1], fun r hr => ?_⟩
      rw [List.zip_cons_cons, List.mem_cons] at hr
      rcases hr with rfl | hr
      · exact h3
      · exact h2 r hr
end

theorem fitsIn_mono {legacy : Bool} {σ τ : Sub} (hle : ∀ x t, σ x = some t → τ x = some t) {a b : Ty} (h : FitsIn legacy σ a b) :
    FitsIn legacy τ a b := by
  induction h with
  | derefL h _ ih => exact .derefL (hle _ _ h) ih
  | derefR h _ ih => exact .derefR (hle _ _ h) ih
  | same x => exact .same x
  | wildL b h => exact .wildL b h
  | wildR a h => exact .wildR a h
  | flat h => exact .flat h
  | params h _ ih => exact .params h ih

/-! ## A check without widening -/

/-- The state after a check extends the state before it. -/
def Extends (B : Bindings) (P P' : Pro) : Prop := ∀ x t, look B P.map x = some t → look B P'.map x = some t

theorem extends_bind {B : Bindings} {P : Pro} {x : Name} {t : Ty} (h : look B P.map x = none) : Extends B P (P.bind x t) := by
  intro y u hy
  rw [look_bind, Sub.bind]
  split
  · rename_i e; rw [e, h] at hy; exact nomatch hy
  · exact hy

theorem wild_of {t : Ty} (h : isWildCard t = true) : Wild t := by
  unfold isWildCard at h
  rw [Bool.or_eq_true, Bool.or_eq_true] at h
  cases t with
  | param x => rcases h with (h | h) | h <;> simp [Ty.is, Ty.head?] at h
  | con hd ps =>
    rcases h with (h | h) | h
    all_goals
      simp [Ty.is, Ty.head?] at h
      rw [h]
    · exact .any
    · exact .dyn
    · exact .error

theorem isWild_of {t : Ty} (h : Wild t) : isWildCard t = true := by cases h <;> rfl

theorem constraints_true {B : Bindings} {n : Nat} {legacy : Bool} {src dst : Ty} {P P' : Pro}
    (h : assignWithConstraints B n src dst P = some (true, P')) (hs : ∀ x, src = .param x → look B P.map x = none)
    (hd : ∀ x, dst = .param x → look B P.map x = none) :
    Extends B P P' ∧ FitsIn legacy (look B P'.map) src dst ∧ P'.widened = P.widened := by
  cases dst with
  | param y =>
    cases src with
    | param x =>
      rw [assignWithConstraints] at h
      split at h
      · injection h with h; injection h with _ h
        rw [← h]
        refine ⟨extends_bind (hs x rfl), .derefL (t := .param y) ?_ (.same y), rfl⟩
        rw [look_bind, Sub.bind, if_pos rfl]
      · rename_i hne
        have e : y = x := Classical.byContradiction hne
        injection h with h; injection h with _ h
        rw [← h, e]
        exact ⟨fun _ _ h => h, .same x, rfl⟩
    | con hh ps =>
      rw [assignWithConstraints] at h
      cases ho : occursWithin (look B P.map) y n (.con hh ps) with
      | none => rw [ho] at h; exact nomatch h
      | some b =>
        rw [ho] at h
        cases b with
        | true =>
          have h : some (isWildCard (.con hh ps), P) = some (true, P') := h
          injection h with h
          injection h with hw h
          rw [← h]; exact ⟨fun _ _ h => h, .wildL _ (wild_of hw), rfl⟩
        | false =>
          have h : some (true, P.bind y (.con hh ps)) = some (true, P') := h
          injection h with h
          injection h with _ h
          rw [← h]
          refine ⟨extends_bind (hd y rfl), .derefR (t := .con hh ps) ?_ (fitsIn_of_eq _ _ _ _ (eq_refl _)), rfl⟩
          rw [look_bind, Sub.bind, if_pos rfl]
  | con k qs =>
    cases src with
    | param x =>
      rw [assignWithConstraints] at h
      cases ho : occursWithin (look B P.map) x n (.con k qs) with
      | none => rw [ho] at h; exact nomatch h
      | some b =>
        rw [ho] at h
        cases b with
        | true =>
          have h : some (isWildCard (.con k qs), P) = some (true, P') := h
          injection h with h
          injection h with hw h
          rw [← h]; exact ⟨fun _ _ h => h, .wildR _ (wild_of hw), rfl⟩
        | false =>
          have h : some (true, P.bind x (.con k qs)) = some (true, P') := h
          injection h with h
          injection h with _ h
          rw [← h]
          refine ⟨extends_bind (hs x rfl), .derefL (t := .con k qs) ?_ (fitsIn_of_eq _ _ _ _ (eq_refl _)), rfl⟩
          rw [look_bind, Sub.bind, if_pos rfl]
    | con hh ps =>
      rw [assignWithConstraints] at h
      injection h with h
      injection h with hw h
      rw [← h]
      refine ⟨fun _ _ h => h, ?_, rfl⟩
      rw [Bool.or_eq_true] at hw
      rcases hw with hw | hw
      · exact .wildL _ (wild_of hw)
      · exact .wildR _ (wild_of hw)

/-- What a primitive type is assignable to. -/
inductive PrimFits : Base → Head → Prop
  | same (b) : PrimFits b (.base b)
  | any (b) : PrimFits b (.base .any)
  | dyn (b) : PrimFits b (.base .dyn)
  | error (b) : PrimFits b (.base .error)
  | wrapper {w b} : Wraps w b → PrimFits b (.base w)
  | enum (e) : PrimFits .int (.enum e)

theorem prim_true {legacy : Bool} {B : Bindings} {b : Base} (hb : b ∈ [Base.bool, .bytes, .double, .string, .int, .uint])
    {k : Head} {qs : List Ty} {P P' : Pro} {r : Bool} (h : assign legacy B 3 (.b b) (.con k qs) P = some (r, P')) :
    P' = P ∧ (r = true → PrimFits b k) ∧ (qs = [] → PrimFits b k → r = true) := by
  unfold Ty.b at h
  rw [assign_con] at h
  have no : r = false ∧ P = P' → ¬ PrimFits b k → P' = P ∧ (r = true → PrimFits b k) ∧ (qs = [] → PrimFits b k → r = true) :=
    fun h hn => ⟨h.2.symm, fun e => by (rw [e] at h; exact nomatch h.1), fun _ hp => absurd hp hn⟩
  have yes : r = true ∧ P = P' → PrimFits b k → P' = P ∧ (r = true → PrimFits b k) ∧ (qs = [] → PrimFits b k → r = true) :=
    fun h hp => ⟨h.2.symm, fun _ => hp, fun _ _ => h.1⟩
  have same : (if Ty.eqAll qs [] = true then some (true, P) else if qs = [] then some (true, P) else some (false, P)) = some (r, P') →
      k = .base b → P' = P ∧ (r = true → PrimFits b k) ∧ (qs = [] → PrimFits b k → r = true) := by
    intro h e
    cases qs with
    | nil => exact yes (by simpa [Ty.eqAll] using h) (by rw [e]; exact .same b)
    | cons q qs =>
      have : Ty.eqAll (q :: qs) [] = false := by unfold Ty.eqAll; rfl
      rw [this] at h
      simp at h
      exact ⟨h.2.symm, fun _ => by rw [e]; exact .same b, fun e => nomatch e⟩
  simp at hb
  rcases hb with rfl | rfl | rfl | rfl | rfl | rfl
  all_goals
    cases k with
    | base c =>
      cases c
      all_goals
        simp [assignConcrete, wrapperToPrimitive, Ty.head?, Ty.is, Ty.b, assign_con, Ty.eq, isLegacyNullable, isStruct, isOpaque, isEnum,
            isWildCard, Ty.params, assignAll] at h
        first
          | exact same h rfl
          | exact yes h (by first | exact .any _ | exact .dyn _ | exact .error _ | exact .wrapper (by constructor) | exact .enum _)
          | exact no h (by intro hp; cases hp; rename_i hw; exact nomatch hw)
          | exact no h (by intro hp; exact nomatch hp)
    | _ =>
        simp [assignConcrete, wrapperToPrimitive, Ty.head?, Ty.is, Ty.b, assign_con, Ty.eq, isLegacyNullable, isStruct, isOpaque, isEnum,
            isWildCard, Ty.params, assignAll] at h
        first
          | exact same h rfl
          | exact yes h (by first | exact .any _ | exact .dyn _ | exact .error _ | exact .wrapper (by constructor) | exact .enum _)
          | exact no h (by intro hp; cases hp; rename_i hw; exact nomatch hw)
          | exact no h (by intro hp; exact nomatch hp)

/-! ## What a check does to the state -/

theorem constraints_rel {S : Ty → Prop} {B : Bindings} {R : Pro → Pro → Prop} (hrefl : ∀ P, R P P)
    (hbind : ∀ P x t, S (.param x) → R P (P.bind x t)) {n : Nat} {src dst : Ty} {P P' : Pro} {r : Bool}
    (h : assignWithConstraints B n src dst P = some (r, P')) (h1 : S src) (h2 : S dst) : R P P' := by
  have keep : ∀ {b : Bool}, some (b, P) = some (r, P') → R P P' := by
    intro b h; injection h with h; injection h with _ h; rw [← h]; exact hrefl P
  have bind : ∀ {x : Name} {t : Ty}, S (.param x) → some (true, P.bind x t) = some (r, P') → R P P' := by
    intro x t hs h; injection h with h; injection h with _ h; rw [← h]; exact hbind P x t hs
  cases dst with
  | param y =>
    cases src with
    | param x =>
      rw [assignWithConstraints] at h
      split at h
      · exact bind h1 h
      · exact keep h
    | con hh ps =>
      rw [assignWithConstraints] at h
      cases ho : occursWithin (look B P.map) y n (.con hh ps) with
      | none => rw [ho] at h; exact nomatch h
      | some b =>
        rw [ho] at h
        cases b with
        | true => exact keep h
        | false => exact bind h2 h
  | con k qs =>
    cases src with
    | param x =>
      rw [assignWithConstraints] at h
      cases ho : occursWithin (look B P.map) x n (.con k qs) with
      | none => rw [ho] at h; exact nomatch h
      | some b =>
        rw [ho] at h
        cases b with
        | true => exact keep h
        | false => exact bind h1 h
    | con hh ps =>
      rw [assignWithConstraints] at h
      exact keep h

theorem assignAll_rel {S : Ty → Prop} {B : Bindings} {R : Pro → Pro → Prop} (hrefl : ∀ P, R P P)
    (htrans : ∀ P Q U, R P Q → R Q U → R P U) {f : Ty → Ty → Pro → Option (Bool × Pro)}
    (hf : ∀ a b P r P', f a b P = some (r, P') → Inv S B P → S a → S b → R P P' ∧ Inv S B P') :
    ∀ ps qs P r P', assignAll f ps qs P = some (r, P') → Inv S B P → (∀ p ∈ ps, S p) → (∀ q ∈ qs, S q) → R P P' := by
  intro ps
  induction ps with
  | nil =>
    intro qs P r P' h hi _ _
    rw [assignAll] at h
    · injection h with h; injection h with _ h; rw [← h]; exact hrefl P
    · intro p ps q qs e; exact nomatch e
  | cons p ps ih =>
    intro qs P r P' h hi hp hq
    cases qs with
    | nil =>
      rw [assignAll] at h
      · injection h with h; injection h with _ h; rw [← h]; exact hrefl P
      · intro p ps q qs _ e; exact nomatch e
    | cons q qs =>
      rw [assignAll] at h
      cases hr : f p q P with
      | none => rw [hr] at h; exact nomatch h
      | some x =>
        obtain ⟨b, P1⟩ := x
        rw [hr] at h
        obtain ⟨h1, h2⟩ := hf p q P b P1 hr hi (hp p (by simp)) (hq q (by simp))
        cases b with
        | true => exact htrans _ _ _ h1 (ih qs P1 r P' h h2 (fun p hp' => hp p (by simp [hp'])) (fun q hq' => hq q (by simp [hq'])))
        | false =>
          have h : some (false, P1) = some (r, P') := h
          injection h with h; injection h with _ h; rw [← h]; exact h1

/-- The cases of the rest of the check: nothing bound, a primitive check, or the parameters. -/
theorem concrete_cases {legacy : Bool} {f : Ty → Ty → Pro → Option (Bool × Pro)} {src dst : Ty} {P : Pro} {x : Bool × Pro}
    (h : assignConcrete legacy f src dst P = some x) :
    x.2 = P ∨ (∃ b, b ∈ [Base.bool, .bytes, .double, .string, .int, .uint] ∧ (f (.b b) src P = some x ∨ f (.b b) dst P = some x)) ∨
      (src.params.length = dst.params.length ∧ assignAll f src.params dst.params P = some x) := by
  have same : ∀ {b : Bool}, some (b, P) = some x → x.2 = P := by intro b h; injection h with h; rw [← h]
  unfold assignConcrete at h
  split at h
  · rename_i p hw
    obtain ⟨b, hb, rfl⟩ := wrapper_prim' hw
    split at h
    · exact .inl (same h)
    · exact .inr (.inl ⟨b, hb, .inl h⟩)
  · split at h
    · rename_i p hw
      obtain ⟨b, hb, rfl⟩ := wrapper_prim' hw
      exact .inr (.inl ⟨b, hb, .inr h⟩)
    · repeat' split at h
      all_goals first
        | exact .inl (same h)
        | (rename_i hl; exact .inr (.inr ⟨by simpa using (Eq.symm (Classical.byContradiction hl)), h⟩))

theorem assign_rel {S : Ty → Prop} {legacy : Bool} {B : Bindings} (hp : Prims S) {R : Pro → Pro → Prop} (hrefl : ∀ P, R P P)
    (htrans : ∀ P Q U, R P Q → R Q U → R P U) (hbind : ∀ P x t, S (.param x) → R P (P.bind x t))
    (hwid : ∀ P x t, S (.param x) → R P { P.bind x t with widened := true }) : ∀ n src to P r P',
    assign legacy B n src to P = some (r, P') → Inv S B P → S src → S to → R P P' := by
  intro n
  induction n with
  | zero => intro src to P r P' h; exact nomatch h
  | succ n ih =>
    intro src to P r P' h hi h1 h2
    obtain ⟨dst, f, hd, hf, hc⟩ := assign_cases h
    have sd := closed_below hi.2 (substitute_below _ _ _ hd).1 h2
    have sf := closed_below hi.2 (substitute_below _ _ _ hf).1 h1
    rcases hc with ⟨_, e⟩ | ⟨_, _, hc⟩ | ⟨_, _, ⟨Pw, hw, e⟩ | ⟨_, hc⟩⟩
    · injection e with _ e; rw [e]; exact hrefl P
    · exact constraints_rel hrefl hbind hc sf sd
    · injection e with _ e
      rw [e]
      obtain ⟨x, P1, rfl, ha, ho, rfl⟩ := widen_cases hw
      exact htrans _ _ _ (ih _ _ _ _ _ ha hi sd sf) (hwid P1 x f h2)
    · rcases concrete_cases hc with e | ⟨b, hb, h | h⟩ | ⟨_, h⟩
      · have e : P' = P := e
        rw [e]; exact hrefl P
      · exact ih _ _ _ _ _ h hi (hp b) sf
      · exact ih _ _ _ _ _ h hi (hp b) sd
      · exact assignAll_rel (S := S) (B := B) hrefl htrans
          (fun a b P r P' h hi h1 h2 => ⟨ih _ _ _ _ _ h hi h1 h2, assign_inv hp _ _ _ _ _ _ h hi h1 h2⟩) _ _ _ _ _ h hi
          (fun p hp => hi.2 _ _ sf (.inl hp)) (fun q hq => hi.2 _ _ sd (.inl hq))

theorem assign_widened {legacy : Bool} {B : Bindings} {n : Nat} {src to : Ty} {P P' : Pro} {r : Bool}
    (h : assign legacy B n src to P = some (r, P')) (wf : WF (look B P.map)) (hP : P'.widened = false) : P.widened = false := by
  have := assign_rel (S := fun _ => True) (B := B) (R := fun P P' => P'.widened = false → P.widened = false) (fun _ => trivial)
    (fun _ h => h) (fun _ _ _ h1 h2 h => h1 (h2 h)) (fun P x t _ h => h) (fun P _ _ _ h => nomatch h) n src to P r P' h
    ⟨wf, fun _ _ _ _ => trivial⟩ trivial trivial
  exact this hP

/-- Only variables of the types at hand are bound. -/
theorem assign_keys {S : Ty → Prop} {legacy : Bool} {B : Bindings} (hp : Prims S) {n : Nat} {src to : Ty} {P P' : Pro} {r : Bool}
    (h : assign legacy B n src to P = some (r, P')) (hi : Inv S B P) (h1 : S src) (h2 : S to) :
    ∀ x, P'.map x ≠ none → P.map x ≠ none ∨ S (.param x) := by
  have hb : ∀ (P : Pro) x t, S (.param x) → ∀ y, (P.bind x t).map y ≠ none → P.map y ≠ none ∨ S (.param y) := by
    intro P x t hs y hy
    unfold Pro.bind at hy
    dsimp at hy
    by_cases e : y = x
    · rw [e]; exact .inr hs
    · rw [if_neg e] at hy; exact .inl hy
  refine assign_rel (S := S) (B := B) (R := fun P P' => ∀ x, P'.map x ≠ none → P.map x ≠ none ∨ S (.param x)) hp
    (fun _ _ h => .inl h) ?_ hb (fun P x t hs y hy => hb P x t hs y hy) n src to P r P' h hi h1 h2
  · intro P Q U h1 h2 x hx
    rcases h2 x hx with h | h
    · exact h1 x h
    · exact .inr h

/-! ## Soundness without widening -/

theorem wraps_of {h : Head} {ps : List Ty} {b : Base} (hw : wrapperToPrimitive (.con h ps) = some (.b b)) : ∃ w, h = .base w ∧ Wraps w b := by
  cases h with
  | base c =>
    cases c <;> simp [wrapperToPrimitive, Ty.head?, Ty.b] at hw <;> subst hw <;> exact ⟨_, rfl, by constructor⟩
  | _ => simp [wrapperToPrimitive, Ty.head?] at hw

theorem legacyNullable_of {h : Head} {ps : List Ty} (hw : isLegacyNullable (.con h ps) = true) : LegacyNullable h := by
  cases h with
  | base c => cases c <;> simp [isLegacyNullable, isStruct, isOpaque, Ty.head?, Ty.is] at hw <;> constructor
  | struct n => exact .struct
  | «opaque» n => exact .opaque
  | _ => simp [isLegacyNullable, isStruct, isOpaque, Ty.head?, Ty.is] at hw

theorem is_of {h : Head} {ps : List Ty} {b : Base} (hi : (Ty.con h ps).is b = true) : h = .base b := by
  simpa [Ty.is, Ty.head?] using hi

theorem enum_of {h : Head} {ps : List Ty} (hi : isEnum (Ty.con h ps).head? = true) : ∃ e, h = .enum e := by
  cases h with
  | enum e => exact ⟨e, rfl⟩
  | _ => simp [isEnum, Ty.head?] at hi

/-- What a successful check of the rest means. -/
theorem concrete_true {legacy : Bool} {f : Ty → Ty → Pro → Option (Bool × Pro)}
    (hprim : ∀ b, b ∈ [Base.bool, .bytes, .double, .string, .int, .uint] → ∀ k qs P r P', f (.b b) (.con k qs) P = some (r, P') →
      P' = P ∧ (r = true → PrimFits b k))
    {h k : Head} {ps qs : List Ty} {P P' : Pro} (hc : assignConcrete legacy f (.con h ps) (.con k qs) P = some (true, P')) :
    (P' = P ∧ ∀ ps qs, Fits legacy (.con h ps) (.con k qs)) ∨
      (h = k ∧ ps.length = qs.length ∧ assignAll f ps qs P = some (true, P')) := by
  have same : some (true, P) = some (true, P') → P' = P := by intro h; injection h with h; injection h with _ h; exact h.symm
  unfold assignConcrete at hc
  split at hc
  · rename_i p hw
    obtain ⟨b, hb, rfl⟩ := wrapper_prim' hw
    obtain ⟨w, rfl, hwr⟩ := wraps_of hw
    split at hc
    · rename_i hn
      rw [is_of hn]
      exact .inl ⟨same hc, fun _ _ => .nullToWrapper hwr⟩
    · obtain ⟨e, hf⟩ := hprim b hb _ _ _ _ _ hc
      refine .inl ⟨e, fun ps qs => ?_⟩
      cases hf rfl with
      | same => exact .wrap hwr
      | any => exact .wildL _ .any
      | dyn => exact .wildL _ .dyn
      | error => exact .wildL _ .error
      | wrapper hwr2 =>
        have : ∀ w1 w2, Wraps w1 b → Wraps w2 b → w1 = w2 := by intro w1 w2 h1 h2; cases h1 <;> cases h2 <;> rfl
        rw [this _ _ hwr2 hwr]
        exact .base
      | enum e => cases hwr; exact .enumToWrapper
  · split at hc
    · rename_i p hw
      obtain ⟨b, hb, rfl⟩ := wrapper_prim' hw
      obtain ⟨w, rfl, hwr⟩ := wraps_of hw
      obtain ⟨e, hf⟩ := hprim b hb _ _ _ _ _ hc
      refine .inl ⟨e, fun ps qs => ?_⟩
      cases hf rfl with
      | same => exact .unwrap hwr
      | any => exact .wildR _ .any
      | dyn => exact .wildR _ .dyn
      | error => exact .wildR _ .error
      | wrapper hwr2 => rename_i hno; cases hwr2 <;> simp [wrapperToPrimitive, Ty.head?] at hno
      | enum e => cases hwr; exact .wrapperToEnum
    · split at hc
      · rename_i hl
        rw [Bool.and_eq_true, Bool.and_eq_true] at hl
        rw [is_of hl.1.2]
        exact .inl ⟨same hc, fun _ _ => .nullTo hl.1.1 (legacyNullable_of hl.2)⟩
      split at hc
      · rename_i hl
        rw [Bool.and_eq_true, Bool.and_eq_true] at hl
        rw [is_of hl.1.2]
        exact .inl ⟨same hc, fun _ _ => .toNull hl.1.1 (legacyNullable_of hl.2)⟩
      split at hc
      · rename_i hl
        rw [Bool.and_eq_true] at hl
        have e1 : h = .type := by simpa [Ty.head?] using of_decide_eq_true hl.1
        have e2 : k = .type := by simpa [Ty.head?] using of_decide_eq_true hl.2
        rw [e1, e2]
        exact .inl ⟨same hc, fun _ _ => .typeType⟩
      split at hc
      · rename_i hl
        rw [Bool.and_eq_true] at hl
        obtain ⟨e, rfl⟩ := enum_of hl.1
        rw [is_of hl.2]
        exact .inl ⟨same hc, fun _ _ => .intToEnum⟩
      split at hc
      · rename_i hl
        rw [Bool.and_eq_true] at hl
        obtain ⟨e, rfl⟩ := enum_of hl.1
        rw [is_of hl.2]
        exact .inl ⟨same hc, fun _ _ => .enumToInt⟩
      split at hc
      · rename_i hl
        rw [Bool.or_eq_true] at hl
        rcases hl with hl | hl
        · refine .inl ⟨same hc, fun _ _ => ?_⟩
          cases wild_of hl
          · exact .wildL _ .any
          · exact .wildL _ .dyn
          · exact .wildL _ .error
        · refine .inl ⟨same hc, fun _ _ => ?_⟩
          cases wild_of hl
          · exact .wildR _ .any
          · exact .wildR _ .dyn
          · exact .wildR _ .error
      split at hc
      · exact nomatch hc
      split at hc
      · exact nomatch hc
      rename_i hh hl
      refine .inr ⟨?_, ?_, hc⟩
      · simpa [Ty.head?] using (Eq.symm (Classical.byContradiction hh))
      · simpa [Ty.params] using (Eq.symm (Classical.byContradiction hl))

theorem prim_any {legacy : Bool} {B : Bindings} {n : Nat} {b : Base} (hb : b ∈ [Base.bool, .bytes, .double, .string, .int, .uint])
    {k : Head} {qs : List Ty} {P P' : Pro} {r : Bool} (h : assign legacy B n (.b b) (.con k qs) P = some (r, P')) :
    P' = P ∧ (r = true → PrimFits b k) ∧ (qs = [] → PrimFits b k → r = true) := by
  obtain ⟨x, hx⟩ := prim_total (legacy := legacy) (B := B) hb k qs P
  have h1 := assign_le (Nat.le_max_left n 3) h
  have h2 := assign_le (Nat.le_max_right n 3) hx
  rw [h1] at h2
  injection h2 with h2
  rw [← h2] at hx
  exact prim_true hb hx

theorem extends_trans {B : Bindings} {P Q U : Pro} (h1 : Extends B P Q) (h2 : Extends B Q U) : Extends B P U :=
  fun x t h => h2 x t (h1 x t h)

theorem assignAll_fits {legacy : Bool} {B : Bindings} {f : Ty → Ty → Pro → Option (Bool × Pro)}
    (hf : ∀ a b P P', f a b P = some (true, P') → WF (look B P.map) → P'.widened = false →
      Extends B P P' ∧ FitsIn legacy (look B P'.map) a b ∧ P.widened = false ∧ WF (look B P'.map))
    (hw : ∀ a b P r P', f a b P = some (r, P') → WF (look B P.map) → WF (look B P'.map) ∧ (P'.widened = false → P.widened = false)) :
    ∀ ps qs P P', ps.length = qs.length → assignAll f ps qs P = some (true, P') → WF (look B P.map) → P'.widened = false →
      Extends B P P' ∧ (∀ q ∈ ps.zip qs, FitsIn legacy (look B P'.map) q.1 q.2) ∧ P.widened = false := by
  intro ps
  induction ps with
  | nil =>
    intro qs P P' hl h wf hP
    rw [assignAll] at h
    · injection h with h; injection h with _ h; rw [← h] at hP ⊢; exact ⟨fun _ _ h => h, fun q hq => (by simp at hq), hP⟩
    · intro p ps q qs e; exact nomatch e
  | cons p ps ih =>
    intro qs P P' hl h wf hP
    cases qs with
    | nil => exact nomatch hl
    | cons q qs =>
      rw [assignAll] at h
      cases hr : f p q P with
      | none => rw [hr] at h; exact nomatch h
      | some x =>
        obtain ⟨b, P1⟩ := x
        rw [hr] at h
        cases b with
        | false => exact nomatch h
        | true =>
          have w1 := (hw p q P true P1 hr wf).1
          obtain ⟨h1, h2, h3⟩ := ih qs P1 P' (by simpa using hl) h w1 hP
          obtain ⟨g1, g2, g3, _⟩ := hf p q P P1 hr wf h3
          refine ⟨extends_trans g1 h1, fun r hr => ?_, g3⟩
          rw [List.zip_cons_cons, List.mem_cons] at hr
          rcases hr with rfl | hr
          · exact fitsIn_mono h1 g2
          · exact h2 r hr

theorem widen_same {legacy : Bool} {B : Bindings} {n : Nat} {f : Ty → Ty → Pro → Option (Bool × Pro)} {src dst : Ty} {h : Head}
    {ps : List Ty} {P : Pro} : tryWiden legacy B n f src dst (.con h ps) P = some none := rfl

theorem substitute_extends {σ τ : Sub} (he : ∀ x t, σ x = some t → τ x = some t) {legacy : Bool} : ∀ n a a', substitute σ n a = some a' →
    (∀ b, FitsIn legacy τ a' b → FitsIn legacy τ a b) ∧ (∀ b, FitsIn legacy τ b a' → FitsIn legacy τ b a) := by
  intro n
  induction n with
  | zero => intro a a' h; exact nomatch h
  | succ n ih =>
    intro a a' h
    cases a with
    | con k ps => rw [substitute] at h; injection h with h; rw [h]; exact ⟨fun _ h => h, fun _ h => h⟩
    | param x =>
      rw [substitute] at h
      cases hx : σ x with
      | none => rw [hx] at h; injection h with h; rw [h]; exact ⟨fun _ h => h, fun _ h => h⟩
      | some t =>
        rw [hx] at h
        obtain ⟨h1, h2⟩ := ih t a' h
        exact ⟨fun b hb => .derefL (he x t hx) (h1 b hb), fun b hb => .derefR (he x t hx) (h2 b hb)⟩

theorem fits_back {legacy : Bool} {B : Bindings} {P P' : Pro} (he : Extends B P P') {n : Nat} {src to f dst : Ty}
    (hd : substitute (look B P.map) n to = some dst) (hf : substitute (look B P.map) n src = some f)
    (h : FitsIn legacy (look B P'.map) f dst) : FitsIn legacy (look B P'.map) src to :=
  (substitute_extends he n to dst hd).2 _ ((substitute_extends he n src f hf).1 _ h)

/-- A successful check that did not widen only adds bindings, and the two types fit under them. -/
theorem assign_fits {legacy : Bool} {B : Bindings} : ∀ n src to P P', assign legacy B n src to P = some (true, P') →
    WF (look B P.map) → P'.widened = false →
    Extends B P P' ∧ FitsIn legacy (look B P'.map) src to ∧ P.widened = false ∧ WF (look B P'.map) := by
  intro n
  induction n with
  | zero => intro src to P P' h; exact nomatch h
  | succ n ih =>
    intro src to P P' h wf hP
    have hPw := assign_widened h wf hP
    have wf' := assign_wf h wf
    obtain ⟨dst, f, hd, hf, hc⟩ := assign_cases h
    have ud := (substitute_below _ _ _ hd).2
    have uf := (substitute_below _ _ _ hf).2
    have lift : Extends B P P' → FitsIn legacy (look B P'.map) f dst →
        Extends B P P' ∧ FitsIn legacy (look B P'.map) src to ∧ P.widened = false ∧ WF (look B P'.map) := by
      intro he hfit
      refine ⟨he, ?_, hPw, wf'⟩
      exact fits_back he hd hf hfit
    rcases hc with ⟨e, e2⟩ | ⟨_, _, hc⟩ | ⟨_, hp, ⟨Pw, hw, e⟩ | ⟨_, hc⟩⟩
    · injection e2 with _ e2
      rw [e2] at lift ⊢
      exact lift (fun _ _ h => h) (fitsIn_of_eq _ _ _ _ e)
    · obtain ⟨h1, h2, _⟩ := constraints_true (legacy := legacy) hc uf ud
      exact lift h1 h2
    · injection e with _ e
      obtain ⟨x, P1, _, _, _, rfl⟩ := widen_cases hw
      rw [e] at hP
      exact nomatch hP
    · cases f with
      | param x => simp [Ty.isParam] at hp
      | con hh ps =>
        cases dst with
        | param y => simp [Ty.isParam] at hp
        | con k qs =>
          rcases concrete_true (fun b hb k qs P r P' h => ⟨(prim_any hb h).1, (prim_any hb h).2.1⟩) hc with ⟨e, hflat⟩ | ⟨e, hl, ha⟩
          · rw [e] at lift ⊢
            exact lift (fun _ _ h => h) (.flat hflat)
          · obtain ⟨h1, h2, _⟩ := assignAll_fits (B := B) (legacy := legacy) ih
              (fun a b P r P' h wf => ⟨assign_wf h wf, assign_widened h wf⟩) ps qs P P' hl ha wf hP
            rw [← e] at lift
            exact lift h1 (.params hl h2)

/-! ## Full substitution of types that fit -/

mutual
theorem fits_refl (legacy : Bool) (t : Ty) : Fits legacy t t := by
  cases t with
  | param x => exact .same x
  | con h ps => exact .params rfl (fits_refl_all legacy ps)

theorem fits_refl_all (legacy : Bool) (ps : List Ty) : ∀ q ∈ ps.zip ps, Fits legacy q.1 q.2 := by
  cases ps with
  | nil => intro q hq; simp at hq
  | cons p ps =>
    have h1 := fits_refl legacy p
    have h2 := fits_refl_all legacy ps
    intro q hq
    rw [List.zip_cons_cons, List.mem_cons] at hq
    rcases hq with rfl | hq
    · exact h1
    · exact h2 q hq
end

/-- The fully substituted type. -/
def Full (σ : Sub) (d : Bool) (t r : Ty) : Prop := ∃ n, fullySubstitute σ d n t = some r

theorem full_unique {σ : Sub} {d : Bool} {t r s : Ty} (h1 : Full σ d t r) (h2 : Full σ d t s) : r = s := by
  obtain ⟨n, h1⟩ := h1
  obtain ⟨m, h2⟩ := h2
  have g1 := fullySubstitute_le (Nat.le_max_left n m) h1
  have g2 := fullySubstitute_le (Nat.le_max_right n m) h2
  rw [g1] at g2
  injection g2

theorem full_deref {σ : Sub} {d : Bool} {x : Name} {t r : Ty} (hx : σ x = some t) (h : Full σ d (.param x) r) : Full σ d t r := by
  obtain ⟨n, h⟩ := h
  cases n with
  | zero => exact nomatch h
  | succ n =>
    rw [fullySubstitute] at h
    cases n with
    | zero => exact nomatch h
    | succ n =>
      rw [substitute, hx] at h
      cases t with
      | con hh ps =>
        cases n with
        | zero => exact nomatch h
        | succ n => exact ⟨_, h⟩
      | param y =>
        dsimp only at h
        cases hs : substitute σ n (.param y) with
        | none => rw [hs] at h; exact nomatch h
        | some u =>
          rw [hs] at h
          cases u with
          | param z => exact ⟨n + 1, by rw [fullySubstitute, hs]; exact h⟩
          | con hh ps =>
            refine ⟨n + 2, ?_⟩
            rw [fullySubstitute, substitute_mono _ _ _ hs]
            exact h

theorem full_con {σ : Sub} {d : Bool} {h : Head} {ps : List Ty} {r : Ty} (hf : Full σ d (.con h ps) r) :
    ∃ rs, r = .con h rs ∧ (hasTypeParams h = false → rs = ps) ∧
      (hasTypeParams h = true → rs.length = ps.length ∧ ∀ q ∈ ps.zip rs, Full σ d q.1 q.2) := by
  obtain ⟨n, hf⟩ := hf
  cases n with
  | zero => exact nomatch hf
  | succ n =>
    rw [fullySubstitute] at hf
    have all : ∀ ps rs, mapAll (fullySubstitute σ d n) ps = some rs → rs.length = ps.length ∧ ∀ q ∈ ps.zip rs, Full σ d q.1 q.2 := by
      intro ps
      induction ps with
      | nil => intro rs h; rw [mapAll] at h; injection h with h; rw [← h]; exact ⟨rfl, fun q hq => by simp at hq⟩
      | cons p ps ih =>
        intro rs h
        rw [mapAll] at h
        cases hp : fullySubstitute σ d n p with
        | none => rw [hp] at h; exact nomatch h
        | some r =>
          rw [hp] at h
          cases hq : mapAll (fullySubstitute σ d n) ps with
          | none => rw [hq] at h; exact nomatch h
          | some rs' =>
            rw [hq] at h
            have h : some (r :: rs') = some rs := h
            injection h with h
            rw [← h]
            obtain ⟨h1, h2⟩ := ih rs' hq
            refine ⟨by simp [h1], fun q hq => ?_⟩
            rw [List.zip_cons_cons, List.mem_cons] at hq
            rcases hq with rfl | hq
            · exact ⟨n, hp⟩
            · exact h2 q hq
    split at hf
    · rename_i hh
      cases hm : mapAll (fullySubstitute σ d n) ps with
      | none => rw [hm] at hf; exact nomatch hf
      | some rs =>
        rw [hm] at hf
        have hf : some (Ty.con h rs) = some r := hf
        injection hf with hf
        exact ⟨rs, hf.symm, fun e => by (rw [e] at hh; exact nomatch hh), fun _ => all ps rs hm⟩
    · rename_i hh
      injection hf with hf
      exact ⟨ps, hf.symm, fun _ => rfl, fun e => absurd e hh⟩

theorem zip_zip {α : Type} {A : α → α → Prop} {C : α → α → Prop} {D : α → α → Prop} : ∀ (ps qs rs ss : List α), ps.length = qs.length →
    rs.length = ps.length → ss.length = qs.length → (∀ q ∈ ps.zip qs, A q.1 q.2) → (∀ q ∈ ps.zip rs, C q.1 q.2) →
    (∀ q ∈ qs.zip ss, C q.1 q.2) → (∀ p q r s, p ∈ ps → q ∈ qs → (p, q) ∈ ps.zip qs → A p q → C p r → C q s → D r s) → ∀ q ∈ rs.zip ss, D q.1 q.2 := by
  intro ps
  induction ps with
  | nil =>
    intro qs rs ss h1 h2 h3 _ _ _ _ q hq
    have : rs = [] := List.eq_nil_of_length_eq_zero h2
    rw [this] at hq; simp at hq
  | cons p ps ih =>
    intro qs rs ss h1 h2 h3 ha hc1 hc2 hk q hq
    cases qs with
    | nil => exact nomatch h1
    | cons q0 qs =>
      cases rs with
      | nil => exact nomatch h2
      | cons r rs =>
        cases ss with
        | nil => exact nomatch h3
        | cons s ss =>
          rw [List.zip_cons_cons, List.mem_cons] at hq
          rcases hq with rfl | hq
          · exact hk p q0 r s (by simp) (by simp) (by simp) (ha (p, q0) (by simp)) (hc1 (p, r) (by simp)) (hc2 (q0, s) (by simp))
          · refine ih qs rs ss (by simpa using h1) (by simpa using h2) (by simpa using h3) (fun q hq => ha q (by simp [hq]))
              (fun q hq => hc1 q (by simp [hq])) (fun q hq => hc2 q (by simp [hq])) ?_ q hq
            intro p q r s hp hq hpq
            exact hk p q r s (by simp [hp]) (by simp [hq]) (by simp [hpq])

theorem shaped_params {h : Head} {ps : List Ty} (hs : Shaped (.con h ps)) : (∀ p ∈ ps, Shaped p) ∧ (hasTypeParams h = false → ps = []) := by
  cases hs with
  | leaf => exact ⟨fun p hp => by simp at hp, fun _ => rfl⟩
  | node h1 h2 => exact ⟨h2, fun e => by (rw [e] at h1; exact nomatch h1)⟩

theorem fits_full {legacy : Bool} {σ : Sub} {d : Bool} (hσ : ∀ x t, σ x = some t → Shaped t) {a b : Ty} (h : FitsIn legacy σ a b) :
    Shaped a → Shaped b → ∀ r s, Full σ d a r → Full σ d b s → Fits legacy r s := by
  induction h with
  | derefL hx _ ih => intro _ hb r s hr hs; exact ih (hσ _ _ hx) hb r s (full_deref hx hr) hs
  | derefR hx _ ih => intro ha _ r s hr hs; exact ih ha (hσ _ _ hx) r s hr (full_deref hx hs)
  | same x => intro _ _ r s hr hs; rw [full_unique hr hs]; exact fits_refl legacy s
  | wildL b h =>
    intro _ _ r s hr hs
    refine .wildL _ ?_
    cases h <;> (obtain ⟨rs, rfl, _⟩ := full_con hr; constructor)
  | wildR a h =>
    intro _ _ r s hr hs
    refine .wildR _ ?_
    cases h <;> (obtain ⟨rs, rfl, _⟩ := full_con hs; constructor)
  | flat hf =>
    intro _ _ r s hr hs
    obtain ⟨rs, rfl, _⟩ := full_con hr
    obtain ⟨ss, rfl, _⟩ := full_con hs
    exact hf _ _
  | @params h ps qs hl _ ih =>
    intro ha hb r s hr hs
    obtain ⟨rs, rfl, hr1, hr2⟩ := full_con hr
    obtain ⟨ss, rfl, hs1, hs2⟩ := full_con hs
    obtain ⟨a1, a2⟩ := shaped_params ha
    obtain ⟨b1, b2⟩ := shaped_params hb
    cases hh : hasTypeParams h with
    | false =>
      rw [hr1 hh, hs1 hh, a2 hh, b2 hh]
      exact .params rfl (fun q hq => by simp at hq)
    | true =>
      obtain ⟨l1, f1⟩ := hr2 hh
      obtain ⟨l2, f2⟩ := hs2 hh
      refine .params (by rw [l1, l2, hl]) (zip_zip (A := fun _ _ => True) (C := Full σ d) ps qs rs ss hl l1 l2 (fun _ _ => trivial) f1 f2 ?_)
      intro p q r s hp hq hpq _ hr hs
      exact ih (p, q) hpq (a1 p hp) (b1 q hq) r s hr hs

end Cel.Checker
