import Verif.Macro.MacroProps

/-!
# C25: short-circuit and exhaustive evaluation give the same value

`short_circuiting` (`runtime/runtime_options.h`) selects between two plans of the same expression.  The
values agree up to the text of a "no matching overload" error: a conditional whose condition is not a
boolean reports `<jump_condition>` in one plan and `_?_:_` in the other
(`eval/eval/jump_step.cc` line 117, `eval/eval/ternary_step.cc` line 161).
-/

set_option linter.unusedSimpArgs false
set_option linter.unusedVariables false

namespace Cel.Macro
open Cel Cel.Num Cel.Eval Cel.Data

variable {σ : Type}

/-! ## Specification -/

/-- A "no matching overload" error. -/
def IsNoOv (v : Value) : Prop := ∃ n, v = .error (noOverload n)

/-- Two results are the same: equal, or both "no matching overload" errors. -/
def SameValue (v w : Value) : Prop := v = w ∨ (IsNoOv v ∧ IsNoOv w)

/-- A class of values an evaluation stays in: closed under taking elements, containing booleans,
indices and errors; unknown values belong to it exactly if unknown processing is on. -/
structure Domain (unknowns : Bool) (P : Value → Prop) : Prop where
  bool : ∀ b, P (.bool b)
  int : ∀ i, P (.int i)
  error : ∀ e, P (.error e)
  list : ∀ l, P (.list l) → ∀ v ∈ l, P v
  map : ∀ m, P (.map m) → ∀ e ∈ m, P e.1 ∧ P e.2
  known : unknowns = false → ∀ u, ¬ P (.unknown u)
  unknown : unknowns = true → ∀ u, P (.unknown u)

/-- Same value, in the domain. -/
def Same (P : Value → Prop) (a b : VA) : Prop := P a.v ∧ P b.v ∧ SameValue a.v b.v

/-- Pointwise. -/
def Sames (P : Value → Prop) : List VA → List VA → Prop
  | [], [] => True
  | a :: as, b :: bs => Same P a b ∧ Sames P as bs
  | _, _ => False

/-- A step whose result depends only on its operands' values (not on their attribute trails, and not on
the text of no-overload errors), and stays in the domain. -/
def RespOp (P : Value → Prop) (h : σ) (f : Op σ) : Prop :=
  ∀ xs ys, Sames P xs ys → Same P (valOf (f xs h)) (valOf (f ys h))

/-- The comprehensions macros produce, as far as their condition is concerned: `true`
(`map`, `filter`, `exists_one`), or the quantifiers' "not yet decided" with the matching step. -/
def MacroLoop (x : String) (y : Option String) (accu : String) (cnd stp : Expr σ) : Prop :=
  cnd = .const (.bool true) ∨
  (accu ≠ x ∧ y ≠ some accu ∧
    ((cnd = .op nsfOp (args1 (accuIdent accu)) ∧ ∃ p, stp = .logic false (accuIdent accu) p) ∨
     ∃ c : StepCfg, c.pats = [] ∧ cnd = .op nsfOp (args1 (.op (notOp c) (args1 (accuIdent accu)))) ∧
       ∃ p, stp = .logic true (accuIdent accu) p))

mutual
/-- Expressions of the language: constants, variables, steps, `&&`, `||`, `?:`, `cel.bind` and macro
comprehensions. -/
def Lang (P : Value → Prop) (h : σ) : Expr σ → Prop
  | .const v => P v
  | .ident _ _ => True
  | .op f args => RespOp P h f ∧ Langs P h args
  | .logic _ a b => Lang P h a ∧ Lang P h b
  | .cond c t e => Lang P h c ∧ Lang P h t ∧ Lang P h e
  | .comp x y accu range init cnd stp res =>
    Lang P h range ∧ Lang P h init ∧ Lang P h stp ∧ Lang P h res ∧ MacroLoop x y accu cnd stp
  | .bind _ init body => Lang P h init ∧ Lang P h body
/-- Operands. -/
def Langs (P : Value → Prop) (h : σ) : Exprs σ → Prop
  | .nil => True
  | .cons e es => Lang P h e ∧ Langs P h es
end

/-! ## Proof -/

/-- The same variables with the same values. -/
def SameEnv (P : Value → Prop) : PEnv → PEnv → Prop
  | [], [] => True
  | (x, a) :: ρ, (y, b) :: ρ' => x = y ∧ Same P a b ∧ SameEnv P ρ ρ'
  | _, _ => False

theorem SameEnv.get {P : Value → Prop} (z : String) : ∀ {ρ ρ' : PEnv}, SameEnv P ρ ρ' →
    (penvGet ρ z = none ∧ penvGet ρ' z = none) ∨ ∃ a b, penvGet ρ z = some a ∧ penvGet ρ' z = some b ∧ Same P a b
  | [], [], _ => Or.inl ⟨rfl, rfl⟩
  | [], _ :: _, he => he.elim
  | _ :: _, [], he => he.elim
  | (x, a) :: ρ, (y, b) :: ρ', he => by
    obtain ⟨rfl, hab, he⟩ := he
    unfold penvGet
    by_cases hz : z = x
    · rw [if_pos hz, if_pos hz]; exact Or.inr ⟨a, b, rfl, rfl, hab⟩
    · rw [if_neg hz, if_neg hz]; exact SameEnv.get z he

theorem SameEnv.append {P : Value → Prop} : ∀ {ρ₁ ρ₁' : PEnv} {ρ ρ' : PEnv}, SameEnv P ρ₁ ρ₁' → SameEnv P ρ ρ' →
    SameEnv P (ρ₁ ++ ρ) (ρ₁' ++ ρ')
  | [], [], _, _, _, h => h
  | [], _ :: _, _, _, he, _ => he.elim
  | _ :: _, [], _, _, he, _ => he.elim
  | (_, _) :: _, (_, _) :: _, _, _, he, h => ⟨he.1, he.2.1, SameEnv.append he.2.2 h⟩

section
variable {P : Value → Prop} {unk : Bool} {h : σ}

theorem Same.of_eq {v : Value} {t t' : Trail} (hv : P v) : Same P ⟨v, t⟩ ⟨v, t'⟩ := ⟨hv, hv, Or.inl rfl⟩

theorem Same.cases {a b : VA} (hs : Same P a b) :
    (a.v = b.v ∧ P a.v) ∨ ∃ n m, a.v = .error (noOverload n) ∧ b.v = .error (noOverload m) := by
  obtain ⟨h1, h2, h3 | ⟨⟨n, hn⟩, m, hm⟩⟩ := hs
  · exact Or.inl ⟨h3, h1⟩
  · exact Or.inr ⟨n, m, hn, hm⟩

theorem Same.err (hD : Domain unk P) {n m : String} {t t' : Trail} :
    Same P ⟨.error (noOverload n), t⟩ ⟨.error (noOverload m), t'⟩ :=
  ⟨hD.error _, hD.error _, Or.inr ⟨⟨n, rfl⟩, m, rfl⟩⟩

theorem logic_dom (hD : Domain unk P) (isOr : Bool) (a b : Value) : P (calcLogic isOr unk a b) := by
  have hrest : ∀ a b, P (calcLogic.rest isOr unk a b) := by
    intro a b
    unfold calcLogic.rest
    split
    · rename_i u hu
      cases unk with
      | true => exact hD.unknown rfl _
      | false => simp at hu
    · split <;> exact hD.error _
  unfold calcLogic
  split
  · split
    · exact hD.bool _
    · split
      · exact hD.bool _
      · split <;> exact hD.bool _
  · split
    · exact hD.bool _
    · exact hrest _ _
  · split
    · exact hD.bool _
    · exact hrest _ _
  · exact hrest _ _

/-- On anything but the absorbing boolean, an erroneous left operand: absorbing right operand, then
unknown, then the error. -/
theorem logic_err_left (isOr : Bool) (n m : String) (b : Value) :
    calcLogic isOr unk (.error (noOverload n)) b = calcLogic isOr unk (.error (noOverload m)) b ∨
    (calcLogic isOr unk (.error (noOverload n)) b = .error (noOverload n) ∧
     calcLogic isOr unk (.error (noOverload m)) b = .error (noOverload m)) := by
  cases unk <;> cases b <;> try (right; exact ⟨rfl, rfl⟩)
  all_goals first
    | (left; rfl)
    | (rename_i y; by_cases hy : y = isOr
       · left; simp [calcLogic, hy]
       · right; simp [calcLogic, hy, calcLogic.rest, mergeUnknowns, mergeLoop])

theorem logic_err_right (isOr : Bool) (n m : String) (a : Value) :
    calcLogic isOr unk a (.error (noOverload n)) = calcLogic isOr unk a (.error (noOverload m)) ∨
    (calcLogic isOr unk a (.error (noOverload n)) = .error (noOverload n) ∧
     calcLogic isOr unk a (.error (noOverload m)) = .error (noOverload m)) := by
  cases unk <;> cases a <;> try (right; exact ⟨rfl, rfl⟩)
  all_goals first
    | (left; rfl)
    | (rename_i y; by_cases hy : y = isOr
       · left; simp [calcLogic, hy]
       · right; simp [calcLogic, hy, calcLogic.rest, mergeUnknowns, mergeLoop])

theorem logic_same (hD : Domain unk P) (isOr : Bool) {a a' b b' : VA} (ha : Same P a a') (hb : Same P b b') :
    Same P ⟨calcLogic isOr unk a.v b.v, none⟩ ⟨calcLogic isOr unk a'.v b'.v, none⟩ := by
  have step1 : SameValue (calcLogic isOr unk a.v b.v) (calcLogic isOr unk a'.v b.v) := by
    rcases ha.cases with ⟨h1, -⟩ | ⟨n, m, h1, h2⟩
    · rw [h1]; exact Or.inl rfl
    · rw [h1, h2]
      rcases logic_err_left (unk := unk) isOr n m b.v with h | ⟨h3, h4⟩
      · exact Or.inl h
      · rw [h3, h4]; exact Or.inr ⟨⟨_, rfl⟩, _, rfl⟩
  have step2 : SameValue (calcLogic isOr unk a'.v b.v) (calcLogic isOr unk a'.v b'.v) := by
    rcases hb.cases with ⟨h1, -⟩ | ⟨n, m, h1, h2⟩
    · rw [h1]; exact Or.inl rfl
    · rw [h1, h2]
      rcases logic_err_right (unk := unk) isOr n m a'.v with h | ⟨h3, h4⟩
      · exact Or.inl h
      · rw [h3, h4]; exact Or.inr ⟨⟨_, rfl⟩, _, rfl⟩
  refine ⟨logic_dom hD _ _ _, logic_dom hD _ _ _, ?_⟩
  rcases step1 with h1 | h1
  · simp only; rw [h1]; exact step2
  · rcases step2 with h2 | h2
    · simp only; rw [← h2]; exact Or.inr h1
    · exact Or.inr ⟨h1.1, h2.2⟩

/-- Exhaustively evaluated `&&`/`||` of an absorbing left operand. -/
theorem logic_absorbed_left (isOr : Bool) (b : Value) : calcLogic isOr unk (.bool isOr) b = .bool isOr :=
  logic_absorbs isOr unk _ _ (Or.inl (by simp [classify]))

/-- How two loops end alike. -/
def SameEnd (P : Value → Prop) : LoopEnd → LoopEnd → Prop
  | .accu a, .accu b => Same P a b
  | .stop a, .stop b => Same P a b
  | _, _ => False

/-- A loop that has reached a fixed accumulator runs to its end in the exhaustive plan. -/
theorem ploop_fixed {Fix : VA → Prop} {condE stepE : Item → VA → VA} {v : Value}
    (hfix : ∀ it a, Fix a → a.v = v → (∃ b, (condE it a).v = .bool b) ∧ Fix (stepE it a) ∧ (stepE it a).v = v) :
    ∀ (l : List Item) (a : VA), Fix a → a.v = v → ∃ b, ploop false condE stepE l a = .accu b ∧ b.v = v
  | [], a, _, hv => ⟨a, rfl, hv⟩
  | it :: l, a, hf, hv => by
    obtain ⟨⟨b, hb⟩, h2, h3⟩ := hfix it a hf hv
    obtain ⟨r, hr, hrv⟩ := ploop_fixed hfix l (stepE it a) h2 h3
    refine ⟨r, ?_, hrv⟩
    unfold ploop
    simp only [condOf, hb]
    simpa using hr

theorem ploop_same (hD : Domain unk P) {Fix : VA → Prop} {condS stepS condE stepE : Item → VA → VA}
    {Q : Item → Prop}
    (hc : ∀ it a b, Q it → Same P a b → Same P (condS it a) (condE it b))
    (hs : ∀ it a b, Q it → Same P a b → Same P (stepS it a) (stepE it b))
    (hf : ∀ it b, Q it → (condE it b).v = .bool false → Fix b)
    (hfix : ∀ it b, Fix b → (∃ y, (condE it b).v = .bool y) ∧ Fix (stepE it b) ∧ (stepE it b).v = b.v) :
    ∀ (l : List Item), (∀ it ∈ l, Q it) → ∀ (a b : VA), Same P a b →
      SameEnd P (ploop true condS stepS l a) (ploop false condE stepE l b)
  | [], _, a, b, hab => hab
  | it :: l, hq, a, b, hab => by
    have hqi := hq it List.mem_cons_self
    have hcc := hc it a b hqi hab
    have hstep := ploop_same hD hc hs hf hfix l (fun i hi => hq i (List.mem_cons_of_mem _ hi))
      (stepS it a) (stepE it b) (hs it a b hqi hab)
    rcases hcc.cases with ⟨heq, hp⟩ | ⟨n, m, h1, h2⟩
    · by_cases hfalse : (condE it b).v = .bool false
      · have hF := hf it b hqi hfalse
        obtain ⟨r, hr, hrv⟩ := ploop_fixed (Fix := Fix) (v := b.v) (fun it a hfa hva => by
          have := hfix it a hfa
          exact ⟨this.1, this.2.1, by rw [this.2.2, hva]⟩) (it :: l) b hF rfl
        rw [hr]
        unfold ploop
        have : condOf true (condS it a) = .brk := by simp [condOf, heq, hfalse]
        rw [this]
        exact ⟨hab.1, by rw [hrv]; exact hab.2.1, by rw [hrv]; exact hab.2.2⟩
      · unfold ploop
        cases hv : (condE it b).v with
        | bool y =>
          have hy : y = true := by cases y with | true => rfl | false => exact absurd hv hfalse
          subst hy
          have e1 : condOf true (condS it a) = .go := by simp [condOf, heq, hv]
          have e2 : condOf false (condE it b) = .go := by simp [condOf, hv]
          rw [e1, e2]
          exact hstep
        | error e =>
          have e1 : condOf true (condS it a) = .stop (condS it a) := by simp [condOf, heq, hv]
          have e2 : condOf false (condE it b) = .stop (condE it b) := by simp [condOf, hv]
          rw [e1, e2]; exact hcc
        | unknown e =>
          have e1 : condOf true (condS it a) = .stop (condS it a) := by simp [condOf, heq, hv]
          have e2 : condOf false (condE it b) = .stop (condE it b) := by simp [condOf, hv]
          rw [e1, e2]; exact hcc
        | _ =>
          have e1 : condOf true (condS it a) = .stop ⟨.error (noOverload "<loop_condition>"), none⟩ := by
            simp [condOf, heq, hv]
          have e2 : condOf false (condE it b) = .stop ⟨.error (noOverload "<loop_condition>"), none⟩ := by
            simp [condOf, hv]
          rw [e1, e2]; exact Same.err hD
    · unfold ploop
      have e1 : condOf true (condS it a) = .stop (condS it a) := by simp [condOf, h1]
      have e2 : condOf false (condE it b) = .stop (condE it b) := by simp [condOf, h2]
      rw [e1, e2]; exact hcc

/-- Items with elements in the domain. -/
def ItemIn (P : Value → Prop) (it : Item) : Prop := P it.key ∧ P it.val ∧ P it.one

theorem listItems_in (hD : Domain unk P) : ∀ (l : List Value) (i : Int), (∀ v ∈ l, P v) → ∀ it ∈ listItems i l, ItemIn P it
  | [], _, _, it, hit => by simp [listItems] at hit
  | v :: l, i, hl, it, hit => by
    rcases List.mem_cons.1 hit with rfl | hit
    · exact ⟨hD.int _, hl v (by simp), hl v (by simp)⟩
    · exact listItems_in hD l (i + 1) (fun w hw => hl w (by simp [hw])) it hit

theorem mapItems_in : ∀ (m : List (Value × Value)), (∀ e ∈ m, P e.1 ∧ P e.2) → ∀ it ∈ mapItems m, ItemIn P it
  | [], _, it, hit => by simp [mapItems] at hit
  | (k, v) :: m, hl, it, hit => by
    rcases List.mem_cons.1 hit with rfl | hit
    · have := hl (k, v) (by simp); exact ⟨this.1, this.2, this.1⟩
    · exact mapItems_in m (fun w hw => hl w (by simp [hw])) it hit

theorem checkUnknown_nil (t : Trail) (b : Bool) : checkUnknown [] t b = false := by
  cases t <;> rfl

theorem item1_v (hT : unk = false ∨ pats = []) (t : Trail) (it : Item) : (item1 unk pats t it).v = it.one := by
  unfold item1
  rcases hT with rfl | rfl
  · rfl
  · cases unk <;> simp [checkUnknown_nil]

theorem item2_v (hT : unk = false ∨ pats = []) (t : Trail) (it : Item) :
    (item2 unk pats t it).1.v = it.key ∧ (item2 unk pats t it).2.v = it.val := by
  unfold item2
  rcases hT with rfl | rfl
  · exact ⟨rfl, rfl⟩
  · cases unk <;> simp [checkUnknown_nil]

theorem range_same (hD : Domain unk P) {pats : List Pattern} (hT : unk = false ∨ pats = []) {a b : VA} (hab : Same P a b) :
    (∃ l, rangeOf unk pats a = .items l ∧ rangeOf unk pats b = .items l ∧ ∀ it ∈ l, ItemIn P it) ∨
    ∃ x y, rangeOf unk pats a = .stop x ∧ rangeOf unk pats b = .stop y ∧ Same P x y := by
  rcases hab.cases with ⟨heq, hp⟩ | ⟨n, m, h1, h2⟩
  · cases hv : b.v with
    | list l =>
      left
      refine ⟨listItems 0 l, by simp [rangeOf, heq, hv], by simp [rangeOf, hv], ?_⟩
      exact listItems_in hD l 0 (hD.list l (by rw [← hv]; exact hab.2.1))
    | map m =>
      left
      have hu : ∀ t, (if unk = true ∧ checkUnknown pats t true = true then t else none) = (none : Trail) := by
        intro t
        rcases hT with rfl | rfl
        · simp
        · simp [checkUnknown_nil]
      refine ⟨mapItems m, by simp [rangeOf, heq, hv, hu], by simp [rangeOf, hv, hu], ?_⟩
      exact mapItems_in m (hD.map m (by rw [← hv]; exact hab.2.1))
    | error e =>
      right; exact ⟨a, b, by simp [rangeOf, heq, hv], by simp [rangeOf, hv], hab⟩
    | unknown e =>
      right; exact ⟨a, b, by simp [rangeOf, heq, hv], by simp [rangeOf, hv], hab⟩
    | _ =>
      right
      exact ⟨⟨.error (noOverload "<iter_range>"), none⟩, ⟨.error (noOverload "<iter_range>"), none⟩,
        by simp only [rangeOf, heq, hv], by simp only [rangeOf, hv], Same.err hD⟩
  · right; exact ⟨a, b, by simp [rangeOf, h1], by simp [rangeOf, h2], hab⟩

/-- The two plans' options. -/
def scOn (cfg : Cfg σ) : Cfg σ := { cfg with shortCircuit := true }
def scOff (cfg : Cfg σ) : Cfg σ := { cfg with shortCircuit := false }

variable {cfg : Cfg σ}

theorem iter_same (hT : cfg.unknowns = false ∨ cfg.pats = []) (x : String) (y : Option String) (t t' : Trail)
    (it : Item) (hi : ItemIn P it) :
    SameEnv P (piterBinds (scOn cfg) x y t it) (piterBinds (scOff cfg) x y t' it) := by
  cases y with
  | none =>
    refine ⟨rfl, ?_, trivial⟩
    have h1 := item1_v hT t it
    have h2 := item1_v hT t' it
    refine ⟨?_, ?_, Or.inl ?_⟩
    · simp only [scOn]; rw [h1]; exact hi.2.2
    · simp only [scOff]; rw [h2]; exact hi.2.2
    · simp only [scOn, scOff]; rw [h1, h2]
  | some y =>
    have h1 := item2_v hT t it
    have h2 := item2_v hT t' it
    refine ⟨rfl, ⟨?_, ?_, Or.inl ?_⟩, rfl, ⟨?_, ?_, Or.inl ?_⟩, trivial⟩
    · simp only [scOn]; rw [h1.1]; exact hi.1
    · simp only [scOff]; rw [h2.1]; exact hi.1
    · simp only [scOn, scOff]; rw [h1.1, h2.1]
    · simp only [scOn]; rw [h1.2]; exact hi.2.1
    · simp only [scOff]; rw [h2.2]; exact hi.2.1
    · simp only [scOn, scOff]; rw [h1.2, h2.2]

theorem nsf_same (hD : Domain unk P) {a b : VA} (hab : Same P a b) : Same P (notStrictlyFalse a) (notStrictlyFalse b) := by
  rcases hab.cases with ⟨heq, hp⟩ | ⟨n, m, h1, h2⟩
  · cases hv : b.v <;> simp only [notStrictlyFalse, heq, hv]
    case bool y => exact hab
    case error => exact Same.of_eq (hD.bool _)
    case unknown => exact Same.of_eq (hD.bool _)
    all_goals exact Same.err hD
  · simp only [notStrictlyFalse, h1, h2]; exact Same.of_eq (hD.bool _)

theorem not_same (hD : Domain unk P) (u : Bool) {a b : VA} (hab : Same P a b) : Same P (notStep u [] a) (notStep u [] b) := by
  have hu : ∀ t, (if u = true ∧ checkUnknown [] t true = true then t else none) = (none : Trail) := by
    intro t; simp [checkUnknown_nil]
  rcases hab.cases with ⟨heq, hp⟩ | ⟨n, m, h1, h2⟩
  · cases hv : b.v <;> simp only [notStep, hu, heq, hv]
    case bool y => exact Same.of_eq (hD.bool _)
    case error => exact hab
    case unknown => exact hab
    all_goals exact Same.err hD
  · simp only [notStep, hu, h1, h2]; exact hab

theorem tern_same (hD : Domain unk P) {c c' t t' f f' : VA} (hc : Same P c c') (ht : Same P t t') (hf : Same P f f') :
    Same P (match ternOf c with | .stop y => y | .yes => t | .no => f) (ternaryStep unk c' t' f') := by
  obtain ⟨v, tr⟩ := c
  obtain ⟨v', tr'⟩ := c'
  rcases hc.cases with ⟨heq, hp⟩ | ⟨n, m, h1, h2⟩
  · simp only at heq hp
    subst heq
    cases v with
    | bool b => cases b <;> simp only [ternOf, ternaryStep]
                · exact ⟨hf.1, hf.2.1, hf.2.2⟩
                · exact ⟨ht.1, ht.2.1, ht.2.2⟩
    | error e => simp only [ternOf, ternaryStep]; exact hc
    | unknown u =>
      cases hcu : unk with
      | true => simp only [ternOf, ternaryStep, if_true]; exact hc
      | false => exact absurd hp (hD.known hcu u)
    | _ => simp only [ternOf, ternaryStep]; exact Same.err hD
  · simp only at h1 h2
    subst h1 h2
    simp only [ternOf, ternaryStep]; exact hc

mutual
/-- The values of an expression under both options. -/
theorem pden_same (hD : Domain cfg.unknowns P) (hT : cfg.unknowns = false ∨ cfg.pats = [])
    (hg : ∀ x, P (valOf (cfg.global x h)).v) (e : Expr σ) (hl : Lang P h e) : ∀ (ρ ρ' : PEnv), SameEnv P ρ ρ' →
    Same P (pden (scOn cfg) h e ρ) (pden (scOff cfg) h e ρ') := by
  cases e with
  | const v => intro ρ ρ' hρ; exact Same.of_eq hl
  | ident x abs =>
    intro ρ ρ' hρ
    simp only [pden]
    cases abs with
    | true => simp only [if_true]; exact ⟨hg x, hg x, Or.inl rfl⟩
    | false =>
      rcases hρ.get x with ⟨h1, h2⟩ | ⟨a, b, h1, h2, hab⟩
      · simp only [Bool.false_eq_true, if_false, h1, h2]; exact ⟨hg x, hg x, Or.inl rfl⟩
      · simp only [Bool.false_eq_true, if_false, h1, h2]; exact hab
  | op f args =>
    intro ρ ρ' hρ
    simp only [pden]
    exact hl.1 _ _ (pdenArgs_same hD hT hg args hl.2 ρ ρ' hρ)
  | logic isOr a b =>
    intro ρ ρ' hρ
    have ha := pden_same hD hT hg a hl.1 ρ ρ' hρ
    have hb := pden_same hD hT hg b hl.2 ρ ρ' hρ
    have hlog := logic_same (unk := cfg.unknowns) hD isOr ha hb
    rw [pden.eq_def, pden.eq_def]
    simp only [scOn, scOff] at ha hb hlog ⊢
    by_cases habs : (pden (scOn cfg) h a ρ).v = .bool isOr
    · simp only [scOn] at habs
      simp only [habs, if_true]
      rcases ha.cases with ⟨heq, hp⟩ | ⟨n, m, h1, h2⟩
      · rw [habs] at heq
        rw [← heq, logic_absorbed_left]
        exact ⟨by rw [habs]; exact hD.bool _, hD.bool _, Or.inl habs⟩
      · rw [habs] at h1; cases h1
    · simp only [scOn] at habs
      split
      · rename_i y hy
        rw [if_neg (by rintro rfl; exact habs hy)]
        exact hlog
      · exact hlog
  | cond c t f =>
    intro ρ ρ' hρ
    have hc := pden_same hD hT hg c hl.1 ρ ρ' hρ
    have ht := pden_same hD hT hg t hl.2.1 ρ ρ' hρ
    have hf := pden_same hD hT hg f hl.2.2 ρ ρ' hρ
    rw [pden.eq_def, pden.eq_def]
    simp only [scOn, scOff, if_true, Bool.false_eq_true, if_false] at hc ht hf ⊢
    exact tern_same hD hc ht hf
  | comp x y accu range init cnd stp res =>
    intro ρ ρ' hρ
    obtain ⟨hlr, hli, hls, hlres, hml⟩ := hl
    have hr := pden_same hD hT hg range hlr ρ ρ' hρ
    have hi := pden_same hD hT hg init hli ρ ρ' hρ
    rw [pden.eq_def, pden.eq_def]
    simp only []
    have hcu : (scOn cfg).unknowns = cfg.unknowns := rfl
    have hcu' : (scOff cfg).unknowns = cfg.unknowns := rfl
    have hcp : (scOn cfg).pats = cfg.pats := rfl
    have hcp' : (scOff cfg).pats = cfg.pats := rfl
    rw [hcu, hcu', hcp, hcp']
    rcases range_same hD hT hr with ⟨l, h1, h2, hin⟩ | ⟨u, w, h1, h2, huw⟩
    · rw [h1, h2]
      simp only []
      have hstp : ∀ it a b, ItemIn P it → Same P a b →
          Same P (pden (scOn cfg) h stp (piterBinds (scOn cfg) x y (pden (scOn cfg) h range ρ).t it ++ (accu, a) :: ρ))
            (pden (scOff cfg) h stp (piterBinds (scOff cfg) x y (pden (scOff cfg) h range ρ').t it ++ (accu, b) :: ρ')) := by
        intro it a b hit hab
        exact pden_same hD hT hg stp hls _ _ ((iter_same hT x y _ _ it hit).append ⟨rfl, hab, hρ⟩)
      have hend : SameEnd P
          (ploop (scOn cfg).shortCircuit
            (fun it a => pden (scOn cfg) h cnd (piterBinds (scOn cfg) x y (pden (scOn cfg) h range ρ).t it ++ (accu, a) :: ρ))
            (fun it a => pden (scOn cfg) h stp (piterBinds (scOn cfg) x y (pden (scOn cfg) h range ρ).t it ++ (accu, a) :: ρ))
            l (pden (scOn cfg) h init ρ))
          (ploop (scOff cfg).shortCircuit
            (fun it a => pden (scOff cfg) h cnd (piterBinds (scOff cfg) x y (pden (scOff cfg) h range ρ').t it ++ (accu, a) :: ρ'))
            (fun it a => pden (scOff cfg) h stp (piterBinds (scOff cfg) x y (pden (scOff cfg) h range ρ').t it ++ (accu, a) :: ρ'))
            l (pden (scOff cfg) h init ρ')) := by
        rcases hml with rfl | ⟨hx, hy, hml⟩
        · refine ploop_same (Fix := fun _ => False) (Q := ItemIn P) hD ?_ hstp ?_ ?_ l hin _ _ hi
          · intro it a b _ _; exact Same.of_eq (hD.bool _)
          · intro it b _ hf; simp [pden] at hf
          · intro it b hf; exact hf.elim
        · have hget : ∀ (c : Cfg σ) t it a (ρ : PEnv), penvGet (piterBinds c x y t it ++ (accu, a) :: ρ) accu = some a := by
            intro c t it a ρ
            rw [penvGet_append, penvGet_iter x y t it accu hx hy]
            simp [penvGet]
          have hval : ∀ (c : Cfg σ) t it a (ρ : PEnv),
              pden c h (accuIdent accu) (piterBinds c x y t it ++ (accu, a) :: ρ) = a := by
            intro c t it a ρ
            simp only [accuIdent, pden, Bool.false_eq_true, if_false, hget]
          have hfixlog : ∀ (isOr : Bool) (p : Expr σ) (it : Item) (b : VA) (t : Trail), b.v = .bool isOr →
              (pden (scOff cfg) h (.logic isOr (accuIdent accu) p)
                (piterBinds (scOff cfg) x y t it ++ (accu, b) :: ρ')).v = .bool isOr := by
            intro isOr p it b t hb
            rw [pden.eq_def]
            simp only [hval, hb]
            simp only [scOff]
            exact logic_absorbed_left isOr _
          rcases hml with ⟨rfl, p, rfl⟩ | ⟨c, hcpats, rfl, p, rfl⟩
          · refine ploop_same (Fix := fun b => b.v = .bool false) (Q := ItemIn P) hD ?_ hstp ?_ ?_ l hin _ _ hi
            · intro it a b hit hab
              simp only [pden, pdenArgs1, nsfOp, valOf, hval]
              exact nsf_same hD hab
            · intro it b _ hf
              simp only [pden, pdenArgs1, nsfOp, valOf, hval] at hf
              cases hv : b.v <;> simp only [notStrictlyFalse, hv] at hf
              case bool z => exact hf
              all_goals cases hf
            · intro it b hf
              refine ⟨?_, hfixlog false p it b _ hf, by rw [hfixlog false p it b _ hf, hf]⟩
              simp only [pden, pdenArgs1, nsfOp, valOf, hval, notStrictlyFalse, hf]
              exact ⟨false, rfl⟩
          · obtain ⟨cu, cpats, cms, cmp⟩ := c
            simp only at hcpats
            subst hcpats
            refine ploop_same (Fix := fun b => b.v = .bool true) (Q := ItemIn P) hD ?_ hstp ?_ ?_ l hin _ _ hi
            · intro it a b hit hab
              simp only [pden, pdenArgs1, nsfOp, notOp, valOf, hval]
              exact nsf_same hD (not_same hD _ hab)
            · intro it b _ hf
              have hu : ∀ t, (if cu = true ∧ checkUnknown [] t true = true then t else none) = (none : Trail) := by
                intro t; simp [checkUnknown_nil]
              simp only [pden, pdenArgs1, nsfOp, notOp, valOf, hval, notStep, hu] at hf
              cases hv : b.v <;> simp only [notStrictlyFalse, hv] at hf
              case bool z => cases z <;> simp_all
              all_goals cases hf
            · intro it b hf
              refine ⟨?_, hfixlog true p it b _ hf, by rw [hfixlog true p it b _ hf, hf]⟩
              have hu : ∀ t, (if cu = true ∧ checkUnknown [] t true = true then t else none) = (none : Trail) := by
                intro t; simp [checkUnknown_nil]
              simp only [pden, pdenArgs1, nsfOp, notOp, valOf, hval, notStep, hu, notStrictlyFalse, hf]
              exact ⟨_, rfl⟩
      revert hend
      generalize ploop (scOn cfg).shortCircuit _ _ l _ = e1
      generalize ploop (scOff cfg).shortCircuit _ _ l _ = e2
      intro hend
      match e1, e2, hend with
      | .accu a, .accu b, hab => exact pden_same hD hT hg res hlres _ _ ⟨rfl, hab, hρ⟩
      | .stop a, .stop b, hab => exact hab
    · rw [h1, h2]; exact huw
  | bind x init body =>
    intro ρ ρ' hρ
    simp only [pden]
    exact pden_same hD hT hg body hl.2 _ _ ⟨rfl, pden_same hD hT hg init hl.1 ρ ρ' hρ, hρ⟩
theorem pdenArgs_same (hD : Domain cfg.unknowns P) (hT : cfg.unknowns = false ∨ cfg.pats = [])
    (hg : ∀ x, P (valOf (cfg.global x h)).v) (es : Exprs σ) (hl : Langs P h es) : ∀ (ρ ρ' : PEnv), SameEnv P ρ ρ' →
    Sames P (pdenArgs (scOn cfg) h es ρ) (pdenArgs (scOff cfg) h es ρ') := by
  cases es with
  | nil => intro _ _ _; trivial
  | cons e es =>
    intro ρ ρ' hρ
    exact ⟨pden_same hD hT hg e hl.1 ρ ρ' hρ, pdenArgs_same hD hT hg es hl.2 ρ ρ' hρ⟩
end
end

/-! ## Steps that qualify -/

section
variable {P : Value → Prop} {h : σ}

/-- `!` and `@not_strictly_false`. -/
theorem respOp_not {unk : Bool} (hD : Domain unk P) (c : StepCfg) (hp : c.pats = []) {xs ys : List VA}
    (h1 : xs.length = 1) (hxy : Sames P xs ys) : Same P (valOf (notOp c xs h)) (valOf (notOp c ys h)) := by
  match xs, ys, h1, hxy with
  | [x], [y], _, hxy =>
    simp only [notOp, valOf, hp]
    exact not_same hD _ hxy.1

theorem Sames.kinds : ∀ {xs ys : List VA}, Sames P xs ys → (xs.map (·.v.kind)) = ys.map (·.v.kind)
  | [], [], _ => rfl
  | [], _ :: _, hh => hh.elim
  | _ :: _, [], hh => hh.elim
  | a :: as, b :: bs, hh => by
    have := Sames.kinds hh.2
    have hk : a.v.kind = b.v.kind := by
      rcases hh.1.cases with ⟨heq, -⟩ | ⟨n, m, h1, h2⟩
      · rw [heq]
      · rw [h1, h2]; rfl
    simp only [List.map_cons, hk, this]

theorem Sames.firstError {unk : Bool} (hD : Domain unk P) : ∀ {xs ys : List VA}, Sames P xs ys →
    (xs.map (·.v) = ys.map (·.v) ∧ ∀ x ∈ xs, P x.v) ∨
    ∃ e e', firstError (xs.map (·.v)) = some (.error e) ∧ firstError (ys.map (·.v)) = some (.error e') ∧
      SameValue (.error e) (.error e')
  | [], [], _ => Or.inl ⟨rfl, by simp⟩
  | [], _ :: _, hh => hh.elim
  | _ :: _, [], hh => hh.elim
  | a :: as, b :: bs, hh => by
    rcases hh.1.cases with ⟨heq, hp⟩ | ⟨n, m, h1, h2⟩
    · cases hv : a.v with
      | error e =>
        right
        exact ⟨e, e, by simp [hv, Eval.firstError], by simp [← heq, hv, Eval.firstError], Or.inl rfl⟩
      | _ =>
        rcases Sames.firstError hD hh.2 with ⟨h1, h2⟩ | ⟨e, e', h1, h2, h3⟩
        · left
          refine ⟨by simp only [List.map_cons, heq, h1], ?_⟩
          intro x hx
          rcases List.mem_cons.1 hx with rfl | hx
          · exact hp
          · exact h2 x hx
        · right
          refine ⟨e, e', ?_, ?_, h3⟩
          · simp only [List.map_cons, hv, Eval.firstError]; exact h1
          · simp only [List.map_cons, ← heq, hv, Eval.firstError]; exact h2
    · right
      exact ⟨_, _, by simp [h1, Eval.firstError], by simp [h2, Eval.firstError], Or.inr ⟨⟨n, rfl⟩, m, rfl⟩⟩

theorem kindsMatch_kinds : ∀ (ks : List Nat) (vs ws : List Value), vs.map Value.kind = ws.map Value.kind →
    kindsMatchLoop ks vs = kindsMatchLoop ks ws
  | [], _, _, _ => by unfold kindsMatchLoop; rfl
  | _ :: _, [], [], _ => rfl
  | _ :: _, [], _ :: _, hh => by simp at hh
  | _ :: _, _ :: _, [], hh => by simp at hh
  | k :: ks, v :: vs, w :: ws, hh => by
    simp only [List.map_cons, List.cons.injEq] at hh
    simp only [kindsMatchLoop, hh.1, kindsMatch_kinds ks vs ws hh.2]

theorem argKinds_kinds (d : FnDesc) (vs ws : List Value) (hk : vs.map Value.kind = ws.map Value.kind) :
    argumentKindsMatch d vs = argumentKindsMatch d ws := by
  have hl : vs.length = ws.length := by simpa using congrArg List.length hk
  unfold argumentKindsMatch
  rw [hl, kindsMatch_kinds _ _ _ hk]

theorem resolveStatic_kinds (vs ws : List Value) (hk : vs.map Value.kind = ws.map Value.kind) :
    ∀ (os : List (Overload σ)), resolveStatic vs os = resolveStatic ws os
  | [] => rfl
  | o :: os => by
    unfold resolveStatic
    rw [argKinds_kinds o.desc vs ws hk, resolveStatic_kinds vs ws hk os]

theorem partialUnknowns_nil : ∀ (xs : List VA), checkPartialUnknowns [] xs = xs.map (·.v)
  | [] => rfl
  | x :: xs => by simp [checkPartialUnknowns, checkUnknown_nil, partialUnknowns_nil xs]

theorem resolveStatic_mem {vs : List Value} {o : Overload σ} : ∀ {os : List (Overload σ)},
    resolveStatic vs os = some o → o ∈ os
  | [], hh => by simp [resolveStatic] at hh
  | o' :: os, hh => by
    unfold resolveStatic at hh
    split at hh
    · cases hh; simp
    · exact List.mem_cons_of_mem _ (resolveStatic_mem hh)

theorem firstError_poisoned : ∀ {vs : List Value} {e : Status}, firstError vs = some (.error e) → (.error e : Value) ∈ vs
  | [], _, hh => by simp [firstError] at hh
  | v :: vs, e, hh => by
    cases v <;> simp only [firstError] at hh
    case error s => simp_all
    all_goals exact List.mem_cons_of_mem _ (firstError_poisoned hh)

/-- Calls of strict functions qualify, whatever the functions compute, if their results stay in the
domain. -/
theorem respOp_call (c : StepCfg) (hD : Domain c.unknowns P) (hp : c.pats = []) (fr : Bool)
    (hfr : fr = true → c.unknowns = true) (site : CallSite σ) (os : List (Overload σ)) (hs : site.resolver = .eager os)
    (hstrict : ∀ o ∈ os, o.desc.strict = true)
    (hres : ∀ o ∈ os, ∀ args, (∀ v ∈ args, P v) → ∃ v, o.impl args h = (.ok v, h) ∧ P v) :
    RespOp P h (callOp c fr site) := by
  intro xs ys hxy
  have hk : (xs.map (·.v)).map Value.kind = (ys.map (·.v)).map Value.kind := by
    rw [List.map_map, List.map_map]; exact hxy.kinds
  have hargs : ∀ zs : List VA, (if c.unknowns = true then checkPartialUnknowns c.pats zs else zs.map (·.v)) = zs.map (·.v) := by
    intro zs; rw [hp]; split
    · exact partialUnknowns_nil zs
    · rfl
  unfold callOp evalCall
  simp only [hargs, CallSite.resolve, hs, ← resolveStatic_kinds _ _ hk os]
  have hno : ∀ vs, P (noOverloadResult site.name vs site.receiver c.unknowns) := by
    intro vs
    unfold noOverloadResult
    split
    · rename_i e he
      have : ∃ s, e = .error s := by
        clear hargs hk
        induction vs with
        | nil => simp [firstError] at he
        | cons v vs ih =>
          cases v <;> simp only [firstError] at he
          case error s => exact ⟨s, by simpa using he.symm⟩
          all_goals exact ih he
      obtain ⟨s, rfl⟩ := this
      exact hD.error _
    · split
      · rename_i u hu
        cases hcu : c.unknowns with
        | true => exact hD.unknown hcu _
        | false => rw [hcu] at hu; simp at hu
      · split
        · split <;> exact hD.error _
        · exact hD.error _
  rcases hxy.firstError hD with ⟨heq, hP⟩ | ⟨e, e', h1, h2, h3⟩
  · rw [← heq]
    cases hr : resolveStatic (xs.map (·.v)) os with
    | none => simp only [valOf]; exact Same.of_eq (hno _)
    | some o =>
      simp only []
      by_cases hsa : shouldAcceptOverload o.desc (xs.map (·.v)) = true
      · rw [if_pos hsa]
        obtain ⟨v, hv, hpv⟩ := hres o (resolveStatic_mem hr) (xs.map (·.v)) (by
          intro v hv; obtain ⟨x, hx, rfl⟩ := List.mem_map.1 hv; exact hP x hx)
        unfold invoke
        rw [hv]
        simp only []
        cases v with
        | error st =>
          simp only []
          by_cases hh : fr = true ∧ st.code = StatusCode.unknownFunctionResult
          · rw [if_pos hh]; simp only [valOf]; exact Same.of_eq (hD.unknown (hfr hh.1) _)
          · rw [if_neg hh]; simp only [valOf]; exact Same.of_eq hpv
        | _ => simp only [valOf]; exact Same.of_eq hpv
      · rw [if_neg hsa]
        simp only [valOf]; exact Same.of_eq (hno _)
  · have hn : ∀ vs e, firstError vs = some (.error e) → noOverloadResult site.name vs site.receiver c.unknowns = .error e := by
      intro vs e he; unfold noOverloadResult; rw [he]
    have hfin : Same P (⟨noOverloadResult site.name (xs.map (·.v)) site.receiver c.unknowns, none⟩ : VA)
        ⟨noOverloadResult site.name (ys.map (·.v)) site.receiver c.unknowns, none⟩ := by
      rw [hn _ _ h1, hn _ _ h2]; exact ⟨hD.error _, hD.error _, h3⟩
    cases hr : resolveStatic (xs.map (·.v)) os with
    | none => simp only [valOf]; exact hfin
    | some o =>
      have hst := hstrict o (resolveStatic_mem hr)
      have hna : ∀ vs e, firstError vs = some (.error e) → ¬ shouldAcceptOverload o.desc vs = true := by
        intro vs e he ha
        exact (shouldAccept_iff _ _).1 ha hst _ (firstError_poisoned he) (Or.inl ⟨e, rfl⟩)
      simp only []
      rw [if_neg (hna _ _ h1), if_neg (hna _ _ h2)]
      simp only [valOf]; exact hfin
end

/-! ## C25 -/

/-- **C25 (`&&`, `||`).** If the operands have the same values under both options, so have `a && b` and
`a || b`, whatever the values are (booleans, errors, unknowns, anything else) and with any unknown
patterns. -/
theorem C25_logic_value {cfg : Cfg σ} {h : σ} (isOr : Bool) (a b : Expr σ) (ρ ρ' : PEnv)
    (ha : (pden (scOn cfg) h a ρ).v = (pden (scOff cfg) h a ρ').v)
    (hb : (pden (scOn cfg) h b ρ).v = (pden (scOff cfg) h b ρ').v) :
    (pden (scOn cfg) h (.logic isOr a b) ρ).v = (pden (scOff cfg) h (.logic isOr a b) ρ').v := by
  rw [pden.eq_def, pden.eq_def]
  simp only [scOn, scOff] at ha hb ⊢
  rw [ha, hb]
  split
  · rename_i y hy
    split
    · rename_i hh
      rw [ha, hy, hh, logic_absorbed_left]
    · rw [hy]
  · rfl

/-- **C25 (same value).** For every expression of the language, over an activation and steps without
effects, the short-circuiting plan and the exhaustive plan both stop with a value, and the two values are
the same: equal, or both a "no matching overload" error. -/
theorem C25_same_value_partial {cfg : Cfg σ} {h : σ} {P : Value → Prop} (hD : Domain cfg.unknowns P)
    (hT : cfg.unknowns = false ∨ cfg.pats = []) (hmax : cfg.maxIter = 0)
    (hg : ∀ x, ∃ a, cfg.global x h = (.ok a, h) ∧ P a.v) (e : Expr σ) (hl : Lang P h e)
    (ho : ∀ f k, HasOp f k e → PureOp h k f) (hc : NoClash (scOn cfg) e) :
    ∃ v w, (∀ r, Halts (scOn cfg) (plan (scOn cfg) e) (MS.start h) r ↔ r = .value v h) ∧
      (∀ r, Halts (scOff cfg) (plan (scOff cfg) e) (MS.start h) r ↔ r = .value w h) ∧ SameValue v w := by
  have hpg : ∀ x, P (valOf (cfg.global x h)).v := by
    intro x; obtain ⟨a, ha, hp⟩ := hg x; rw [ha]; exact hp
  have hs := pden_same hD hT hpg e hl [] [] trivial
  refine ⟨(pden (scOn cfg) h e []).v, (pden (scOff cfg) h e []).v, fun r => ?_, fun r => ?_, hs.2.2⟩
  · exact plan_pure (cfg := scOn cfg) hmax (fun x => let ⟨a, ha, _⟩ := hg x; ⟨a, ha⟩) e ho hc r
  · exact plan_pure (cfg := scOff cfg) hmax (fun x => let ⟨a, ha, _⟩ := hg x; ⟨a, ha⟩) e ho
      (noClash_exhaustive rfl e) r

end Cel.Macro
