import Verif.Eval.Correct

/-!
# C21, C22, C24: planned programs compute the meaning of expressions

`meaning` (`Verif/Eval/Expr.lean`) is the specification; `plan` and `Halts` are the planner and the
machine.
-/

set_option linter.unusedSimpArgs false
set_option linter.unusedVariables false

namespace Cel.Eval
open Cel

/-- The slots reserved for `cel.bind` variables are disjoint from the slots of iteration variables
(of comprehensions that can stop early). -/
def NoClash {σ : Type} (cfg : Cfg σ) (e : Expr σ) : Prop := ∃ B : Nat → Prop, Safe cfg B false 0 e

mutual
/-- No `cel.bind` occurs in the expression. -/
def NoBind {σ : Type} : Expr σ → Prop
  | .const _ => True
  | .ident _ _ => True
  | .op _ args => NoBinds args
  | .logic _ a b => NoBind a ∧ NoBind b
  | .cond c t f => NoBind c ∧ NoBind t ∧ NoBind f
  | .comp _ _ _ range init cnd stp res =>
    NoBind range ∧ NoBind init ∧ NoBind cnd ∧ NoBind stp ∧ NoBind res
  | .bind _ _ _ => False
def NoBinds {σ : Type} : Exprs σ → Prop
  | .nil => True
  | .cons e es => NoBind e ∧ NoBinds es
end

mutual
/-- No comprehension other than `cel.bind` occurs in the expression. -/
def NoComp {σ : Type} : Expr σ → Prop
  | .const _ => True
  | .ident _ _ => True
  | .op _ args => NoComps args
  | .logic _ a b => NoComp a ∧ NoComp b
  | .cond c t f => NoComp c ∧ NoComp t ∧ NoComp f
  | .comp _ _ _ _ _ _ _ _ => False
  | .bind _ init body => NoComp init ∧ NoComp body
def NoComps {σ : Type} : Exprs σ → Prop
  | .nil => True
  | .cons e es => NoComp e ∧ NoComps es
end

section
variable {σ : Type} {cfg : Cfg σ}

mutual
theorem safe_exhaustive (h : cfg.shortCircuit = false) (e : Expr σ) : ∀ ini n,
    Safe cfg (fun _ => True) ini n e := by
  cases e with
  | const v => intro ini n; trivial
  | ident x a => intro ini n; trivial
  | op f args => intro ini n; exact safe_exhaustives h args ini n
  | logic o a b => intro ini n; exact ⟨safe_exhaustive h a _ _, safe_exhaustive h b _ _⟩
  | cond c t f => intro ini n; exact ⟨safe_exhaustive h c _ _, safe_exhaustive h t _ _, safe_exhaustive h f _ _⟩
  | comp a b c d e f g i =>
    intro ini n
    exact ⟨Or.inl h, safe_exhaustive h d _ _, safe_exhaustive h e _ _, safe_exhaustive h f _ _,
      safe_exhaustive h g _ _, safe_exhaustive h i _ _⟩
  | bind x i b => intro ini n; exact ⟨trivial, safe_exhaustive h i _ _, safe_exhaustive h b _ _⟩
theorem safe_exhaustives (h : cfg.shortCircuit = false) (es : Exprs σ) : ∀ ini n,
    SafeArgs cfg (fun _ => True) ini n es := by
  cases es with
  | nil => intro ini n; trivial
  | cons e es => intro ini n; exact ⟨safe_exhaustive h e _ _, safe_exhaustives h es _ _⟩
end

mutual
theorem safe_noBind (e : Expr σ) (h : NoBind e) : ∀ ini n, Safe cfg (fun _ => False) ini n e := by
  cases e with
  | const v => intro ini n; trivial
  | ident x a => intro ini n; trivial
  | op f args => intro ini n; exact safe_noBinds args h ini n
  | logic o a b => intro ini n; exact ⟨safe_noBind a h.1 _ _, safe_noBind b h.2 _ _⟩
  | cond c t f => intro ini n; exact ⟨safe_noBind c h.1 _ _, safe_noBind t h.2.1 _ _, safe_noBind f h.2.2 _ _⟩
  | comp a b c d e f g i =>
    intro ini n
    exact ⟨Or.inr (fun _ _ _ hf => hf), safe_noBind d h.1 _ _, safe_noBind e h.2.1 _ _, safe_noBind f h.2.2.1 _ _,
      safe_noBind g h.2.2.2.1 _ _, safe_noBind i h.2.2.2.2 _ _⟩
  | bind x i b => exact h.elim
theorem safe_noBinds (es : Exprs σ) (h : NoBinds es) : ∀ ini n, SafeArgs cfg (fun _ => False) ini n es := by
  cases es with
  | nil => intro ini n; trivial
  | cons e es => intro ini n; exact ⟨safe_noBind e h.1 _ _, safe_noBinds es h.2 _ _⟩
end

mutual
theorem safe_noComp (e : Expr σ) (h : NoComp e) : ∀ ini n, Safe cfg (fun _ => True) ini n e := by
  cases e with
  | const v => intro ini n; trivial
  | ident x a => intro ini n; trivial
  | op f args => intro ini n; exact safe_noComps args h ini n
  | logic o a b => intro ini n; exact ⟨safe_noComp a h.1 _ _, safe_noComp b h.2 _ _⟩
  | cond c t f => intro ini n; exact ⟨safe_noComp c h.1 _ _, safe_noComp t h.2.1 _ _, safe_noComp f h.2.2 _ _⟩
  | comp a b c d e f g i => exact h.elim
  | bind x i b => intro ini n; exact ⟨trivial, safe_noComp i h.1 _ _, safe_noComp b h.2 _ _⟩
theorem safe_noComps (es : Exprs σ) (h : NoComps es) : ∀ ini n, SafeArgs cfg (fun _ => True) ini n es := by
  cases es with
  | nil => intro ini n; trivial
  | cons e es => intro ini n; exact ⟨safe_noComp e h.1 _ _, safe_noComps es h.2 _ _⟩
end

/-- Exhaustive evaluation never clashes. -/
theorem noClash_exhaustive (h : cfg.shortCircuit = false) (e : Expr σ) : NoClash cfg e :=
  ⟨_, safe_exhaustive h e false 0⟩
/-- Expressions without `cel.bind` never clash. -/
theorem noClash_noBind {e : Expr σ} (h : NoBind e) : NoClash cfg e := ⟨_, safe_noBind e h false 0⟩
/-- Expressions whose only comprehensions are `cel.bind`s never clash. -/
theorem noClash_noComp {e : Expr σ} (h : NoComp e) : NoClash cfg e := ⟨_, safe_noComp e h false 0⟩

/-- **C22.** The flattened program of an expression stops with the expression's meaning: the same
value, error or unknown set, the same failing status, the same effects on the host — in both
evaluation modes, with and without attribute tracking, for every nesting of comprehensions and
`cel.bind`s, provided bind slots do not clash with iteration slots. -/
theorem plan_correct_partial (e : Expr σ) (h : σ) (hc : NoClash cfg e) :
    Halts cfg (plan cfg e) (MS.start h) (meaning cfg e h) := by
  obtain ⟨B, hs⟩ := hc
  have hsim := sim_expr (cfg := cfg) (P := plan cfg e) (B := B) e [] [] false 0 (width e) 1 0 0
    (compile cfg [] false 0 1 e).1 trivial trivial (by omega) hs rfl (codeAt_self _)
    (by
      have := codeAt_self (plan cfg e)
      exact this.2)
    [] [] (fun _ => none) [] ⟨h, 0, []⟩ ⟨trivial, fun _ _ _ _ => rfl⟩
  unfold meaning
  cases ho : den cfg e [] ⟨h, 0, []⟩ with
  | err s h' => rw [ho] at hsim; exact hsim
  | ub => rw [ho] at hsim; exact hsim
  | ok x s =>
    rw [ho] at hsim
    obtain ⟨sl, hst, _, _⟩ := hsim
    refine Halts.of_steps hst (Halts.of_step ?_)
    simp [step, plan, finish, Out.final]

/-- **C22.** … and with nothing else: the outcome of running the plan is exactly the meaning. -/
theorem plan_exact_partial (e : Expr σ) (h : σ) (hc : NoClash cfg e) (r : Final σ) :
    Halts cfg (plan cfg e) (MS.start h) r ↔ r = meaning cfg e h :=
  ⟨fun hr => hr.unique (plan_correct_partial e h hc), fun hr => hr ▸ plan_correct_partial e h hc⟩

/-- Hypothesis-free instance of `plan_correct_partial` for exhaustive evaluation. -/
theorem plan_correct_exhaustive (e : Expr σ) (h : σ) (hsc : cfg.shortCircuit = false) :
    Halts cfg (plan cfg e) (MS.start h) (meaning cfg e h) := plan_correct_partial e h (noClash_exhaustive hsc e)

/-- Instance of `plan_correct_partial` for expressions without `cel.bind`, in both modes. -/
theorem plan_correct_noBind (e : Expr σ) (h : σ) (hb : NoBind e) :
    Halts cfg (plan cfg e) (MS.start h) (meaning cfg e h) := plan_correct_partial e h (noClash_noBind hb)

end

/-! ## Running the machine on a concrete program -/

/-- The machine with fuel. -/
def run {σ : Type} (cfg : Cfg σ) (p : Prog σ) : Nat → MS σ → Option (Final σ)
  | 0, _ => none
  | n + 1, m =>
    match step cfg p m with
    | .next m' => run cfg p n m'
    | .fin r => some r

theorem run_halts {σ : Type} {cfg : Cfg σ} {p : Prog σ} {r : Final σ} :
    ∀ {n : Nat} {m : MS σ}, run cfg p n m = some r → Halts cfg p m r
  | 0, _, h => by cases h
  | n + 1, m, h => by
    unfold run at h
    cases hs : step cfg p m with
    | next m' =>
      rw [hs] at h
      exact Halts.of_steps (Steps.one hs) (run_halts h)
    | fin r' =>
      rw [hs] at h
      cases h
      exact Halts.of_step hs

/-! ## Concrete programs -/

/-- `_==_` on ints, enough for the examples. -/
def exEq : Op Unit := fun xs h =>
  match xs with
  | [⟨.int a, _⟩, ⟨.int b, _⟩] => (.ok ⟨.bool (decide (a = b)), none⟩, h)
  | _ => (.ok ⟨.error (noOverload "_==_"), none⟩, h)

/-- `@not_strictly_false`. -/
def exNsf : Op Unit := fun xs h =>
  match xs with
  | [x] => (.ok (notStrictlyFalse x), h)
  | _ => (.ub, h)

/-- `!_`. -/
def exNot : Op Unit := fun xs h =>
  match xs with
  | [x] => (.ok (notStep false [] x), h)
  | _ => (.ub, h)

def args1 {σ : Type} (a : Expr σ) : Exprs σ := .cons a .nil
def args2 {σ : Type} (a b : Expr σ) : Exprs σ := .cons a (.cons b .nil)

/-- Default options, an empty activation. -/
def exCfg : Cfg Unit := ⟨true, false, [], 0, lookupIdent false false false [] [] (fun _ => none)⟩

/-- `r.exists(x, x == n)` as the parser expands it. -/
def exExists (r : Expr Unit) (x : String) (n : Int) : Expr Unit :=
  .comp x none "__result__" r (.const (.bool false))
    (.op exNsf (args1 (.op exNot (args1 (.ident "__result__" false)))))
    (.logic true (.ident "__result__" false) (.op exEq (args2 (.ident x false) (.const (.int n)))))
    (.ident "__result__" false)

/-- `[1, 2, 3].exists(x, x == 2)` -/
def ex123 : Expr Unit := exExists (.const (.list [.int 1, .int 2, .int 3])) "x" 2

/-- The hypotheses of `plan_correct_partial` are met by a program with a comprehension that stops early. -/
example : Halts exCfg (plan exCfg ex123) (MS.start ()) (.value (.bool true) ()) :=
  plan_correct_noBind ex123 () (by simp [ex123, exExists, NoBind, NoBinds, args1, args2])

/-- `cel.bind(y, 10, y == 10)` -/
def exBind : Expr Unit :=
  .bind "y" (.const (.int 10)) (.op exEq (args2 (.ident "y" false) (.const (.int 10))))

/-- … and by a `cel.bind` whose variable is read, nested with a comprehension when evaluation is
exhaustive. -/
example : Halts { exCfg with shortCircuit := false } (plan { exCfg with shortCircuit := false } (.logic false ex123 exBind))
    (MS.start ()) (.value (.bool true) ()) :=
  plan_correct_exhaustive (.logic false ex123 exBind) () rfl

/-- A bind around a comprehension does not clash even with short-circuiting:
`cel.bind(y, 10, [1,2,3].exists(x, x == 2))`. -/
example : NoClash exCfg (.bind "y" (.const (.int 10)) ex123) :=
  ⟨fun j => j = 0, rfl, trivial, Or.inr (fun j h1 h2 h3 => by simp [width] at h1; omega),
    by simp [ex123, exExists, Safe, SafeArgs, args1, args2]⟩

/-- **C22 (disagreement found).** `[1,2,3].exists(x, x == 2) && cel.bind(y, 10, y == 10)` means
`true`, … -/
theorem clash_meaning : meaning exCfg (.logic false ex123 exBind) () = .value (.bool true) () := rfl

/-- … but the planned program computes `false`: the early exit of the comprehension leaves its
iteration variable in slot 0 (`eval/eval/comprehension_step.cc` lines 625-627 jump to the result
without clearing it, and `ComprehensionFinishStep` clears only the accumulator), and the `cel.bind`
variable, which reuses slot 0, finds that stale value instead of evaluating its initializer. -/
theorem clash_machine :
    Halts exCfg (plan exCfg (.logic false ex123 exBind)) (MS.start ()) (.value (.bool false) ()) :=
  run_halts (n := 60) rfl

/-- So the hypothesis `NoClash` of `plan_correct_partial` cannot be dropped. -/
theorem clash_not_correct :
    ¬ ∀ (e : Expr Unit), Halts exCfg (plan exCfg e) (MS.start ()) (meaning exCfg e ()) := by
  intro h
  have h1 := h (.logic false ex123 exBind)
  rw [clash_meaning] at h1
  have := h1.unique clash_machine
  cases this

/-! ## C24 -/

section
variable {σ : Type} {cfg : Cfg σ}

/-- **C24.** With short-circuiting, when the condition is true the outcome (value, status, and every
effect on the host) does not depend on the third operand: it is never evaluated. -/
theorem cond_true_ignores_else (hsc : cfg.shortCircuit = true) (c t f f' : Expr σ) (h : σ) (r : Final σ)
    (hc : NoClash cfg (.cond c t f)) (hc' : NoClash cfg (.cond c t f'))
    {tr : Trail} {s : SS σ} (hv : den cfg c [] ⟨h, 0, []⟩ = .ok ⟨.bool true, tr⟩ s) :
    Halts cfg (plan cfg (.cond c t f)) (MS.start h) r ↔ Halts cfg (plan cfg (.cond c t f')) (MS.start h) r := by
  rw [plan_exact_partial _ _ hc, plan_exact_partial _ _ hc']
  simp [meaning, den, hv, Out.bind, hsc, ternOf]

/-- **C24.** Likewise when the condition is false, for the second operand. -/
theorem cond_false_ignores_then (hsc : cfg.shortCircuit = true) (c t t' f : Expr σ) (h : σ) (r : Final σ)
    (hc : NoClash cfg (.cond c t f)) (hc' : NoClash cfg (.cond c t' f))
    {tr : Trail} {s : SS σ} (hv : den cfg c [] ⟨h, 0, []⟩ = .ok ⟨.bool false, tr⟩ s) :
    Halts cfg (plan cfg (.cond c t f)) (MS.start h) r ↔ Halts cfg (plan cfg (.cond c t' f)) (MS.start h) r := by
  rw [plan_exact_partial _ _ hc, plan_exact_partial _ _ hc']
  simp [meaning, den, hv, Out.bind, hsc, ternOf]

/-- **C24.** A condition that is an error or an unknown set is the result, and neither branch is
evaluated (the host is as the condition left it). -/
theorem cond_stops (hsc : cfg.shortCircuit = true) (c t f : Expr σ) (h : σ)
    (hc : NoClash cfg (.cond c t f)) {x : VA} {s : SS σ} (hv : den cfg c [] ⟨h, 0, []⟩ = .ok x s)
    (hx : x.v.isError = true ∨ x.v.isUnknown = true) :
    Halts cfg (plan cfg (.cond c t f)) (MS.start h) (.value x.v s.host) := by
  rw [plan_exact_partial _ _ hc]
  cases hxv : x.v <;> simp_all [Value.isError, Value.isUnknown, meaning, den, Out.bind, ternOf, Out.final]

/-- **C24.** A condition that is neither bool, error nor unknown gives a no-matching-overload error,
again without evaluating either branch. -/
theorem cond_non_bool (hsc : cfg.shortCircuit = true) (c t f : Expr σ) (h : σ)
    (hc : NoClash cfg (.cond c t f)) {x : VA} {s : SS σ} (hv : den cfg c [] ⟨h, 0, []⟩ = .ok x s)
    (h1 : x.v.isError = false) (h2 : x.v.isUnknown = false) (h3 : x.v.kind ≠ kBool) :
    Halts cfg (plan cfg (.cond c t f)) (MS.start h)
      (.value (.error (noOverload "<jump_condition>")) s.host) := by
  rw [plan_exact_partial _ _ hc]
  cases hxv : x.v <;>
    simp_all [Value.isError, Value.isUnknown, Value.kind, meaning, den, Out.bind, ternOf, Out.final]

/-- **C24 for the logical operators.** With short-circuiting, an absorbing left operand decides the
outcome and the right operand is never evaluated. -/
theorem logic_absorbing_ignores_rhs (hsc : cfg.shortCircuit = true) (isOr : Bool) (a b b' : Expr σ) (h : σ)
    (r : Final σ) (hc : NoClash cfg (.logic isOr a b)) (hc' : NoClash cfg (.logic isOr a b'))
    {tr : Trail} {s : SS σ} (hv : den cfg a [] ⟨h, 0, []⟩ = .ok ⟨.bool isOr, tr⟩ s) :
    Halts cfg (plan cfg (.logic isOr a b)) (MS.start h) r ↔
      Halts cfg (plan cfg (.logic isOr a b')) (MS.start h) r := by
  rw [plan_exact_partial _ _ hc, plan_exact_partial _ _ hc']
  simp [meaning, den, hv, Out.bind, hsc]

/-- The hypotheses of the C24 theorems are met with an untaken branch that would fail. -/
example : Halts exCfg (plan exCfg (.cond (.const (.bool true)) (.const (.int 1)) (.op (fun _ h => (.ub, h)) .nil)))
    (MS.start ()) (.value (.int 1) ()) :=
  (cond_true_ignores_else (cfg := exCfg) rfl _ _ (.op (fun _ h => (.ub, h)) .nil) (.const .null) () _
    (noClash_noBind (by simp [NoBind, NoBinds])) (noClash_noBind (by simp [NoBind, NoBinds]))
    (tr := none) (s := ⟨(), 0, []⟩) rfl).2
    (plan_correct_noBind (.cond (.const (.bool true)) (.const (.int 1)) (.const .null)) () (by simp [NoBind]))

end

end Cel.Eval
