import Verif.Eval.Preserve
import Verif.Eval.DispatchProps
import Verif.Eval.AttributeProps

/-!
# C21 (no internal errors), C27 (iteration budget), C32 (provenance of unknowns)
-/

set_option linter.unusedSimpArgs false
set_option linter.unusedVariables false

namespace Cel.Eval
open Cel

mutual
/-- `f` is one of the steps of the expression, with `n` operands. -/
def HasOp {σ : Type} (f : Op σ) (n : Nat) : Expr σ → Prop
  | .const _ => False
  | .ident _ _ => False
  | .op g args => (f = g ∧ n = args.len) ∨ HasOps f n args
  | .logic _ a b => HasOp f n a ∨ HasOp f n b
  | .cond c t e => HasOp f n c ∨ HasOp f n t ∨ HasOp f n e
  | .comp _ _ _ range init cnd stp res =>
    HasOp f n range ∨ HasOp f n init ∨ HasOp f n cnd ∨ HasOp f n stp ∨ HasOp f n res
  | .bind _ init body => HasOp f n init ∨ HasOp f n body
def HasOps {σ : Type} (f : Op σ) (n : Nat) : Exprs σ → Prop
  | .nil => False
  | .cons e es => HasOp f n e ∨ HasOps f n es
end

mutual
/-- `v` is one of the constants of the expression. -/
def HasConst {σ : Type} (v : Value) : Expr σ → Prop
  | .const w => v = w
  | .ident _ _ => False
  | .op _ args => HasConsts v args
  | .logic _ a b => HasConst v a ∨ HasConst v b
  | .cond c t e => HasConst v c ∨ HasConst v t ∨ HasConst v e
  | .comp _ _ _ range init cnd stp res =>
    HasConst v range ∨ HasConst v init ∨ HasConst v cnd ∨ HasConst v stp ∨ HasConst v res
  | .bind _ init body => HasConst v init ∨ HasConst v body
def HasConsts {σ : Type} (v : Value) : Exprs σ → Prop
  | .nil => False
  | .cons e es => HasConst v e ∨ HasConsts v es
end

section
variable {σ : Type} {cfg : Cfg σ} {Q : Pres σ}

mutual
theorem opsOK_of (e : Expr σ)
    (ho : ∀ f k, HasOp f k e → ∀ xs h n, (∀ x ∈ xs, Q.vp x) → xs.length = k → Q.sp h n → Q.res n (f xs h))
    (hc : ∀ v, HasConst v e → Q.vp ⟨v, none⟩) : OpsOK Q e := by
  cases e with
  | const v => exact hc v rfl
  | ident x a => trivial
  | op f args =>
    exact ⟨fun xs h n => ho f args.len (Or.inl ⟨rfl, rfl⟩) xs h n,
      opsOKs_of args (fun g k hg => ho g k (Or.inr hg)) hc⟩
  | logic o a b =>
    exact ⟨opsOK_of a (fun g k hg => ho g k (Or.inl hg)) (fun v hv => hc v (Or.inl hv)),
      opsOK_of b (fun g k hg => ho g k (Or.inr hg)) (fun v hv => hc v (Or.inr hv))⟩
  | cond c t f =>
    exact ⟨opsOK_of c (fun g k hg => ho g k (Or.inl hg)) (fun v hv => hc v (Or.inl hv)),
      opsOK_of t (fun g k hg => ho g k (Or.inr (Or.inl hg))) (fun v hv => hc v (Or.inr (Or.inl hv))),
      opsOK_of f (fun g k hg => ho g k (Or.inr (Or.inr hg))) (fun v hv => hc v (Or.inr (Or.inr hv)))⟩
  | comp i j a r e0 c s t =>
    exact ⟨opsOK_of r (fun g k hg => ho g k (Or.inl hg)) (fun v hv => hc v (Or.inl hv)),
      opsOK_of e0 (fun g k hg => ho g k (Or.inr (Or.inl hg))) (fun v hv => hc v (Or.inr (Or.inl hv))),
      opsOK_of c (fun g k hg => ho g k (Or.inr (Or.inr (Or.inl hg)))) (fun v hv => hc v (Or.inr (Or.inr (Or.inl hv)))),
      opsOK_of s (fun g k hg => ho g k (Or.inr (Or.inr (Or.inr (Or.inl hg)))))
        (fun v hv => hc v (Or.inr (Or.inr (Or.inr (Or.inl hv))))),
      opsOK_of t (fun g k hg => ho g k (Or.inr (Or.inr (Or.inr (Or.inr hg)))))
        (fun v hv => hc v (Or.inr (Or.inr (Or.inr (Or.inr hv)))))⟩
  | bind x i b =>
    exact ⟨opsOK_of i (fun g k hg => ho g k (Or.inl hg)) (fun v hv => hc v (Or.inl hv)),
      opsOK_of b (fun g k hg => ho g k (Or.inr hg)) (fun v hv => hc v (Or.inr hv))⟩
theorem opsOKs_of (es : Exprs σ)
    (ho : ∀ f k, HasOps f k es → ∀ xs h n, (∀ x ∈ xs, Q.vp x) → xs.length = k → Q.sp h n → Q.res n (f xs h))
    (hc : ∀ v, HasConsts v es → Q.vp ⟨v, none⟩) : OpsOKs Q es := by
  cases es with
  | nil => trivial
  | cons e es =>
    exact ⟨opsOK_of e (fun g k hg => ho g k (Or.inl hg)) (fun v hv => hc v (Or.inl hv)),
      opsOKs_of es (fun g k hg => ho g k (Or.inr hg)) (fun v hv => hc v (Or.inr hv))⟩
end

/-! ## C21 -/

/-- **C21.** The outcome of a planned program is a value, or a status that one of its own steps (or
the activation) returned, or the iteration-budget status; undefined behaviour arises only inside a
step.  In particular no "stack underflow", "jump address out of range", "variable accessed out of
scope" or "stack error" status, and no missing iterator or subexpression, is ever produced by the
machine itself. -/
theorem plan_no_internal_error_partial (e : Expr σ) (h : σ) (hc : NoClash cfg e) (r : Final σ)
    (hr : Halts cfg (plan cfg e) (MS.start h) r)
    (hub : ∀ f k, HasOp f k e → ∀ xs h, xs.length = k → (f xs h).1 ≠ .ub)
    (hubg : ∀ x h, (cfg.global x h).1 ≠ .ub) :
    match r with
    | .value _ _ => True
    | .ub => False
    | .status s h' =>
      (s = budgetError ∧ cfg.maxIter ≠ 0) ∨
      (∃ x h0, cfg.global x h0 = (.err s, h')) ∨
      (∃ f k xs h0, HasOp f k e ∧ xs.length = k ∧ f xs h0 = (.err s, h')) := by
  rw [plan_exact_partial e h hc] at hr
  subst hr
  let Q : Pres σ := ⟨fun _ => True, fun _ _ => True, fun s h' =>
      (s = budgetError ∧ cfg.maxIter ≠ 0) ∨
      (∃ x h0, cfg.global x h0 = (.err s, h')) ∨
      (∃ f k xs h0, HasOp f k e ∧ xs.length = k ∧ f xs h0 = (.err s, h')), False⟩
  have hcl : Closed cfg Q := {
    global := fun x h n _ => by
      cases hg : cfg.global x h with
      | mk r h' =>
        cases r with
        | ok a => exact ⟨trivial, trivial⟩
        | err s => exact Or.inr (Or.inl ⟨x, h, hg⟩)
        | ub => exact hubg x h (by rw [hg])
    logic := fun _ _ _ _ _ => trivial
    tern := fun _ _ _ _ _ _ => trivial
    ternStop := fun _ _ _ _ => trivial
    rangeStop := fun _ _ _ _ => trivial
    item1 := fun _ _ _ _ _ _ => trivial
    item2 := fun _ _ _ _ _ _ => ⟨trivial, trivial⟩
    condStop := fun _ _ _ _ => trivial
    tickOk := fun _ _ _ _ _ => trivial
    tickErr := fun h n _ ht => Or.inl ⟨rfl, fun h0 => by simp [tick, h0] at ht⟩ }
  have hops : OpsOK Q e := opsOK_of e (fun f k hf xs h n _ hl _ => by
    cases hg : f xs h with
    | mk r h' =>
      cases r with
      | ok a => exact ⟨trivial, trivial⟩
      | err s => exact Or.inr (Or.inr ⟨f, k, xs, h, hf, hl, hg⟩)
      | ub => exact hub f k hf xs h hl (by rw [hg])) (fun _ _ => trivial)
  have := den_ok hcl e hops [] ⟨h, 0, []⟩ (by intro p hp; cases hp) ⟨trivial, by simp⟩
  unfold meaning
  cases hd : den cfg e [] ⟨h, 0, []⟩ with
  | ok a s => trivial
  | err s h' => rw [hd] at this; exact this
  | ub => rw [hd] at this; exact this

/-- **C21.** When every step and the activation return values (as all built-in steps do on every
argument), and there is no iteration budget, evaluation always ends with exactly one value. -/
theorem plan_always_value_partial (e : Expr σ) (h : σ) (hc : NoClash cfg e) (hmax : cfg.maxIter = 0)
    (hops : ∀ f k, HasOp f k e → ∀ xs h, xs.length = k → ∃ a h', f xs h = (.ok a, h'))
    (hglob : ∀ x h, ∃ a h', cfg.global x h = (.ok a, h')) :
    ∃ v h', Halts cfg (plan cfg e) (MS.start h) (.value v h') := by
  have hm := plan_correct_partial (cfg := cfg) e h hc
  have := plan_no_internal_error_partial e h hc _ hm
    (fun f k hf xs h hl hu => by obtain ⟨a, h', hf'⟩ := hops f k hf xs h hl; rw [hf'] at hu; cases hu)
    (fun x h hu => by obtain ⟨a, h', hf'⟩ := hglob x h; rw [hf'] at hu; cases hu)
  cases hr : meaning cfg e h with
  | value v h' => rw [hr] at hm; exact ⟨v, h', hm⟩
  | ub => rw [hr] at this; exact this.elim
  | status s h' =>
    rw [hr] at this
    rcases this with h1 | ⟨x, h0, h1⟩ | ⟨f, k, xs, h0, hf, hl, h1⟩
    · exact absurd hmax h1.2
    · obtain ⟨a, h2, h3⟩ := hglob x h0; rw [h3] at h1; cases h1
    · obtain ⟨a, h2, h3⟩ := hops f k hf xs h0 hl; rw [h3] at h1; cases h1

/-- The hypotheses are met by the running example, whose steps are `@not_strictly_false`, `!` and
`==`. -/
example : ∃ v h', Halts exCfg (plan exCfg ex123) (MS.start ()) (.value v h') := by
  refine plan_always_value_partial ex123 () (noClash_noBind (by simp [ex123, exExists, NoBind, NoBinds, args1, args2])) rfl ?_ ?_
  · intro f k hf xs h hl
    simp [ex123, exExists, HasOp, HasOps, args1, args2, Exprs.len] at hf
    rcases hf with (⟨rfl, rfl⟩ | ⟨rfl, rfl⟩) | ⟨rfl, rfl⟩
    · match xs, hl with
      | [x], _ => exact ⟨_, _, rfl⟩
    · match xs, hl with
      | [x], _ => exact ⟨_, _, rfl⟩
    · unfold exEq
      split
      · exact ⟨_, _, rfl⟩
      · exact ⟨_, _, rfl⟩
  · intro x h; exact ⟨_, _, rfl⟩

/-! ## C27 -/

/-- The machine is about to start an iteration of some comprehension: the next instruction fetches
an item and there is one. -/
def StartsIteration (p : Prog σ) (m : MS σ) : Prop :=
  ∃ code i j a off, p[m.code]? = some code ∧ code[m.pc]? = some (.compNext i j a off) ∧
    2 ≤ m.stack.length ∧ ∃ it rest is, m.iters = (it :: rest) :: is

open Classical in
/-- `m` reaches `m'`, and `n` iterations (of any comprehensions) were started on the way. -/
inductive StepsCount (cfg : Cfg σ) (p : Prog σ) : MS σ → Nat → MS σ → Prop where
  | refl (m) : StepsCount cfg p m 0 m
  | snoc {m m' m'' n} : StepsCount cfg p m n m' → step cfg p m' = .next m'' →
      StepsCount cfg p m (if StartsIteration p m' then n + 1 else n) m''

open Classical in
/-- One step advances the counter exactly when it starts an iteration. -/
theorem step_count {p : Prog σ} {m m' : MS σ} (hs : step cfg p m = .next m') (hmax : cfg.maxIter ≠ 0) :
    (StartsIteration p m → m'.count = m.count + 1 ∧ m.count + 1 < cfg.maxIter) ∧
    (¬ StartsIteration p m → m'.count = m.count) := by
  have jcount : ∀ {size : Nat} {off : Int} {a b : MS σ}, jumpTo size off a = .next b → b.count = a.count := by
    intro size off a b h
    unfold jumpTo at h
    split at h
    · cases h
    · cases h; rfl
  unfold step at hs
  cases hp : p[m.code]? with
  | none => rw [hp] at hs; cases hs
  | some code =>
    rw [hp] at hs
    simp only at hs
    cases hc : code[m.pc]? with
    | none =>
      rw [hc] at hs
      simp only at hs
      have hno : ¬ StartsIteration p m := by
        rintro ⟨code', i, j, a, off, h1, h2, _⟩
        rw [hp] at h1; cases h1; rw [hc] at h2; cases h2
      refine ⟨fun h => absurd h hno, fun _ => ?_⟩
      split at hs
      · split at hs
        · unfold finish at hs; split at hs <;> cases hs
        · split at hs
          · cases hs; rfl
          · cases hs
      · unfold finish at hs; split at hs <;> cases hs
    | some i =>
      rw [hc] at hs
      simp only at hs
      by_cases hn : ∃ a b c d, i = .compNext a b c d
      · obtain ⟨a, b, c, d, rfl⟩ := hn
        simp only [exec] at hs
        cases hst : m.stack with
        | nil => rw [hst] at hs; cases hs
        | cons x st =>
          rw [hst] at hs
          cases st with
          | nil => cases hs
          | cons y st =>
            simp only at hs
            cases hit : m.iters with
            | nil => rw [hit] at hs; cases hs
            | cons l its =>
              rw [hit] at hs
              cases l with
              | nil =>
                refine ⟨fun h => ?_, fun _ => by simp only at hs; have hj := jcount hs; exact hj⟩
                obtain ⟨_, _, _, _, _, _, _, _, it, rest, is, h'⟩ := h
                rw [hit] at h'; cases h'
              | cons it rest =>
                simp only at hs
                have hyes : StartsIteration p m :=
                  ⟨code, a, b, c, d, hp, hc, by simp [hst], it, rest, its, hit⟩
                refine ⟨fun _ => ?_, fun h => absurd hyes h⟩
                cases ht : tick cfg.maxIter m.count with
                | none => rw [ht] at hs; cases hs
                | some n =>
                  rw [ht] at hs
                  cases hs
                  unfold tick at ht
                  rw [if_neg hmax] at ht
                  split at ht
                  · cases ht
                  · cases ht; exact ⟨rfl, by omega⟩
      · have hno : ¬ StartsIteration p m := by
          rintro ⟨code', i', j, a, off, h1, h2, _⟩
          rw [hp] at h1; cases h1; rw [hc] at h2; cases h2
          exact hn ⟨_, _, _, _, rfl⟩
        refine ⟨fun h => absurd h hno, fun _ => ?_⟩
        cases i with
        | compNext a b c d => exact absurd ⟨a, b, c, d, rfl⟩ hn
        | const v => cases hs; rfl
        | ident x =>
          simp only [exec] at hs
          split at hs
          · cases hs; rfl
          · cases hs
          · cases hs
        | slot x k =>
          simp only [exec] at hs
          split at hs
          · cases hs; rfl
          · cases hs
        | lazyInit k sub =>
          simp only [exec] at hs
          split at hs <;> (cases hs; rfl)
        | op n f =>
          simp only [exec] at hs
          split at hs
          · cases hs
          · split at hs
            · cases hs; rfl
            · cases hs
            · cases hs
        | logic o =>
          simp only [exec] at hs
          split at hs
          · cases hs; rfl
          · cases hs
        | ternary =>
          simp only [exec] at hs
          split at hs
          · cases hs; rfl
          · cases hs
        | jump off => simp only [exec] at hs; (have hj := jcount hs; exact hj)
        | condJump b l off =>
          simp only [exec] at hs
          split at hs
          · cases hs
          · have hcnt : ∀ st : List VA, (if l = true then { m with pc := m.pc + 1 } else
                { { m with pc := m.pc + 1 } with stack := st }).count = m.count := by
              intro st; split <;> rfl
            split at hs
            · split at hs
              · exact (jcount hs).trans (hcnt _)
              · cases hs; exact hcnt _
            · cases hs; exact hcnt _
        | boolCheckJump off =>
          simp only [exec] at hs
          split at hs
          · cases hs
          · split at hs
            · cases hs; rfl
            · (have hj := jcount hs; exact hj)
            · (have hj := jcount hs; exact hj)
            · (have hj := jcount hs; exact hj)
        | clearSlot k => cases hs; rfl
        | compInit off =>
          simp only [exec] at hs
          split at hs
          · cases hs
          · split at hs
            · (have hj := jcount hs; exact hj)
            · cases hs; rfl
        | compCond a b c d e =>
          simp only [exec] at hs
          split at hs
          · split at hs
            · cases hs; rfl
            · (have hj := jcount hs; exact hj)
            · (have hj := jcount hs; exact hj)
          · cases hs
        | compFinish a =>
          simp only [exec] at hs
          split at hs
          · cases hs; rfl
          · cases hs

open Classical in
theorem count_exact {p : Prog σ} {h : σ} {m : MS σ} {n : Nat} (hmax : cfg.maxIter ≠ 0)
    (hr : StepsCount cfg p (MS.start h) n m) :
    m.count = n ∧ (n = 0 ∨ (n : Int) < cfg.maxIter) := by
  generalize hm0 : MS.start h = m0 at hr
  induction hr with
  | refl => subst hm0; exact ⟨rfl, Or.inl rfl⟩
  | snoc hs hst ih =>
    obtain ⟨ih1, ih2⟩ := ih
    have h1 := step_count hst hmax
    split
    · rename_i hy
      have := h1.1 hy
      rw [this.1, ih1]
      exact ⟨by omega, Or.inr (by omega)⟩
    · rename_i hy
      rw [h1.2 hy, ih1]
      exact ⟨rfl, ih2⟩

open Classical in
/-- **C27.** With a positive budget `N`, whatever the program and however its comprehensions are
nested or sequenced, at every point of every execution fewer than `N` iterations have been
started. -/
theorem iterations_below_budget {p : Prog σ} {h : σ} {m : MS σ} {n : Nat} (hN : 0 < cfg.maxIter)
    (hr : StepsCount cfg p (MS.start h) n m) : (n : Int) < cfg.maxIter := by
  obtain ⟨_, h1⟩ := count_exact (by omega) hr
  rcases h1 with h1 | h1
  · subst h1; simpa using hN
  · exact h1

open Classical in
/-- **C27.** The `N`-th iteration is refused: an execution that has started `N - 1` iterations and is
about to start another one stops with the budget status … -/
theorem budget_refuses {p : Prog σ} {h : σ} {m : MS σ} {n : Nat} (hN : cfg.maxIter ≠ 0)
    (hr : StepsCount cfg p (MS.start h) n m) (hs : StartsIteration p m) (hn : (n : Int) + 1 ≥ cfg.maxIter) :
    step cfg p m = .fin (.status budgetError m.host) := by
  obtain ⟨hc, _⟩ := count_exact hN hr
  obtain ⟨code, i, j, a, off, h1, h2, h3, it, rest, is, h4⟩ := hs
  unfold step
  rw [h1]
  simp only [h2, exec]
  match hst : m.stack, h3 with
  | x :: y :: st, _ =>
    simp only [h4]
    unfold tick
    rw [if_neg hN, if_pos (by rw [hc]; exact hn)]

open Classical in
/-- **C27.** … and no earlier one is: below that, starting an iteration never fails. -/
theorem budget_permits {p : Prog σ} {h : σ} {m : MS σ} {n : Nat}
    (hr : StepsCount cfg p (MS.start h) n m) (hs : StartsIteration p m)
    (hn : cfg.maxIter = 0 ∨ (n : Int) + 1 < cfg.maxIter) :
    ∃ m', step cfg p m = .next m' := by
  obtain ⟨code, i, j, a, off, h1, h2, h3, it, rest, is, h4⟩ := hs
  unfold step
  rw [h1]
  simp only [h2, exec]
  match hst : m.stack, h3 with
  | x :: y :: st, _ =>
    simp only [h4]
    rcases hn with hn | hn
    · simp [tick, hn]
    · have hN : cfg.maxIter ≠ 0 := by omega
      obtain ⟨hc, _⟩ := count_exact hN hr
      unfold tick
      rw [if_neg hN, if_neg (by rw [hc]; omega)]
      exact ⟨_, rfl⟩

/-- A budget of 3 is exceeded by `[1,2,3].exists(x, x == 3)` (the third iteration is refused) but not
by `[1,2,3].exists(x, x == 1)` (which looks at one item beyond the match). -/
example : Halts { exCfg with maxIter := 3 } (plan { exCfg with maxIter := 3 }
      (exExists (.const (.list [.int 1, .int 2, .int 3])) "x" 3)) (MS.start ()) (.status budgetError ()) ∧
    Halts { exCfg with maxIter := 3 } (plan { exCfg with maxIter := 3 }
      (exExists (.const (.list [.int 1, .int 2, .int 3])) "x" 1)) (MS.start ()) (.value (.bool true) ()) :=
  ⟨run_halts (n := 60) rfl, run_halts (n := 60) rfl⟩

end

end Cel.Eval
