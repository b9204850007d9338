import Verif.Eval.CorrectParts

/-!
# The flattened program computes the meaning
-/

set_option linter.unusedSimpArgs false
set_option linter.unusedVariables false

namespace Cel.Eval
open Cel

mutual
/-- No slot of a `cel.bind` variable (in `B`) is also the slot of an iteration variable of a
comprehension that can stop early.  `ini`, `n` as in `compile`. -/
def Safe {σ : Type} (cfg : Cfg σ) (B : Nat → Prop) (ini : Bool) (n : Nat) : Expr σ → Prop
  | .const _ => True
  | .ident _ _ => True
  | .op _ args => SafeArgs cfg B ini n args
  | .logic _ a b => Safe cfg B ini n a ∧ Safe cfg B ini (after ini n a) b
  | .cond c t f =>
    Safe cfg B ini n c ∧ Safe cfg B ini (after ini n c) t ∧ Safe cfg B ini (after ini (after ini n c) t) f
  | .comp _ iter2 _ range init cnd stp res =>
    let n0 := n + iterSlots iter2 + 1
    let n1 := after ini n0 range
    let n2 := after ini n1 init
    let n3 := after ini n2 cnd
    let n4 := after ini n3 stp
    (cfg.shortCircuit = false ∨ ∀ j, n ≤ j → j < n + iterSlots iter2 → ¬ B j) ∧
    Safe cfg B ini n0 range ∧ Safe cfg B ini n1 init ∧ Safe cfg B ini n2 cnd ∧
    Safe cfg B ini n3 stp ∧ Safe cfg B ini n4 res
  | .bind _ init body =>
    B n ∧ Safe cfg B true (n + 1) init ∧ Safe cfg B ini (n + 1 + width init) body
def SafeArgs {σ : Type} (cfg : Cfg σ) (B : Nat → Prop) (ini : Bool) (n : Nat) : Exprs σ → Prop
  | .nil => True
  | .cons e es => Safe cfg B ini n e ∧ SafeArgs cfg B ini (after ini n e) es
end

section
variable {σ : Type} {cfg : Cfg σ} {P : Prog σ} {B : Nat → Prop}

theorem after_le (ini : Bool) (n : Nat) (e : Expr σ) : n ≤ after ini n e ∧ after ini n e ≤ n + width e := by
  unfold after; split <;> omega

/-- Simulation for operand lists. -/
def SimArgs (cfg : Cfg σ) (P : Prog σ) (B : Nat → Prop) (Γ : Scope) (ρ : Env σ) (k pc pc' n N : Nat)
    (f : SS σ → Out σ (List VA)) : Prop :=
  ∀ (st : List VA) (its : List (List Item)) (sl : Slots) (cs : List (Nat × Nat × Nat)) (s : SS σ),
    Inv B Γ ρ n N sl s.heap →
    Concl cfg P B Γ ρ n N ⟨k, pc, st, its, sl, cs, s.host, s.count⟩ k pc' (fun xs => xs.reverse ++ st) its cs sl
      s.heap (f s)

theorem denArgs_len (es : Exprs σ) : ∀ {ρ : Env σ} {s s' : SS σ} {xs : List VA},
    denArgs cfg es ρ s = .ok xs s' → xs.length = es.len := by
  induction es using Exprs.rec (motive_1 := fun _ => True) with
  | nil => intro ρ s s' xs h; simp only [denArgs] at h; cases h; rfl
  | cons e es _ ih =>
    intro ρ s s' xs h
    simp only [denArgs] at h
    cases h1 : den cfg e ρ s with
    | ok x s1 =>
      rw [h1] at h
      simp only [Out.bind] at h
      cases h2 : denArgs cfg es ρ s1 with
      | ok ys s2 =>
        rw [h2] at h
        simp only [Out.bind] at h
        cases h
        simp [Exprs.len, ih h2]
      | err e h' => rw [h2] at h; cases h
      | ub => rw [h2] at h; cases h
    | err e h' => rw [h1] at h; cases h
    | ub => rw [h1] at h; cases h
  | _ => trivial

theorem ite_mem {x : VA} {st : List VA} : x :: st = [x] ++ st := rfl

mutual
theorem sim_expr (e : Expr σ) : ∀ (Γ : Scope) (ρ : Env σ) (ini : Bool) (n N m k pc : Nat)
    (code : List (Instr σ)), WF Γ n → Good cfg P B Γ ρ → n + width e ≤ N → Safe cfg B ini n e →
    P[k]? = some code → CodeAt code pc (compile cfg Γ ini n m e).1 →
    CodeAt P m (compile cfg Γ ini n m e).2 →
    Sim cfg P B Γ ρ k pc (pc + (compile cfg Γ ini n m e).1.length) n N (den cfg e ρ) := by
  cases e with
  | const v =>
    intro Γ ρ ini n N m k pc code wf hg hN hsafe hk hcode hsubs st its sl cs s hi
    simp only [compile, codeAt_cons] at hcode
    simp only [den, compile, List.length_singleton]
    refine Concl.ok sl (Steps.one ?_) hi Chg.refl
    rw [step_at hk hcode.1]
    rfl
  | ident x abs =>
    intro Γ ρ ini n N m k pc code wf hg hN hsafe hk hcode hsubs st its sl cs s hi
    cases hx : (if abs = true then none else scopeGet Γ x) with
    | none =>
      have hρ : (if abs = true then none else envGet ρ x) = none := by
        cases abs with
        | true => rfl
        | false => exact rel_none hi.1 hx
      simp only [compile, hx, codeAt_cons] at hcode
      simp only [den, hρ, compile, hx, List.length_singleton]
      cases hgl : cfg.global x s.host with
      | mk r h =>
        cases r with
        | ok a =>
          refine Concl.ok sl (Steps.one ?_) hi Chg.refl
          rw [step_at hk hcode.1]
          simp [exec, hgl]
        | err e =>
          refine Halts.of_step ?_
          rw [step_at hk hcode.1]
          simp [exec, hgl]
        | ub =>
          refine Halts.of_step ?_
          rw [step_at hk hcode.1]
          simp [exec, hgl]
    | some en =>
      cases abs with
      | true => cases hx
      | false =>
        have hx' : scopeGet Γ x = some en := hx
        have hcode' : code[pc]? = some (entInstr x en) := by
          cases en <;> (simp only [compile, hx, codeAt_cons] at hcode; exact hcode.1)
        have hlen : (compile cfg Γ ini n m (.ident x false : Expr σ)).1.length = 1 := by
          cases en <;> simp [compile, hx']
        obtain ⟨b, hb, hc⟩ := sim_var (B := B) (st := st) (its := its) (cs := cs) (s := s) (sl := sl) hk Γ ρ n en wf hg hi.1 hx' hcode'
        rw [hlen]
        have : den cfg (.ident x false) ρ s = readBinding b s := by simp [den, hb]
        simp only [this]
        exact Concl.region wf hi hc
  | op f args =>
    intro Γ ρ ini n N m k pc code wf hg hN hsafe hk hcode hsubs st its sl cs s hi
    simp only [compile, codeAt_append, codeAt_cons] at hcode hsubs
    obtain ⟨hc1, hc2, _⟩ := hcode
    have hA := sim_args args Γ ρ ini n N m k pc code wf hg (by simpa [width] using hN)
      (by simpa [Safe] using hsafe) hk hc1 hsubs st its sl cs s hi
    have hlen : (compile cfg Γ ini n m (.op f args)).1.length = (compileArgs cfg Γ ini n m args).1.length + 1 := by
      simp [compile]
    rw [hlen]
    show Concl cfg P B Γ ρ n N _ k _ _ its cs sl s.heap (den cfg (.op f args) ρ s)
    simp only [den]
    cases ho : denArgs cfg args ρ s with
    | err e h => rw [ho] at hA; exact hA
    | ub => rw [ho] at hA; exact hA
    | ok xs s1 =>
      rw [ho] at hA
      obtain ⟨sl1, hs1, hi1, hch1⟩ := hA
      have hl := denArgs_len args ho
      have h1 : ¬ (xs.reverse ++ st).length < args.len := by simp [hl]
      have h2 : ((xs.reverse ++ st).take args.len).reverse = xs := by
        rw [← hl, ← List.length_reverse, List.take_left, List.reverse_reverse]
      have h3 : (xs.reverse ++ st).drop args.len = st := by
        rw [← hl, ← List.length_reverse, List.drop_left]
      refine Concl.steps hs1 ?_
      have hstep := step_at (cfg := cfg) hk hc2 (xs.reverse ++ st) its sl1 cs s1.host s1.count
      simp only [exec, if_neg h1, h2, h3] at hstep
      simp only [Out.bind]
      cases hf : f xs s1.host with
      | mk r h =>
        rw [hf] at hstep
        cases r with
        | ok a => exact Concl.ok sl1 (Steps.one hstep) hi1 hch1
        | err e => exact Halts.of_step hstep
        | ub => exact Halts.of_step hstep
  | logic isOr a b =>
    intro Γ ρ ini n N m k pc code wf hg hN hsafe hk hcode hsubs st its sl cs s hi
    simp only [width] at hN
    simp only [Safe] at hsafe
    have hal := after_le ini n a
    show Concl cfg P B Γ ρ n N _ k _ _ its cs sl s.heap (den cfg (.logic isOr a b) ρ s)
    simp only [den]
    by_cases hsc : cfg.shortCircuit = true
    · simp only [compile, hsc, if_true, codeAt_append, codeAt_cons, List.length_cons, List.length_nil] at hcode hsubs
      obtain ⟨hca, ⟨hcj, _⟩, hcb, hcl, _⟩ := hcode
      have hlen : (compile cfg Γ ini n m (.logic isOr a b)).1.length
          = (compile cfg Γ ini n m a).1.length + 1 +
            (compile cfg Γ ini (after ini n a) (m + (compile cfg Γ ini n m a).2.length) b).1.length + 1 := by
        simp [compile, hsc]; omega
      rw [hlen]
      have hle := codeAt_le hcb
      have hA := sim_expr a Γ ρ ini n N m k pc code wf hg (by omega) hsafe.1 hk hca hsubs.1 st its sl cs s hi
      refine Concl.bind (Nat.le_refl _) wf hi hA ?_
      intro x s1 sl1 hi1 hch1
      have hstep := step_at (cfg := cfg) hk hcj (x :: st) its sl1 cs s1.host s1.count
      simp only [exec, if_true] at hstep
      have hgo : ∀ (hs : step cfg P ⟨k, pc + (compile cfg Γ ini n m a).1.length, x :: st, its, sl1, cs, s1.host, s1.count⟩ =
            .next ⟨k, pc + (compile cfg Γ ini n m a).1.length + 1, x :: st, its, sl1, cs, s1.host, s1.count⟩),
          Concl cfg P B Γ ρ n N ⟨k, pc + (compile cfg Γ ini n m a).1.length, x :: st, its, sl1, cs, s1.host, s1.count⟩ k
            (pc + ((compile cfg Γ ini n m a).1.length + 1 +
              (compile cfg Γ ini (after ini n a) (m + (compile cfg Γ ini n m a).2.length) b).1.length + 1))
            (· :: st) its cs sl1 s1.heap
            ((den cfg b ρ s1).bind fun z s => .ok ⟨calcLogic isOr cfg.unknowns x.v z.v, none⟩ s) := by
        intro hs
        refine Concl.steps (Steps.one hs) ?_
        have hB := sim_expr b Γ ρ ini (after ini n a) N _ k _ code (wf.mono hal.1) hg (by omega) hsafe.2 hk
          hcb hsubs.2 (x :: st) its sl1 cs s1 (hi1.mono hal.1)
        refine Concl.bind hal.1 wf hi1 hB ?_
        intro z s2 sl2 hi2 hch2
        refine Concl.ok sl2 (Steps.one ?_) hi2 Chg.refl
        rw [step_at hk hcl]
        simp only [exec]
        congr 2
        omega
      cases hv : x.v with
      | bool y =>
        by_cases hy : y = isOr
        · simp only [hsc, if_pos hy]
          simp only [hv, if_pos hy.symm] at hstep
          refine Concl.ok sl1 (Steps.one ?_) hi1 Chg.refl
          rw [hstep, jump_ok _ _ _ _ _ _ (pc' := pc + ((compile cfg Γ ini n m a).1.length + 1 +
              (compile cfg Γ ini (after ini n a) (m + (compile cfg Γ ini n m a).2.length) b).1.length + 1)) (by omega)]
          have := (List.getElem?_eq_some_iff.1 hcl).1
          omega
        · simp only [hsc, if_neg hy]
          simp only [hv, if_neg (Ne.symm hy)] at hstep
          rw [← hv]; exact hgo hstep
      | _ => simp only [hsc]; simp only [hv] at hstep; rw [← hv]; exact hgo hstep
    · have hsc' : cfg.shortCircuit = false := by cases h : cfg.shortCircuit <;> simp_all
      simp only [compile, hsc', Bool.false_eq_true, if_false, codeAt_append, codeAt_cons] at hcode hsubs
      obtain ⟨hca, hcb, hcl, _⟩ := hcode
      have hlen : (compile cfg Γ ini n m (.logic isOr a b)).1.length
          = (compile cfg Γ ini n m a).1.length +
            (compile cfg Γ ini (after ini n a) (m + (compile cfg Γ ini n m a).2.length) b).1.length + 1 := by
        simp [compile, hsc']; omega
      rw [hlen]
      have hA := sim_expr a Γ ρ ini n N m k pc code wf hg (by omega) hsafe.1 hk hca hsubs.1 st its sl cs s hi
      refine Concl.bind (Nat.le_refl _) wf hi hA ?_
      intro x s1 sl1 hi1 hch1
      simp only [hsc']
      have hB := sim_expr b Γ ρ ini (after ini n a) N _ k _ code (wf.mono hal.1) hg (by omega) hsafe.2 hk
        hcb hsubs.2 (x :: st) its sl1 cs s1 (hi1.mono hal.1)
      refine Concl.bind hal.1 wf hi1 hB ?_
      intro z s2 sl2 hi2 hch2
      refine Concl.ok sl2 (Steps.one ?_) hi2 Chg.refl
      rw [step_at hk hcl]
      simp only [exec]
      congr 2
      omega
  | cond c t f =>
    intro Γ ρ ini n N m k pc code wf hg hN hsafe hk hcode hsubs st its sl cs s hi
    simp only [width] at hN
    simp only [Safe] at hsafe
    have hac := after_le ini n c
    have hat := after_le ini (after ini n c) t
    show Concl cfg P B Γ ρ n N _ k _ _ its cs sl s.heap (den cfg (.cond c t f) ρ s)
    simp only [den]
    by_cases hsc : cfg.shortCircuit = true
    · simp only [compile, hsc, if_true, codeAt_append, codeAt_cons, List.length_cons, List.length_nil] at hcode hsubs
      obtain ⟨hcc, ⟨hcj, hcj2, _⟩, hct, ⟨hcj3, _⟩, hcf⟩ := hcode
      obtain ⟨hsc1, hsc2, hsc3⟩ := hsubs
      have hle := codeAt_le hcf
      generalize hrc : compile cfg Γ ini n m c = rc at *
      generalize hrt : compile cfg Γ ini (after ini n c) (m + rc.2.length) t = rt at *
      generalize hrf : compile cfg Γ ini (after ini (after ini n c) t) (m + rc.2.length + rt.2.length) f = rf at *
      have hlen : (compile cfg Γ ini n m (.cond c t f)).1.length
          = rc.1.length + 2 + rt.1.length + 1 + rf.1.length := by
        simp [compile, hsc, hrc, hrt, hrf]; omega
      rw [hlen]
      have hA := sim_expr c Γ ρ ini n N m k pc code wf hg (by omega) hsafe.1 hk (by rw [hrc]; exact hcc)
        (by rw [hrc]; exact hsc1) st its sl cs s hi
      rw [hrc] at hA
      refine Concl.bind (Nat.le_refl _) wf hi hA ?_
      intro x s1 sl1 hi1 hch1
      rw [if_pos hsc]
      have hstep := step_at (cfg := cfg) hk hcj (x :: st) its sl1 cs s1.host s1.count
      have hstep2 := step_at (cfg := cfg) hk hcj2 (x :: st) its sl1 cs s1.host s1.count
      simp only [exec] at hstep hstep2
      have hT : ∀ st' : List VA, Concl cfg P B Γ ρ n N
          ⟨k, pc + rc.1.length + (0 + 1 + 1), st', its, sl1, cs, s1.host, s1.count⟩ k
          (pc + (rc.1.length + 2 + rt.1.length + 1 + rf.1.length)) (· :: st') its cs sl1 s1.heap (den cfg t ρ s1) := by
        intro st'
        have h := sim_expr t Γ ρ ini (after ini n c) N (m + rc.2.length) k _ code (wf.mono hac.1) hg (by omega)
          hsafe.2.1 hk (by rw [hrt]; exact hct) (by rw [hrt]; exact hsc2) st' its sl1 cs s1 (hi1.mono hac.1)
        rw [hrt] at h
        have h' := Concl.mono hac.1 wf hi1 h
        cases ho : den cfg t ρ s1 with
        | err e h => rw [ho] at h'; exact h'
        | ub => rw [ho] at h'; exact h'
        | ok a s2 =>
          rw [ho] at h'
          obtain ⟨sl2, hs2, hi2, hch2⟩ := h'
          refine Concl.ok sl2 (hs2.trans (Steps.one ?_)) hi2 hch2
          rw [step_at hk hcj3]
          simp only [exec]
          rw [jump_ok _ _ _ _ _ _ (pc' := pc + (rc.1.length + 2 + rt.1.length + 1 + rf.1.length)) (by omega) (by omega)]
      have hF : ∀ st' : List VA, Concl cfg P B Γ ρ n N
          ⟨k, pc + rc.1.length + (0 + 1 + 1) + rt.1.length + (0 + 1), st', its, sl1, cs, s1.host, s1.count⟩ k
          (pc + (rc.1.length + 2 + rt.1.length + 1 + rf.1.length)) (· :: st') its cs sl1 s1.heap (den cfg f ρ s1) := by
        intro st'
        have h := sim_expr f Γ ρ ini (after ini (after ini n c) t) N (m + rc.2.length + rt.2.length) k _ code
          (wf.mono (by omega)) hg (by omega)
          hsafe.2.2 hk (by rw [hrf]; exact hcf) (by rw [hrf]; exact hsc3) st' its sl1 cs s1 (hi1.mono (by omega))
        rw [hrf] at h
        have h' := Concl.mono (by omega : n ≤ _) wf hi1 h
        have he : pc + (rc.1.length + 2 + rt.1.length + 1 + rf.1.length)
            = pc + rc.1.length + (0 + 1 + 1) + rt.1.length + (0 + 1) + rf.1.length := by omega
        rw [he]; exact h'
      have hstop : ∀ y : VA, ternOf x = .stop y →
          step cfg P ⟨k, pc + rc.1.length, x :: st, its, sl1, cs, s1.host, s1.count⟩ =
            .next ⟨k, pc + (rc.1.length + 2 + rt.1.length + 1 + rf.1.length), y :: st, its, sl1, cs, s1.host, s1.count⟩ := by
        intro y hy
        rw [hstep]
        unfold ternOf at hy
        cases hv : x.v with
        | bool b => cases b <;> simp [hv] at hy
        | error e =>
          simp [hv] at hy; subst hy
          simp only [hv]
          exact jump_ok _ _ _ _ _ _ (by omega) (by omega)
        | unknown u =>
          simp [hv] at hy; subst hy
          simp only [hv]
          exact jump_ok _ _ _ _ _ _ (by omega) (by omega)
        | _ =>
          simp [hv] at hy; subst hy
          simp only [hv]
          exact jump_ok _ _ _ _ _ _ (by omega) (by omega)
      cases ht : ternOf x with
      | stop y =>
        refine Concl.ok sl1 (Steps.one (hstop y ht)) hi1 Chg.refl
      | yes =>
        have hv : x.v = .bool true := by
          unfold ternOf at ht; split at ht <;> simp_all
        simp only [hv] at hstep hstep2
        refine Concl.steps ((Steps.one hstep).trans (Steps.one (b := ⟨k, pc + rc.1.length + (0 + 1 + 1), st, its, sl1, cs, s1.host, s1.count⟩) ?_)) (hT st)
        rw [hstep2]; simp
      | no =>
        have hv : x.v = .bool false := by
          unfold ternOf at ht; split at ht <;> simp_all
        simp only [hv] at hstep hstep2
        refine Concl.steps ((Steps.one hstep).trans (Steps.one (b := ⟨k, pc + rc.1.length + (0 + 1 + 1) + rt.1.length + (0 + 1), st, its, sl1, cs, s1.host, s1.count⟩) ?_)) (hF st)
        rw [hstep2, if_pos trivial]
        simp only [Bool.false_eq_true, if_false]
        exact jump_ok _ _ _ _ _ _ (by omega) (by omega)
    · have hsc' : cfg.shortCircuit = false := by cases h : cfg.shortCircuit <;> simp_all
      simp only [compile, hsc', Bool.false_eq_true, if_false, codeAt_append, codeAt_cons] at hcode hsubs
      obtain ⟨hcc, hct, hcf, hcl, _⟩ := hcode
      obtain ⟨hsc1, hsc2, hsc3⟩ := hsubs
      generalize hrc : compile cfg Γ ini n m c = rc at *
      generalize hrt : compile cfg Γ ini (after ini n c) (m + rc.2.length) t = rt at *
      generalize hrf : compile cfg Γ ini (after ini (after ini n c) t) (m + rc.2.length + rt.2.length) f = rf at *
      have hlen : (compile cfg Γ ini n m (.cond c t f)).1.length
          = rc.1.length + rt.1.length + rf.1.length + 1 := by
        simp [compile, hsc', hrc, hrt, hrf]; omega
      rw [hlen]
      have hA := sim_expr c Γ ρ ini n N m k pc code wf hg (by omega) hsafe.1 hk (by rw [hrc]; exact hcc)
        (by rw [hrc]; exact hsc1) st its sl cs s hi
      rw [hrc] at hA
      refine Concl.bind (Nat.le_refl _) wf hi hA ?_
      intro x s1 sl1 hi1 hch1
      rw [if_neg hsc]
      have hB := sim_expr t Γ ρ ini (after ini n c) N (m + rc.2.length) k _ code (wf.mono hac.1) hg (by omega)
          hsafe.2.1 hk (by rw [hrt]; exact hct) (by rw [hrt]; exact hsc2) (x :: st) its sl1 cs s1 (hi1.mono hac.1)
      rw [hrt] at hB
      refine Concl.bind hac.1 wf hi1 hB ?_
      intro y s2 sl2 hi2 hch2
      have hC := sim_expr f Γ ρ ini (after ini (after ini n c) t) N (m + rc.2.length + rt.2.length) k _ code
          (wf.mono (by omega)) hg (by omega)
          hsafe.2.2 hk (by rw [hrf]; exact hcf) (by rw [hrf]; exact hsc3) (y :: x :: st) its sl2 cs s2 (hi2.mono (by omega))
      rw [hrf] at hC
      refine Concl.bind (by omega : n ≤ _) wf hi2 hC ?_
      intro z s3 sl3 hi3 hch3
      refine Concl.ok sl3 (Steps.one ?_) hi3 Chg.refl
      rw [step_at hk hcl]
      simp only [exec]
      congr 2
      omega
  | comp iter iter2 accu range init cnd stp res =>
    intro Γ ρ ini n N m k pc code wf hg hN hsafe hk hcode hsubs st its sl cs s hi
    simp only [width] at hN
    simp only [Safe] at hsafe
    obtain ⟨hB, hsf0, hsf1, hsf2, hsf3, hsf4⟩ := hsafe
    simp only [compile, codeAt_append, codeAt_cons, List.length_cons, List.length_nil] at hcode hsubs
    obtain ⟨hc0, ⟨hinit, _⟩, hc1, ⟨hnext, _⟩, hc2, ⟨hcond, _⟩, hc3, ⟨hjump, _⟩, hc4, hfin, _⟩ := hcode
    obtain ⟨hs0, hs1, hs2, hs3, hs4⟩ := hsubs
    have hsz := (List.getElem?_eq_some_iff.1 hfin).1
    have ha0 := after_le ini (n + iterSlots iter2 + 1) range
    generalize hn1 : after ini (n + iterSlots iter2 + 1) range = n1 at *
    have ha1 := after_le ini n1 init
    generalize hn2 : after ini n1 init = n2 at *
    have ha2 := after_le ini n2 cnd
    generalize hn3 : after ini n2 cnd = n3 at *
    have ha3 := after_le ini n3 stp
    generalize hn4 : after ini n3 stp = n4 at *
    generalize hr0 : compile cfg Γ ini (n + iterSlots iter2 + 1) m range = r0 at *
    generalize hr1 : compile cfg Γ ini n1 (m + r0.2.length) init = r1 at *
    generalize hΓl : iterScope iter iter2 n ++ (accu, Ent.val (n + iterSlots iter2)) :: Γ = Γl at *
    generalize hr2 : compile cfg Γl ini n2 (m + r0.2.length + r1.2.length) cnd = r2 at *
    generalize hr3 : compile cfg Γl ini n3 (m + r0.2.length + r1.2.length + r2.2.length) stp = r3 at *
    generalize hr4 : compile cfg ((accu, Ent.val (n + iterSlots iter2)) :: Γ) ini n4
      (m + r0.2.length + r1.2.length + r2.2.length + r3.2.length) res = r4 at *
    have hlen : (compile cfg Γ ini n m (.comp iter iter2 accu range init cnd stp res)).1.length
        = r0.1.length + 1 + r1.1.length + 1 + r2.1.length + 1 + r3.1.length + 1 + r4.1.length + 1 := by
      simp [compile, hn1, hn2, hn3, hn4, hr0, hr1, hΓl, hr2, hr3, hr4]; omega
    rw [hlen]
    show Concl cfg P B Γ ρ n N _ k _ _ its cs sl s.heap (den cfg (.comp iter iter2 accu range init cnd stp res) ρ s)
    simp only [den]
    -- range
    have h0 := sim_expr range Γ ρ ini (n + iterSlots iter2 + 1) N m k pc code (wf.mono (by omega)) hg (by omega) hsf0 hk
      (by rw [hr0]; exact hc0) (by rw [hr0]; exact hs0) st its sl cs s (hi.mono (by omega))
    rw [hr0] at h0
    refine Concl.bind (by omega : n ≤ n + iterSlots iter2 + 1) wf hi h0 ?_
    intro r s1 sl1 hi1 hch1
    have hstep := step_at (cfg := cfg) hk hinit (r :: st) its sl1 cs s1.host s1.count
    simp only [exec] at hstep
    cases hrg : rangeOf cfg.unknowns cfg.pats r with
    | stop x =>
      simp only [hrg] at hstep ⊢
      refine Concl.ok sl1 (Steps.one ?_) hi1 Chg.refl
      rw [hstep]
      exact jump_ok _ _ _ _ _ _ (by omega) (by omega)
    | items l =>
      simp only [hrg] at hstep ⊢
      refine Concl.steps (Steps.one hstep) ?_
      -- initial accumulator
      have h1 := sim_expr init Γ ρ ini n1 N (m + r0.2.length) k _ code (wf.mono (by omega)) hg (by omega) hsf1 hk
        (by rw [hr1]; exact hc1) (by rw [hr1]; exact hs1) (r :: st) (l :: its) sl1 cs s1 (hi1.mono (by omega))
      rw [hr1] at h1
      refine Concl.bind (by omega : n ≤ n1) wf hi1 h1 ?_
      intro a s2 sl2 hi2 hch2
      -- loop
      have simC : ∀ it a', Sim cfg P B (iterScope iter iter2 n ++ (accu, .val (n + iterSlots iter2)) :: Γ)
          (iterBinds cfg iter iter2 r.t it ++ (accu, .val a') :: ρ) k
          (pc + r0.1.length + (0 + 1) + r1.1.length + 1) (pc + r0.1.length + (0 + 1) + r1.1.length + 1 + r2.1.length) n2 N
          (fun s => den cfg cnd (iterBinds cfg iter iter2 r.t it ++ (accu, .val a') :: ρ) s) := by
        intro it a'
        have h := sim_expr cnd Γl (iterBinds cfg iter iter2 r.t it ++ (accu, .val a') :: ρ) ini n2 N
          (m + r0.2.length + r1.2.length) k (pc + r0.1.length + (0 + 1) + r1.1.length + 1) code
          (by rw [← hΓl]; exact wf_loop wf (by omega)) (by rw [← hΓl]; exact good_loop hg) (by omega) hsf2 hk
          (by rw [hr2]; exact hc2) (by rw [hr2]; exact hs2)
        rw [hr2, ← hΓl] at h
        exact h
      have simS : ∀ it a', Sim cfg P B (iterScope iter iter2 n ++ (accu, .val (n + iterSlots iter2)) :: Γ)
          (iterBinds cfg iter iter2 r.t it ++ (accu, .val a') :: ρ) k
          (pc + r0.1.length + (0 + 1) + r1.1.length + 1 + r2.1.length + 1)
          (pc + r0.1.length + (0 + 1) + r1.1.length + 1 + r2.1.length + 1 + r3.1.length) n3 N
          (fun s => den cfg stp (iterBinds cfg iter iter2 r.t it ++ (accu, .val a') :: ρ) s) := by
        intro it a'
        have h := sim_expr stp Γl (iterBinds cfg iter iter2 r.t it ++ (accu, .val a') :: ρ) ini n3 N
          (m + r0.2.length + r1.2.length + r2.2.length) k (pc + r0.1.length + (0 + 1) + r1.1.length + 1 + r2.1.length + 1) code
          (by rw [← hΓl]; exact wf_loop wf (by omega)) (by rw [← hΓl]; exact good_loop hg) (by omega) hsf3 hk
          (by rw [hr3]; exact hc3) (by rw [hr3]; exact hs3)
        rw [hr3, ← hΓl] at h
        exact h
      have hL := sim_loop (B := B) (cfg := cfg) (iter := iter) (accu := accu) (iter2 := iter2) (N := N) (n2 := n2) (n3 := n3) hk wf (by omega) hB
        (by omega) (by omega) (pn := pc + r0.1.length + (0 + 1) + r1.1.length) (lc := r2.1.length) (ls := r3.1.length)
        (lt := r4.1.length) (r := r)
        (by rw [hnext]; rfl) (hcond.trans rfl) (hjump.trans rfl)
        (by omega) simC simS (st := st) (its := its) (cs := cs) l a sl2 s2 (hi2.mono (by omega))
      cases ho : loop cfg (fun it a s => den cfg cnd (iterBinds cfg iter iter2 r.t it ++ (accu, .val a) :: ρ) s)
            (fun it a s => den cfg stp (iterBinds cfg iter iter2 r.t it ++ (accu, .val a) :: ρ) s) l a s2 with
      | err e h => rw [ho] at hL; exact hL
      | ub => rw [ho] at hL; exact hL
      | ok le s3 =>
        rw [ho] at hL
        cases le with
        | stop x =>
          obtain ⟨sl3, hs3', hi3, hch3⟩ := hL
          refine Concl.ok sl3 ?_ hi3 hch3
          have he : pc + (r0.1.length + 1 + r1.1.length + 1 + r2.1.length + 1 + r3.1.length + 1 + r4.1.length + 1)
            = pc + r0.1.length + (0 + 1) + r1.1.length + 1 + r2.1.length + 1 + r3.1.length + 1 + r4.1.length + 1 := by omega
          rw [he]; exact hs3'
        | accu a' =>
          obtain ⟨sl3, its', hs3', hi3, hch3, hka, hcl⟩ := hL
          simp only [Out.bind]
          -- result
          have hnf : ∀ j, n ≤ j → ¬ FP Γ j := fun j hj hf => by have := wf.fp hf; omega
          have h4 := sim_expr res ((accu, Ent.val (n + iterSlots iter2)) :: Γ) ((accu, .val a') :: ρ) ini n4 N
            (m + r0.2.length + r1.2.length + r2.2.length + r3.2.length) k
            (pc + r0.1.length + (0 + 1) + r1.1.length + 1 + r2.1.length + 1 + r3.1.length + 1) code
            ⟨by omega, hnf _ (by omega), wf.mono (by omega)⟩ hg (by omega) hsf4 hk
            (by rw [hr4]; exact hc4) (by rw [hr4]; exact hs4) (r :: st) (its' :: its) sl3 cs s3
            ⟨⟨rfl, hka, hi3.1⟩, fun j hb h1 h2 => hi3.2 j hb (by omega) h2⟩
          rw [hr4] at h4
          refine Concl.steps hs3' ?_
          cases hd : den cfg res ((accu, .val a') :: ρ) s3 with
          | err e h => rw [hd] at h4; exact h4
          | ub => rw [hd] at h4; exact h4
          | ok y s4 =>
            rw [hd] at h4
            obtain ⟨sl4, hs4', hi4, hch4⟩ := h4
            have hch4' : Chg Γ ρ n4 N sl3 s3.heap sl4 s4.heap := ⟨hch4.1, hch4.2⟩
            refine Concl.ok (upd sl4 (n + iterSlots iter2) none) (hs4'.trans (Steps.one ?_)) ⟨?_, ?_⟩
              (((hch3.trans (hch4'.mono (by omega))).upd none (by omega) (by omega)))
            · rw [step_at hk hfin]
              simp only [exec, List.tail_cons]
              congr 2
              omega
            · exact hi4.1.2.2.frame wf (fun j hj => upd_ne (by omega)) (fun _ _ => rfl)
            · intro j hb h1 h2
              by_cases hj : j = n + iterSlots iter2
              · exact upd_eq hj
              · rw [upd_ne hj]
                by_cases hj2 : n4 ≤ j
                · exact hi4.2 j hb hj2 h2
                · rw [hch4'.1 j (by omega) (hnf j h1)]
                  by_cases hj3 : j < n + iterSlots iter2
                  · exact hcl j hb h1 hj3
                  · exact hi3.2 j hb (by omega) h2
  | bind x init body =>
    intro Γ ρ ini n N m k pc code wf hg hN hsafe hk hcode hsubs st its sl cs s hi
    simp only [width] at hN
    simp only [Safe] at hsafe
    obtain ⟨hBn, hsf1, hsf2⟩ := hsafe
    simp only [compile, codeAt_append, codeAt_cons, List.length_cons, List.length_nil] at hcode hsubs
    obtain ⟨hcb, hclr, _⟩ := hcode
    obtain ⟨hsi, ⟨hsub, _⟩, hsb⟩ := hsubs
    generalize hri : compile cfg Γ true (n + 1) m init = ri at *
    generalize hrb : compile cfg ((x, Ent.delayed n (width init) (m + ri.2.length)) :: Γ) ini (n + 1 + width init)
      (m + ri.2.length + 1) body = rb at *
    have hlen : (compile cfg Γ ini n m (.bind x init body)).1.length = rb.1.length + 1 := by
      simp [compile, hri, hrb]
    rw [hlen]
    show Concl cfg P B Γ ρ n N _ k _ _ its cs sl s.heap (den cfg (.bind x init body) ρ s)
    simp only [den]
    have hI := sim_expr init Γ ρ true (n + 1) (n + 1 + width init) m (m + ri.2.length) 0 ri.1 (wf.mono (by omega)) hg
      (by omega) hsf1 hsub (by rw [hri]; exact codeAt_self _) (by rw [hri]; exact hsi)
    rw [hri, Nat.zero_add] at hI
    have hcell : ∀ c', Cells ρ c' → c' < s.heap.length := fun c' hc => hi.1.cells hc
    have hnc : ¬ Cells ρ s.heap.length := fun hc => by have := hcell _ hc; omega
    have hBody := sim_expr body ((x, Ent.delayed n (width init) (m + ri.2.length)) :: Γ)
      ((x, .delayed s.heap.length (fun s => den cfg init ρ s)) :: ρ) ini (n + 1 + width init) N (m + ri.2.length + 1) k pc code
      ⟨by omega, wf⟩ ⟨hcell, ⟨ri.1, hsub, hI⟩, hg⟩ (by omega) hsf2 hk (by rw [hrb]; exact hcb) (by rw [hrb]; exact hsb)
      st its sl cs { s with heap := s.heap ++ [none] }
      ⟨⟨rfl, by simp [hi.2 n hBn (by omega) (by omega)], fun j hb h1 h2 => hi.2 j hb (by omega) (by omega),
        hi.1.frame wf (fun _ _ => rfl) (fun c hc => by
          have := hcell c hc
          exact List.getElem?_append_left this)⟩,
       fun j hb h1 h2 => hi.2 j hb (by omega) h2⟩
    rw [hrb] at hBody
    cases ho : den cfg body ((x, .delayed s.heap.length (fun s => den cfg init ρ s)) :: ρ)
        { s with heap := s.heap ++ [none] } with
    | err e h => rw [ho] at hBody; exact hBody
    | ub => rw [ho] at hBody; exact hBody
    | ok y s' =>
      rw [ho] at hBody
      obtain ⟨sl', hs', hi', hch'⟩ := hBody
      simp only [Out.bind]
      have hl' : s'.heap.length = s.heap.length + 1 := by
        rw [hch'.2.1]; simp
      have hnf : ∀ j, n ≤ j → ¬ FP Γ j := fun j hj hf => by have := wf.fp hf; omega
      refine Concl.ok (upd sl' n none) (hs'.trans (Steps.one ?_)) ⟨?_, ?_⟩ ⟨?_, ?_, ?_⟩
      · rw [step_at hk hclr]
        simp only [exec]
        congr 2
      · refine hi'.1.2.2.2.frame wf (fun j hj => upd_ne (by omega)) (fun c hc => ?_)
        have := hcell c hc
        exact List.getElem?_take_of_lt this
      · intro j hb h1 h2
        by_cases hj : j = n
        · exact upd_eq hj
        · rw [upd_ne hj]
          by_cases hj2 : j < n + 1 + width init
          · exact hi'.1.2.2.1 j hb (by omega) hj2
          · exact hi'.2 j hb (by omega) h2
      · intro j h1 h2
        rw [upd_ne (by omega)]
        exact hch'.1 j (by omega) (fun hf => by
          rcases hf with hf | hf
          · omega
          · exact h2 hf)
      · simp [hl']
      · intro c hc
        by_cases h1 : c < s.heap.length
        · rw [List.getElem?_take_of_lt h1]
          rw [hch'.2.2 c (fun hf => by
            rcases hf with hf | hf
            · omega
            · exact hc hf)]
          exact List.getElem?_append_left h1
        · rw [List.getElem?_eq_none (by simp; omega), List.getElem?_eq_none (by omega)]
theorem sim_args (es : Exprs σ) : ∀ (Γ : Scope) (ρ : Env σ) (ini : Bool) (n N m k pc : Nat)
    (code : List (Instr σ)), WF Γ n → Good cfg P B Γ ρ → n + widths es ≤ N → SafeArgs cfg B ini n es →
    P[k]? = some code → CodeAt code pc (compileArgs cfg Γ ini n m es).1 →
    CodeAt P m (compileArgs cfg Γ ini n m es).2 →
    SimArgs cfg P B Γ ρ k pc (pc + (compileArgs cfg Γ ini n m es).1.length) n N (denArgs cfg es ρ) := by
  cases es with
  | nil =>
    intro Γ ρ ini n N m k pc code wf hg hN hsafe hk hcode hsubs st its sl cs s hi
    simp only [denArgs, compileArgs]
    exact Concl.ok sl (Steps.refl _) hi Chg.refl
  | cons e es =>
    intro Γ ρ ini n N m k pc code wf hg hN hsafe hk hcode hsubs st its sl cs s hi
    simp only [widths] at hN
    simp only [SafeArgs] at hsafe
    have hal := after_le ini n e
    simp only [compileArgs, codeAt_append] at hcode hsubs
    have hlen : (compileArgs cfg Γ ini n m (.cons e es)).1.length
        = (compile cfg Γ ini n m e).1.length +
          (compileArgs cfg Γ ini (after ini n e) (m + (compile cfg Γ ini n m e).2.length) es).1.length := by
      simp [compileArgs]
    rw [hlen]
    show Concl cfg P B Γ ρ n N _ k _ _ its cs sl s.heap (denArgs cfg (.cons e es) ρ s)
    simp only [denArgs]
    have hA := sim_expr e Γ ρ ini n N m k pc code wf hg (by omega) hsafe.1 hk hcode.1 hsubs.1 st its sl cs s hi
    refine Concl.bind (Nat.le_refl _) wf hi hA ?_
    intro x s1 sl1 hi1 hch1
    have hB := sim_args es Γ ρ ini (after ini n e) N _ k _ code (wf.mono hal.1) hg (by omega) hsafe.2 hk
      hcode.2 hsubs.2 (x :: st) its sl1 cs s1 (hi1.mono hal.1)
    refine Concl.bind hal.1 wf hi1 hB ?_
    intro xs s2 sl2 hi2 hch2
    refine Concl.ok sl2 ?_ hi2 Chg.refl
    have he : (x :: xs).reverse ++ st = xs.reverse ++ x :: st := by simp
    show Steps cfg P _ ⟨k, _, (x :: xs).reverse ++ st, its, sl2, cs, s2.host, s2.count⟩
    rw [he, ← Nat.add_assoc]
    exact Steps.refl _
end

end

end Cel.Eval
