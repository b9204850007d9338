import Verif.Fold.Props

/-!
# C50: the folded program
-/

set_option linter.unusedSimpArgs false
set_option linter.unusedVariables false

namespace Cel.Fold
open Cel Cel.Eval Cel.Data Cel.Direct Cel.Macro

variable {σ : Type} {f : FoldCfg σ} {r : RCfg σ}

/-! ## Slots -/

mutual
theorem const_flat (ctx : FnDesc → Bool) (r : RCfg σ) : ∀ e : Src σ, Constant ctx e = true →
    width (toExpr r e) = 0 ∧ NoComp (toExpr r e) ∧ ∀ B ini n, Safe r.cfg B ini n (toExpr r e)
  | .const v, _ => ⟨rfl, trivial, fun _ _ _ => trivial⟩
  | .ident _ _, h => Bool.noConfusion (show false = true from h)
  | .call c args, h => by
    simp only [Constant, Bool.and_eq_true] at h
    exact const_flats ctx r args h.2
  | .not a, h => by
    obtain ⟨h1, h2, h3⟩ := const_flat ctx r a h
    exact ⟨by simp only [toExpr, width, widths, h1], ⟨h2, trivial⟩, fun _ _ _ => ⟨h3 _ _ _, trivial⟩⟩
  | .nsf a, h => by
    obtain ⟨h1, h2, h3⟩ := const_flat ctx r a h
    exact ⟨by simp only [toExpr, width, widths, h1], ⟨h2, trivial⟩, fun _ _ _ => ⟨h3 _ _ _, trivial⟩⟩
  | .bin k a b, h => by
    simp only [Constant, Bool.and_eq_true] at h
    obtain ⟨h1, h2, h3⟩ := const_flat ctx r a h.1
    obtain ⟨k1, k2, k3⟩ := const_flat ctx r b h.2
    exact ⟨by simp only [toExpr, width, widths, h1, k1], ⟨h2, k2, trivial⟩, fun _ _ _ => ⟨h3 _ _ _, k3 _ _ _, trivial⟩⟩
  | .index a b, h => by
    simp only [Constant, Bool.and_eq_true] at h
    obtain ⟨h1, h2, h3⟩ := const_flat ctx r a h.1
    obtain ⟨k1, k2, k3⟩ := const_flat ctx r b h.2
    exact ⟨by simp only [toExpr, width, widths, h1, k1], ⟨h2, k2, trivial⟩, fun _ _ _ => ⟨h3 _ _ _, k3 _ _ _, trivial⟩⟩
  | .select _ _ a, h => by
    obtain ⟨h1, h2, h3⟩ := const_flat ctx r a h
    exact ⟨by simp only [toExpr, width, widths, h1], ⟨h2, trivial⟩, fun _ _ _ => ⟨h3 _ _ _, trivial⟩⟩
  | .list opt .nil, h => Bool.noConfusion (show false = true from h)
  | .list opt (.cons e es), h => const_flats ctx r (.cons e es) h
  | .map opt .nil, h => Bool.noConfusion (show false = true from h)
  | .map opt (.cons e es), h => const_flats ctx r (.cons e es) h
  | .logic _ _ _, h => Bool.noConfusion (show false = true from h)
  | .cond _ _ _, h => Bool.noConfusion (show false = true from h)
  | .comp _ _ _ _ _ _ _ _, h => Bool.noConfusion (show false = true from h)
  | .bind _ _ _, h => Bool.noConfusion (show false = true from h)
theorem const_flats (ctx : FnDesc → Bool) (r : RCfg σ) : ∀ es : Srcs σ, Constants ctx es = true →
    widths (toExprs r es) = 0 ∧ NoComps (toExprs r es) ∧ ∀ B ini n, SafeArgs r.cfg B ini n (toExprs r es)
  | .nil, _ => ⟨rfl, trivial, fun _ _ _ => trivial⟩
  | .cons e es, h => by
    simp only [Constants, Bool.and_eq_true] at h
    obtain ⟨h1, h2, h3⟩ := const_flat ctx r e h.1
    obtain ⟨k1, k2, k3⟩ := const_flats ctx r es h.2
    exact ⟨by simp only [toExprs, widths, h1, k1], ⟨h2, k2⟩, fun _ _ _ => ⟨h3 _ _ _, k3 _ _ _⟩⟩
end

/-- `e'` takes the same slots as `e`, without new clashes. -/
def SlotLike (r : RCfg σ) (e' e : Src σ) : Prop :=
  width (toExpr r e') = width (toExpr r e) ∧
    ∀ B ini n, Safe r.cfg B ini n (toExpr r e) → Safe r.cfg B ini n (toExpr r e')

theorem SlotLike.after {e' e : Src σ} (h : SlotLike r e' e) (ini : Bool) (n : Nat) :
    after ini n (toExpr r e') = after ini n (toExpr r e) := by
  unfold Eval.after; rw [h.1]

theorem fin_slots (c : Bool) {e e0 : Src σ} (hc : c = true → Constant f.contextual e0 = true)
    (h : SlotLike r e e0) : SlotLike r (foldE.fin f c e) e0 := by
  cases c with
  | false => exact h
  | true =>
    rcases foldNode_cases f e with he | ⟨v, he⟩
    · show SlotLike r (foldNode f e) e0
      rw [he]; exact h
    · show SlotLike r (foldNode f e) e0
      rw [he]
      exact ⟨(const_flat f.contextual r e0 (hc rfl)).1.symm, fun _ _ _ _ => trivial⟩

mutual
theorem fold_slots (f : FoldCfg σ) (r : RCfg σ) : ∀ e : Src σ, SlotLike r (foldE f e) e
  | .const v => ⟨rfl, fun _ _ _ h => h⟩
  | .ident _ _ => ⟨rfl, fun _ _ _ h => h⟩
  | .call c args => fin_slots _ (fun h => h) (folds_slots f r args)
  | .not a => fin_slots _ (fun h => h) (by
      have ha := fold_slots f r a
      exact ⟨by simp only [toExpr, width, widths, ha.1], fun B ini n h => ⟨ha.2 _ _ _ h.1, trivial⟩⟩)
  | .nsf a => fin_slots _ (fun h => h) (by
      have ha := fold_slots f r a
      exact ⟨by simp only [toExpr, width, widths, ha.1], fun B ini n h => ⟨ha.2 _ _ _ h.1, trivial⟩⟩)
  | .bin k a b => fin_slots _ (fun h => h) (by
      have ha := fold_slots f r a
      have hb := fold_slots f r b
      refine ⟨by simp only [toExpr, width, widths, ha.1, hb.1], fun B ini n h => ⟨ha.2 _ _ _ h.1, ?_, trivial⟩⟩
      rw [ha.after]; exact hb.2 _ _ _ h.2.1)
  | .index a b => fin_slots _ (fun h => h) (by
      have ha := fold_slots f r a
      have hb := fold_slots f r b
      refine ⟨by simp only [toExpr, width, widths, ha.1, hb.1], fun B ini n h => ⟨ha.2 _ _ _ h.1, ?_, trivial⟩⟩
      rw [ha.after]; exact hb.2 _ _ _ h.2.1)
  | .select _ _ a => fin_slots _ (fun h => h) (by
      have ha := fold_slots f r a
      exact ⟨by simp only [toExpr, width, widths, ha.1], fun B ini n h => ⟨ha.2 _ _ _ h.1, trivial⟩⟩)
  | .list opt args => fin_slots _ (fun h => h) (folds_slots f r args)
  | .map opt args => fin_slots _ (fun h => h) (folds_slots f r args)
  | .logic o a b => by
      have ha := fold_slots f r a
      have hb := fold_slots f r b
      refine ⟨by simp only [foldE, toExpr, width, ha.1, hb.1], fun B ini n h => ⟨ha.2 _ _ _ h.1, ?_⟩⟩
      rw [ha.after]; exact hb.2 _ _ _ h.2
  | .cond c t e => by
      have hc := fold_slots f r c
      have ht := fold_slots f r t
      have he := fold_slots f r e
      refine ⟨by simp only [foldE, toExpr, width, hc.1, ht.1, he.1], fun B ini n h => ⟨hc.2 _ _ _ h.1, ?_, ?_⟩⟩
      · rw [hc.after]; exact ht.2 _ _ _ h.2.1
      · rw [hc.after, ht.after]; exact he.2 _ _ _ h.2.2
  | .comp iter iter2 accu range init cnd stp res => by
      have h1 := fold_slots f r range
      have h2 := fold_slots f r init
      have h3 := fold_slots f r cnd
      have h4 := fold_slots f r stp
      have h5 := fold_slots f r res
      refine ⟨by simp only [foldE, toExpr, width, h1.1, h2.1, h3.1, h4.1, h5.1], fun B ini n h => ?_⟩
      simp only [foldE, toExpr, Safe] at h ⊢
      rw [h1.after, h2.after, h3.after, h4.after]
      exact ⟨h.1, h1.2 _ _ _ h.2.1, h2.2 _ _ _ h.2.2.1, h3.2 _ _ _ h.2.2.2.1, h4.2 _ _ _ h.2.2.2.2.1, h5.2 _ _ _ h.2.2.2.2.2⟩
  | .bind x init body => by
      have h1 := fold_slots f r init
      have h2 := fold_slots f r body
      refine ⟨by simp only [foldE, toExpr, width, h1.1, h2.1], fun B ini n h => ?_⟩
      simp only [foldE, toExpr, Safe] at h ⊢
      rw [h1.1]
      exact ⟨h.1, h1.2 _ _ _ h.2.1, h2.2 _ _ _ h.2.2⟩
theorem folds_slots (f : FoldCfg σ) (r : RCfg σ) : ∀ es : Srcs σ,
    widths (toExprs r (foldEs f es)) = widths (toExprs r es) ∧
      ∀ B ini n, SafeArgs r.cfg B ini n (toExprs r es) → SafeArgs r.cfg B ini n (toExprs r (foldEs f es))
  | .nil => ⟨rfl, fun _ _ _ h => h⟩
  | .cons e es => by
      have h1 := fold_slots f r e
      have h2 := folds_slots f r es
      refine ⟨by simp only [foldEs, toExprs, widths, h1.1, h2.1], fun B ini n h => ⟨h1.2 _ _ _ h.1, ?_⟩⟩
      rw [h1.after]; exact h2.2 _ _ _ h.2
end

/-! ## The theorems -/

/-- **C50.** Constant folding never fails, and the folded program has the same outcome as the original
one: for every expression, every activation (its patterns and variables are not known while folding),
every host state and every outcome — provided the functions registered as neither lazy nor contextual
are functions of their arguments.  `NoClash` as in C22. -/
theorem C50_folding_unobservable (hf : For f r) (e : Src σ) (hp : PureSites f.contextual e)
    (hc : NoClash r.cfg (toExpr r e)) :
    ∃ e', foldConstants f e = some e' ∧ ∀ (h : σ) (out : Final σ),
      Halts r.cfg (plan r.cfg (toExpr r e')) (MS.start h) out ↔
        Halts r.cfg (plan r.cfg (toExpr r e)) (MS.start h) out := by
  refine ⟨foldE f e, foldConstants_eq f e, fun h out => ?_⟩
  have hc' : NoClash r.cfg (toExpr r (foldE f e)) := by
    obtain ⟨B, hB⟩ := hc
    exact ⟨B, (fold_slots f r e).2 _ _ _ hB⟩
  rw [plan_exact_partial _ _ hc', plan_exact_partial _ _ hc]
  unfold meaning
  rw [fold_den hf e hp]

/-- **C50 (scope).** The same for a part of an expression, in whatever scope it is evaluated. -/
theorem C50_folding_unobservable_in_scope (hf : For f r) (e : Src σ) (hp : PureSites f.contextual e) (ρ : Env σ) (s : SS σ) :
    den r.cfg (toExpr r (foldE f e)) ρ s = den r.cfg (toExpr r e) ρ s := by rw [fold_den hf e hp]

/-- Folding evaluates the program planned for the node: the meaning in `foldNode` is the outcome of the
stack machine, which always ends. -/
theorem fold_runs_the_plan (f : FoldCfg σ) (e : Src σ) (hc : Constant f.contextual e = true) (out : Final σ) :
    Halts f.plan.cfg (plan f.plan.cfg (toExpr f.plan e)) (MS.start f.host) out ↔
      out = meaning f.plan.cfg (toExpr f.plan e) f.host :=
  plan_exact_partial _ _ (noClash_noComp (const_flat f.contextual f.plan e hc).2.1) _

theorem fin_value {hf : For f r} {e e0 : Src σ} (hc0 : Constant f.contextual e0 = true)
    (hd : den f.plan.cfg (toExpr f.plan e) = den f.plan.cfg (toExpr f.plan e0)) {v : Value} {h' : σ}
    (hm : meaning f.plan.cfg (toExpr f.plan e0) f.host = .value v h') (hu : v.isUnknown = false) :
    foldE.fin f (Constant f.contextual e0) e = .const v := by
  rw [hc0]
  refine foldNode_value (h' := h') ?_ hu
  unfold meaning at *
  rw [hd]; exact hm

/-- While folding, the configuration is its own. -/
theorem For.self (hf : For f r) : For f f.plan := by
  obtain ⟨vars, h⟩ := hf.plan
  exact ⟨vars, by rw [h]; rfl⟩

/-- **C50 (effect).** A constant subexpression that evaluates to a value other than an unknown is folded
to that value (errors included); the program then has one step for it. -/
theorem C50_folds (hf : For f r) (e : Src σ) (hc : Constant f.contextual e = true) (hp : PureSites f.contextual e)
    {v : Value} {h' : σ} (hm : meaning f.plan.cfg (toExpr f.plan e) f.host = .value v h') (hu : v.isUnknown = false) :
    foldConstants f e = some (.const v) := by
  rw [foldConstants_eq]
  have hs := hf.self
  congr 1
  have hd := fold_den hs e hp
  cases e with
  | const w => simp only [meaning, toExpr, den, Out.final] at hm; cases hm; rfl
  | ident _ _ => exact Bool.noConfusion (show false = true from hc)
  | logic _ _ _ => exact Bool.noConfusion (show false = true from hc)
  | cond _ _ _ => exact Bool.noConfusion (show false = true from hc)
  | comp _ _ _ _ _ _ _ _ => exact Bool.noConfusion (show false = true from hc)
  | bind _ _ _ => exact Bool.noConfusion (show false = true from hc)
  | call c args =>
    refine fin_value (hf := hf) hc ?_ hm hu
    funext ρ s
    simp only [toExpr, den, folds_den hs args hp.2]
  | not a =>
    refine fin_value (hf := hf) hc ?_ hm hu
    funext ρ s
    simp only [toExpr, den, denArgs, fold_den hs a hp]
  | nsf a =>
    refine fin_value (hf := hf) hc ?_ hm hu
    funext ρ s
    simp only [toExpr, den, denArgs, fold_den hs a hp]
  | bin k a b =>
    refine fin_value (hf := hf) hc ?_ hm hu
    funext ρ s
    simp only [toExpr, den, denArgs, fold_den hs a hp.1, fold_den hs b hp.2]
  | index a b =>
    refine fin_value (hf := hf) hc ?_ hm hu
    funext ρ s
    simp only [toExpr, den, denArgs, fold_den hs a hp.1, fold_den hs b hp.2]
  | select fl test a =>
    refine fin_value (hf := hf) hc ?_ hm hu
    funext ρ s
    simp only [toExpr, den, denArgs, fold_den hs a hp]
  | list opt args =>
    refine fin_value (hf := hf) hc ?_ hm hu
    funext ρ s
    simp only [toExpr, den, folds_den hs args hp]
  | map opt args =>
    refine fin_value (hf := hf) hc ?_ hm hu
    funext ρ s
    simp only [toExpr, den, folds_den hs args hp]

end Cel.Fold
