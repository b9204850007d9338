import Verif.Types.Mono

/-!
# C60: what the checker's inference means, node by node
-/

set_option linter.unusedSimpArgs false
set_option linter.unusedVariables false

namespace Cel.Types
open Cel Cel.Eval Cel.Checker Relation

/-! ## Only type variables are bound -/

def Vars (c : Ctx) : Prop := ∀ x, c.bindings x ≠ none → isTypeVar x = true

theorem newVar_vars {c : Ctx} (h : Vars c) : Vars c.newVar.2 := by
  intro x hx
  unfold Ctx.newVar at hx
  dsimp only at hx
  split at hx
  · rename_i e; rw [e]; rfl
  · exact h x hx

theorem instantiateParam_vars (x : Name) (s : Instances × Ctx) (h : Vars s.2) : Vars (instantiateParam x s).2.2 := by
  unfold instantiateParam
  split
  · exact h
  · split
    · exact h
    · exact newVar_vars h

mutual
theorem instantiate_vars (t : Ty) (s : Instances × Ctx) (h : Vars s.2) : Vars (instantiate t s).2.2 := by
  cases t with
  | param x => rw [instantiate]; exact instantiateParam_vars x s h
  | con k ps =>
    have ha := instantiateAll_vars ps s h
    unfold instantiate
    dsimp only
    split
    all_goals first
      | exact h
      | exact ha
      | (split
         · exact h
         · exact ha)
theorem instantiateAll_vars (ps : List Ty) (s : Instances × Ctx) (h : Vars s.2) : Vars (instantiateAll ps s).2.2 := by
  cases ps with
  | nil => rw [instantiateAll]; exact h
  | cons p ps => rw [instantiateAll]; exact instantiateAll_vars ps _ (instantiate_vars p s h)
end

theorem update_vars {c : Ctx} (P : Pro) (h : Vars c) : Vars (c.update P) := by
  intro x hx
  refine h x (fun e => hx ?_)
  unfold Ctx.update
  dsimp only
  rw [e]

theorem resolveOne_vars {c : Ctx} {n : Nat} {l : Bool} {args : List Ty} {recv : Bool} {o : Checker.Overload} {found : Option Ty × List Checker.Overload}
    {r : Ctx × Option Ty × List Checker.Overload} (h : resolveOne c n l args recv o found = some r) (hv : Vars c) : Vars r.1 := by
  unfold resolveOne at h
  split at h
  · injection h with h; rw [← h]; exact hv
  · have hs : Vars (instantiateOverload c o).2.2 := by
      unfold instantiateOverload
      exact instantiateAll_vars _ _ (instantiate_vars _ _ hv)
    generalize instantiateOverload c o = q at h hs
    obtain ⟨result, params, c'⟩ := q
    dsimp only at h hs
    cases ha : assignArgs (assign c'.legacyNull c'.bindings n) l args params .empty with
    | none => rw [ha] at h; exact nomatch h
    | some x =>
      obtain ⟨b, P⟩ := x
      rw [ha] at h
      cases b with
      | false =>
        have h : some (c', found) = some r := h
        injection h with h; rw [← h]; exact hs
      | true =>
        have h : some (c'.update P, some (match found.1 with
            | none => result
            | some t => if t.eq result then t else dyn), found.2 ++ [o]) = some r := h
        injection h with h
        rw [← h]
        exact update_vars P hs

theorem resolveLoop_vars {n : Nat} {l : Bool} {args : List Ty} {recv : Bool} : ∀ os c found r,
    resolveLoop n l args recv os c found = some r → Vars c → Vars r.1 := by
  intro os
  induction os with
  | nil => intro c found r h hv; rw [resolveLoop] at h; injection h with h; rw [← h]; exact hv
  | cons o os ih =>
    intro c found r h hv
    rw [resolveLoop] at h
    obtain ⟨x, h1, h2⟩ := bind_some h
    exact ih _ _ _ h2 (resolveOne_vars h1 hv)

theorem reachable_vars {c : Ctx} (h : Reachable c) : Vars c := by
  induction h with
  | start l => intro x hx; exact absurd rfl hx
  | @step c c' op n _ h ih =>
    cases op with
    | instantiate t m =>
      have h : some (instantiate t (m, c)).2.2 = some c' := h
      injection h with h
      rw [← h]; exact instantiate_vars t (m, c) ih
    | assignable a b =>
      have h : (isAssignable c n a b).map (·.2) = some c' := h
      cases hr : isAssignable c n a b with
      | none => rw [hr] at h; exact nomatch h
      | some x =>
        obtain ⟨r, c1⟩ := x
        rw [hr] at h
        have h : some c1 = some c' := h
        injection h with h
        obtain ⟨P, _, e⟩ := isAssignable_parts hr
        rw [← h, e]
        split
        · exact update_vars P ih
        · exact ih
    | resolve d args recv =>
      have h : (resolveOverload c n d args recv).map (·.1) = some c' := h
      cases hr : resolveOverload c n d args recv with
      | none => rw [hr] at h; exact nomatch h
      | some x =>
        rw [hr] at h
        have h : some x.1 = some c' := h
        injection h with h
        obtain ⟨y, h1, h2, _⟩ := resolve_parts hr
        rw [← h, h2]
        exact resolveLoop_vars _ _ _ _ h1 ih
    | session qs commit =>
      have h : (runChecks c n qs .empty).map (fun P => if commit then (P.updateInferred c).1 else c) = some c' := h
      cases hr : runChecks c n qs .empty with
      | none => rw [hr] at h; exact nomatch h
      | some P =>
        rw [hr] at h
        have h : some (if commit then (P.updateInferred c).1 else c) = some c' := h
        injection h with h
        rw [← h]
        split
        · exact update_vars P ih
        · exact ih

/-! ## Contexts in order -/

structure CtxOk (l : Bool) (c : Ctx) : Prop where
  reach : Reachable c
  proper : Proper c
  clean : CleanSub l c.sub
  legacy : c.legacyNull = l

theorem CtxOk.wf {l : Bool} {c : Ctx} (h : CtxOk l c) : WF c.sub := reachable_wf h.reach

theorem CtxOk.later {l : Bool} {c c' : Ctx} (h : CtxOk l c) (hl : Later c c') (hp : Proper c') (hc : CleanSub l c'.sub) : CtxOk l c' :=
  ⟨hl.reach h.reach, hp, hc, hl.legacy.trans h.legacy⟩

theorem ctxOk_new (l : Bool) : CtxOk l (.new l) := ⟨.start l, (fun x t h => nomatch h), (fun x t h => nomatch h), rfl⟩

theorem total_of_wf {σ : Sub} (h : WF σ) (d : Bool) (t : Ty) : ∃ s, Full σ d t s := by
  obtain ⟨n, r, hr⟩ := fullySubstitute_total h d t
  exact ⟨r, n, hr⟩

theorem ok_inst {l : Bool} {c : Ctx} (h : CtxOk l c) {t : Ty} (hs : Shaped t) (hk : ∀ x, Occurs x t → isTypeVar x = true → c.bindings x ≠ none) :
    CtxOk l (inst t c).2 ∧ Keeps c (inst t c).2 ∧ Good (inst t c).2 (inst t c).1 ∧ (inst t c).2.sub = c.sub := by
  have e : (inst t c).2.sub = c.sub := (instantiate_same t (fun _ => none, c)).1
  obtain ⟨h1, _, h3⟩ := instantiate_good t (fun _ => none, c) hs (fun x y h => nomatch h) hk
  refine ⟨h.later (later_inst t c) (proper_keeps h3 e h.proper) (by rw [e]; exact h.clean), h3, h1, e⟩

/-- The prospective substitutions of a session, in order. -/
structure ProOk (l : Bool) (c : Ctx) (P : Pro) : Prop where
  sane : Sane c P
  clean : CleanSub l (look c.bindings P.map)
  same : P.widened = false

theorem proOk_empty {l : Bool} {c : Ctx} (h : CtxOk l c) : ProOk l c .empty := ⟨sane_empty h.wf h.proper, h.clean, rfl⟩

theorem proOk_update {l : Bool} {c : Ctx} {P : Pro} (h : CtxOk l c) (hP : ProOk l c P) (hl : Later c (c.update P)) :
    CtxOk l (c.update P) ∧ (c.update P).sub = look c.bindings P.map :=
  ⟨h.later hl (proper_update hP.sane.1 hP.sane.2) (by rw [sub_update_eq hP.sane.2]; exact hP.clean), sub_update_eq hP.sane.2⟩

def Fit (l : Bool) (c : Ctx) (t : Ty) : Prop := Good c t ∧ Clean l t

theorem Fit.keeps {l : Bool} {c c' : Ctx} (hk : Keeps c c') {t : Ty} (h : Fit l c t) : Fit l c' t := ⟨good_keeps hk h.1, h.2⟩

theorem ok_assign {l : Bool} {c : Ctx} (h : CtxOk l c) {P P' : Pro} (hP : ProOk l c P) {n : Nat} {a b : Ty} (ha : Fit l c a) (hb : Fit l c b) {r : Bool}
    (hr : assign c.legacyNull c.bindings n a b P = some (r, P')) :
    ProOk l c P' ∧ (r = true → Extends c.bindings P P' ∧ FitsIn l (look c.bindings P'.map) a b) := by
  have e := h.legacy
  have h1 := assign_sane hr hP.sane ha.1 hb.1
  rw [e] at hr
  have h2 := assign_clean _ _ _ _ _ _ hr ha.2 hb.2 hP.clean
  refine ⟨⟨h1, h2.1, h2.2.trans hP.same⟩, fun er => ?_⟩
  rw [er] at hr
  obtain ⟨a1, a2, _⟩ := assign_fits _ _ _ _ _ hr hP.sane.1.1 (h2.2.trans hP.same)
  exact ⟨a1, a2⟩

theorem ok_assignable {l : Bool} {c c' : Ctx} (h : CtxOk l c) {n : Nat} {a b : Ty} (ha : Fit l c a) (hb : Fit l c b) {r : Bool}
    (hr : isAssignable c n a b = some (r, c')) : CtxOk l c' ∧ Keeps c c' ∧ (r = true → FitsIn l c'.sub a b) := by
  have hl := later_assignable hr
  obtain ⟨P, hP, e⟩ := isAssignable_parts hr
  obtain ⟨h1, h2⟩ := ok_assign h (proOk_empty h) ha hb hP
  cases r with
  | false =>
    rw [e]
    exact ⟨h, fun _ h => h, fun e => nomatch e⟩
  | true =>
    rw [if_pos rfl] at e
    subst e
    obtain ⟨k1, k2⟩ := proOk_update h h1 hl
    refine ⟨k1, update_keeps _ _, fun _ => ?_⟩
    rw [k2]
    exact (h2 rfl).2

/-! ## Substitution -/

theorem substitute_good {c : Ctx} (hp : Proper c) : ∀ n t r, substitute c.sub n t = some r → Good c t → Good c r := by
  intro n
  induction n with
  | zero => intro t r h; exact nomatch h
  | succ n ih =>
    intro t r h hg
    cases t with
    | con k ps => rw [substitute] at h; injection h with h; rw [← h]; exact hg
    | param x =>
      rw [substitute] at h
      cases hx : c.sub x with
      | none => rw [hx] at h; injection h with h; rw [← h]; exact hg
      | some u => rw [hx] at h; exact ih u r h (hp x u hx)

theorem full_good {c : Ctx} (hp : Proper c) : ∀ n t r, fullySubstitute c.sub false n t = some r → Good c t → Good c r := by
  intro n
  induction n with
  | zero => intro t r h; exact nomatch h
  | succ n ih =>
    intro t r h hg
    cases t with
    | param x =>
      rw [fullySubstitute] at h
      obtain ⟨u, hs, h⟩ := bind_some h
      have hu := substitute_good hp _ _ _ hs hg
      cases u with
      | param y =>
        have h : some (Ty.param y) = some r := h
        injection h with h; rw [← h]; exact hu
      | con k ps => exact ih _ _ h hu
    | con k ps =>
      rw [fullySubstitute] at h
      split at h
      · rename_i hh
        obtain ⟨rs, hm, h⟩ := bind_some h
        injection h with h
        rw [← h]
        refine good_node hh (fun q hq => ?_)
        obtain ⟨p, hp', h'⟩ := (mapAll_both _ _ hm).right q hq
        exact ih _ _ h' (good_closed hp _ _ hg (.inl hp'))
      · injection h with h; rw [← h]; exact hg

def Within (σ τ : Sub) : Prop := ∀ x t, σ x = some t → τ x = some t
def TotalSub (τ : Sub) : Prop := ∀ t, ∃ s, Full τ true t s

theorem full_before {σ τ : Sub} (hle : Within σ τ) (ht : TotalSub τ) {n : Nat} {t t' s : Ty} (h : fullySubstitute σ false n t = some t')
    (hf : Full τ true t' s) : Full τ true t s := by
  obtain ⟨s', hs⟩ := ht t
  rw [full_unique hf (full_after hle _ _ _ _ h hs)]
  exact hs

theorem full_base {τ : Sub} {b : Base} {s : Ty} (h : Full τ true (.b b) s) : s = .b b := full_unique h full_leaf

theorem full_list {τ : Sub} {t s : Ty} (h : Full τ true (.con .list [t]) s) : ∃ u, s = .con .list [u] ∧ Full τ true t u := by
  obtain ⟨rs, rfl, _, h2⟩ := full_con h
  obtain ⟨hl, hp⟩ := h2 rfl
  match rs, hl with
  | [u], _ => exact ⟨u, rfl, hp (t, u) (by simp)⟩

theorem full_map {τ : Sub} {k v s : Ty} (h : Full τ true (.con .map [k, v]) s) :
    ∃ k' v', s = .con .map [k', v'] ∧ Full τ true k k' ∧ Full τ true v v' := by
  obtain ⟨rs, rfl, _, h2⟩ := full_con h
  obtain ⟨hl, hp⟩ := h2 rfl
  match rs, hl with
  | [k', v'], _ => exact ⟨k', v', rfl, hp (k, k') (by simp), hp (v, v') (by simp)⟩

theorem strict_list {l : Bool} {t : Ty} (h : Strict l (.con .list [t])) : Strict l t := by
  generalize e : Ty.con .list [t] = x at h
  cases h <;> cases e
  assumption

theorem strict_map {l : Bool} {k v : Ty} (h : Strict l (.con .map [k, v])) : KeyTy k ∧ Strict l v := by
  generalize e : Ty.con .map [k, v] = x at h
  cases h <;> cases e
  exact ⟨by assumption, by assumption⟩

theorem strict_dyn {l : Bool} {ps : List Ty} : ¬ Strict l (.con (.base .dyn) ps) := by
  intro h
  generalize e : Ty.con (.base .dyn) ps = x at h
  cases h <;> cases e
  assumption

theorem strict_any {l : Bool} {ps : List Ty} : ¬ Strict l (.con (.base .any) ps) := by
  intro h
  generalize e : Ty.con (.base .any) ps = x at h
  cases h <;> cases e
  assumption

/-! ## Sessions -/

theorem joinLoop_dyn {c : Ctx} {n : Nat} : ∀ as P r, joinLoop c n as dyn P = some r → r.1 = dyn := by
  intro as
  induction as with
  | nil => intro P r h; rw [joinLoop] at h; injection h with h; rw [← h]
  | cons a as ih =>
    intro P r h
    rw [joinLoop] at h
    obtain ⟨x, h1, h2⟩ := bind_some h
    rw [show (if x.1 = true then dyn else dyn) = dyn by split <;> rfl] at h2
    exact ih _ _ h2

theorem joinLoop_ok {l : Bool} {c : Ctx} {n : Nat} (h : CtxOk l c) {t : Ty} (ht : Fit l c t) : ∀ as P r, joinLoop c n as t P = some r → ProOk l c P →
    (∀ a ∈ as, Fit l c a) →
    r.1 = dyn ∨ (r.1 = t ∧ ProOk l c r.2 ∧ Extends c.bindings P r.2 ∧ ∀ a ∈ as, FitsIn l (look c.bindings r.2.map) a t) := by
  intro as
  induction as with
  | nil =>
    intro P r hr hP _
    rw [joinLoop] at hr
    injection hr with hr
    rw [← hr]
    exact .inr ⟨rfl, hP, fun _ _ h => h, fun a ha => nomatch ha⟩
  | cons a as ih =>
    intro P r hr hP ha
    rw [joinLoop] at hr
    obtain ⟨x, h1, h2⟩ := bind_some hr
    obtain ⟨b, P1⟩ := x
    obtain ⟨k1, k2⟩ := ok_assign h hP (ha a (by simp)) ht h1
    cases b with
    | false => exact .inl (joinLoop_dyn _ _ _ h2)
    | true =>
      rcases ih _ _ h2 k1 (fun a h => ha a (by simp [h])) with e | ⟨e, q1, q2, q3⟩
      · exact .inl e
      · refine .inr ⟨e, q1, extends_trans (k2 rfl).1 q2, fun b hb => ?_⟩
        rcases List.mem_cons.mp hb with rfl | hb
        · exact fitsIn_mono q2 (k2 rfl).2
        · exact q3 b hb

theorem valuesLoop_dyn {n : Nat} : ∀ as c r, valuesLoop n as dyn c = some r → r.1 = dyn := by
  intro as
  induction as with
  | nil => intro c r h; rw [valuesLoop] at h; injection h with h; rw [← h]
  | cons a as ih =>
    intro c r h
    rw [valuesLoop] at h
    obtain ⟨x, h1, h2⟩ := bind_some h
    rw [show (if x.1 = true then dyn else dyn) = dyn by split <;> rfl] at h2
    exact ih _ _ h2

theorem valuesLoop_ok {l : Bool} {n : Nat} {t : Ty} : ∀ as c r, valuesLoop n as t c = some r → CtxOk l c → Fit l c t → (∀ a ∈ as, Fit l c a) →
    r.1 = dyn ∨ (r.1 = t ∧ CtxOk l r.2 ∧ Keeps c r.2 ∧ ∀ a ∈ as, FitsIn l r.2.sub a t) := by
  intro as
  induction as with
  | nil =>
    intro c r hr h _ _
    rw [valuesLoop] at hr
    injection hr with hr
    rw [← hr]
    exact .inr ⟨rfl, h, fun _ h => h, fun a ha => nomatch ha⟩
  | cons a as ih =>
    intro c r hr h ht ha
    rw [valuesLoop] at hr
    obtain ⟨x, h1, h2⟩ := bind_some hr
    obtain ⟨b, c1⟩ := x
    obtain ⟨k1, k2, k3⟩ := ok_assignable h (ha a (by simp)) ht h1
    cases b with
    | false => exact .inl (valuesLoop_dyn _ _ _ h2)
    | true =>
      rcases ih _ _ h2 k1 (ht.keeps k2) (fun a h => (ha a (by simp [h])).keeps k2) with e | ⟨e, q1, q2, q3⟩
      · exact .inl e
      · refine .inr ⟨e, q1, keeps_trans k2 q2, fun b hb => ?_⟩
        rcases List.mem_cons.mp hb with rfl | hb
        · exact fitsIn_mono (later_values _ _ _ _ h2).sub (k3 rfl)
        · exact q3 b hb

end Cel.Types
