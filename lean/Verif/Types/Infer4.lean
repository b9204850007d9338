import Verif.Types.Infer3

/-!
# C60: an accepted expression is typed
-/

set_option linter.unusedSimpArgs false
set_option linter.unusedVariables false

namespace Cel.Types
open Cel Cel.Eval Cel.Checker Relation

/-! ## Calls -/

theorem strictOverload_declared {l : Bool} {o : Checker.Overload} (h : StrictOverload l o) : Declared o.result ∧ ∀ a ∈ o.args, Declared a :=
  ⟨⟨h.1.1.shaped, fun x hx => h.2.2 x (.inl hx)⟩, fun a ha => ⟨(h.2.1 a ha).1.shaped, fun x hx => h.2.2 x (.inr ⟨a, ha, hx⟩)⟩⟩

/-- The type found for a call: that of an overload whose parameters the arguments fit. -/
def Matched (l logical recv : Bool) (σ : Sub) (args : List Ty) (os : List Checker.Overload) (t : Ty) : Prop :=
  ∃ o ∈ os, ∃ m : Instances, o.member = recv ∧ t = subst (rename m) o.result ∧
    Both (FitsIn l σ) args ((paramsOf o logical args.length).map (subst (rename m)))

theorem Matched.mono {l logical recv : Bool} {σ τ : Sub} (hle : Within σ τ) {args : List Ty} {os : List Checker.Overload} {t : Ty}
    (h : Matched l logical recv σ args os t) : Matched l logical recv τ args os t := by
  obtain ⟨o, ho, m, h1, h2, h3⟩ := h
  exact ⟨o, ho, m, h1, h2, h3.imp (fun a b _ _ h => fitsIn_mono hle h)⟩

theorem params_renamed {o : Checker.Overload} {logical : Bool} {k : Nat} {m : Instances} {params : List Ty} (h : params = o.args.map (subst (rename m))) :
    (if logical then List.replicate k (params.headD dyn) else params) = (paramsOf o logical k).map (subst (rename m)) := by
  unfold paramsOf
  cases logical with
  | false => rw [if_neg (by simp), if_neg (by simp)]; exact h
  | true =>
    rw [if_pos rfl, if_pos rfl, List.map_replicate, h]
    congr 1
    cases o.args with
    | nil => rfl
    | cons p ps => rfl

theorem paramsOf_mem {o : Checker.Overload} {logical : Bool} {k : Nat} (hne : logical = true → o.args ≠ []) : ∀ p ∈ paramsOf o logical k, p ∈ o.args := by
  intro p hp
  unfold paramsOf at hp
  cases logical with
  | false => exact hp
  | true =>
    rw [if_pos rfl, List.mem_replicate] at hp
    rw [hp.2]
    cases ho : o.args with
    | nil => exact absurd ho (hne rfl)
    | cons q qs => simp

/-- A context between two overloads. -/
structure MidOk (l : Bool) (c : Ctx) : Prop where
  wf : WF c.sub
  proper : Proper c
  clean : CleanSub l c.sub
  legacy : c.legacyNull = l

theorem resolveOne_ok {l : Bool} {c : Ctx} {n : Nat} {logical : Bool} {args : List Ty} {recv : Bool} {o : Checker.Overload}
    {found : Option Ty × List Checker.Overload} {r : Ctx × Option Ty × List Checker.Overload} {os : List Checker.Overload} (hmem : o ∈ os)
    (hr : resolveOne c n logical args recv o found = some r) (h : MidOk l c) (ha : ∀ a ∈ args, Fit l c a) (ho : StrictOverload l o)
    (hne : logical = true → o.args ≠ []) (hf : ∀ t, found.1 = some t → Good c t ∧ (t = dyn ∨ Matched l logical recv c.sub args os t)) :
    MidOk l r.1 ∧ Keeps c r.1 ∧ ∀ t, r.2.1 = some t → Good r.1 t ∧ (t = dyn ∨ Matched l logical recv r.1.sub args os t) := by
  have hsub := resolveOne_sub hr
  obtain ⟨pr, kp, gt⟩ := resolveOne_proper hr h.wf h.proper (fun a h => (ha a h).1) (strictOverload_declared ho) (fun t ht => (hf t ht).1)
  have old : ∀ t, found.1 = some t → t = dyn ∨ Matched l logical recv r.1.sub args os t := by
    intro t ht
    rcases (hf t ht).2 with e | hm
    · exact .inl e
    · exact .inr (hm.mono hsub.1)
  have hleg : r.1.legacyNull = l := hsub.2.trans h.legacy
  suffices hs : CleanSub l r.1.sub ∧ ∀ t, r.2.1 = some t → (t = dyn ∨ Matched l logical recv r.1.sub args os t) from
    ⟨⟨resolveOne_wf hr h.wf, pr, hs.1, hleg⟩, kp, fun t ht => ⟨gt t ht, hs.2 t ht⟩⟩
  unfold resolveOne at hr
  split at hr
  · injection hr with hr; rw [← hr] at old ⊢; exact ⟨h.clean, old⟩
  · rename_i hguard
    obtain ⟨g1, g2, g3, g4, g5⟩ := overload_good (c := c) (strictOverload_declared ho)
    obtain ⟨m, m1, m2⟩ := overload_renamed (c := c) ho
    generalize instantiateOverload c o = q at hr g1 g2 g3 g4 g5 m1 m2
    obtain ⟨result, params, c'⟩ := q
    dsimp only at hr g1 g2 g3 g4 g5 m1 m2
    have hc' : MidOk l c' := ⟨by (rw [g4]; exact h.wf), proper_keeps g3 g4 h.proper, by rw [g4]; exact h.clean, g5.trans h.legacy⟩
    cases hx : assignArgs (assign c'.legacyNull c'.bindings n) logical args params .empty with
    | none => rw [hx] at hr; exact nomatch hr
    | some x =>
      obtain ⟨b, P⟩ := x
      rw [hx] at hr
      unfold assignArgs at hx
      have hpr := params_renamed (logical := logical) (k := args.length) m2
      have hparams : ∀ p ∈ (paramsOf o logical args.length).map (subst (rename m)), Clean l p := by
        intro p hp
        obtain ⟨q, hq, rfl⟩ := List.mem_map.mp hp
        exact clean_rename (ho.2.1 q (paramsOf_mem hne q hq)).1
      cases b with
      | false =>
        have hr : some (c', found) = some r := hr
        injection hr with hr
        rw [← hr] at old ⊢
        exact ⟨hc'.clean, old⟩
      | true =>
        have hr : some (c'.update P, some (match found.1 with
            | none => result
            | some t => if t.eq result then t else dyn), found.2 ++ [o]) = some r := hr
        injection hr with hr
        have hs : Sane c' P := assignAll_sane _ _ _ _ _ hx (sane_empty hc'.wf hc'.proper) (fun a h => good_keeps g3 (ha a h).1) (argTypes_good g2)
        rw [hpr] at hx
        have hle := hc'.legacy
        rw [hle] at hx
        obtain ⟨c1, c2⟩ := assignAll_clean (fun a b P r P' h => assign_clean _ _ _ _ _ _ h) _ _ _ _ _ hx (fun a h => (ha a h).2) hparams hc'.clean
        have hlen : args.length = ((paramsOf o logical args.length).map (subst (rename m))).length := by
          rw [List.length_map]
          unfold paramsOf
          cases logical with
          | true => simp
          | false =>
            rw [if_neg (by simp)]
            by_cases e : args.length = o.args.length
            · exact e
            · exact absurd (.inr ⟨rfl, e⟩) hguard
        obtain ⟨_, f2, _⟩ := assignAll_fits (B := c'.bindings) (legacy := l) (fun a b P P' h => assign_fits _ _ _ _ _ h)
          (fun a b P r P' h wf => ⟨assign_wf h wf, assign_widened h wf⟩) _ _ _ _ hlen hx hc'.wf c2
        have hsu := sub_update_eq hs.2
        have hsub' : r.1.sub = look c'.bindings P.map := by rw [← hr]; exact hsu
        rw [hsub']
        refine ⟨c1, fun t ht => ?_⟩
        rw [← hr] at ht
        dsimp only at ht
        injection ht with ht
        cases hfo : found.1 with
        | none =>
          rw [hfo] at ht
          dsimp only at ht
          refine .inr ⟨o, hmem, m, ?_, by rw [← ht, m1], both_of_zip _ _ hlen f2⟩
          by_cases e : o.member = recv
          · exact e
          · exact absurd (.inl e) hguard
        | some u =>
          rw [hfo] at ht
          dsimp only at ht
          split at ht
          · rw [← ht, ← hsub']; exact old u hfo
          · exact .inl ht.symm

theorem resolveLoop_ok {l : Bool} {n : Nat} {logical : Bool} {args : List Ty} {recv : Bool} {all : List Checker.Overload}
    (ho : ∀ o ∈ all, StrictOverload l o) (hne : ∀ o ∈ all, logical = true → o.args ≠ []) : ∀ os c found r, (∀ o ∈ os, o ∈ all) →
    resolveLoop n logical args recv os c found = some r → MidOk l c → (∀ a ∈ args, Fit l c a) →
    (∀ t, found.1 = some t → Good c t ∧ (t = dyn ∨ Matched l logical recv c.sub args all t)) →
    MidOk l r.1 ∧ Keeps c r.1 ∧ ∀ t, r.2.1 = some t → Good r.1 t ∧ (t = dyn ∨ Matched l logical recv r.1.sub args all t) := by
  intro os
  induction os with
  | nil => intro c found r _ hr h _ hf; rw [resolveLoop] at hr; injection hr with hr; rw [← hr]; exact ⟨h, fun _ h => h, hf⟩
  | cons o os ih =>
    intro c found r hos hr h ha hf
    rw [resolveLoop] at hr
    obtain ⟨x, h1, h2⟩ := bind_some hr
    have hm := hos o (by simp)
    obtain ⟨k1, k2, k3⟩ := resolveOne_ok hm h1 h ha (ho o hm) (hne o hm) hf
    obtain ⟨q1, q2, q3⟩ := ih _ _ _ (fun o h => hos o (by simp [h])) h2 k1 (fun a h => (ha a h).keeps k2) k3
    exact ⟨q1, keeps_trans k2 q2, q3⟩

theorem logical_nonempty {d : Decls} (hd : d.Ok) {fn : String} {fd : FunctionDecl} (hf : d.funcs fn = some fd) {args : List Ty} :
    ∀ o ∈ fd.overloads, isLogicalOp fd.name args = true → o.args = [.b .bool, .b .bool] := by
  intro o ho hl
  unfold isLogicalOp at hl
  rw [hd.names fn fd hf] at hl
  have hfn : fn = "_&&_" ∨ fn = "_||_" := by
    simp only [Bool.and_eq_true, Bool.or_eq_true, beq_iff_eq] at hl
    exact hl.1
  rcases hfn with rfl | rfl
  · have := (hd.ops _ fd o (by simp [builtins]) hf ho).2
    simp [standard] at this
    exact this.1
  · have := (hd.ops _ fd o (by simp [builtins]) hf ho).2
    simp [standard] at this
    exact this.1

theorem call_ok {l : Bool} {d : Decls} (hd : d.Ok) {c : Ctx} {n : Nat} {fn : String} {recv : Bool} {as : List Ty} {r : Ty × Ctx}
    (hr : callTy d c n fn recv as = some r) (h : CtxOk l c) (ha : ∀ a ∈ as, Fit l c a)
    (ho : ∀ fd, d.funcs fn = some fd → ∀ o ∈ fd.overloads, StrictOverload l o)
    {τ : Sub} (hle : Within r.2.sub τ) (ht : TotalSub τ) {s : Ty} (hs : Full τ true r.1 s) (hst : Strict l s) :
    CtxOk l r.2 ∧ Keeps c r.2 ∧ Good r.2 r.1 ∧ (CleanSub l τ → ∀ fs, Both (Full τ true) as fs → CallOk d l fn recv fs s) := by
  have hlat := later_call hr
  obtain ⟨fd, os, hfd, hsh, hres⟩ := callTy_parts hr
  obtain ⟨x, h1, h2, h3⟩ := resolve_parts hres
  dsimp only at h2 h3
  rcases h3 with ⟨_, e⟩ | ⟨t, t', e1, e2, e3⟩
  · exact nomatch e
  injection e3 with e3
  injection e3 with e3 _
  subst e3
  rw [← h2] at e2
  obtain ⟨k1, k2, k3⟩ := resolveLoop_ok (ho fd hfd) (fun o hm hl => by rw [logical_nonempty hd hfd o hm hl]; simp) fd.overloads c (none, []) x
    (fun _ h => h) h1 ⟨h.wf, h.proper, h.clean, h.legacy⟩ ha (fun t ht => nomatch ht)
  obtain ⟨g, hm⟩ := k3 t e1
  rw [← h2] at k1 k2 g hm
  have hok : CtxOk l r.2 := ⟨hlat.reach h.reach, k1.proper, k1.clean, k1.legacy⟩
  refine ⟨hok, k2, full_good hok.proper _ _ _ e2 g, fun hτ fs hb => ?_⟩
  have hs := full_before hle ht e2 hs
  rcases hm with e | ⟨o, hmem, m, o1, o2, o3⟩
  · rw [e] at hs
    rw [full_base hs] at hst
    exact absurd hst strict_dyn
  · subst o2
    have hst0 := ho fd hfd o hmem
    choose θ hθ using fun x => ht (rename m x)
    have hlen : isLogicalOp fd.name fs = isLogicalOp fd.name as := by unfold isLogicalOp; rw [hb.length]
    have hne : isLogicalOp fd.name as = true → o.args ≠ [] := fun hl => by rw [logical_nonempty hd hfd o hmem hl]; simp
    refine ⟨fd, o, θ, hfd, hmem, o1, by rw [← hb.length]; exact hsh, ?_, full_unique hs (full_rename hθ hst0.1.1.shaped)⟩
    rw [hlen, ← hb.length]
    have b1 : Both (fun (f : Ty) q => ∀ u, Full τ true q u → Alike f u) fs ((paramsOf o (isLogicalOp fd.name as) as.length).map (subst (rename m))) :=
      hb.comp o3 (fun a f q ha' _ hq hf hfit u hu => by
        obtain ⟨p, hp, rfl⟩ := List.mem_map.mp hq
        exact alike_of_fits hle hτ hfit (ha a ha').2 (clean_rename (hst0.2.1 p (paramsOf_mem hne p hp)).1) hf hu)
    have b2 : ∀ ps : List Ty, (∀ p ∈ ps, p ∈ o.args) → ∀ fs, Both (fun (f : Ty) q => ∀ u, Full τ true q u → Alike f u) fs (ps.map (subst (rename m))) →
        Both Alike fs (ps.map (subst θ)) := by
      intro ps
      induction ps with
      | nil => intro _ fs h; cases h; exact .nil
      | cons p ps ih =>
        intro hp fs h
        cases h with
        | cons h1 h2 =>
          exact .cons (h1 _ (full_rename hθ (hst0.2.1 p (hp p (by simp))).1.shaped)) (ih (fun q hq => hp q (by simp [hq])) _ h2)
    exact b2 _ (paramsOf_mem hne) _ b1

/-! ## Messages -/

theorem fields_ok {l : Bool} {d : Decls} (hd : d.Ok) {name : String} {n : Nat} {τ : Sub} (ht : TotalSub τ) : ∀ fs as c c',
    assignFields d name n fs as c = some c' → CtxOk l c → (∀ a ∈ as, Fit l c a) → (∀ f ∈ fs, ∀ t, d.fields name f = some t → Strict l t) →
    Within c'.sub τ → CtxOk l c' ∧ Keeps c c' ∧ (CleanSub l τ → ∀ gs, Both (Full τ true) as gs →
      ∃ ts, Both (fun f u => d.fields name f = some u) fs ts ∧ Both Alike gs ts) := by
  intro fs
  induction fs with
  | nil =>
    intro as c c' hr h _ _ _
    cases as with
    | nil => rw [assignFields] at hr; injection hr with hr; rw [← hr]; exact ⟨h, fun _ h => h, fun _ gs hb => by cases hb; exact ⟨[], .nil, .nil⟩⟩
    | cons a as => rw [assignFields] at hr; exact nomatch hr; all_goals (intros; simp_all)
  | cons f fs ih =>
    intro as c c' hr h ha hst hle
    cases as with
    | nil => rw [assignFields] at hr; exact nomatch hr; all_goals (intros; simp_all)
    | cons a as =>
      rw [assignFields] at hr
      split at hr
      · exact nomatch hr
      · rename_i t hf
        obtain ⟨q, h1, h2⟩ := bind_some hr
        obtain ⟨b, c1⟩ := q
        cases b with
        | false => exact nomatch h2
        | true =>
          have h2 : assignFields d name n fs as c1 = some c' := h2
          obtain ⟨s1, s2⟩ := hd.fields _ _ _ hf
          have hfull := full_of_ground ht s1 s2
          have hcl : Clean l t := strict_clean s1 t hfull (hst f (by simp) t hf)
          obtain ⟨k1, k2, k3⟩ := ok_assignable h (ha a (by simp)) ⟨good_ground s1 s2, hcl⟩ h1
          have hle1 : Within c1.sub τ := fun x t hx => hle x t ((later_fields _ _ _ _ h2).sub x t hx)
          obtain ⟨q1, q2, q3⟩ := ih as c1 c' h2 k1 (fun a h => (ha a (by simp [h])).keeps k2) (fun g hg => hst g (by simp [hg])) hle
          refine ⟨q1, keeps_trans k2 q2, fun hτ gs hb => ?_⟩
          cases hb with
          | cons hg hb =>
            obtain ⟨ts, t1, t2⟩ := q3 hτ _ hb
            exact ⟨t :: ts, .cons hf t1, .cons (alike_of_fits hle1 hτ (k3 rfl) (ha a (by simp)).2 hcl hg hfull) t2⟩

end Cel.Types
