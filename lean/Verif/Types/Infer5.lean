import Verif.Types.Infer4

/-!
# C60: an accepted expression is typed
-/

set_option linter.unusedSimpArgs false
set_option linter.unusedVariables false

namespace Cel.Types
open Cel Cel.Eval Cel.Checker Relation

theorem finalize_ann {c : Ctx} {n : Nat} {a f : Ast Ty} (h : finalize c n a = some f) : Full c.sub true a.ann f.ann := by
  cases a <;> rw [finalize] at h <;> obtain ⟨t, h1, h2⟩ := bind_some h
  · injection h2 with h2; rw [← h2]; exact ⟨n, h1⟩
  · injection h2 with h2; rw [← h2]; exact ⟨n, h1⟩
  · obtain ⟨_, _, h2⟩ := bind_some h2; injection h2 with h2; rw [← h2]; exact ⟨n, h1⟩
  · obtain ⟨_, _, h2⟩ := bind_some h2; injection h2 with h2; rw [← h2]; exact ⟨n, h1⟩
  · obtain ⟨_, _, h2⟩ := bind_some h2; injection h2 with h2; rw [← h2]; exact ⟨n, h1⟩
  · obtain ⟨_, _, h2⟩ := bind_some h2; injection h2 with h2; rw [← h2]; exact ⟨n, h1⟩
  · obtain ⟨_, _, h2⟩ := bind_some h2; injection h2 with h2; rw [← h2]; exact ⟨n, h1⟩
  · obtain ⟨_, _, h2⟩ := bind_some h2
    obtain ⟨_, _, h2⟩ := bind_some h2
    obtain ⟨_, _, h2⟩ := bind_some h2
    obtain ⟨_, _, h2⟩ := bind_some h2
    obtain ⟨_, _, h2⟩ := bind_some h2
    injection h2 with h2; rw [← h2]; exact ⟨n, h1⟩

theorem finalizeAll_anns {c : Ctx} {n : Nat} : ∀ (as fs : Asts Ty), finalizeAll c n as = some fs → Both (Full c.sub true) as.anns fs.anns
  | .nil, fs, h => by rw [finalizeAll] at h; injection h with h; rw [← h]; exact .nil
  | .cons a as, fs, h => by
    rw [finalizeAll] at h
    obtain ⟨x, h1, h2⟩ := bind_some h
    obtain ⟨y, h3, h4⟩ := bind_some h2
    injection h4 with h4
    rw [← h4]
    exact .cons (finalize_ann h1) (finalizeAll_anns as y h3)

theorem every_anns {α : Type} {p : α → Prop} : ∀ (as : Asts α), as.Every p → ∀ a ∈ as.anns, p a
  | .nil, _, a, h => nomatch h
  | .cons e es, hs, a, h => by
    rw [Asts.Every] at hs
    rw [Asts.anns, List.mem_cons] at h
    rcases h with rfl | h
    · cases e <;> rw [Ast.Every] at hs <;> first | exact hs.1 | exact hs.1.1
    · exact every_anns es hs.2 a h

theorem every_ann {α : Type} {p : α → Prop} {e : Ast α} (h : e.Every p) : p e.ann := by
  cases e <;> rw [Ast.Every] at h <;> first | exact h | exact h.1

theorem finalize_nil {c : Ctx} {n : Nat} {a f : Ast Ty} (h : finalize c n a = some f) (hf : ∃ t, f = .list t .nil) : ∃ t, a = .list t .nil := by
  obtain ⟨t, e⟩ := hf
  subst e
  cases a <;> rw [finalize] at h <;> obtain ⟨t, h1, h2⟩ := bind_some h
  · injection h2 with h2; exact nomatch h2
  · injection h2 with h2; exact nomatch h2
  · obtain ⟨_, _, h2⟩ := bind_some h2; injection h2 with h2; exact nomatch h2
  · obtain ⟨_, _, h2⟩ := bind_some h2; injection h2 with h2; exact nomatch h2
  · rename_i es
    obtain ⟨q, hq, h2⟩ := bind_some h2; injection h2 with h2
    injection h2 with _ h2
    subst h2
    cases es with
    | nil => exact ⟨_, rfl⟩
    | cons e es =>
      rw [finalizeAll] at hq
      obtain ⟨_, _, hq⟩ := bind_some hq
      obtain ⟨_, _, hq⟩ := bind_some hq
      injection hq with hq; exact nomatch hq
  · obtain ⟨_, _, h2⟩ := bind_some h2; injection h2 with h2; exact nomatch h2
  · obtain ⟨_, _, h2⟩ := bind_some h2; injection h2 with h2; exact nomatch h2
  · obtain ⟨_, _, h2⟩ := bind_some h2
    obtain ⟨_, _, h2⟩ := bind_some h2
    obtain ⟨_, _, h2⟩ := bind_some h2
    obtain ⟨_, _, h2⟩ := bind_some h2
    obtain ⟨_, _, h2⟩ := bind_some h2
    injection h2 with h2; exact nomatch h2

theorem infer_nil {d : Decls} {n : Nat} {e : Ast Unit} {Γ : Scope} {c : Ctx} {r : Ast Ty × Ctx} (h : infer d n e Γ c = some r)
    (hf : ∃ t, r.1 = .list t .nil) : ∃ q, listTy c n [] = some q ∧ r = (.list q.1 .nil, q.2) := by
  obtain ⟨t, e0⟩ := hf
  cases e <;> rw [infer] at h <;> obtain ⟨t, h1, h2⟩ := bind_some h
  · injection h2 with h2; rw [← h2] at e0; exact nomatch e0
  · injection h2 with h2; rw [← h2] at e0; exact nomatch e0
  · obtain ⟨_, _, h2⟩ := bind_some h2; injection h2 with h2; rw [← h2] at e0; exact nomatch e0
  · obtain ⟨_, _, h2⟩ := bind_some h2; injection h2 with h2; rw [← h2] at e0; exact nomatch e0
  · rename_i es
    obtain ⟨q, hq, h2⟩ := bind_some h2; injection h2 with h2
    rw [← h2] at e0
    injection e0 with _ e0
    cases es with
    | nil =>
      rw [inferAll] at h1
      injection h1 with h1
      subst h1
      exact ⟨q, hq, h2.symm⟩
    | cons e es =>
      rw [inferAll] at h1
      obtain ⟨_, _, h1⟩ := bind_some h1
      obtain ⟨_, _, h1⟩ := bind_some h1
      injection h1 with h1; rw [← h1] at e0; exact nomatch e0
  · obtain ⟨_, _, h2⟩ := bind_some h2; injection h2 with h2; rw [← h2] at e0; exact nomatch e0
  · obtain ⟨_, _, h2⟩ := bind_some h2; injection h2 with h2; rw [← h2] at e0; exact nomatch e0
  · obtain ⟨_, _, h2⟩ := bind_some h2
    obtain ⟨_, _, h2⟩ := bind_some h2
    obtain ⟨_, _, h2⟩ := bind_some h2
    obtain ⟨_, _, h2⟩ := bind_some h2
    obtain ⟨_, _, h2⟩ := bind_some h2
    obtain ⟨_, _, h2⟩ := bind_some h2
    injection h2 with h2; rw [← h2] at e0; exact nomatch e0

theorem isBind_range {α : Type} {iter : String} {iter2 : Option String} {range cnd : Ast α} (h : isBind iter iter2 range cnd = true) :
    ∃ t, range = .list t .nil := by
  unfold isBind at h
  rw [Bool.and_eq_true] at h
  obtain ⟨_, h⟩ := h
  split at h
  · exact ⟨_, rfl⟩
  · exact nomatch h

/-! ## Iteration variables -/

theorem iterTys_fit {l : Bool} {c : Ctx} {t : Ty} {ts : Ty × Ty × Ty} (h : iterTys t = some ts) (hf : Fit l c t) :
    Fit l c ts.1 ∧ Fit l c ts.2.1 ∧ Fit l c ts.2.2 := by
  unfold iterTys at h
  split at h
  · rename_i u
    injection h with h
    subst h
    have hu : Fit l c u := ⟨⟨(shaped_params hf.1.1).1 u (by simp), fun x hx => hf.1.2 x (.inside (by simp) hx)⟩, hf.2.params (by simp) u (by simp)⟩
    exact ⟨hu, ⟨good_leaf _ _, .base trivial⟩, hu⟩
  · rename_i k v
    injection h with h
    subst h
    have hk : Fit l c k := ⟨⟨(shaped_params hf.1.1).1 k (by simp), fun x hx => hf.1.2 x (.inside (by simp) hx)⟩, hf.2.params (by simp) k (by simp)⟩
    have hv : Fit l c v := ⟨⟨(shaped_params hf.1.1).1 v (by simp), fun x hx => hf.1.2 x (.inside (by simp) hx)⟩, hf.2.params (by simp) v (by simp)⟩
    exact ⟨hk, hk, hv⟩
  · have := hf.2.head
    cases this with
    | base h => exact absurd h id
  · exact nomatch h

theorem iterScope_fit {l : Bool} {c : Ctx} {iter : String} {iter2 : Option String} {ts : Ty × Ty × Ty}
    (h : Fit l c ts.1 ∧ Fit l c ts.2.1 ∧ Fit l c ts.2.2) : ∀ p ∈ iterScope iter iter2 ts, Fit l c p.2 := by
  intro p hp
  unfold iterScope at hp
  cases iter2 with
  | none =>
    simp only [List.mem_singleton] at hp
    rw [hp]; exact h.1
  | some y =>
    simp only [List.mem_cons, List.not_mem_nil, or_false] at hp
    rcases hp with rfl | rfl
    · exact h.2.1
    · exact h.2.2

theorem iterTys_final {l : Bool} {τ : Sub} {t s : Ty} {ts : Ty × Ty × Ty} (h : iterTys t = some ts) (hf : Full τ true t s) (hc : Clean l t) :
    ∃ ss, iterTys s = some ss ∧ Full τ true ts.1 ss.1 ∧ Full τ true ts.2.1 ss.2.1 ∧ Full τ true ts.2.2 ss.2.2 := by
  unfold iterTys at h
  split at h
  · injection h with h
    subst h
    obtain ⟨u, rfl, hu⟩ := full_list hf
    exact ⟨_, rfl, hu, full_leaf, hu⟩
  · injection h with h
    subst h
    obtain ⟨k, v, rfl, hk, hv⟩ := full_map hf
    exact ⟨_, rfl, hk, hk, hv⟩
  · have := hc.head
    cases this with
    | base h => exact absurd h id
  · exact nomatch h

theorem iterScope_final {τ : Sub} {iter : String} {iter2 : Option String} {ts ss : Ty × Ty × Ty}
    (h : Full τ true ts.1 ss.1 ∧ Full τ true ts.2.1 ss.2.1 ∧ Full τ true ts.2.2 ss.2.2) {Γ Γf : Scope} (hΓ : FinalScope τ Γ Γf) :
    FinalScope τ (iterScope iter iter2 ts ++ Γ) (iterScope iter iter2 ss ++ Γf) := by
  unfold iterScope
  cases iter2 with
  | none => exact .cons ⟨rfl, h.1⟩ hΓ
  | some y => exact .cons ⟨rfl, h.2.1⟩ (.cons ⟨rfl, h.2.2⟩ hΓ)

/-! ## Expressions -/

/-- What is known once a subexpression is accepted. -/
def Done (d : Decls) (l : Bool) (τ : Sub) (Γ : Scope) (c c' : Ctx) (t : Ty) (f : Ast Ty) : Prop :=
  CtxOk l c' ∧ Keeps c c' ∧ Fit l c' t ∧ (CleanSub l τ → ∀ Γf, FinalScope τ Γ Γf → f.Ok d l Γf)

theorem scope_keeps {l : Bool} {c c' : Ctx} (hk : Keeps c c') {Γ : Scope} (h : ∀ p ∈ Γ, Fit l c p.2) : ∀ p ∈ Γ, Fit l c' p.2 :=
  fun p hp => (h p hp).keeps hk

theorem within_trans {c c' : Ctx} {τ : Sub} (h : Later c c') (hle : Within c'.sub τ) : Within c.sub τ := fun x t hx => hle x t (h.sub x t hx)

mutual
theorem infer_ok {d : Decls} (hd : d.Ok) {l : Bool} {n : Nat} {cs : Ctx} (ht : TotalSub cs.sub) (e : Ast Unit) (Γ : Scope) (c : Ctx)
    (r : Ast Ty × Ctx) (hr : infer d n e Γ c = some r) (h : CtxOk l c) (hΓ : ∀ p ∈ Γ, Fit l c p.2) (hle : Within r.2.sub cs.sub) (f : Ast Ty)
    (hf : finalize cs n r.1 = some f) (hs : f.Every (Strict l)) (hu : e.Uses d l) : Done d l cs.sub Γ c r.2 r.1.ann f := by
  have hann := finalize_ann hf
  have hstr := every_ann hs
  have fit : Good r.2 r.1.ann → Fit l r.2 r.1.ann := fun hg => ⟨hg, strict_clean hg.1 _ hann hstr⟩
  cases e with
  | const a v =>
    rw [infer] at hr
    obtain ⟨t, h1, hr⟩ := bind_some hr
    injection hr with hr
    subst hr
    rw [finalize] at hf
    obtain ⟨t', h2, hf⟩ := bind_some hf
    injection hf with hf
    subst hf
    have hb : ∃ b, t = .b b := by cases v <;> simp [constTy] at h1 <;> exact ⟨_, h1.symm⟩
    obtain ⟨b, rfl⟩ := hb
    have e := full_base ⟨n, h2⟩
    subst e
    refine ⟨h, fun _ h => h, fit (good_leaf _ _), fun _ Γf _ => ?_⟩
    rw [Ast.Ok]
    cases v <;> simp [constTy] at h1 <;> rw [← h1] <;> constructor
  | ident a x abs =>
    rw [infer] at hr
    obtain ⟨q, h1, hr⟩ := bind_some hr
    injection hr with hr
    subst hr
    rw [finalize] at hf
    obtain ⟨t', h2, hf⟩ := bind_some hf
    injection hf with hf
    subst hf
    obtain ⟨k1, k2, k3, k4⟩ := ident_ok hd h1 h hΓ ht ⟨n, h2⟩ hstr
    exact ⟨k1, k2, fit k3, fun _ Γf hΓf => by rw [Ast.Ok]; exact k4 Γf hΓf⟩
  | select a e fld test =>
    rw [infer] at hr
    obtain ⟨g, h1, hr⟩ := bind_some hr
    obtain ⟨q, h2, hr⟩ := bind_some hr
    injection hr with hr
    subst hr
    rw [finalize] at hf
    obtain ⟨t', f1, hf⟩ := bind_some hf
    obtain ⟨fe, f2, hf⟩ := bind_some hf
    injection hf with hf
    subst hf
    rw [Ast.Every] at hs
    rw [Ast.Uses] at hu
    have hlat := later_select h2
    obtain ⟨i1, i2, i3, i4⟩ := infer_ok hd ht e Γ c g h1 h hΓ (within_trans hlat hle) fe f2 hs.2 hu
    obtain ⟨k1, k2, k3, k4⟩ := select_ok hd h2 i1 i3.1 hle ht (finalize_ann f2) (every_ann hs.2) ⟨n, f1⟩ hs.1
    exact ⟨k1, keeps_trans i2 k2, fit k3, fun hτ Γf hΓf => by rw [Ast.Ok]; exact ⟨i4 hτ Γf hΓf, k4⟩⟩
  | call a fn recv args =>
    rw [infer] at hr
    obtain ⟨g, h1, hr⟩ := bind_some hr
    obtain ⟨q, h2, hr⟩ := bind_some hr
    injection hr with hr
    subst hr
    rw [finalize] at hf
    obtain ⟨t', f1, hf⟩ := bind_some hf
    obtain ⟨fe, f2, hf⟩ := bind_some hf
    injection hf with hf
    subst hf
    rw [Ast.Every] at hs
    rw [Ast.Uses] at hu
    obtain ⟨i1, i2, i3, i4⟩ := inferAll_ok hd ht args Γ c g h1 h hΓ (within_trans (later_call h2) hle) fe f2 hs.2 hu.2
    obtain ⟨k1, k2, k3, k4⟩ := call_ok hd h2 i1 i3 hu.1 hle ht ⟨n, f1⟩ hs.1
    exact ⟨k1, keeps_trans i2 k2, fit k3, fun hτ Γf hΓf => by rw [Ast.Ok]; exact ⟨i4 hτ Γf hΓf, k4 hτ _ (finalizeAll_anns _ _ f2)⟩⟩
  | list a es =>
    rw [infer] at hr
    obtain ⟨g, h1, hr⟩ := bind_some hr
    obtain ⟨q, h2, hr⟩ := bind_some hr
    injection hr with hr
    subst hr
    rw [finalize] at hf
    obtain ⟨t', f1, hf⟩ := bind_some hf
    obtain ⟨fe, f2, hf⟩ := bind_some hf
    injection hf with hf
    subst hf
    rw [Ast.Every] at hs
    rw [Ast.Uses] at hu
    obtain ⟨i1, i2, i3, i4⟩ := inferAll_ok hd ht es Γ c g h1 h hΓ (within_trans (later_list h2) hle) fe f2 hs.2 hu
    obtain ⟨k1, k2, k3, k4⟩ := list_ok h2 i1 i3 hle ht ⟨n, f1⟩ hs.1
    exact ⟨k1, keeps_trans i2 k2, fit k3, fun hτ Γf hΓf => by rw [Ast.Ok]; exact ⟨i4 hτ Γf hΓf, k4 hτ _ (finalizeAll_anns _ _ f2)⟩⟩
  | map a es =>
    rw [infer] at hr
    obtain ⟨g, h1, hr⟩ := bind_some hr
    obtain ⟨q, h2, hr⟩ := bind_some hr
    injection hr with hr
    subst hr
    rw [finalize] at hf
    obtain ⟨t', f1, hf⟩ := bind_some hf
    obtain ⟨fe, f2, hf⟩ := bind_some hf
    injection hf with hf
    subst hf
    rw [Ast.Every] at hs
    rw [Ast.Uses] at hu
    obtain ⟨i1, i2, i3, i4⟩ := inferAll_ok hd ht es Γ c g h1 h hΓ (within_trans (later_map h2) hle) fe f2 hs.2 hu
    obtain ⟨k1, k2, k3, k4⟩ := map_ok h2 i1 i3 hle ht ⟨n, f1⟩ hs.1
    exact ⟨k1, keeps_trans i2 k2, fit k3, fun hτ Γf hΓf => by rw [Ast.Ok]; exact ⟨i4 hτ Γf hΓf, k4 hτ _ (finalizeAll_anns _ _ f2)⟩⟩
  | struct a name fs vs =>
    rw [infer] at hr
    obtain ⟨g, h1, hr⟩ := bind_some hr
    obtain ⟨q, h2, hr⟩ := bind_some hr
    injection hr with hr
    subst hr
    rw [finalize] at hf
    obtain ⟨t', f1, hf⟩ := bind_some hf
    obtain ⟨fe, f2, hf⟩ := bind_some hf
    injection hf with hf
    subst hf
    rw [Ast.Every] at hs
    rw [Ast.Uses] at hu
    obtain ⟨i1, i2, i3, i4⟩ := inferAll_ok hd ht vs Γ c g h1 h hΓ (within_trans (later_struct h2) hle) fe f2 hs.2 hu.2
    obtain ⟨g1, g2⟩ := structTy_parts h2
    obtain ⟨s1, s2⟩ := hd.types _ _ g1
    obtain ⟨k1, k2, k3⟩ := fields_ok hd ht fs _ _ _ g2 i1 i3 hu.1 hle
    have e := full_ground s1 s2 ⟨n, f1⟩
    exact ⟨k1, keeps_trans i2 k2, fit (good_ground s1 s2), fun hτ Γf hΓf => by
      rw [Ast.Ok]; exact ⟨i4 hτ Γf hΓf, by rw [e]; exact g1, k3 hτ _ (finalizeAll_anns _ _ f2)⟩⟩
  | comp a iter iter2 accu range init cnd stp res =>
    obtain ⟨g, ts, i, k, s, q, t, h1, h2, h3, h4, h5, h6, h7, rfl⟩ := comp_parts hr
    rw [finalize] at hf
    obtain ⟨t', f0, hf⟩ := bind_some hf
    obtain ⟨fg, f1, hf⟩ := bind_some hf
    obtain ⟨fi, f2, hf⟩ := bind_some hf
    obtain ⟨fk, f3, hf⟩ := bind_some hf
    obtain ⟨fs, f4, hf⟩ := bind_some hf
    obtain ⟨fq, f5, hf⟩ := bind_some hf
    injection hf with hf
    subst hf
    rw [Ast.Every] at hs
    rw [Ast.Uses] at hu
    obtain ⟨u1, u2, u3, u4, u5⟩ := hu
    obtain ⟨s0, s1, s2, s3, s4, s5⟩ := hs
    have w5 : Within s.2.sub cs.sub := within_trans (later_infer _ _ _ _ _ _ h6) hle
    have w4 : Within k.2.sub cs.sub := within_trans (later_infer _ _ _ _ _ _ h5) w5
    have w3 : Within i.2.sub cs.sub := within_trans (later_infer _ _ _ _ _ _ h4) w4
    have w2 : Within g.2.sub cs.sub := within_trans (later_infer _ _ _ _ _ _ h3) w3
    have hrange : CtxOk l g.2 ∧ Keeps c g.2 ∧ Fit l g.2 g.1.ann ∧ (isBind iter iter2 fg fk = true ∨
        (CleanSub l cs.sub → ∀ Γf, FinalScope cs.sub Γ Γf → fg.Ok d l Γf)) := by
      rcases s1 with hb | s1
      · obtain ⟨q, g1, g2⟩ := infer_nil h1 (finalize_nil f1 (isBind_range hb))
        obtain ⟨l1, l2, l3⟩ := list_nil_ok g1 h
        rw [g2]
        exact ⟨l1, l2, l3, .inl hb⟩
      · obtain ⟨i1, i2, i3, i4⟩ := infer_ok hd ht range Γ c g h1 h hΓ w2 fg f1 s1 u1
        exact ⟨i1, i2, i3, .inr i4⟩
    obtain ⟨r1, r2, r3, r4⟩ := hrange
    obtain ⟨i1, i2, i3, i4⟩ := infer_ok hd ht init Γ g.2 i h3 r1 (scope_keeps r2 hΓ) w3 fi f2 s2 u2
    have ka : ∀ p ∈ ((accu, i.1.ann) :: Γ : Scope), Fit l i.2 p.2 := by
      intro p hp
      rcases List.mem_cons.mp hp with rfl | hp
      · exact i3
      · exact (hΓ p hp).keeps (keeps_trans r2 i2)
    obtain ⟨k1, k2, k3, k4⟩ := infer_ok hd ht cnd _ i.2 k h4 i1 ka w4 fk f3 s3 u3
    have kb : ∀ p ∈ iterScope iter iter2 ts ++ ((accu, i.1.ann) :: Γ : Scope), Fit l k.2 p.2 := by
      intro p hp
      rcases List.mem_append.mp hp with hp | hp
      · exact (iterScope_fit (iterTys_fit h2 r3) p hp).keeps (keeps_trans i2 k2)
      · exact (ka p hp).keeps k2
    obtain ⟨p1, p2, p3, p4⟩ := infer_ok hd ht stp _ k.2 s h5 k1 kb w5 fs f4 s4 u4
    obtain ⟨q1, q2, q3, q4⟩ := infer_ok hd ht res _ s.2 q h6 p1 (scope_keeps (keeps_trans k2 p2) ka) hle fq f5 s5 u5
    have hres : t' = fq.ann := full_unique (full_before hle ht h7 ⟨n, f0⟩) (finalize_ann f5)
    refine ⟨q1, keeps_trans r2 (keeps_trans i2 (keeps_trans k2 (keeps_trans p2 q2))), fit (full_good q1.proper _ _ _ h7 q3.1), fun hτ Γf hΓf => ?_⟩
    have hacc : FinalScope cs.sub ((accu, i.1.ann) :: Γ) ((accu, fi.ann) :: Γf) := .cons ⟨rfl, finalize_ann f2⟩ hΓf
    rw [Ast.Ok]
    refine ⟨i4 hτ Γf hΓf, q4 hτ _ hacc, hres, ?_⟩
    rcases r4 with hb | r4
    · exact .inl hb
    · obtain ⟨ss, e1, e2⟩ := iterTys_final h2 (finalize_ann f1) r3.2
      exact .inr ⟨r4 hτ Γf hΓf, k4 hτ _ hacc, ss, e1, p4 hτ _ (iterScope_final e2 hacc)⟩
theorem inferAll_ok {d : Decls} (hd : d.Ok) {l : Bool} {n : Nat} {cs : Ctx} (ht : TotalSub cs.sub) (es : Asts Unit) (Γ : Scope) (c : Ctx)
    (r : Asts Ty × Ctx) (hr : inferAll d n es Γ c = some r) (h : CtxOk l c) (hΓ : ∀ p ∈ Γ, Fit l c p.2) (hle : Within r.2.sub cs.sub) (fs : Asts Ty)
    (hf : finalizeAll cs n r.1 = some fs) (hs : fs.Every (Strict l)) (hu : es.Uses d l) :
    CtxOk l r.2 ∧ Keeps c r.2 ∧ (∀ a ∈ r.1.anns, Fit l r.2 a) ∧ (CleanSub l cs.sub → ∀ Γf, FinalScope cs.sub Γ Γf → fs.Ok d l Γf) := by
  cases es with
  | nil =>
    rw [inferAll] at hr
    injection hr with hr
    subst hr
    rw [finalizeAll] at hf
    injection hf with hf
    subst hf
    exact ⟨h, fun _ h => h, (fun a ha => nomatch ha), fun _ _ _ => by (unfold Asts.Ok; trivial)⟩
  | cons e es =>
    rw [inferAll] at hr
    obtain ⟨g, h1, hr⟩ := bind_some hr
    obtain ⟨q, h2, hr⟩ := bind_some hr
    injection hr with hr
    subst hr
    rw [finalizeAll] at hf
    obtain ⟨fe, f1, hf⟩ := bind_some hf
    obtain ⟨fes, f2, hf⟩ := bind_some hf
    injection hf with hf
    subst hf
    rw [Asts.Every] at hs
    rw [Asts.Uses] at hu
    obtain ⟨i1, i2, i3, i4⟩ := infer_ok hd ht e Γ c g h1 h hΓ (within_trans (later_inferAll _ _ _ _ _ _ h2) hle) fe f1 hs.1 hu.1
    obtain ⟨k1, k2, k3, k4⟩ := inferAll_ok hd ht es Γ g.2 q h2 i1 (scope_keeps i2 hΓ) hle fes f2 hs.2 hu.2
    refine ⟨k1, keeps_trans i2 k2, fun a ha => ?_, fun hτ Γf hΓf => by rw [Asts.Ok]; exact ⟨i4 hτ Γf hΓf, k4 hτ Γf hΓf⟩⟩
    rcases List.mem_cons.mp ha with rfl | ha
    · exact i3.keeps k2
    · exact k3 a ha
end

/-- What the checker accepts is typed. -/
theorem check_ok {d : Decls} (hd : d.Ok) {l : Bool} {expected : Option Ty} (hx : ∀ t, expected = some t → Shaped t ∧ Ground t ∧ Strict l t) {n : Nat}
    {e : Ast Unit} {te : Ast Ty} (h : check d l expected n e = some te) (hs : te.Every (Strict l)) (hu : e.Uses d l) :
    te.Ok d l [] ∧ ∀ t, expected = some t → Alike te.ann t := by
  unfold check at h
  obtain ⟨r, h1, h⟩ := bind_some h
  obtain ⟨c, h2, h3⟩ := bind_some h
  have hlat := later_infer _ _ _ _ _ _ h1
  have hr : Reachable r.2 := hlat.reach (.start l)
  have hlx : Later r.2 c := by
    unfold expect at h2
    cases expected with
    | none => injection h2 with h2; rw [← h2]; exact .refl _
    | some x =>
      obtain ⟨q, g1, g2⟩ := bind_some h2
      obtain ⟨b, c1⟩ := q
      cases b with
      | false => exact nomatch g2
      | true =>
        have g2 : some c1 = some c := g2
        injection g2 with g2
        rw [← g2]
        exact later_assignable g1
  have ht : TotalSub c.sub := total_of_wf (reachable_wf (hlx.reach hr)) true
  obtain ⟨i1, i2, i3, i4⟩ := infer_ok hd ht e [] (.new l) r h1 (ctxOk_new l) (fun p hp => nomatch hp) hlx.sub te h3 hs hu
  have hfin : CleanSub l c.sub ∧ ∀ t, expected = some t → FitsIn l c.sub r.1.ann t ∧ Clean l t := by
    unfold expect at h2
    cases expected with
    | none => injection h2 with h2; rw [← h2]; exact ⟨i1.clean, fun t ht => nomatch ht⟩
    | some x =>
      obtain ⟨x1, x2, x3⟩ := hx x rfl
      have hcl : Clean l x := strict_clean x1 x (full_of_ground ht x1 x2) x3
      obtain ⟨q, g1, g2⟩ := bind_some h2
      obtain ⟨b, c1⟩ := q
      cases b with
      | false => exact nomatch g2
      | true =>
        have g2 : some c1 = some c := g2
        injection g2 with g2
        subst g2
        obtain ⟨a1, a2, a3⟩ := ok_assignable i1 i3 ⟨good_ground x1 x2, hcl⟩ g1
        refine ⟨a1.clean, fun t ht => ?_⟩
        injection ht with ht
        rw [← ht]
        exact ⟨a3 rfl, hcl⟩
  refine ⟨i4 hfin.1 [] .nil, fun t ht' => ?_⟩
  obtain ⟨x1, x2, _⟩ := hx t ht'
  obtain ⟨y1, y2⟩ := hfin.2 t ht'
  exact fitsIn_alike hfin.1 y1 i3.2 y2 _ _ (finalize_ann h3) (full_of_ground ht x1 x2)

end Cel.Types
