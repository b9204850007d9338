import Verif.Types.Infer2

/-!
# C60: accepted calls, selections, messages and names are typed
-/

set_option linter.unusedSimpArgs false
set_option linter.unusedVariables false

namespace Cel.Types
open Cel Cel.Eval Cel.Checker Relation

/-! ## Selections -/

/-- Selecting from a type variable binds it to `dyn`, if it is free. -/
theorem dyn_param {l : Bool} {c c' : Ctx} (h : CtxOk l c) {n : Nat} {x : Name} (hg : Good c (.param x))
    (hr : isAssignable c n dyn (.param x) = some (true, c')) : c' = c ∨ ∀ τ, Within c'.sub τ → ∀ s, Full τ true (.param x) s → s = dyn := by
  obtain ⟨P, hP, e⟩ := isAssignable_parts hr
  have e : c' = c.update P := e
  cases n with
  | zero => exact nomatch hP
  | succ n =>
    obtain ⟨dst, f, hd, hf, hc⟩ := assign_cases hP
    have hsub : look c.bindings Pro.empty.map = c.sub := rfl
    rw [hsub] at hd hf
    have ef : f = dyn := by
      cases n with
      | zero => exact nomatch hf
      | succ n =>
        rw [show dyn = Ty.con (.base .dyn) [] from rfl, substitute] at hf
        injection hf with hf
        exact hf.symm
    subst ef
    have hgd := substitute_good h.proper _ _ _ hd hg
    have hcl := substitute_clean h.clean _ _ _ hd (.param x)
    cases dst with
    | param y =>
      rcases hc with ⟨e1, _⟩ | ⟨_, _, hc⟩ | ⟨_, hp, _⟩
      · rw [show dyn = Ty.con (.base .dyn) [] from rfl, Ty.eq] at e1
        · exact nomatch e1
        all_goals (intros; simp_all)
      · rw [show dyn = Ty.con (.base .dyn) [] from rfl, assignWithConstraints] at hc
        obtain ⟨b, ho, hc⟩ := bind_some hc
        cases n with
        | zero => exact nomatch ho
        | succ n =>
          rw [occursWithin, anyOf] at ho
          injection ho with ho
          subst ho
          have hc : some (true, Pro.empty.bind y dyn) = some (true, P) := hc
          injection hc with hc
          injection hc with _ hc
          right
          have hy : c'.sub y = some dyn := by
            rw [e, ← hc, sub_update_eq]
            · rw [look_bind]; unfold Sub.bind; rw [if_pos rfl]
            · intro z hz
              unfold Pro.bind at hz
              dsimp only at hz
              split at hz
              · rename_i ez; rw [ez]; exact hgd.2 y .here
              · exact absurd rfl hz
          have hl := later_assignable hr
          intro τ hle s hs
          exact full_base (full_deref (hle _ _ hy) (substitute_full (fun z t hz => hle z t (hl.sub z t hz)) _ _ _ _ hd hs))
      · simp [Ty.isParam] at hp
    | con k ps =>
      have fin : Pro.empty = P → c' = c := by intro e2; rw [e, ← e2]; exact update_empty c
      rcases hc with ⟨e1, e2⟩ | ⟨_, hp, hc⟩ | ⟨_, hp, ⟨Pw, hw, e2⟩ | ⟨_, hc⟩⟩
      · injection e2 with _ e2; exact .inl (fin e2.symm)
      · simp [Ty.isParam, dyn, Ty.b] at hp
      · unfold tryWiden at hw
        dsimp only at hw
        rw [if_neg (by simp [Pro.empty])] at hw
        exact nomatch hw
      · left
        apply fin
        unfold assignConcrete at hc
        rw [clean_wrapper hcl] at hc
        have w1 : wrapperToPrimitive dyn = none := rfl
        rw [w1] at hc
        dsimp only at hc
        have done : ∀ {b : Bool}, some (b, Pro.empty) = some (true, P) → Pro.empty = P := by
          intro b h; injection h with h; injection h
        split at hc
        · exact done hc
        · split at hc
          · exact done hc
          · split at hc
            · exact done hc
            · split at hc
              · exact done hc
              · split at hc
                · exact done hc
                · rw [if_pos (by rfl)] at hc
                  exact done hc

theorem good_ground {c : Ctx} {t : Ty} (hs : Shaped t) (hg : Ground t) : Good c t := ⟨hs, fun x hx => absurd hx (hg x)⟩

theorem full_of_ground {τ : Sub} (ht : TotalSub τ) {t : Ty} (hs : Shaped t) (hg : Ground t) : Full τ true t t := by
  obtain ⟨s, h⟩ := ht t
  have := full_ground hs hg h
  rw [this] at h
  exact h

theorem shaped_enum {t : Ty} (hs : Shaped t) (h : isEnum t.head? = true) : ∃ e, t = .con (.enum e) [] := by
  cases t with
  | param x => exact nomatch h
  | con k ps =>
    obtain ⟨e, rfl⟩ := enum_of h
    exact ⟨e, by rw [(shaped_params hs).2 rfl]⟩

theorem strict_struct {l : Bool} {s : String} {ps : List Ty} (h : Strict l (.con (.struct s) ps)) : ps = [] := by
  generalize e : Ty.con (.struct s) ps = x at h
  cases h <;> cases e
  rfl

theorem field_ok {l : Bool} {d : Decls} (hd : d.Ok) {c : Ctx} {n : Nat} {f : String} {t : Ty} {r : Ty × Ctx} (hr : fieldTy d c n f t = some r)
    (h : CtxOk l c) (hg : Good c t) {τ : Sub} (hle : Within r.2.sub τ) (ht : TotalSub τ) {ft : Ty} (hft : Full τ true t ft) (hst : Strict l ft) :
    r.2 = c ∧ Good c r.1 ∧ (r.1 = dyn ∨ ∀ s, Full τ true r.1 s → FieldOk d f ft s) := by
  unfold fieldTy at hr
  split at hr
  · obtain ⟨rs, rfl, _⟩ := full_con hft
    exact absurd hst strict_dyn
  · obtain ⟨rs, rfl, _⟩ := full_con hft
    exact absurd hst strict_any
  · rename_i s ps
    obtain ⟨rs, rfl, e, _⟩ := full_con hft
    have e := e rfl
    subst e
    have e := strict_struct hst
    subst e
    split at hr
    · rename_i u hu
      injection hr with hr
      subst hr
      obtain ⟨h1, h2⟩ := hd.fields _ _ _ hu
      refine ⟨rfl, ?_, .inr fun s' hs' => .inl ⟨s, u, rfl, hu, ?_⟩⟩
      · dsimp only
        split
        · exact good_leaf _ _
        · exact good_ground h1 h2
      · dsimp only at hs'
        split at hs'
        · rename_i he; exact .inr ⟨shaped_enum h1 he, full_base hs'⟩
        · exact .inl (full_ground h1 h2 hs')
    · exact nomatch hr
  · rename_i k v
    injection hr with hr
    subst hr
    obtain ⟨k', v', rfl, hk, hv⟩ := full_map hft
    refine ⟨rfl, good_closed h.proper _ _ hg (.inl (by simp [Ty.params])), .inr fun s hs => .inr ⟨k', ?_⟩⟩
    rw [full_unique hs hv]
  · rename_i x
    obtain ⟨q, h1, h2⟩ := bind_some hr
    obtain ⟨b, c1⟩ := q
    cases b with
    | false => exact nomatch h2
    | true =>
      have h2 : some (dyn, c1) = some r := h2
      injection h2 with h2
      subst h2
      rcases dyn_param h hg h1 with e | e
      · exact ⟨e, good_leaf _ _, .inl rfl⟩
      · have := e τ hle ft hft
        rw [this] at hst
        exact absurd hst strict_dyn
  · exact nomatch hr

theorem optionalOf_some {t held : Ty} (h : optionalOf t = some held) : t = optionalTy held := by
  unfold optionalOf at h
  split at h
  · split at h
    · rename_i e; injection h with h; rw [h, e]; rfl
    · exact nomatch h
  · exact nomatch h

theorem full_optional {τ : Sub} {t s : Ty} (h : Full τ true (optionalTy t) s) : ∃ u, s = optionalTy u ∧ Full τ true t u := by
  obtain ⟨rs, rfl, _, h2⟩ := full_con h
  obtain ⟨hl, hp⟩ := h2 rfl
  match rs, hl with
  | [u], _ => exact ⟨u, rfl, hp (t, u) (by simp)⟩

theorem strict_opaque {l : Bool} {n : String} {ps : List Ty} (h : Strict l (.con (.opaque n) ps)) : ∀ p ∈ ps, Strict l p := by
  generalize e : Ty.con (.opaque n) ps = x at h
  cases h <;> cases e
  assumption

theorem strict_optional {l : Bool} {t : Ty} (h : Strict l (optionalTy t)) : Strict l t := strict_opaque h t (by simp)

theorem optionalOf_optional (t : Ty) : optionalOf (optionalTy t) = some t := rfl

theorem fieldOk_plain {d : Decls} {f : String} {t a : Ty} (h : FieldOk d f t a) : optionalOf t = none := by
  rcases h with ⟨s, u, rfl, _⟩ | ⟨k, rfl⟩ <;> rfl

theorem select_ok {l : Bool} {d : Decls} (hd : d.Ok) {c : Ctx} {n : Nat} {f : String} {test : Bool} {t : Ty} {r : Ty × Ctx}
    (hr : selectTy d c n f test t = some r) (h : CtxOk l c) (hg : Good c t) {τ : Sub} (hle : Within r.2.sub τ) (ht : TotalSub τ) {ft s : Ty}
    (hft : Full τ true t ft) (hst : Strict l ft) (hs : Full τ true r.1 s) (hss : Strict l s) :
    CtxOk l r.2 ∧ Keeps c r.2 ∧ Good r.2 r.1 ∧ SelectOk d f test ft s := by
  unfold selectTy at hr
  split at hr
  · rename_i held ho
    have e := optionalOf_some ho
    subst e
    obtain ⟨u, rfl, hu⟩ := full_optional hft
    obtain ⟨q, h1, h2⟩ := bind_some hr
    injection h2 with h2
    subst h2
    obtain ⟨e, g, hk⟩ := field_ok hd h1 h (good_closed h.proper _ _ hg (.inl (by simp [optionalTy, Ty.params]))) hle ht hu (strict_optional hst)
    dsimp only at *
    rw [e]
    cases test with
    | true => exact ⟨h, fun _ h => h, good_leaf _ _, .inl ⟨rfl, full_base hs⟩⟩
    | false =>
      rw [if_neg (by simp)] at hs ⊢
      obtain ⟨w, rfl, hw⟩ := full_optional hs
      refine ⟨h, fun _ h => h, good_node rfl (fun p hp => by rw [List.mem_singleton] at hp; rw [hp]; exact g), .inr ⟨rfl, .inr ⟨u, w, rfl, rfl, ?_⟩⟩⟩
      rcases hk with hk | hk
      · rw [hk] at hw
        rw [full_base hw] at hss
        exact absurd (strict_optional hss) strict_dyn
      · exact hk w hw
  · obtain ⟨q, h1, h2⟩ := bind_some hr
    injection h2 with h2
    subst h2
    obtain ⟨e, g, hk⟩ := field_ok hd h1 h hg hle ht hft hst
    dsimp only at *
    rw [e]
    cases test with
    | true => exact ⟨h, fun _ h => h, good_leaf _ _, .inl ⟨rfl, full_base hs⟩⟩
    | false =>
      rw [if_neg (by simp)] at hs ⊢
      have hf : FieldOk d f ft s := by
        rcases hk with hk | hk
        · rw [hk] at hs
          rw [full_base hs] at hss
          exact absurd hss strict_dyn
        · exact hk s hs
      exact ⟨h, fun _ h => h, g, .inr ⟨rfl, .inl ⟨fieldOk_plain hf, hf⟩⟩⟩

/-! ## Names -/

theorem scopeGet_mem {Γ : Scope} {x : String} {t : Ty} (h : scopeGet Γ x = some t) : ∃ p ∈ Γ, p.2 = t := by
  induction Γ with
  | nil => exact nomatch h
  | cons p Γ ih =>
    obtain ⟨y, u⟩ := p
    rw [scopeGet] at h
    split at h
    · injection h with h; exact ⟨(y, u), by simp, h⟩
    · obtain ⟨p, hp, e⟩ := ih h; exact ⟨p, by simp [hp], e⟩

/-- A scope and the final types of its variables. -/
def FinalScope (τ : Sub) (Γ Γf : Scope) : Prop := Both (fun p q => p.1 = q.1 ∧ Full τ true p.2 q.2) Γ Γf

theorem scopeGet_final {τ : Sub} {Γ Γf : Scope} (h : FinalScope τ Γ Γf) (x : String) :
    (scopeGet Γ x = none ∧ scopeGet Γf x = none) ∨ ∃ t s, scopeGet Γ x = some t ∧ scopeGet Γf x = some s ∧ Full τ true t s := by
  induction h with
  | nil => exact .inl ⟨rfl, rfl⟩
  | @cons p q Γ Γf hpq _ ih =>
    obtain ⟨y, t⟩ := p
    obtain ⟨y', s⟩ := q
    obtain ⟨e, hf⟩ := hpq
    dsimp only at e hf
    subst e
    rw [scopeGet, scopeGet]
    by_cases hx : x = y
    · rw [if_pos hx, if_pos hx]; exact .inr ⟨t, s, rfl, rfl, hf⟩
    · rw [if_neg hx, if_neg hx]; exact ih

/-- Alike types have alike final types. -/
theorem full_alike {l : Bool} {τ : Sub} {t t' : Ty} (ha : Alike t t') : Clean l t → ∀ s s', Full τ true t s → Full τ true t' s' → Alike s s' := by
  induction ha with
  | param x => intro _ s s' h1 h2; rw [full_unique h1 h2]; exact .refl _
  | @type ps qs h1 h2 =>
    intro _ s s' f1 f2
    obtain ⟨rs, rfl, _, e1⟩ := full_con f1
    obtain ⟨rs', rfl, _, e2⟩ := full_con f2
    exact .type (by rw [(e1 rfl).1]; exact h1) (by rw [(e2 rfl).1]; exact h2)
  | @con k ps qs hl hp ih =>
    intro hc s s' f1 f2
    obtain ⟨rs, rfl, n1, e1⟩ := full_con f1
    obtain ⟨rs', rfl, n2, e2⟩ := full_con f2
    cases hk : hasTypeParams k with
    | false =>
      rw [n1 hk, n2 hk]
      exact .con hl hp
    | true =>
      obtain ⟨l1, z1⟩ := e1 hk
      obtain ⟨l2, z2⟩ := e2 hk
      by_cases ht : k = .type
      · subst ht
        have := hc.type_len
        exact .type (by omega) (by omega)
      · have b0 := both_of_zip (R := fun a b => Alike a b ∧ (Clean l a → ∀ s s', Full τ true a s → Full τ true b s' → Alike s s')) _ _ hl
          (fun q hq => ⟨hp q hq, ih q hq⟩)
        have b1 := both_of_zip _ _ l1.symm z1
        have b2 := both_of_zip _ _ l2.symm z2
        have b3 : Both (fun (b : Ty) r => ∀ s', Full τ true b s' → Alike r s') qs rs :=
          b0.comp b1 (fun a b c ha _ _ h1 h2 s' hs' => h1.2 (hc.params ht a ha) c s' h2 hs')
        exact alike_con (b3.comp b2 (fun b r s' _ _ _ h1 h2 => h1 s' h2))

mutual
theorem instantiate_grounded (t : Ty) (s : Instances × Ctx) (hg : Ground t) : Ground (instantiate t s).1 := by
  have leaf : ∀ {h : Head}, Ground (.con h []) := fun x hx => by cases hx with | inside hm _ => exact nomatch hm
  cases t with
  | param x => exact absurd .here (hg x)
  | con h ps =>
    have ha := instantiateAll_grounded ps s (ground_params hg)
    have hc : ∀ {h : Head}, Ground (.con h (instantiateAll ps s).1) := fun x hx => by cases hx with | inside hm ho => exact ha _ hm x ho
    unfold instantiate
    dsimp only
    split
    all_goals first
      | exact leaf
      | exact hg
      | exact hc
      | (split
         · exact leaf
         · exact hc)
theorem instantiateAll_grounded (ps : List Ty) (s : Instances × Ctx) (hg : ∀ p ∈ ps, Ground p) : ∀ p ∈ (instantiateAll ps s).1, Ground p := by
  cases ps with
  | nil => rw [instantiateAll]; intro p hp; exact nomatch hp
  | cons p ps =>
    have h1 := instantiate_grounded p s (hg p (by simp))
    have h2 := instantiateAll_grounded ps (instantiate p s).2 (fun q hq => hg q (by simp [hq]))
    rw [instantiateAll]
    intro q hq
    rcases List.mem_cons.mp hq with rfl | hq
    · exact h1
    · exact h2 q hq
end

theorem ident_ok {l : Bool} {d : Decls} (hd : d.Ok) {c : Ctx} {Γ : Scope} {x : String} {abs : Bool} {r : Ty × Ctx} (hr : identTy d Γ x abs c = some r)
    (h : CtxOk l c) (hΓ : ∀ p ∈ Γ, Fit l c p.2) {τ : Sub} (ht : TotalSub τ) {s : Ty} (hs : Full τ true r.1 s) (hst : Strict l s) :
    CtxOk l r.2 ∧ Keeps c r.2 ∧ Good r.2 r.1 ∧ ∀ Γf, FinalScope τ Γ Γf →
      ((abs = false ∧ ∃ t, scopeGet Γf x = some t ∧ Alike t s) ∨ ((abs = true ∨ scopeGet Γf x = none) ∧ ∃ t, d.vars x = some t ∧ Alike t s)) := by
  unfold identTy at hr
  split at hr
  · rename_i t hx
    injection hr with hr
    subst hr
    have habs : abs = false := by
      cases abs with
      | false => rfl
      | true => exact nomatch hx
    subst habs
    rw [if_neg (by simp)] at hx
    obtain ⟨p, hp, e⟩ := scopeGet_mem hx
    have hf := hΓ p hp
    rw [e] at hf
    obtain ⟨k1, k2, k3, _⟩ := ok_inst h hf.1.1 (fun y hy _ => hf.1.2 y hy)
    refine ⟨k1, k2, k3, fun Γf hΓf => .inl ⟨rfl, ?_⟩⟩
    rcases scopeGet_final hΓf x with ⟨e, _⟩ | ⟨t', u, e1, e2, hu⟩
    · rw [e] at hx; exact nomatch hx
    · rw [e1] at hx
      injection hx with hx
      subst hx
      exact ⟨u, e2, full_alike (instantiate_local hf.2 (fun y hy => reachable_vars h.reach y (hf.1.2 y hy)) _) hf.2 _ _ hu hs⟩
  · rename_i hx
    split at hr
    · rename_i t hv
      injection hr with hr
      subst hr
      obtain ⟨hsh, hgr⟩ := hd.vars _ _ hv
      obtain ⟨k1, k2, k3, _⟩ := ok_inst h hsh (fun y hy _ => absurd hy (hgr y))
      refine ⟨k1, k2, k3, fun Γf hΓf => .inr ⟨?_, t, hv, ?_⟩⟩
      · cases abs with
        | true => exact .inl rfl
        | false =>
          rw [if_neg (by simp)] at hx
          rcases scopeGet_final hΓf x with ⟨_, e⟩ | ⟨t', u, e1, _⟩
          · exact .inr e
          · rw [e1] at hx; exact nomatch hx
      · have e := full_ground k3.1 (instantiate_grounded t _ hgr) hs
        rw [e] at hst ⊢
        exact (instantiate_ground hsh hgr _).2 hst
    · exact nomatch hr

end Cel.Types
