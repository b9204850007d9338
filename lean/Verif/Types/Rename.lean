import Verif.Types.Alike

/-!
# C60: instantiation is a renaming
-/

set_option linter.unusedSimpArgs false
set_option linter.unusedVariables false

namespace Cel.Types
open Cel Cel.Eval Cel.Checker Relation

theorem substAll_map (θ : Name → Ty) : ∀ ps, substAll θ ps = ps.map (subst θ) := by
  intro ps
  induction ps with
  | nil => rw [substAll]; rfl
  | cons p ps ih => rw [substAll, ih]; rfl

/-! ## Types over type variables are left alone -/

mutual
theorem instantiate_state (t : Ty) (s : Instances × Ctx) (hv : ∀ x, Occurs x t → isTypeVar x = true) : (instantiate t s).2 = s := by
  cases t with
  | param x => rw [instantiate, instantiateParam, if_pos (hv x .here)]
  | con h ps =>
    have hi := instantiateAll_state ps s (fun x p hp ho => hv x (.inside hp ho))
    cases h with
    | base b => cases b <;> (rw [instantiate.eq_def])
    | type =>
      rw [instantiate]
      split
      · rfl
      · exact hi
    | _ => rw [instantiate]; try exact hi
theorem instantiateAll_state (ps : List Ty) (s : Instances × Ctx) (hv : ∀ x, ∀ p ∈ ps, Occurs x p → isTypeVar x = true) :
    (instantiateAll ps s).2 = s := by
  cases ps with
  | nil => rw [instantiateAll]
  | cons p ps =>
    have h1 := instantiate_state p s (fun x ho => hv x p (by simp) ho)
    have h2 := instantiateAll_state ps s (fun x q hq ho => hv x q (by simp [hq]) ho)
    rw [instantiateAll]
    dsimp only
    rw [h1]
    exact h2
end

theorem instantiateAll_length : ∀ (ps : List Ty) (s : Instances × Ctx), (instantiateAll ps s).1.length = ps.length := by
  intro ps
  induction ps with
  | nil => intro s; rw [instantiateAll]
  | cons p ps ih => intro s; rw [instantiateAll]; dsimp only; rw [List.length_cons, List.length_cons, ih]

theorem instantiateAll_alike : ∀ (ps : List Ty) (s : Instances × Ctx), (∀ x, ∀ p ∈ ps, Occurs x p → isTypeVar x = true) →
    (∀ p ∈ ps, ∀ s, Alike p (instantiate p s).1) → Both Alike ps (instantiateAll ps s).1 := by
  intro ps
  induction ps with
  | nil => intro s _ _; rw [instantiateAll]; exact .nil
  | cons p ps ih =>
    intro s hv hp
    rw [instantiateAll]
    dsimp only
    exact .cons (hp p (by simp) s) (ih _ (fun x q hq => hv x q (by simp [hq])) (fun q hq => hp q (by simp [hq])))

theorem Both.zip {α β : Type} {R : α → β → Prop} {as : List α} {bs : List β} (h : Both R as bs) : ∀ q ∈ as.zip bs, R q.1 q.2 := by
  induction h with
  | nil => intro q hq; simp at hq
  | cons h _ ih =>
    intro q hq
    rw [List.zip_cons_cons, List.mem_cons] at hq
    rcases hq with rfl | hq
    · exact h
    · exact ih q hq

theorem alike_con {h : Head} {ps qs : List Ty} (hb : Both Alike ps qs) : Alike (.con h ps) (.con h qs) := .con hb.length hb.zip

/-- A type of an expression, used as the type of a local variable. -/
theorem instantiate_local {l : Bool} {t : Ty} (hc : Clean l t) (hv : ∀ x, Occurs x t → isTypeVar x = true) :
    ∀ s, Alike t (instantiate t s).1 := by
  induction hc with
  | param x => intro s; rw [instantiate, instantiateParam, if_pos (hv x .here)]; exact .refl _
  | @base b hb =>
    intro s
    cases b <;> first | exact absurd hb id | (unfold Ty.b; rw [instantiate]; exact .refl _; try simp)
  | struct n => intro s; rw [instantiate]; exact .refl _
  | @type ps h1 h2 =>
    intro s
    rw [instantiate, if_neg (by omega)]
    exact .type h1 (by rw [instantiateAll_length]; exact h1)
  | @list t _ ih =>
    intro s
    rw [instantiate]
    refine alike_con (instantiateAll_alike _ s (fun x p hp ho => hv x (.inside hp ho)) ?_)
    intro p hp
    rw [List.mem_singleton] at hp
    subst hp
    exact ih (fun x ho => hv x (.inside (by simp) ho))
  | @map k v _ _ ih1 ih2 =>
    intro s
    rw [instantiate]
    refine alike_con (instantiateAll_alike _ s (fun x p hp ho => hv x (.inside hp ho)) ?_)
    intro p hp
    simp only [List.mem_cons, List.not_mem_nil, or_false] at hp
    rcases hp with rfl | rfl
    · exact ih1 (fun x ho => hv x (.inside (by simp) ho))
    · exact ih2 (fun x ho => hv x (.inside (by simp) ho))
  | @«opaque» n ps _ ih =>
    intro s
    rw [instantiate]
    exact alike_con (instantiateAll_alike _ s (fun x p hp ho => hv x (.inside hp ho)) (fun p hp => ih p hp (fun x ho => hv x (.inside hp ho))))

/-- A declared type without type parameters: the state is untouched, and a strict outcome is the type itself. -/
theorem instantiate_ground {l : Bool} {t : Ty} (hs : Shaped t) (hg : Ground t) : ∀ s, (instantiate t s).2 = s ∧
    (Strict l (instantiate t s).1 → Alike t (instantiate t s).1) := by
  intro s
  refine ⟨instantiate_state t s (fun x ho => absurd ho (hg x)), ?_⟩
  induction hs generalizing s with
  | param x => exact absurd .here (hg x)
  | leaf h =>
    intro hst
    cases h with
    | base b =>
      cases b <;> first
        | (rw [instantiate]; exact .refl _; intro e; exact nomatch e)
        | (rw [instantiate] at hst; cases hst with | base hb => exact absurd hb id)
    | struct n => rw [instantiate]; exact .refl _
    | enum n => rw [instantiate] at hst; cases hst with | base hb => exact absurd hb id
    | function => rw [instantiate] at hst; cases hst with | base hb => exact absurd hb id
    | type => rw [instantiate]; simp [instantiateAll]; exact .refl _
    | list => rw [instantiate]; simp [instantiateAll]; exact .refl _
    | map => rw [instantiate]; simp [instantiateAll]; exact .refl _
    | «opaque» n => rw [instantiate]; simp [instantiateAll]; exact .refl _
  | @node h ps hh hps ih =>
    intro hst
    have hgp := ground_params hg
    have all : ∀ (qs : List Ty), (∀ q ∈ qs, q ∈ ps) → ∀ s, (∀ r ∈ (instantiateAll qs s).1, Strict l r) → Both Alike qs (instantiateAll qs s).1 := by
      intro qs
      induction qs with
      | nil => intro _ s _; rw [instantiateAll]; exact .nil
      | cons q qs ihq =>
        intro hq s hr
        rw [instantiateAll] at hr ⊢
        dsimp only at hr ⊢
        exact .cons (ih q (hq q (by simp)) (hgp q (hq q (by simp))) s (hr _ (by simp)))
          (ihq (fun q h => hq q (by simp [h])) _ (fun r h => hr r (by simp [h])))
    cases h with
    | base b => exact nomatch hh
    | struct n => exact nomatch hh
    | enum n => exact nomatch hh
    | function => exact nomatch hh
    | type =>
      rw [instantiate] at hst ⊢
      split at hst
      · cases hst with | base hb => exact absurd hb id
      · rename_i hl
        rw [if_neg hl]
        dsimp only at hst ⊢
        exact .type (by omega) (by rw [instantiateAll_length]; omega)
    | list =>
      rw [instantiate] at hst ⊢
      dsimp only at hst ⊢
      refine alike_con (all ps (fun _ h => h) s ?_)
      intro r hr
      generalize (instantiateAll ps s).1 = rs at hst hr
      cases hst with
      | list h => rw [List.mem_singleton] at hr; rw [hr]; exact h
    | map =>
      rw [instantiate] at hst ⊢
      dsimp only at hst ⊢
      refine alike_con (all ps (fun _ h => h) s ?_)
      intro r hr
      generalize (instantiateAll ps s).1 = rs at hst hr
      cases hst with
      | map h1 h2 =>
        simp only [List.mem_cons, List.not_mem_nil, or_false] at hr
        rcases hr with rfl | rfl
        · exact h1.strict
        · exact h2
    | «opaque» n =>
      rw [instantiate] at hst ⊢
      dsimp only at hst ⊢
      refine alike_con (all ps (fun _ h => h) s ?_)
      intro r hr
      generalize (instantiateAll ps s).1 = rs at hst hr
      cases hst with
      | «opaque» h => exact h r hr

/-! ## Declared types are renamed -/

/-- What an instance map does to a type parameter. -/
def rename (m : Instances) (x : Name) : Ty :=
  match m x with
  | some y => .param y
  | none => .param x

def MapLe (m m' : Instances) : Prop := ∀ x y, m x = some y → m' x = some y

theorem renameParam (x : Name) (s : Instances × Ctx) (hv : isTypeVar x = false) : MapLe s.1 (instantiateParam x s).2.1 ∧
    ∀ m, MapLe (instantiateParam x s).2.1 m → (instantiateParam x s).1 = rename m x := by
  unfold instantiateParam
  rw [hv, if_neg (by simp)]
  cases hx : s.1 x with
  | some y =>
    dsimp only
    refine ⟨fun _ _ h => h, fun m hm => ?_⟩
    unfold rename
    rw [hm x y hx]
  | none =>
    dsimp only
    refine ⟨fun z y h => ?_, fun m hm => ?_⟩
    · dsimp only
      split
      · rename_i e; rw [e, hx] at h; exact nomatch h
      · exact h
    · unfold rename
      rw [hm x _ (if_pos rfl)]

theorem renameAll_of {ps : List Ty} (ih : ∀ p ∈ ps, ∀ s : Instances × Ctx, MapLe s.1 (instantiate p s).2.1 ∧
      ∀ m, MapLe (instantiate p s).2.1 m → (instantiate p s).1 = subst (rename m) p) : ∀ s : Instances × Ctx,
    MapLe s.1 (instantiateAll ps s).2.1 ∧ ∀ m, MapLe (instantiateAll ps s).2.1 m → (instantiateAll ps s).1 = ps.map (subst (rename m)) := by
  induction ps with
  | nil => intro s; rw [instantiateAll]; exact ⟨fun _ _ h => h, fun _ _ => rfl⟩
  | cons p ps ihp =>
    intro s
    rw [instantiateAll]
    dsimp only
    obtain ⟨h1, h2⟩ := ih p (by simp) s
    obtain ⟨h3, h4⟩ := ihp (fun q hq => ih q (by simp [hq])) (instantiate p s).2
    refine ⟨fun x y h => h3 x y (h1 x y h), fun m hm => ?_⟩
    rw [h2 m (fun x y h => hm x y (h3 x y h)), h4 m hm]
    rfl

theorem renamed {t : Ty} (hi : Inst t) (hv : ∀ x, Occurs x t → isTypeVar x = false) : ∀ s : Instances × Ctx,
    MapLe s.1 (instantiate t s).2.1 ∧ ∀ m, MapLe (instantiate t s).2.1 m → (instantiate t s).1 = subst (rename m) t := by
  have con : ∀ {h : Head} {ps : List Ty}, (∀ p ∈ ps, ∀ s : Instances × Ctx, MapLe s.1 (instantiate p s).2.1 ∧
      ∀ m, MapLe (instantiate p s).2.1 m → (instantiate p s).1 = subst (rename m) p) →
      (∀ s, instantiate (.con h ps) s = (.con h (instantiateAll ps s).1, (instantiateAll ps s).2)) → ∀ s : Instances × Ctx,
      MapLe s.1 (instantiate (.con h ps) s).2.1 ∧
        ∀ m, MapLe (instantiate (.con h ps) s).2.1 m → (instantiate (.con h ps) s).1 = subst (rename m) (.con h ps) := by
    intro h ps ih he s
    rw [he s]
    obtain ⟨h1, h2⟩ := renameAll_of ih s
    exact ⟨h1, fun m hm => by rw [subst, substAll_map]; exact congrArg _ (h2 m hm)⟩
  induction hi with
  | param x => intro s; rw [instantiate]; exact renameParam x s (hv x .here)
  | @base b hb =>
    intro s
    have : instantiate (.b b) s = (.b b, s) := by
      unfold Ty.b
      cases b <;> first | exact absurd rfl hb | (rw [instantiate]; intro e; exact nomatch e)
    rw [this]
    exact ⟨fun _ _ h => h, fun m _ => rfl⟩
  | struct n => intro s; rw [instantiate]; exact ⟨fun _ _ h => h, fun m _ => rfl⟩
  | @type ps h1 _ ih =>
    exact con (fun p hp => ih p hp (fun x ho => hv x (.inside hp ho))) (fun s => by rw [instantiate, if_neg (by omega)])
  | @list t _ ih =>
    refine con (fun p hp => ?_) (fun s => by rw [instantiate])
    rw [List.mem_singleton] at hp
    subst hp
    exact ih (fun x ho => hv x (.inside (by simp) ho))
  | @map k v _ _ ih1 ih2 =>
    refine con (fun p hp => ?_) (fun s => by rw [instantiate])
    simp only [List.mem_cons, List.not_mem_nil, or_false] at hp
    rcases hp with rfl | rfl
    · exact ih1 (fun x ho => hv x (.inside (by simp) ho))
    · exact ih2 (fun x ho => hv x (.inside (by simp) ho))
  | @«opaque» n ps _ ih => exact con (fun p hp => ih p hp (fun x ho => hv x (.inside hp ho))) (fun s => by rw [instantiate])

/-- An overload's instance is the overload with its type parameters renamed. -/
theorem overload_renamed {l : Bool} {c : Ctx} {o : Checker.Overload} (ho : StrictOverload l o) :
    ∃ m : Instances, (instantiateOverload c o).1 = subst (rename m) o.result ∧ (instantiateOverload c o).2.1 = o.args.map (subst (rename m)) := by
  obtain ⟨⟨_, h1⟩, h2, h3⟩ := ho
  obtain ⟨a1, a2⟩ := renamed h1 (fun x hx => h3 x (.inl hx)) (fun _ => none, c)
  obtain ⟨b1, b2⟩ := renameAll_of (ps := o.args) (fun p hp => renamed (h2 p hp).2 (fun x hx => h3 x (.inr ⟨p, hp, hx⟩)))
    (instantiate o.result (fun _ => none, c)).2
  refine ⟨(instantiateAll o.args (instantiate o.result (fun _ => none, c)).2).2.1, ?_, ?_⟩
  · exact a2 _ b1
  · exact b2 _ (fun _ _ h => h)

theorem shaped_rename {m : Instances} {t : Ty} (h : Shaped t) : Shaped (subst (rename m) t) := by
  induction h with
  | param x => rw [subst]; unfold rename; split <;> exact .param _
  | leaf h => rw [subst, substAll]; exact .leaf h
  | node hh _ ih =>
    rw [subst, substAll_map]
    refine .node hh (fun p hp => ?_)
    obtain ⟨q, hq, rfl⟩ := List.mem_map.mp hp
    exact ih q hq

theorem clean_rename {l : Bool} {m : Instances} {t : Ty} (h : Clean l t) : Clean l (subst (rename m) t) := by
  induction h with
  | param x => rw [subst]; unfold rename; split <;> exact .param _
  | base hb => exact .base hb
  | struct n => exact .struct n
  | type h1 h2 =>
    rw [subst, substAll_map]
    refine .type (by simpa using h1) (fun p hp => ?_)
    obtain ⟨q, hq, rfl⟩ := List.mem_map.mp hp
    exact shaped_rename (h2 q hq)
  | list _ ih => exact .list ih
  | map _ _ ih1 ih2 => exact .map ih1 ih2
  | «opaque» _ ih =>
    rw [subst, substAll_map]
    refine .opaque (fun p hp => ?_)
    obtain ⟨q, hq, rfl⟩ := List.mem_map.mp hp
    exact ih q hq

/-- The instance of a renamed type is the type with its parameters replaced by the instances of the names. -/
theorem full_rename {σ : Sub} {m : Instances} {θ : Name → Ty} (hθ : ∀ x, Full σ true (rename m x) (θ x)) {t : Ty} (hs : Shaped t) :
    Full σ true (subst (rename m) t) (subst θ t) := by
  induction hs with
  | param x => rw [subst, subst]; exact hθ x
  | leaf h => rw [subst, subst, substAll, substAll]; exact full_leaf
  | @node h ps hh hps ih =>
    rw [subst, subst, substAll_map, substAll_map]
    refine full_con_intro hh ?_
    clear hh hps
    induction ps with
    | nil => exact .nil
    | cons p ps ihp => exact .cons (ih p (by simp)) (ihp (fun q hq => ih q (by simp [hq])))

end Cel.Types
