import Verif.Builder.Ops
/-!
# Reachable builders are forests; handing out the programs
-/
set_option linter.unusedSimpArgs false
set_option linter.unusedVariables false

namespace Verif.Builder
section
variable {σ δ : Type}

/-- Draining one tree of the forest. -/
theorem drain_op {b : Builder σ δ} {F : List (T σ δ)} (I : Inv b F) {r : Id} (hr : Top F r) :
    ∃ c h' F', Program b.map r c ∧ Inv { b with map := h' } F' ∧
      (∃ N, ∀ n, N ≤ n → flattenSubexpression n b.map r = some (c, h')) ∧
      (∀ n x, flattenSubexpression n b.map r = some x → x = (c, h')) ∧
      (∀ i, Top F i → Top F' i) ∧
      (∀ i, Top F i → i ≠ r → ∀ x, Program b.map i x ↔ Program h' i x) := by
  obtain ⟨t, ht, rfl⟩ := hr
  obtain ⟨L, R, rfl⟩ := List.append_of_mem ht
  have hF : L ++ t :: R = L ++ Ctx.plug .hole t :: R := rfl
  have I0 : Inv b (L ++ Ctx.plug .hole t :: R) := I
  obtain ⟨hrt, hn⟩ := I0.focus_rep
  have I' := I0.update (loc_drain hrt hn) List.nodup_nil (by simp)
  have htop : ∀ i, Top (L ++ t :: R) i → i = t.id ∨ ∃ u, (u ∈ L ∨ u ∈ R) ∧ u.id = i := by
    rintro i ⟨u, hu, rfl⟩
    rw [List.mem_append, List.mem_cons] at hu
    rcases hu with hu | rfl | hu
    · exact Or.inr ⟨u, Or.inl hu, rfl⟩
    · exact Or.inl rfl
    · exact Or.inr ⟨u, Or.inr hu, rfl⟩
  refine ⟨t.code, drained b.map t, _, program_of_rep hrt hn, I', flattenSub_spec hrt hn,
    fun n x hx => ?_, ?_, ?_⟩
  · obtain ⟨l, y⟩ := x
    obtain ⟨h1, h2⟩ := flattenSub_eq hrt hn hx
    rw [h1, h2]
  · intro i hi
    rcases htop i hi with rfl | ⟨u, hu, rfl⟩
    · exact ⟨.tree t.id .nil, by simp [Ctx.plug], rfl⟩
    · exact ⟨u, by rcases hu with hu | hu <;> simp [hu], rfl⟩
  · intro i hi hne x
    rcases htop i hi with h | ⟨u, hu, rfl⟩
    · exact absurd h hne
    · have p1 := I.program (t := u) (by rcases hu with hu | hu <;> simp [hu])
      have p2 := I'.program (t := u) (by rcases hu with hu | hu <;> simp [hu])
      exact ⟨fun h => by rw [h.unique p1]; exact p2, fun h => by rw [h.unique p2]; exact p1⟩

/-- The loop of `FlattenSubexpressions`. -/
theorem flattenAll_op {b : Builder σ δ} : ∀ (l : List Id) (h : Heap σ δ) (F : List (T σ δ)),
    Inv { b with map := h } F → l.Nodup → (∀ i ∈ l, Top F i) →
    ∃ ls h' F', Inv { b with map := h' } F' ∧ Programs h l ls ∧
      (∃ N, ∀ n, N ≤ n → flattenAll n h l = some (ls, h')) ∧
      (∀ n x, flattenAll n h l = some x → x = (ls, h')) ∧
      (∀ i, Top F i → i ∉ l → ∀ x, Program h i x ↔ Program h' i x)
  | [], h, F, I, _, _ => ⟨[], h, F, I, .nil, ⟨0, fun n _ => rfl⟩, fun n x hx => by
      simp only [flattenAll, Option.some.injEq] at hx; exact hx.symm, fun _ _ _ _ => Iff.rfl⟩
  | i :: l, h, F, I, hn, ht => by
    rw [List.nodup_cons] at hn
    obtain ⟨c, h1, F1, hp, I1, ⟨N, hN⟩, hu, htop, hsame⟩ := drain_op I (ht i (by simp))
    obtain ⟨ls, h2, F2, I2, hls, ⟨M, hM⟩, hu2, hsame2⟩ := flattenAll_op l h1 F1 I1 hn.2
      (fun j hj => htop j (ht j (by simp [hj])))
    have hconv : ∀ (l : List Id) (ls : List (List (Out σ δ))),
        (∀ j ∈ l, ∀ x, Program h1 j x → Program h j x) →
        Programs h1 l ls → Programs h l ls := by
      intro l ls hj hf
      induction hf with
      | nil => exact .nil
      | cons a _ ih =>
        exact .cons (hj _ (by simp) _ a) (ih (fun j hm => hj j (by simp [hm])))
    refine ⟨c :: ls, h2, F2, I2, .cons hp (hconv l ls (fun j hj x hx => ?_) hls),
      ⟨N + M, fun n hle => ?_⟩, fun n x hx => ?_, ?_⟩
    · exact (hsame j (ht j (by simp [hj])) (fun e => hn.1 (e ▸ hj)) x).2 hx
    · have a := hN n (by omega)
      have b := hM n (by omega)
      simp only at a b
      simp only [flattenAll, a, b]
    · simp only [flattenAll] at hx
      cases ha : flattenSubexpression n h i with
      | none => rw [ha] at hx; exact nomatch hx
      | some y =>
        have := hu n y ha
        subst this
        rw [ha] at hx
        simp only at hx
        cases hb : flattenAll n h1 l with
        | none => rw [hb] at hx; exact nomatch hx
        | some z =>
          have := hu2 n z hb
          subst this
          rw [hb] at hx
          simp only [Option.some.injEq] at hx
          exact hx.symm
    · intro j hj hjl x
      rw [List.mem_cons, not_or] at hjl
      exact (hsame j hj hjl.1 x).trans (hsame2 j (htop j hj) hjl.2 x)

theorem Inv.clear {b : Builder σ δ} {F : List (T σ δ)} (I : Inv b F) :
    Inv { b with extracted := [] } F :=
  ⟨I.nodup, I.rep, I.dom, I.root, nofun, I.cur, List.nodup_nil, fun _ _ => nofun⟩

theorem Inv.noRoot {b : Builder σ δ} {F : List (T σ δ)} (I : Inv b F) :
    Inv { b with root := none } F :=
  ⟨I.nodup, I.rep, I.dom, nofun, I.ext, I.cur, I.extnd, nofun⟩

/-- Every reachable builder is a forest. -/
theorem reach_inv {b : Builder σ δ} (h : Reach b) : ∃ F, Inv b F := by
  induction h with
  | init =>
    exact ⟨[], by simp [idsF], nofun, nofun, nofun, nofun, nofun, List.nodup_nil, nofun⟩
  | enter _ h ih =>
    obtain ⟨F, I⟩ := ih
    obtain ⟨F', I', _⟩ := enter_op I h
    exact ⟨F', I'⟩
  | exit _ h ih =>
    obtain ⟨F, I⟩ := ih
    obtain ⟨F', I', _⟩ := exit_op I h
    exact ⟨F', I'⟩
  | @addStep b b' s f _ h ih =>
    obtain ⟨F, I⟩ := ih
    rw [addStep] at h
    cases hc : b.current with
    | none =>
      rw [hc] at h
      simp only [Option.some.injEq, Prod.mk.injEq] at h
      rw [← h.2]; exact ⟨F, I⟩
    | some c =>
      obtain ⟨_, h', F', g, _, e, I', _⟩ := subAddStep_op I (I.cur c hc) s
      rw [hc] at h
      simp only [e, Option.some.injEq, Prod.mk.injEq] at h
      rw [← h.2]; rw [hc] at I'; exact ⟨F', I'⟩
  | extractSubexpression _ h ih =>
    obtain ⟨F, I⟩ := ih
    obtain ⟨F', I', _⟩ := extract_op I h
    exact ⟨F', I'⟩
  | @getSubplan b b' n e l _ h ih =>
    obtain ⟨F, I⟩ := ih
    cases he : b.map e with
    | none =>
      simp only [getSubplan, he, Option.some.injEq, Prod.mk.injEq] at h
      rw [← h.2]; exact ⟨F, I⟩
    | some nd =>
      obtain ⟨c, b1, F', _, I', _, _, _, hu⟩ := getSubplan_op I (e := e) (by rw [he]; rfl)
      have := hu n _ h
      simp only [Prod.mk.injEq] at this
      rw [this.2]; exact ⟨F', I'⟩
  | @extractSubplan b b' n e l _ h ih =>
    obtain ⟨F, I⟩ := ih
    cases he : b.map e with
    | none =>
      simp only [extractSubplan, he, Option.some.injEq, Prod.mk.injEq] at h
      rw [← h.2]; exact ⟨F, I⟩
    | some nd =>
      obtain ⟨c, b1, F', _, I', _, _, _, hu⟩ := extractSubplan_op I (e := e) (by rw [he]; rfl)
      have := hu n _ h
      simp only [Prod.mk.injEq] at this
      rw [this.2]; exact ⟨F', I'⟩
  | @replaceSubplan b b' n e path f _ h ih =>
    obtain ⟨F, I⟩ := ih
    cases he : b.map e with
    | none =>
      simp only [replaceSubplan, he, Option.some.injEq, Prod.mk.injEq] at h
      rw [← h.2]; exact ⟨F, I⟩
    | some nd =>
      obtain ⟨c, b1, F', _, I', _, _, _, hu⟩ := replaceSubplan_op I (e := e) (by rw [he]; rfl) path
      have := hu n _ h
      simp only [Prod.mk.injEq] at this
      rw [this.2]; exact ⟨F', I'⟩
  | @replaceRecursive b e d k _ ih =>
    obtain ⟨F, I⟩ := ih
    cases he : b.map e with
    | none => simp only [replaceRecursive, he]; exact ⟨F, I⟩
    | some nd =>
      obtain ⟨c, b1, F', _, I', _, _, hu⟩ := replaceRecursive_op I (e := e) (by rw [he]; rfl) d k
      rw [hu]; exact ⟨F', I'⟩
  | @extractRecursiveDependencies b e _ ih =>
    obtain ⟨F, I⟩ := ih
    rw [extractRecursiveDependencies]
    split
    · exact depsLoop_inv _ _ _ F I
    · exact ⟨F, I⟩
  | @addSubplanStep b b' e s f _ h ih =>
    obtain ⟨F, I⟩ := ih
    cases he : b.map e with
    | none =>
      simp only [addSubplanStep, he, Option.some.injEq, Prod.mk.injEq] at h
      rw [← h.2]; exact ⟨F, I⟩
    | some nd =>
      obtain ⟨_, h', F', g, _, e', I', _⟩ := subAddStep_op I (e := e) (by rw [he]; rfl) s
      simp only [addSubplanStep, he, e', Option.some.injEq, Prod.mk.injEq] at h
      rw [← h.2]; exact ⟨F', I'⟩
  | @flattenMain b b' n l _ h ih =>
    obtain ⟨F, I⟩ := ih
    cases hr : b.root with
    | none =>
      simp only [flattenMain, hr, Option.some.injEq, Prod.mk.injEq] at h
      rw [← h.2]; exact ⟨F, I⟩
    | some r =>
      obtain ⟨c, h1, F1, _, I1, _, hu, _⟩ := drain_op I (I.root r hr)
      simp only [flattenMain, hr] at h
      cases hf : flattenSubexpression n b.map r with
      | none => rw [hf] at h; exact nomatch h
      | some y =>
        have := hu n y hf
        subst this
        simp only [hf, Option.some.injEq, Prod.mk.injEq] at h
        rw [← h.2]; exact ⟨F1, I1.noRoot⟩
  | @flattenSubexpressions b b' n l _ h ih =>
    obtain ⟨F, I⟩ := ih
    obtain ⟨ls, h1, F1, I1, _, _, hu, _⟩ :=
      flattenAll_op (b := b) b.extracted b.map F I I.extnd I.ext
    simp only [flattenSubexpressions] at h
    cases hf : flattenAll n b.map b.extracted with
    | none => rw [hf] at h; exact nomatch h
    | some y =>
      have := hu n y hf
      subst this
      simp only [hf, Option.some.injEq, Prod.mk.injEq] at h
      rw [← h.2]; exact ⟨F1, I1.clear⟩

end
end Verif.Builder
