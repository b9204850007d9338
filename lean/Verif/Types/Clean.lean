import Verif.Types.Spec
import Verif.Checker.Overloads

/-!
# C60: without dynamic types nothing is widened

On types without dynamic types a check never replaces a binding, and binds variables to such types only.
-/

set_option linter.unusedSimpArgs false
set_option linter.unusedVariables false

namespace Cel.Types
open Cel Cel.Checker Relation

theorem Clean.shaped {l : Bool} {t : Ty} (h : Clean l t) : Shaped t := by
  induction h with
  | param x => exact .param x
  | base => exact .leaf _
  | struct => exact .leaf _
  | type _ h => exact .node rfl h
  | list _ ih => exact .node rfl (by simpa using ih)
  | map _ _ ih1 ih2 => exact .node rfl (by simp; exact ⟨ih1, ih2⟩)
  | «opaque» _ ih => exact .node rfl ih

theorem Inst.shaped {t : Ty} (h : Inst t) : Shaped t := by
  induction h with
  | param x => exact .param x
  | base => exact .leaf _
  | struct => exact .leaf _
  | type _ _ ih => exact .node rfl ih
  | list _ ih => exact .node rfl (by simpa using ih)
  | map _ _ ih1 ih2 => exact .node rfl (by simp; exact ⟨ih1, ih2⟩)
  | «opaque» _ ih => exact .node rfl ih

def CleanSub (l : Bool) (σ : Sub) : Prop := ∀ x t, σ x = some t → Clean l t

theorem substitute_clean {l : Bool} {σ : Sub} (hσ : CleanSub l σ) : ∀ n t r, substitute σ n t = some r → Clean l t → Clean l r := by
  intro n
  induction n with
  | zero => intro t r h; exact nomatch h
  | succ n ih =>
    intro t r h hc
    cases t with
    | con k ps => rw [substitute] at h; injection h with h; rw [← h]; exact hc
    | param x =>
      rw [substitute] at h
      cases hx : σ x with
      | none => rw [hx] at h; injection h with h; rw [← h]; exact hc
      | some t => rw [hx] at h; exact ih t r h (hσ x t hx)

/-- Heads of clean types. -/
inductive CleanHead (l : Bool) : Head → Prop
  | base {b} : StrictBase l b → CleanHead l (.base b)
  | struct (n) : CleanHead l (.struct n)
  | type : CleanHead l .type
  | list : CleanHead l .list
  | map : CleanHead l .map
  | opaque (n) : CleanHead l (.opaque n)

theorem Clean.head {l : Bool} {h : Head} {ps : List Ty} (hc : Clean l (.con h ps)) : CleanHead l h := by
  generalize e : Ty.con h ps = t at hc
  cases hc <;> cases e
  · exact .base (by assumption)
  · exact .struct _
  · exact .type
  · exact .list
  · exact .map
  · exact .opaque _

theorem Clean.params {l : Bool} {h : Head} {ps : List Ty} (hc : Clean l (.con h ps)) (ht : h ≠ .type) : ∀ p ∈ ps, Clean l p := by
  generalize e : Ty.con h ps = t at hc
  cases hc <;> cases e
  · intro p hp; exact nomatch hp
  · intro p hp; exact nomatch hp
  · exact absurd rfl ht
  · simpa using by assumption
  · simp; exact ⟨by assumption, by assumption⟩
  · assumption

theorem clean_union {l : Bool} {t : Ty} (h : Clean l t) : isUnion t = false := by
  cases t with
  | param x => rfl
  | con hd ps =>
    have := h.head
    cases this with
    | @base b hb => cases b <;> first | rfl | exact absurd hb id
    | _ => rfl

theorem clean_wild {l : Bool} {t : Ty} (h : Clean l t) : isWildCard t = false := by
  cases t with
  | param x => rfl
  | con hd ps =>
    have := h.head
    cases this with
    | @base b hb => cases b <;> first | rfl | exact absurd hb id
    | _ => rfl

theorem clean_null {t : Ty} (h : Clean true t) : t.is .null = false := by
  cases t with
  | param x => rfl
  | con hd ps =>
    have := h.head
    cases this with
    | @base b hb => cases b <;> first | rfl | exact absurd hb (by simp [StrictBase])
    | _ => rfl

theorem clean_wrapper {l : Bool} {t : Ty} (h : Clean l t) : wrapperToPrimitive t = none := by
  cases t with
  | param x => rfl
  | con hd ps =>
    have := h.head
    cases this with
    | @base b hb => cases b <;> first | rfl | exact absurd hb id
    | _ => rfl

theorem clean_enum {l : Bool} {t : Ty} (h : Clean l t) : isEnum t.head? = false := by
  cases t with
  | param x => rfl
  | con hd ps => have := h.head; cases this <;> rfl

theorem compareAll_clean {l : Bool} {f : Ty → Ty → Option Generality}
    (hf : ∀ a b g, f a b = some g → Clean l a → Clean l b → g = .equivalent) : ∀ ps qs g, compareAll f ps qs = some g →
    (∀ p ∈ ps, Clean l p) → (∀ q ∈ qs, Clean l q) → g = .equivalent := by
  intro ps
  induction ps with
  | nil => intro qs g h _ _; rw [compareAll] at h; · injection h with h; exact h.symm
           · intro p ps q qs e; exact nomatch e
  | cons p ps ih =>
    intro qs g h hp hq
    cases qs with
    | nil =>
      rw [compareAll] at h
      · injection h with h; exact h.symm
      · intro p ps q qs _ e; exact nomatch e
    | cons q qs =>
      rw [compareAll] at h
      cases h1 : f p q with
      | none => rw [h1] at h; exact nomatch h
      | some g1 =>
        cases h2 : compareAll f ps qs with
        | none => rw [h1, h2] at h; exact nomatch h
        | some g2 =>
          rw [h1, h2] at h
          have h : some (g1.both g2) = some g := h
          injection h with h
          rw [hf _ _ _ h1 (hp p (by simp)) (hq q (by simp)), ih qs g2 h2 (fun p h => hp p (by simp [h])) (fun q h => hq q (by simp [h]))] at h
          exact h.symm

/-- Clean types are never more general than one another. -/
theorem compare_clean {l : Bool} {σ : Sub} (hσ : CleanSub l σ) : ∀ n a b g, compareGenerality l σ n a b = some g → Clean l a → Clean l b →
    g = .equivalent := by
  intro n
  induction n with
  | zero => intro a b g h; exact nomatch h
  | succ n ih =>
    intro a b g h ha hb
    rw [compareGenerality] at h
    cases h1 : substitute σ n a with
    | none => rw [h1] at h; exact nomatch h
    | some f =>
      cases h2 : substitute σ n b with
      | none => rw [h1, h2] at h; exact nomatch h
      | some t =>
        rw [h1, h2] at h
        have cf := substitute_clean hσ _ _ _ h1 ha
        have ct := substitute_clean hσ _ _ _ h2 hb
        have h : (if f.eq t = true then some Generality.equivalent
          else if (isUnion f && isSubsetOf t f) = true then some .more
          else if isUnion t = true then some .less
          else if (l && isLegacyNullable f && t.is .null) = true then some .more
          else if comparable f t = true then compareAll (compareGenerality l σ n) f.params t.params
          else some .equivalent) = some g := h
        split at h
        · injection h with h; exact h.symm
        · rw [clean_union cf, clean_union ct, if_neg (by simp), if_neg (by simp)] at h
          split at h
          · rename_i hn
            simp only [Bool.and_eq_true] at hn
            rw [hn.1.1] at ct
            rw [clean_null ct] at hn
            exact absurd hn.2 (by simp)
          · split at h
            · rename_i hcmp
              cases f with
              | param x => exact absurd hcmp (by simp [comparable, Ty.head?, isOpaque])
              | con hf ps =>
                cases t with
                | param x => exact absurd hcmp (by simp [comparable, Ty.head?, isOpaque])
                | con ht qs =>
                  have n1 : hf ≠ .type := by
                    rintro rfl; exact absurd hcmp (by simp [comparable, Ty.head?, isOpaque])
                  have n2 : ht ≠ .type := by
                    rintro rfl
                    simp [comparable, Ty.head?, isOpaque] at hcmp
                    rw [hcmp.1.2] at hcmp
                    simp at hcmp
                  exact compareAll_clean ih _ _ _ h (cf.params n1) (ct.params n2)
            · injection h with h; exact h.symm

/-- The rest of a check of clean types: nothing bound, or the parameters. -/
theorem concrete_clean {l : Bool} {f : Ty → Ty → Pro → Option (Bool × Pro)} {h k : Head} {ps qs : List Ty} {P : Pro} {x : Bool × Pro}
    (hx : assignConcrete l f (.con h ps) (.con k qs) P = some x) (h1 : Clean l (.con h ps)) (h2 : Clean l (.con k qs)) :
    x.2 = P ∨ (h ≠ .type ∧ k ≠ .type ∧ assignAll f ps qs P = some x) := by
  have same : ∀ {b : Bool}, some (b, P) = some x → x.2 = P := by intro b h; injection h with h; rw [← h]
  unfold assignConcrete at hx
  rw [clean_wrapper h1, clean_wrapper h2] at hx
  dsimp only at hx
  split at hx
  · exact .inl (same hx)
  split at hx
  · exact .inl (same hx)
  split at hx
  · exact .inl (same hx)
  rename_i ht
  split at hx
  · exact .inl (same hx)
  split at hx
  · exact .inl (same hx)
  split at hx
  · exact .inl (same hx)
  split at hx
  · exact .inl (same hx)
  rename_i he
  split at hx
  · exact .inl (same hx)
  have he : k = h := by
    have := Classical.byContradiction he
    simpa [Ty.head?] using this
  subst he
  refine .inr ⟨?_, ?_, hx⟩
  · rintro rfl; simp [Ty.head?] at ht
  · rintro rfl; simp [Ty.head?] at ht

theorem cleanSub_bind {l : Bool} {B : Bindings} {P : Pro} (h : CleanSub l (look B P.map)) {x : Name} {t : Ty} (ht : Clean l t) :
    CleanSub l (look B (P.bind x t).map) := by
  rw [look_bind]
  intro y u hy
  unfold Sub.bind at hy
  split at hy
  · injection hy with hy; rw [← hy]; exact ht
  · exact h y u hy

theorem constraints_clean {l : Bool} {B : Bindings} {n : Nat} {src dst : Ty} {P P' : Pro} {r : Bool}
    (h : assignWithConstraints B n src dst P = some (r, P')) (h1 : Clean l src) (h2 : Clean l dst) (hP : CleanSub l (look B P.map)) :
    CleanSub l (look B P'.map) ∧ P'.widened = P.widened := by
  have keep : ∀ {b : Bool}, some (b, P) = some (r, P') → CleanSub l (look B P'.map) ∧ P'.widened = P.widened := by
    intro b h; injection h with h; injection h with _ h; rw [← h]; exact ⟨hP, rfl⟩
  have bind : ∀ {x : Name} {t : Ty}, Clean l t → some (true, P.bind x t) = some (r, P') →
      CleanSub l (look B P'.map) ∧ P'.widened = P.widened := by
    intro x t hs h; injection h with h; injection h with _ h; rw [← h]; exact ⟨cleanSub_bind hP hs, rfl⟩
  cases dst with
  | param y =>
    cases src with
    | param x =>
      rw [assignWithConstraints] at h
      split at h
      · exact bind (.param y) h
      · exact keep h
    | con hh ps =>
      rw [assignWithConstraints] at h
      cases ho : occursWithin (look B P.map) y n (.con hh ps) with
      | none => rw [ho] at h; exact nomatch h
      | some b =>
        rw [ho] at h
        cases b with
        | true => exact keep h
        | false => exact bind h1 h
  | con k qs =>
    cases src with
    | param x =>
      rw [assignWithConstraints] at h
      cases ho : occursWithin (look B P.map) x n (.con k qs) with
      | none => rw [ho] at h; exact nomatch h
      | some b =>
        rw [ho] at h
        cases b with
        | true => exact keep h
        | false => exact bind h2 h
    | con hh ps =>
      rw [assignWithConstraints] at h
      exact keep h

theorem assignAll_clean {l : Bool} {B : Bindings} {f : Ty → Ty → Pro → Option (Bool × Pro)}
    (hf : ∀ a b P r P', f a b P = some (r, P') → Clean l a → Clean l b → CleanSub l (look B P.map) →
      CleanSub l (look B P'.map) ∧ P'.widened = P.widened) :
    ∀ ps qs P r P', assignAll f ps qs P = some (r, P') → (∀ p ∈ ps, Clean l p) → (∀ q ∈ qs, Clean l q) → CleanSub l (look B P.map) →
      CleanSub l (look B P'.map) ∧ P'.widened = P.widened := by
  intro ps
  induction ps with
  | nil =>
    intro qs P r P' h _ _ hP
    rw [assignAll] at h
    · injection h with h; injection h with _ h; rw [← h]; exact ⟨hP, rfl⟩
    · intro p ps q qs e; exact nomatch e
  | cons p ps ih =>
    intro qs P r P' h hp hq hP
    cases qs with
    | nil =>
      rw [assignAll] at h
      · injection h with h; injection h with _ h; rw [← h]; exact ⟨hP, rfl⟩
      · intro p ps q qs _ e; exact nomatch e
    | cons q qs =>
      rw [assignAll] at h
      cases hr : f p q P with
      | none => rw [hr] at h; exact nomatch h
      | some x =>
        obtain ⟨b, P1⟩ := x
        rw [hr] at h
        obtain ⟨h1, h2⟩ := hf p q P b P1 hr (hp p (by simp)) (hq q (by simp)) hP
        cases b with
        | true =>
          obtain ⟨g1, g2⟩ := ih qs P1 r P' h (fun p hp' => hp p (by simp [hp'])) (fun q hq' => hq q (by simp [hq'])) h1
          exact ⟨g1, g2.trans h2⟩
        | false =>
          have h : some (false, P1) = some (r, P') := h
          injection h with h; injection h with _ h; rw [← h]; exact ⟨h1, h2⟩

theorem widen_clean {l : Bool} {B : Bindings} {n : Nat} {f : Ty → Ty → Pro → Option (Bool × Pro)} {src dst tgt : Ty} {P P' : Pro}
    (h1 : Clean l src) (h2 : Clean l dst) (hP : CleanSub l (look B P.map)) : tryWiden l B n f src dst tgt P ≠ some (some P') := by
  intro h
  unfold tryWiden at h
  cases tgt with
  | con hd ps => exact nomatch h
  | param x =>
    dsimp only at h
    split at h
    · cases hg : compareGenerality l (look B P.map) n src dst with
      | none => rw [hg] at h; exact nomatch h
      | some g =>
        rw [hg, compare_clean hP _ _ _ _ hg h1 h2] at h
        exact nomatch h
    · exact nomatch h

/-- A check of clean types under clean bindings leaves clean bindings and widens nothing, whatever its outcome. -/
theorem assign_clean {l : Bool} {B : Bindings} : ∀ n src tgt P r P', assign l B n src tgt P = some (r, P') → Clean l src → Clean l tgt →
    CleanSub l (look B P.map) → CleanSub l (look B P'.map) ∧ P'.widened = P.widened := by
  intro n
  induction n with
  | zero => intro src tgt P r P' h; exact nomatch h
  | succ n ih =>
    intro src tgt P r P' h h1 h2 hP
    obtain ⟨dst, f, hd, hf, hc⟩ := assign_cases h
    have cd := substitute_clean hP _ _ _ hd h2
    have cf := substitute_clean hP _ _ _ hf h1
    rcases hc with ⟨_, e⟩ | ⟨_, _, hc⟩ | ⟨_, hp, ⟨Pw, hw, e⟩ | ⟨_, hc⟩⟩
    · injection e with _ e; rw [e]; exact ⟨hP, rfl⟩
    · exact constraints_clean hc cf cd hP
    · exact absurd hw (widen_clean cf cd hP)
    · cases f with
      | param x => simp [Ty.isParam] at hp
      | con hh ps =>
        cases dst with
        | param y => simp [Ty.isParam] at hp
        | con k qs =>
          rcases concrete_clean hc cf cd with e | ⟨n1, n2, h⟩
          · have e : P' = P := e
            rw [e]; exact ⟨hP, rfl⟩
          · exact assignAll_clean ih _ _ _ _ _ h (cf.params n1) (cd.params n2) hP

end Cel.Types
