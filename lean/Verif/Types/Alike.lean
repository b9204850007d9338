import Verif.Types.Clean

/-!
# C60: types that are the same but for what stands inside `type(…)`
-/

set_option linter.unusedSimpArgs false
set_option linter.unusedVariables false

namespace Cel.Types
open Cel Cel.Eval Cel.Checker Relation

/-! ## Pairs -/

theorem both_of_zip {α β : Type} {R : α → β → Prop} : ∀ (as : List α) (bs : List β), as.length = bs.length → (∀ q ∈ as.zip bs, R q.1 q.2) →
    Both R as bs := by
  intro as
  induction as with
  | nil => intro bs h _; cases bs with
    | nil => exact .nil
    | cons b bs => exact nomatch h
  | cons a as ih =>
    intro bs h hq
    cases bs with
    | nil => exact nomatch h
    | cons b bs => exact .cons (hq (a, b) (by simp)) (ih bs (by simpa using h) (fun q hm => hq q (by simp [hm])))

theorem Both.length {α β : Type} {R : α → β → Prop} {as : List α} {bs : List β} (h : Both R as bs) : as.length = bs.length := by
  induction h with
  | nil => rfl
  | cons _ _ ih => simp [ih]

theorem Both.imp {α β : Type} {R S : α → β → Prop} {as : List α} {bs : List β} (h : Both R as bs) (hi : ∀ a b, a ∈ as → b ∈ bs → R a b → S a b) :
    Both S as bs := by
  induction h with
  | nil => exact .nil
  | @cons a b as bs h _ ih => exact .cons (hi a b (by simp) (by simp) h) (ih (fun a b ha hb => hi a b (by simp [ha]) (by simp [hb])))

theorem Both.comp {α β γ : Type} {R : α → β → Prop} {S : α → γ → Prop} {T : β → γ → Prop} {as : List α} {bs : List β} (h1 : Both R as bs) :
    ∀ {cs : List γ}, Both S as cs → (∀ a b c, a ∈ as → b ∈ bs → c ∈ cs → R a b → S a c → T b c) → Both T bs cs := by
  induction h1 with
  | nil => intro cs h2 _; cases h2; exact .nil
  | @cons a b as bs h _ ih =>
    intro cs h2 hk
    cases h2 with
    | @cons _ c _ cs h' h2 =>
      exact .cons (hk a b c (by simp) (by simp) (by simp) h h')
        (ih h2 (fun a b c ha hb hc => hk a b c (by simp [ha]) (by simp [hb]) (by simp [hc])))

theorem Both.flip {α β : Type} {R : α → β → Prop} {as : List α} {bs : List β} (h : Both R as bs) : Both (fun b a => R a b) bs as := by
  induction h with
  | nil => exact .nil
  | cons h _ ih => exact .cons h ih

theorem Both.map {α β γ δ : Type} {R : γ → δ → Prop} {f : α → γ} {g : β → δ} {as : List α} {bs : List β}
    (h : Both (fun a b => R (f a) (g b)) as bs) : Both R (as.map f) (bs.map g) := by
  induction h with
  | nil => exact .nil
  | cons h _ ih => exact .cons h ih

theorem Both.right {α β : Type} {R : α → β → Prop} {as : List α} {bs : List β} (h : Both R as bs) : ∀ b ∈ bs, ∃ a ∈ as, R a b := by
  induction h with
  | nil => intro b hb; exact nomatch hb
  | @cons a b as bs h _ ih =>
    intro c hc
    rcases List.mem_cons.mp hc with rfl | hc
    · exact ⟨a, by simp, h⟩
    · obtain ⟨x, hx, hr⟩ := ih c hc; exact ⟨x, by simp [hx], hr⟩

theorem Both.left {α β : Type} {R : α → β → Prop} {as : List α} {bs : List β} (h : Both R as bs) : ∀ a ∈ as, ∃ b ∈ bs, R a b :=
  fun a ha => h.flip.right a ha

/-! ## Alike -/

inductive Alike : Ty → Ty → Prop
  | param (x) : Alike (.param x) (.param x)
  | type {ps qs : List Ty} : ps.length ≤ 1 → qs.length ≤ 1 → Alike (.con .type ps) (.con .type qs)
  | con {h ps qs} : ps.length = qs.length → (∀ q ∈ ps.zip qs, Alike q.1 q.2) → Alike (.con h ps) (.con h qs)

mutual
theorem Alike.refl (t : Ty) : Alike t t := by
  cases t with
  | param x => exact .param x
  | con h ps => exact .con rfl (Alike.refl_all ps)
theorem Alike.refl_all (ps : List Ty) : ∀ q ∈ ps.zip ps, Alike q.1 q.2 := by
  cases ps with
  | nil => intro q hq; simp at hq
  | cons p ps =>
    have h1 := Alike.refl p
    have h2 := Alike.refl_all ps
    intro q hq
    rw [List.zip_cons_cons, List.mem_cons] at hq
    rcases hq with rfl | hq
    · exact h1
    · exact h2 q hq
end

theorem zip_flip {α β : Type} : ∀ (as : List α) (bs : List β) (a : α) (b : β), (b, a) ∈ bs.zip as → (a, b) ∈ as.zip bs := by
  intro as
  induction as with
  | nil => intro bs a b h; simp at h
  | cons x as ih =>
    intro bs a b h
    cases bs with
    | nil => simp at h
    | cons y bs =>
      rw [List.zip_cons_cons, List.mem_cons] at h ⊢
      rcases h with h | h
      · injection h with h1 h2; rw [h1, h2]; exact .inl rfl
      · exact .inr (ih bs a b h)

theorem Alike.symm {s t : Ty} (h : Alike s t) : Alike t s := by
  induction h with
  | param x => exact .param x
  | type h1 h2 => exact .type h2 h1
  | con hl _ ih => exact .con hl.symm (fun q hq => ih (q.2, q.1) (zip_flip _ _ _ _ hq))

theorem Alike.inv {h : Head} {ps : List Ty} {t : Ty} (ha : Alike (.con h ps) t) :
    (h = .type ∧ ps.length ≤ 1 ∧ ∃ qs, t = .con .type qs ∧ qs.length ≤ 1) ∨
      ∃ qs, t = .con h qs ∧ ps.length = qs.length ∧ ∀ q ∈ ps.zip qs, Alike q.1 q.2 := by
  cases ha with
  | type h1 h2 => exact .inl ⟨rfl, h1, _, rfl, h2⟩
  | con hl hp => exact .inr ⟨_, rfl, hl, hp⟩

theorem Alike.inv' {h : Head} {ps : List Ty} {t : Ty} (ha : Alike (.con h ps) t) (hh : h ≠ .type) :
    ∃ qs, t = .con h qs ∧ ps.length = qs.length ∧ ∀ q ∈ ps.zip qs, Alike q.1 q.2 := by
  rcases ha.inv with ⟨e, _⟩ | h
  · exact absurd e hh
  · exact h

theorem Alike.nil {h : Head} {t : Ty} (ha : Alike (.con h []) t) (hh : h ≠ .type) : t = .con h [] := by
  obtain ⟨qs, rfl, hl, _⟩ := ha.inv' hh
  rw [List.eq_nil_of_length_eq_zero hl.symm]

theorem Alike.base {b : Base} {t : Ty} (ha : Alike (.b b) t) : t = .b b := ha.nil (by simp)

theorem Alike.one {h : Head} {p t : Ty} (ha : Alike (.con h [p]) t) (hh : h ≠ .type) : ∃ q, t = .con h [q] ∧ Alike p q := by
  obtain ⟨qs, rfl, hl, hp⟩ := ha.inv' hh
  match qs, hl with
  | [q], _ => exact ⟨q, rfl, hp (p, q) (by simp)⟩

theorem Alike.two {h : Head} {p1 p2 t : Ty} (ha : Alike (.con h [p1, p2]) t) (hh : h ≠ .type) :
    ∃ q1 q2, t = .con h [q1, q2] ∧ Alike p1 q1 ∧ Alike p2 q2 := by
  obtain ⟨qs, rfl, hl, hp⟩ := ha.inv' hh
  match qs, hl with
  | [q1, q2], _ => exact ⟨q1, q2, rfl, hp (p1, q1) (by simp), hp (p2, q2) (by simp)⟩

theorem KeyTy.alike {s t : Ty} (hk : KeyTy s) (h : Alike s t) : t = s := by
  rcases hk with rfl | rfl | rfl | rfl <;> exact h.base

theorem Alike.strict {l : Bool} {s t : Ty} (hs : Strict l s) (h : Alike s t) : Strict l t := by
  induction hs generalizing t with
  | base hb => rw [h.base]; exact .base hb
  | struct n => rw [h.nil (by simp)]; exact .struct n
  | type h1 =>
    rcases h.inv with ⟨_, _, qs, rfl, h2⟩ | ⟨qs, rfl, hl, _⟩
    · exact .type h2
    · exact .type (by rw [← hl]; exact h1)
  | list _ ih => obtain ⟨q, rfl, hq⟩ := h.one (by simp); exact .list (ih hq)
  | map hk _ ih =>
    obtain ⟨q1, q2, rfl, h1, h2⟩ := h.two (by simp)
    rw [hk.alike h1]
    exact .map hk (ih h2)
  | «opaque» _ ih =>
    obtain ⟨qs, rfl, hl, hp⟩ := h.inv' (by simp)
    refine .opaque (fun q hq => ?_)
    obtain ⟨p, hp', ha⟩ := (both_of_zip _ _ hl hp).right q hq
    exact ih p hp' ha

theorem Alike.hasType {s t : Ty} {v : Value} (hv : HasType s v) (h : Alike s t) : HasType t v := by
  induction hv generalizing t with
  | null => rw [h.base]; exact .null
  | bool => rw [h.base]; exact .bool _
  | int => rw [h.base]; exact .int _
  | uint => rw [h.base]; exact .uint _
  | double => rw [h.base]; exact .double _
  | string => rw [h.base]; exact .string _
  | bytes => rw [h.base]; exact .bytes _
  | duration => rw [h.base]; exact .duration _
  | timestamp => rw [h.base]; exact .timestamp _
  | type =>
    rcases h.inv with ⟨_, _, qs, rfl, _⟩ | ⟨qs, rfl, _⟩
    · exact .type _ _
    · exact .type _ _
  | list _ ih => obtain ⟨q, rfl, hq⟩ := h.one (by simp); exact .list (fun v hv => ih v hv hq)
  | map _ _ ih1 ih2 =>
    obtain ⟨q1, q2, rfl, h1, h2⟩ := h.two (by simp)
    exact .map (fun e he => ih1 e he h1) (fun e he => ih2 e he h2)
  | struct => rw [h.nil (by simp)]; exact .struct _ _
  | enum => rw [h.nil (by simp)]; exact .enum _ _
  | optNone => obtain ⟨q, rfl, hq⟩ := h.one (by simp); exact .optNone q
  | optSome _ ih => obtain ⟨q, rfl, hq⟩ := h.one (by simp); exact .optSome (ih hq)
  | «opaque» ps i hn => obtain ⟨qs, rfl, _⟩ := h.inv' (by simp); exact .opaque _ _ hn
  | wrapperNull hw => rw [h.base]; exact .wrapperNull hw
  | wrapper hw hv _ => rw [h.base]; exact .wrapper hw hv
  | dyn h1 h2 => rw [h.base]; exact .dyn h1 h2
  | any h1 h2 => rw [h.base]; exact .any h1 h2

theorem Alike.fine {u : Bool} {s t : Ty} {v : Value} (hv : Fine u s v) (h : Alike s t) : Fine u t v := by
  cases hv with
  | value hv => exact .value (h.hasType hv)
  | error he => exact .error he
  | unknown u hu => exact .unknown u hu

/-! ## Substituted types -/

/-- A clean base, struct or `type` head only fits itself. -/
theorem fits_clean {l : Bool} {h k : Head} (hf : ∀ ps qs, Fits l (.con h ps) (.con k qs)) (h1 : CleanHead l h) (h2 : CleanHead l k) :
    h = k ∧ (hasTypeParams h = true → h = .type) := by
  have hf := hf [] [dyn]
  cases hf with
  | base => exact ⟨rfl, fun e => nomatch e⟩
  | wildL _ hw => cases hw <;> (cases h1 with | base hb => exact absurd hb id)
  | wildR _ hw => cases hw <;> (cases h2 with | base hb => exact absurd hb id)
  | nullToWrapper hw => cases hw <;> (cases h2 with | base hb => exact absurd hb id)
  | wrap hw => cases hw <;> (cases h2 with | base hb => exact absurd hb id)
  | unwrap hw => cases hw <;> (cases h1 with | base hb => exact absurd hb id)
  | enumToInt => exact nomatch h1
  | intToEnum => exact nomatch h2
  | enumToWrapper => exact nomatch h1
  | wrapperToEnum => exact nomatch h2
  | nullTo hl => cases h1 with | base hb => rw [hl] at hb; exact absurd hb (by simp [StrictBase])
  | toNull hl => cases h2 with | base hb => rw [hl] at hb; exact absurd hb (by simp [StrictBase])
  | typeType => exact ⟨rfl, fun _ => rfl⟩
  | params hl => exact nomatch hl

theorem Clean.type_len {l : Bool} {ps : List Ty} (h : Clean l (.con .type ps)) : ps.length ≤ 1 := by
  generalize e : Ty.con .type ps = t at h
  cases h <;> cases e
  assumption

/-- Clean types that fit have like instances. -/
theorem fitsIn_alike {l d : Bool} {σ : Sub} (hσ : CleanSub l σ) {a b : Ty} (h : FitsIn l σ a b) : Clean l a → Clean l b → ∀ s t, Full σ d a s →
    Full σ d b t → Alike s t := by
  induction h with
  | derefL hx _ ih => intro _ hb s t hs ht; exact ih (hσ _ _ hx) hb s t (full_deref hx hs) ht
  | derefR hx _ ih => intro ha _ s t hs ht; exact ih ha (hσ _ _ hx) s t hs (full_deref hx ht)
  | same x => intro _ _ s t hs ht; rw [full_unique hs ht]; exact .refl t
  | wildL b hw => intro ha; exact absurd (isWild_of hw) (by rw [clean_wild ha]; simp)
  | wildR a hw => intro _ hb; exact absurd (isWild_of hw) (by rw [clean_wild hb]; simp)
  | @flat h k ps qs hf =>
    intro ha hb s t hs ht
    obtain ⟨e, hp⟩ := fits_clean hf ha.head hb.head
    subst e
    obtain ⟨rs, rfl, r1, r2⟩ := full_con hs
    obtain ⟨ss, rfl, s1, s2⟩ := full_con ht
    cases hh : hasTypeParams h with
    | false =>
      rw [r1 hh, s1 hh, (shaped_params ha.shaped).2 hh, (shaped_params hb.shaped).2 hh]
      exact .refl _
    | true =>
      have e := hp hh
      subst e
      exact .type (by rw [(r2 hh).1]; exact ha.type_len) (by rw [(s2 hh).1]; exact hb.type_len)
  | @params h ps qs hl _ ih =>
    intro ha hb s t hs ht
    obtain ⟨rs, rfl, r1, r2⟩ := full_con hs
    obtain ⟨ss, rfl, s1, s2⟩ := full_con ht
    cases hh : hasTypeParams h with
    | false =>
      rw [r1 hh, s1 hh, (shaped_params ha.shaped).2 hh, (shaped_params hb.shaped).2 hh]
      exact .refl _
    | true =>
      obtain ⟨l1, f1⟩ := r2 hh
      obtain ⟨l2, f2⟩ := s2 hh
      by_cases e : h = .type
      · subst e
        exact .type (by rw [l1]; exact ha.type_len) (by rw [l2]; exact hb.type_len)
      · refine .con (by rw [l1, l2, hl]) (zip_zip (A := fun _ _ => True) (C := Full σ d) ps qs rs ss hl l1 l2 (fun _ _ => trivial) f1 f2 ?_)
        intro p q r s hp hq hpq _ hr hs
        exact ih (p, q) hpq (ha.params e p hp) (hb.params e q hq) r s hr hs

theorem Strict.head {l : Bool} {h : Head} {ps : List Ty} (hc : Strict l (.con h ps)) : CleanHead l h := by
  generalize e : Ty.con h ps = t at hc
  cases hc <;> cases e
  · exact .base (by assumption)
  · exact .struct _
  · exact .type
  · exact .list
  · exact .map
  · exact .opaque _

theorem KeyTy.strict {l : Bool} {t : Ty} (h : KeyTy t) : Strict l t := by
  rcases h with rfl | rfl | rfl | rfl <;> exact .base trivial

/-- A type with a strict instance is clean. -/
theorem strict_clean {l d : Bool} {σ : Sub} {t : Ty} (hs : Shaped t) : ∀ s, Full σ d t s → Strict l s → Clean l t := by
  induction hs with
  | param x => intro s _ _; exact .param x
  | leaf h =>
    intro s hf hst
    obtain ⟨rs, rfl, h1, h2⟩ := full_con hf
    have e : rs = [] := by
      cases hh : hasTypeParams h with
      | false => exact h1 hh
      | true => exact List.eq_nil_of_length_eq_zero (h2 hh).1
    subst e
    generalize e : Ty.con h [] = u at hst
    cases hst <;> cases e
    · exact .base (by assumption)
    · exact .struct _
    · exact .type (by simp) (by simp)
    · exact .opaque (by simp)
  | @node h ps hh hps ih =>
    intro s hf hst
    obtain ⟨rs, rfl, h1, h2⟩ := full_con hf
    obtain ⟨hl, hp⟩ := h2 hh
    have hb := (both_of_zip _ _ hl.symm hp)
    clear h1 h2
    generalize e : Ty.con h rs = u at hst
    cases hst <;> cases e
    · exact nomatch hh
    · exact nomatch hh
    · exact .type (by rw [← hl]; assumption) hps
    · cases hb with
      | cons h1 h2 => cases h2; exact .list (ih _ (by simp) _ h1 (by assumption))
    · cases hb with
      | cons h1 h2 => cases h2 with
        | cons h2 h3 => cases h3; exact .map (ih _ (by simp) _ h1 (KeyTy.strict (by assumption))) (ih _ (by simp) _ h2 (by assumption))
    · rename_i hr
      refine .opaque (fun p hp' => ?_)
      obtain ⟨r, hr', hf⟩ := hb.left p hp'
      exact ih p hp' r hf (hr r hr')

theorem substitute_full {σ τ : Sub} {d : Bool} (hle : ∀ x t, σ x = some t → τ x = some t) : ∀ n a b s, substitute σ n a = some b →
    Full τ d a s → Full τ d b s := by
  intro n
  induction n with
  | zero => intro a b s h; exact nomatch h
  | succ n ih =>
    intro a b s h hf
    cases a with
    | con k ps => rw [substitute] at h; injection h with h; rw [← h]; exact hf
    | param x =>
      rw [substitute] at h
      cases hx : σ x with
      | none => rw [hx] at h; injection h with h; rw [← h]; exact hf
      | some t => rw [hx] at h; exact ih t b s h (full_deref (hle _ _ hx) hf)

theorem full_con_intro {σ : Sub} {d : Bool} {h : Head} {ps rs : List Ty} (hh : hasTypeParams h = true) (hb : Both (Full σ d) ps rs) :
    Full σ d (.con h ps) (.con h rs) := by
  have : ∃ n, mapAll (fullySubstitute σ d n) ps = some rs := by
    clear hh
    induction hb with
    | nil => exact ⟨0, rfl⟩
    | @cons p r ps rs h _ ih =>
      obtain ⟨n1, h1⟩ := h
      obtain ⟨n2, h2⟩ := ih
      refine ⟨max n1 n2, ?_⟩
      rw [mapAll, fullySubstitute_le (Nat.le_max_left n1 n2) h1,
        mapAll_mono (fun t r h => fullySubstitute_le (Nat.le_max_right n1 n2) h) _ _ h2]
      rfl
  obtain ⟨n, hn⟩ := this
  refine ⟨n + 1, ?_⟩
  rw [fullySubstitute, if_pos hh, hn]
  rfl

theorem full_leaf {σ : Sub} {d : Bool} {h : Head} : Full σ d (.con h []) (.con h []) := by
  cases hh : hasTypeParams h with
  | true => exact full_con_intro hh .nil
  | false => exact ⟨1, by rw [fullySubstitute, hh]; rfl⟩

theorem mapAll_both {f : Ty → Option Ty} : ∀ ps rs, mapAll f ps = some rs → Both (fun p r => f p = some r) ps rs := by
  intro ps
  induction ps with
  | nil => intro rs h; rw [mapAll] at h; injection h with h; rw [← h]; exact .nil
  | cons p ps ih =>
    intro rs h
    rw [mapAll] at h
    cases hp : f p with
    | none => rw [hp] at h; exact nomatch h
    | some r =>
      rw [hp] at h
      cases hq : mapAll f ps with
      | none => rw [hq] at h; exact nomatch h
      | some rs' =>
        rw [hq] at h
        have h : some (r :: rs') = some rs := h
        injection h with h
        rw [← h]
        exact .cons hp (ih rs' hq)

/-- Substituting early makes no difference in the end. -/
theorem full_after {σ τ : Sub} {d : Bool} (hle : ∀ x t, σ x = some t → τ x = some t) : ∀ n t t' s, fullySubstitute σ false n t = some t' →
    Full τ d t s → Full τ d t' s := by
  intro n
  induction n with
  | zero => intro t t' s h; exact nomatch h
  | succ n ih =>
    intro t t' s h hf
    cases t with
    | param x =>
      rw [fullySubstitute] at h
      cases hs : substitute σ n (.param x) with
      | none => rw [hs] at h; exact nomatch h
      | some u =>
        rw [hs] at h
        have hu := substitute_full hle _ _ _ _ hs hf
        cases u with
        | param y =>
          have h : some (Ty.param y) = some t' := h
          injection h with h; rw [← h]; exact hu
        | con k ps =>
          have h : fullySubstitute σ false n (.con k ps) = some t' := h
          exact ih _ _ _ h hu
    | con k ps =>
      rw [fullySubstitute] at h
      split at h
      · rename_i hh
        cases hm : mapAll (fullySubstitute σ false n) ps with
        | none => rw [hm] at h; exact nomatch h
        | some rs =>
          rw [hm] at h
          have h : some (Ty.con k rs) = some t' := h
          injection h with h
          rw [← h]
          obtain ⟨ss, rfl, _, s2⟩ := full_con hf
          obtain ⟨hl, hp⟩ := s2 hh
          exact full_con_intro hh ((mapAll_both _ _ hm).comp (both_of_zip _ _ hl.symm hp) (fun a b c _ _ _ h1 h2 => ih _ _ _ h1 h2))
      · injection h with h; rw [← h]; exact hf

/-- Substituting keeps a type clean. -/
theorem full_clean {l : Bool} {σ : Sub} (hσ : CleanSub l σ) (hw : ∀ t, ∃ s, Full σ true t s) : ∀ n t r, fullySubstitute σ false n t = some r →
    Clean l t → Shaped r → Clean l r := by
  intro n
  induction n with
  | zero => intro t r h; exact nomatch h
  | succ n ih =>
    intro t r h hc hr
    cases t with
    | param x =>
      rw [fullySubstitute] at h
      cases hs : substitute σ n (.param x) with
      | none => rw [hs] at h; exact nomatch h
      | some u =>
        rw [hs] at h
        have hu := substitute_clean hσ _ _ _ hs hc
        cases u with
        | param y =>
          have h : some (Ty.param y) = some r := h
          injection h with h; rw [← h]; exact hu
        | con k ps =>
          have h : fullySubstitute σ false n (.con k ps) = some r := h
          exact ih _ _ h hu hr
    | con k ps =>
      rw [fullySubstitute] at h
      split at h
      · rename_i hh
        cases hm : mapAll (fullySubstitute σ false n) ps with
        | none => rw [hm] at h; exact nomatch h
        | some rs =>
          rw [hm] at h
          have h : some (Ty.con k rs) = some r := h
          injection h with h
          subst h
          have hb := mapAll_both _ _ hm
          have sr := (shaped_params hr).1
          generalize e : Ty.con k ps = t at hc
          cases hc <;> cases e
          · exact nomatch hh
          · exact nomatch hh
          · exact .type (by rw [← hb.length]; assumption) sr
          · cases hb with
            | cons h1 h2 => cases h2; exact .list (ih _ _ h1 (by assumption) (sr _ (by simp)))
          · cases hb with
            | cons h1 h2 => cases h2 with
              | cons h2 h3 => cases h3; exact .map (ih _ _ h1 (by assumption) (sr _ (by simp))) (ih _ _ h2 (by assumption) (sr _ (by simp)))
          · rename_i hp
            refine .opaque (fun q hq => ?_)
            obtain ⟨p, hp', h'⟩ := hb.right q hq
            exact ih _ _ h' (hp p hp') (sr q hq)
      · injection h with h; rw [← h]; exact hc

end Cel.Types
