import Verif.Eval.Dispatch
import Verif.Eval.AttributeProps

/-!
# C33: strict function dispatch

Specification vocabulary: `Accepts` (a descriptor's parameter kinds admit the arguments),
`Effective` (an argument as the callee would see it).
-/

set_option linter.unusedSimpArgs false
set_option linter.unusedVariables false

namespace Cel.Eval
open Cel

/-- A descriptor admits arguments: same number, and each parameter kind is `any` or the argument's
kind. -/
def Accepts (d : FnDesc) (args : List Value) : Prop :=
  d.kinds.length = args.length ∧
  ∀ i (hk : i < d.kinds.length) (ha : i < args.length), d.kinds[i] = kAny ∨ d.kinds[i] = args[i].kind

theorem kindsMatchLoop_iff : ∀ (ks : List Nat) (vs : List Value), ks.length = vs.length →
    (kindsMatchLoop ks vs = true ↔
      ∀ i (hk : i < ks.length) (ha : i < vs.length), ks[i] = kAny ∨ ks[i] = vs[i].kind) := by
  intro ks
  induction ks with
  | nil => intro vs h; cases vs <;> simp [kindsMatchLoop] at h ⊢
  | cons k ks ih =>
    intro vs h
    cases vs with
    | nil => simp at h
    | cons v vs =>
      unfold kindsMatchLoop
      simp only [List.length_cons, Nat.add_right_cancel_iff] at h
      by_cases hk : v.kind ≠ k ∧ k ≠ kAny
      · rw [if_pos hk]
        simp only [Bool.false_eq_true, false_iff]
        intro hh
        have := hh 0 (by simp) (by simp)
        simp at this
        rcases this with h1 | h1
        · exact hk.2 h1
        · exact hk.1 h1.symm
      · rw [if_neg hk, ih vs h]
        constructor
        · intro hh i hki hai
          cases i with
          | zero =>
            simp
            by_cases h1 : k = kAny
            · exact Or.inl h1
            · right
              by_cases h2 : v.kind = k
              · exact h2.symm
              · exact absurd ⟨h2, h1⟩ hk
          | succ i => simpa using hh i (by simpa using hki) (by simpa using hai)
        · intro hh i hki hai
          exact hh (i + 1) (by simp; omega) (by simp; omega)

theorem argumentKindsMatch_iff (d : FnDesc) (args : List Value) :
    argumentKindsMatch d args = true ↔ Accepts d args := by
  unfold argumentKindsMatch Accepts
  by_cases h : d.kinds.length = args.length
  · simp only [h, ne_eq, not_true_eq_false, if_false, true_and]
    rw [kindsMatchLoop_iff _ _ h]
    constructor
    · intro hh i hk ha; exact hh i (by omega) ha
    · intro hh i hk ha; exact hh i (by omega) ha
  · simp [h]

/-- An argument with an error or unknown value. -/
def Poisoned (v : Value) : Prop := (∃ e, v = .error e) ∨ (∃ u, v = .unknown u)

theorem shouldAccept_iff (d : FnDesc) (args : List Value) :
    shouldAcceptOverload d args = true ↔ (d.strict = true → ∀ v ∈ args, ¬ Poisoned v) := by
  have hp : ∀ v : Value, (v.isUnknown = true ∨ v.isError = true) ↔ Poisoned v := by
    intro v; cases v <;> simp [Value.isUnknown, Value.isError, Poisoned]
  induction args with
  | nil => simp [shouldAcceptOverload]
  | cons v vs ih =>
    unfold shouldAcceptOverload
    by_cases h : v.isUnknown = true ∨ v.isError = true
    · rw [if_pos h]
      have := (hp v).mp h
      cases hs : d.strict <;> simp [this]
    · rw [if_neg h]
      refine Iff.trans ih ?_
      have : ¬ Poisoned v := fun hh => h ((hp v).mpr hh)
      simp [this]

/-- The argument a callee would see: with unknown processing on, an argument whose attribute is
unknown (wholly or in part) is replaced by the unknown for that attribute. -/
inductive Effective (opts : CallOpts) : VA → Value → Prop where
  | plain (x : VA) (h : opts.unknowns = false ∨ checkUnknown opts.pats x.t true = false) : Effective opts x x.v
  | unknown (x : VA) (a : Attr) (h : opts.unknowns = true) (ht : x.t = some a)
      (hu : checkUnknown opts.pats (some a) true = true) : Effective opts x (.unknown (unknownOf a))

/-- The arguments as prepared by the step. -/
def preparedArgs (opts : CallOpts) (xs : List VA) : List Value :=
  if opts.unknowns then checkPartialUnknowns opts.pats xs else xs.map (·.v)

/-- **C33 (argument preparation).** The argument list seen by dispatch has one entry per argument,
each the effective value of that argument. -/
theorem prepared_effective (opts : CallOpts) (xs : List VA) :
    List.Forall₂ (Effective opts) xs (preparedArgs opts xs) := by
  unfold preparedArgs
  cases hu : opts.unknowns
  · simp only [Bool.false_eq_true, if_false]
    induction xs with
    | nil => exact .nil
    | cons x xs ih => exact .cons (.plain x (Or.inl hu)) ih
  · simp only [if_true]
    induction xs with
    | nil => exact .nil
    | cons x xs ih =>
      refine .cons ?_ ih
      cases hc : checkUnknown opts.pats x.t true
      · simp only [Bool.false_eq_true, if_false]
        exact .plain x (Or.inr hc)
      · simp only [if_true]
        cases ht : x.t with
        | none => rw [ht] at hc; simp [checkUnknown] at hc
        | some a => exact .unknown x a hu ht (by rw [← ht]; exact hc)

theorem firstError_spec : ∀ args : List Value,
    (∀ e, firstError args = some e → (∃ s, e = .error s) ∧ ∃ pre post, args = pre ++ e :: post ∧ ∀ v ∈ pre, v.isError = false) ∧
    (firstError args = none → ∀ v ∈ args, v.isError = false) := by
  intro args
  induction args with
  | nil => simp [firstError]
  | cons v vs ih =>
    have hne : v.isError = false → firstError (v :: vs) = firstError vs := by
      intro h; cases v <;> simp [firstError, Value.isError] at h ⊢
    cases hv : v.isError
    · rw [hne hv]
      constructor
      · intro e he
        obtain ⟨h1, pre, post, h2, h3⟩ := ih.1 e he
        exact ⟨h1, v :: pre, post, by simp [h2], by simpa [hv] using h3⟩
      · intro he w hw
        rcases List.mem_cons.mp hw with h | h
        · rw [h]; exact hv
        · exact ih.2 he w h
    · cases v <;> simp [Value.isError] at hv
      rename_i s
      simp only [firstError]
      refine ⟨?_, by simp⟩
      intro e he
      injection he with he
      subst he
      exact ⟨⟨s, rfl⟩, [], vs, by simp, by simp⟩

/-- **C33 (no call on poisoned strict arguments).** If the overload selected for a call is strict and
some prepared argument is an error or an unknown, no implementation is invoked: the host state is
unchanged and the result is computed without it. -/
theorem strict_not_invoked {σ : Type} (opts : CallOpts) (c : CallSite σ) (xs : List VA) (s : σ)
    (o : Overload σ) (hres : c.resolve (preparedArgs opts xs) = .ok (some o))
    (hs : o.desc.strict = true) (v : Value) (hv : v ∈ preparedArgs opts xs) (hp : Poisoned v) :
    evalCall opts c xs s = (.ok (noOverloadResult c.name (preparedArgs opts xs) c.receiver opts.unknowns), s) := by
  have hna : shouldAcceptOverload o.desc (preparedArgs opts xs) = false := by
    cases h : shouldAcceptOverload o.desc (preparedArgs opts xs)
    · rfl
    · exact absurd hp ((shouldAccept_iff _ _).mp h hs v hv)
  unfold evalCall
  simp only
  unfold preparedArgs at hres hna
  rw [hres]
  simp only [hna, preparedArgs, Bool.false_eq_true, if_false]

/-- **C33 (the first error wins).** If some prepared argument is an error and dispatch does not
invoke anything, the result is the leftmost argument error. -/
theorem no_call_first_error (name : String) (args : List Value) (recv unk : Bool)
    (h : ∃ v ∈ args, ∃ e, v = .error e) :
    ∃ pre e post, args = pre ++ .error e :: post ∧ (∀ v ∈ pre, ∀ e', v ≠ .error e') ∧
      noOverloadResult name args recv unk = .error e := by
  obtain ⟨v, hv, e, rfl⟩ := h
  cases hf : firstError args with
  | none => have := (firstError_spec args).2 hf _ hv; simp [Value.isError] at this
  | some w =>
    obtain ⟨⟨s, rfl⟩, pre, post, h2, h3⟩ := (firstError_spec args).1 w hf
    refine ⟨pre, s, post, h2, ?_, by simp [noOverloadResult, hf]⟩
    intro v hv e' he'
    have := h3 v hv
    rw [he'] at this
    simp [Value.isError] at this

theorem mergeLoop_mem : ∀ (vs : List Value) (r : Option UnknownSet) (u : UnknownSet),
    mergeLoop vs r = some u →
    (∀ a ∈ u.attrs, (∃ r0, r = some r0 ∧ a ∈ r0.attrs) ∨ ∃ w, .unknown w ∈ vs ∧ a ∈ w.attrs) ∧
    (∀ a, ValidAttr a → ((∃ r0, r = some r0 ∧ a ∈ r0.attrs) ∨ ∃ w, .unknown w ∈ vs ∧ a ∈ w.attrs) → a ∈ u.attrs) ∧
    (∀ f ∈ u.fns, (∃ r0, r = some r0 ∧ f ∈ r0.fns) ∨ ∃ w, .unknown w ∈ vs ∧ f ∈ w.fns) ∧
    (∀ f, ((∃ r0, r = some r0 ∧ f ∈ r0.fns) ∨ ∃ w, .unknown w ∈ vs ∧ f ∈ w.fns) →
      ∃ g ∈ u.fns, FnDesc.eq f.desc g.desc = true) := by
  intro vs
  induction vs with
  | nil =>
    intro r u h
    simp only [mergeLoop] at h
    subst h
    have hself : ∀ d : FnDesc, FnDesc.eq d d = true := by intro d; simp [FnDesc.eq]
    refine ⟨fun a ha => Or.inl ⟨u, rfl, ha⟩, ?_, fun f hf => Or.inl ⟨u, rfl, hf⟩, ?_⟩
    · rintro a - (⟨r0, h, ha⟩ | ⟨w, hw, _⟩)
      · injection h with h; subst h; exact ha
      · simp at hw
    · rintro f (⟨r0, h, ha⟩ | ⟨w, hw, _⟩)
      · injection h with h; subst h; exact ⟨f, ha, hself _⟩
      · simp at hw
  | cons v vs ih =>
    intro r u h
    by_cases hv : ∃ w, v = .unknown w
    · obtain ⟨w, rfl⟩ := hv
      simp only [mergeLoop] at h
      obtain ⟨i1, i2, i3, i4⟩ := ih _ u h
      have hcur : ∀ a, a ∈ (r.getD ⟨[], []⟩).attrs → ∃ r0, r = some r0 ∧ a ∈ r0.attrs := by
        intro a ha; cases r with
        | none => simp at ha
        | some r0 => exact ⟨r0, rfl, by simpa using ha⟩
      have hcurf : ∀ a, a ∈ (r.getD ⟨[], []⟩).fns → ∃ r0, r = some r0 ∧ a ∈ r0.fns := by
        intro a ha; cases r with
        | none => simp at ha
        | some r0 => exact ⟨r0, rfl, by simpa using ha⟩
      refine ⟨?_, ?_, ?_, ?_⟩
      · intro a ha
        rcases i1 a ha with ⟨r0, h0, ha⟩ | ⟨w', hw', ha⟩
        · injection h0 with h0; subst h0
          rcases mem_setUnion ha with h1 | h1
          · exact Or.inl (hcur a h1)
          · exact Or.inr ⟨w, by simp, h1⟩
        · exact Or.inr ⟨w', by simp [hw'], ha⟩
      · intro a hva ha
        have hun : ∀ xs ys : List Attr, a ∈ xs ∨ a ∈ ys → a ∈ attrUnion xs ys := by
          intro xs ys h
          rcases h with h | h
          · exact subset_setUnion_left h
          · obtain ⟨w, hw, he⟩ := setUnion_has_right attrLt_sw (xs := xs) h
            rw [attr_equiv_eq hva he]; exact hw
        rcases ha with ⟨r0, h0, ha⟩ | ⟨w', hw', ha⟩
        · subst h0
          exact i2 a hva (Or.inl ⟨_, rfl, hun _ _ (Or.inl (by simpa using ha))⟩)
        · rcases List.mem_cons.mp hw' with h1 | h1
          · injection h1 with h1; subst h1
            exact i2 a hva (Or.inl ⟨_, rfl, hun _ _ (Or.inr ha)⟩)
          · exact i2 a hva (Or.inr ⟨w', h1, ha⟩)
      · intro f hf
        rcases i3 f hf with ⟨r0, h0, ha⟩ | ⟨w', hw', ha⟩
        · injection h0 with h0; subst h0
          rcases mem_setUnion ha with h1 | h1
          · exact Or.inl (hcurf f h1)
          · exact Or.inr ⟨w, by simp, h1⟩
        · exact Or.inr ⟨w', by simp [hw'], ha⟩
      · intro f hf
        have tr : ∀ {a b c : FnDesc}, FnDesc.eq a b = true → FnDesc.eq b c = true → FnDesc.eq a c = true := by
          intro a b c h1 h2; unfold FnDesc.eq at *; simp at *; simp [h1, h2]
        have hun : ∀ xs ys : List FnResult, f ∈ xs ∨ f ∈ ys → ∃ g ∈ fnUnion xs ys, FnDesc.eq f.desc g.desc = true := by
          intro xs ys h
          rcases h with h | h
          · exact ⟨f, subset_setUnion_left h, by simp [FnDesc.eq]⟩
          · obtain ⟨w, hw, he⟩ := setUnion_has_right fnResultLt_sw (xs := xs) h
            exact ⟨w, hw, (fn_desc_order.2.2.2 _ _).mp he⟩
        rcases hf with ⟨r0, h0, ha⟩ | ⟨w', hw', ha⟩
        · subst h0
          obtain ⟨g, hg, he⟩ := hun r0.fns w.fns (Or.inl ha)
          obtain ⟨g', hg', he'⟩ := i4 g (Or.inl ⟨_, rfl, by simpa using hg⟩)
          exact ⟨g', hg', tr he he'⟩
        · rcases List.mem_cons.mp hw' with h1 | h1
          · injection h1 with h1; subst h1
            obtain ⟨g, hg, he⟩ := hun (r.getD ⟨[], []⟩).fns w'.fns (Or.inr ha)
            obtain ⟨g', hg', he'⟩ := i4 g (Or.inl ⟨_, rfl, by simpa using hg⟩)
            exact ⟨g', hg', tr he he'⟩
          · exact i4 f (Or.inr ⟨w', h1, ha⟩)
    · have hskip : mergeLoop (v :: vs) r = mergeLoop vs r := by
        cases v <;> simp [mergeLoop] at hv ⊢
      rw [hskip] at h
      have hmem : ∀ w, Value.unknown w ∈ v :: vs ↔ Value.unknown w ∈ vs := by
        intro w
        constructor
        · intro hw
          rcases List.mem_cons.mp hw with h1 | h1
          · exact absurd ⟨w, h1.symm⟩ hv
          · exact h1
        · intro hw; simp [hw]
      obtain ⟨i1, i2, i3, i4⟩ := ih r u h
      simp only [hmem]
      exact ⟨i1, i2, i3, i4⟩

theorem mergeLoop_isSome : ∀ (vs : List Value) (r : Option UnknownSet),
    (mergeLoop vs r).isSome = true ↔ r.isSome = true ∨ ∃ w, .unknown w ∈ vs := by
  intro vs
  induction vs with
  | nil => intro r; simp [mergeLoop]
  | cons v vs ih =>
    intro r
    by_cases hv : ∃ w, v = .unknown w
    · obtain ⟨w, rfl⟩ := hv
      simp only [mergeLoop]
      rw [ih]
      simp
    · have hskip : mergeLoop (v :: vs) r = mergeLoop vs r := by
        cases v <;> simp [mergeLoop] at hv ⊢
      rw [hskip, ih]
      constructor
      · rintro (h | ⟨w, hw⟩)
        · exact Or.inl h
        · exact Or.inr ⟨w, by simp [hw]⟩
      · rintro (h | ⟨w, hw⟩)
        · exact Or.inl h
        · rcases List.mem_cons.mp hw with h1 | h1
          · exact absurd ⟨w, h1.symm⟩ hv
          · exact Or.inr ⟨w, h1⟩

/-- **C33 (merged unknowns).** With unknown processing on, if no prepared argument is an error but
some is unknown, and nothing is invoked, the result is an unknown whose attributes are exactly the
(supported) attributes of the unknown arguments, and likewise for unknown function results. -/
theorem no_call_unknown (name : String) (args : List Value) (recv : Bool)
    (hne : ∀ v ∈ args, ∀ e, v ≠ .error e) (h : ∃ u, Value.unknown u ∈ args) :
    ∃ u, noOverloadResult name args recv true = .unknown u ∧
      (∀ a ∈ u.attrs, ∃ w, .unknown w ∈ args ∧ a ∈ w.attrs) ∧
      (∀ a, ValidAttr a → (∃ w, .unknown w ∈ args ∧ a ∈ w.attrs) → a ∈ u.attrs) ∧
      (∀ f ∈ u.fns, ∃ w, .unknown w ∈ args ∧ f ∈ w.fns) ∧
      (∀ f, (∃ w, .unknown w ∈ args ∧ f ∈ w.fns) → ∃ g ∈ u.fns, FnDesc.eq f.desc g.desc = true) := by
  have hf : firstError args = none := by
    cases hf : firstError args with
    | none => rfl
    | some w =>
      obtain ⟨⟨s, rfl⟩, pre, post, h2, -⟩ := (firstError_spec args).1 w hf
      exact absurd rfl (hne (.error s) (by simp [h2]) s)
  have hsome := (mergeLoop_isSome args none).mpr (Or.inr h)
  obtain ⟨u, hu⟩ := Option.isSome_iff_exists.mp hsome
  obtain ⟨m1, m2, m3, m4⟩ := mergeLoop_mem args none u hu
  refine ⟨u, ?_, ?_, ?_, ?_, ?_⟩
  · unfold noOverloadResult mergeUnknowns
    rw [hf]
    simp [hu]
  · intro a ha; rcases m1 a ha with ⟨_, h, _⟩ | h
    · simp at h
    · exact h
  · intro a hv ha; exact m2 a hv (Or.inr ha)
  · intro a ha; rcases m3 a ha with ⟨_, h, _⟩ | h
    · simp at h
    · exact h
  · intro a ha; exact m4 a (Or.inr ha)

/-- **C33 (no matching overload).** With only ordinary arguments (no error, no unknown), when nothing
is invoked the result is a no-matching-overload error. -/
theorem no_call_no_overload (name : String) (args : List Value) (recv unk : Bool)
    (h : ∀ v ∈ args, ¬ Poisoned v) :
    ∃ sig, noOverloadResult name args recv unk = .error (noOverload sig) := by
  have hf : firstError args = none := by
    cases hf : firstError args with
    | none => rfl
    | some w =>
      obtain ⟨⟨s, rfl⟩, pre, post, h2, -⟩ := (firstError_spec args).1 w hf
      exact absurd (Or.inl ⟨s, rfl⟩) (h (.error s) (by simp [h2]))
  have hm : mergeUnknowns args = none := by
    cases hm : mergeUnknowns args with
    | none => rfl
    | some u =>
      have : (mergeLoop args none).isSome = true := by unfold mergeUnknowns at hm; simp [hm]
      rcases (mergeLoop_isSome args none).mp this with h1 | ⟨w, hw⟩
      · simp at h1
      · exact absurd (Or.inr ⟨w, rfl⟩) (h _ hw)
  unfold noOverloadResult
  rw [hf, hm]
  have : (if unk = true then (none : Option UnknownSet) else none) = none := by cases unk <;> rfl
  simp only [this]
  cases recv
  · simp only [Bool.false_eq_true, if_false]; exact ⟨_, rfl⟩
  · simp only [if_true]
    cases args with
    | nil => exact ⟨_, rfl⟩
    | cons a rest => exact ⟨_, rfl⟩

theorem resolveStatic_some {σ : Type} (args : List Value) : ∀ (os : List (Overload σ)) (o : Overload σ),
    resolveStatic args os = some o →
    ∃ pre post, os = pre ++ o :: post ∧ Accepts o.desc args ∧ ∀ p ∈ pre, ¬ Accepts p.desc args := by
  intro os
  induction os with
  | nil => intro o h; simp [resolveStatic] at h
  | cons p os ih =>
    intro o h
    unfold resolveStatic at h
    by_cases hm : argumentKindsMatch p.desc args = true
    · rw [if_pos hm] at h
      injection h with h; subst h
      exact ⟨[], os, by simp, (argumentKindsMatch_iff _ _).mp hm, by simp⟩
    · rw [if_neg hm] at h
      obtain ⟨pre, post, h1, h2, h3⟩ := ih o h
      refine ⟨p :: pre, post, by simp [h1], h2, ?_⟩
      intro q hq
      rcases List.mem_cons.mp hq with hq | hq
      · rw [hq]; exact fun ha => hm ((argumentKindsMatch_iff _ _).mpr ha)
      · exact h3 q hq

theorem resolveStatic_none {σ : Type} (args : List Value) : ∀ (os : List (Overload σ)),
    resolveStatic args os = none ↔ ∀ p ∈ os, ¬ Accepts p.desc args := by
  intro os
  induction os with
  | nil => simp [resolveStatic]
  | cons p os ih =>
    unfold resolveStatic
    by_cases hm : argumentKindsMatch p.desc args = true
    · rw [if_pos hm]; simp [(argumentKindsMatch_iff _ _).mp hm]
    · rw [if_neg hm, ih]
      have : ¬ Accepts p.desc args := fun ha => hm ((argumentKindsMatch_iff _ _).mpr ha)
      simp [this]

/-- **C33 (the matching overload is invoked).** An eager call site, arguments that are ordinary
values, overloads of which exactly one admits them: that implementation is invoked, once, on exactly
those arguments, and its result is the call's result (an "unknown function result" error becoming an
unknown when that option is on). -/
theorem eager_invokes_match {σ : Type} (opts : CallOpts) (c : CallSite σ) (os : List (Overload σ))
    (hc : c.resolver = .eager os) (xs : List VA) (s : σ)
    (hord : ∀ v ∈ preparedArgs opts xs, ¬ Poisoned v)
    (o : Overload σ) (ho : o ∈ os) (hacc : Accepts o.desc (preparedArgs opts xs))
    (huniq : ∀ p ∈ os, Accepts p.desc (preparedArgs opts xs) → p = o) :
    ∃ r, (o.impl (preparedArgs opts xs) s) = (r, (evalCall opts c xs s).2) ∧
      ((evalCall opts c xs s).1 = r ∨
        (opts.unknownFnResults = true ∧ (∃ st, r = .ok (.error st) ∧ st.code = .unknownFunctionResult) ∧
          (evalCall opts c xs s).1 = .ok (.unknown ⟨[], [⟨o.desc, c.exprId⟩]⟩))) := by
  have hres : resolveStatic (preparedArgs opts xs) os = some o := by
    cases h : resolveStatic (preparedArgs opts xs) os with
    | none => exact absurd hacc ((resolveStatic_none _ _).mp h o ho)
    | some p =>
      obtain ⟨pre, post, h1, h2, -⟩ := resolveStatic_some _ _ _ h
      rw [huniq p (by simp [h1]) h2]
  have hsa : shouldAcceptOverload o.desc (preparedArgs opts xs) = true :=
    (shouldAccept_iff _ _).mpr fun _ => hord
  have hev : evalCall opts c xs s = invoke opts o c.exprId (preparedArgs opts xs) s := by
    unfold evalCall
    simp only
    have : c.resolve (preparedArgs opts xs) = .ok (some o) := by
      unfold CallSite.resolve; rw [hc]; simp [hres]
    unfold preparedArgs at this hsa ⊢
    rw [this]
    simp only [hsa, if_true]
  rw [hev]
  unfold invoke
  rcases himp : o.impl (preparedArgs opts xs) s with ⟨r, s'⟩
  cases r with
  | err e => exact ⟨_, rfl, Or.inl rfl⟩
  | ub => exact ⟨_, rfl, Or.inl rfl⟩
  | ok v =>
    cases v with
    | error st =>
      simp only
      by_cases hcond : opts.unknownFnResults = true ∧ st.code = .unknownFunctionResult
      · rw [if_pos hcond]
        exact ⟨_, rfl, Or.inr ⟨hcond.1, ⟨st, rfl, hcond.2⟩, rfl⟩⟩
      · rw [if_neg hcond]; exact ⟨_, rfl, Or.inl rfl⟩
    | _ => exact ⟨_, rfl, Or.inl rfl⟩

/-- **C33 (no overload admits the arguments).** Then nothing is invoked. -/
theorem eager_no_match {σ : Type} (opts : CallOpts) (c : CallSite σ) (os : List (Overload σ))
    (hc : c.resolver = .eager os) (xs : List VA) (s : σ)
    (h : ∀ p ∈ os, ¬ Accepts p.desc (preparedArgs opts xs)) :
    evalCall opts c xs s = (.ok (noOverloadResult c.name (preparedArgs opts xs) c.receiver opts.unknowns), s) := by
  have hres := (resolveStatic_none (preparedArgs opts xs) os).mpr h
  unfold evalCall
  simp only
  have : c.resolve (preparedArgs opts xs) = .ok none := by
    unfold CallSite.resolve; rw [hc]; simp [hres]
  unfold preparedArgs at this ⊢
  rw [this]

/-- Non-vacuity: `f(int)` strict, `f(any, any)`; a unary int call has exactly one match. -/
example : let o1 : Overload Nat := ⟨⟨"f", false, [kInt], true⟩, fun _ s => (.ok .null, s + 1)⟩
    let o2 : Overload Nat := ⟨⟨"f", false, [kAny, kAny], false⟩, fun _ s => (.ok (.int 2), s + 1)⟩
    let c : CallSite Nat := ⟨"f", false, 7, .eager [o1, o2]⟩
    let opts : CallOpts := ⟨true, true, [⟨"x", []⟩]⟩
    evalCall opts c [⟨.int 5, none⟩] 0 = (.ok .null, 1) ∧
    evalCall opts c [⟨.error ⟨.unknown, "e"⟩, none⟩, ⟨.int 1, none⟩] 0 = (.ok (.int 2), 1) ∧
    evalCall opts c [⟨.int 5, some ⟨"x", []⟩⟩] 0 = (.ok (.unknown ⟨[⟨"x", []⟩], []⟩), 0) := by
  refine ⟨rfl, rfl, rfl⟩

theorem resolveLazyLoop_some {σ : Type} (m : FnDesc) (args : List Value) :
    ∀ (ps : List (LazyProvider σ)) (o r : Overload σ),
    resolveLazyLoop m args ps (some o) = .ok (some r) →
      r = o ∧ ∀ p ∈ ps, Accepts p.desc args → p.get m = .ok none := by
  intro ps
  induction ps with
  | nil => intro o r h; simp [resolveLazyLoop] at h; simp [h]
  | cons p ps ih =>
    intro o r h
    unfold resolveLazyLoop at h
    by_cases hm : argumentKindsMatch p.desc args = true
    · simp only [hm, Bool.not_true, Bool.false_eq_true, if_false] at h
      cases hg : p.get m with
      | err e => simp [hg] at h
      | ub => simp [hg] at h
      | ok v =>
        cases v with
        | some q => simp [hg] at h
        | none =>
          simp only [hg] at h
          obtain ⟨h1, h2⟩ := ih o r h
          refine ⟨h1, ?_⟩
          intro q hq ha
          rcases List.mem_cons.mp hq with hq | hq
          · rw [hq]; exact hg
          · exact h2 q hq ha
    · simp only [hm, Bool.not_false, if_true] at h
      obtain ⟨h1, h2⟩ := ih o r h
      refine ⟨h1, ?_⟩
      intro q hq ha
      rcases List.mem_cons.mp hq with hq | hq
      · rw [hq] at ha; exact absurd ((argumentKindsMatch_iff _ _).mpr ha) hm
      · exact h2 q hq ha

/-- **C33 (lazy bindings are unambiguous).** A lazily bound call that resolves to an overload got it
from a provider whose descriptor admits the arguments, and every other admitting provider had no
function to offer; two offers are an internal error, never an arbitrary choice. -/
theorem lazy_unambiguous {σ : Type} (name : String) (recv : Bool) (args : List Value) :
    ∀ (ps : List (LazyProvider σ)) (o : Overload σ),
    resolveLazy name recv ps args = .ok (some o) →
    ∃ pre p post, ps = pre ++ p :: post ∧ Accepts p.desc args ∧
      p.get ⟨name, recv, args.map Value.kind, true⟩ = .ok (some o) ∧
      ∀ q ∈ pre ++ post, Accepts q.desc args → q.get ⟨name, recv, args.map Value.kind, true⟩ = .ok none := by
  intro ps
  unfold resolveLazy
  induction ps with
  | nil => intro o h; simp [resolveLazyLoop] at h
  | cons p ps ih =>
    intro o h
    unfold resolveLazyLoop at h
    by_cases hm : argumentKindsMatch p.desc args = true
    · simp only [hm, Bool.not_true, Bool.false_eq_true, if_false] at h
      cases hg : p.get ⟨name, recv, args.map Value.kind, true⟩ with
      | err e => simp [hg] at h
      | ub => simp [hg] at h
      | ok v =>
        cases v with
        | some q =>
          simp only [hg] at h
          obtain ⟨h1, h2⟩ := resolveLazyLoop_some _ _ _ _ _ h
          subst h1
          exact ⟨[], p, ps, by simp, (argumentKindsMatch_iff _ _).mp hm, hg, by simpa using h2⟩
        | none =>
          simp only [hg] at h
          obtain ⟨pre, p', post, h1, h2, h3, h4⟩ := ih o h
          refine ⟨p :: pre, p', post, by simp [h1], h2, h3, ?_⟩
          intro q hq ha
          rcases List.mem_cons.mp hq with hq | hq
          · rw [hq]; exact hg
          · exact h4 q hq ha
    · simp only [hm, Bool.not_false, if_true] at h
      obtain ⟨pre, p', post, h1, h2, h3, h4⟩ := ih o h
      refine ⟨p :: pre, p', post, by simp [h1], h2, h3, ?_⟩
      intro q hq ha
      rcases List.mem_cons.mp hq with hq | hq
      · rw [hq] at ha; exact absurd ((argumentKindsMatch_iff _ _).mpr ha) hm
      · exact h4 q hq ha

end Cel.Eval
