import Verif.Policy.Unnest

/-!
# C55 and C56
-/

set_option linter.unusedSimpArgs false
set_option linter.unusedVariables false

namespace Policy

attribute [local irreducible] blockIndex

/-! ## Acceptance -/

theorem varsDistinct_iff : ∀ (vs : List (String × Ex)) (seen : List String),
    varsDistinct seen vs = true ↔ (vs.map Prod.fst).Nodup ∧ ∀ x ∈ vs.map Prod.fst, x ∉ seen
  | [], seen => by simp [varsDistinct]
  | (x, e) :: vs, seen => by
    simp only [varsDistinct, Bool.and_eq_true, varsDistinct_iff vs (x :: seen), List.map_cons, List.nodup_cons,
      List.mem_cons, Bool.not_eq_true', List.contains_eq_mem, decide_eq_false_iff_not]
    constructor
    · rintro ⟨h1, h2, h3⟩
      refine ⟨⟨fun hx => h3 x hx (.inl rfl), h2⟩, ?_⟩
      rintro y (rfl | hy)
      · exact h1
      · exact fun h => h3 y hy (.inr h)
    · rintro ⟨⟨h1, h2⟩, h3⟩
      refine ⟨h3 x (.inl rfl), h2, ?_⟩
      rintro y hy (rfl | h)
      · exact h1 hy
      · exact h3 y (.inr hy) h

mutual
theorem wellFormed_iff : ∀ (r : Rule), (checkRule r = .ok () ∧ structureOk r = .ok ()) ↔ r.WellFormed
  | .mk vars .nil => by simp [structureOk, Rule.WellFormed]
  | .mk vars (.cons c p ms) => by
    have ih := wellFormedM_iff (.cons c p ms)
    simp only [Rule.WellFormed, checkRule, structureOk]
    rw [← ih]
    have hv := varsDistinct_iff vars []
    simp only [List.not_mem_nil, not_false_eq_true, implies_true, and_true] at hv
    rw [← hv]
    by_cases hd : varsDistinct [] vars = true
    · simp [hd]
    · simp [hd]
theorem wellFormedM_iff : ∀ (ms : Matches), (checkMatches ms = .ok () ∧ structureFrom false ms = .ok ()) ↔
    ms.WellFormed
  | .nil => by simp [checkMatches, structureFrom, Matches.WellFormed]
  | .cons c p ms => by
    have ihp := wellFormedP_iff p
    have ihm := wellFormedM_iff ms
    simp only [Matches.WellFormed]
    rw [← ihp, ← ihm]
    simp only [checkMatches, structureFrom, Bool.false_eq_true, if_false]
    constructor
    · rintro ⟨h1, h2⟩
      cases hk : checkProd p with
      | error e => rw [hk] at h1; exact absurd h1 (by simp)
      | ok u =>
        rw [hk] at h1
        cases hs : structureProd p with
        | error e => rw [hs] at h2; exact absurd h2 (by simp)
        | ok u' =>
          rw [hs] at h2
          simp only at h1 h2
          have hnil : (trivial c && exhaustiveProd p) = true → ms = .nil := by
            intro hx
            rw [hx] at h2
            cases ms with
            | nil => rfl
            | cons _ _ _ => simp [structureFrom] at h2
          refine ⟨⟨rfl, rfl⟩, ⟨h1, ?_⟩, ?_⟩
          · cases hx : (trivial c && exhaustiveProd p) with
            | false => rw [hx] at h2; exact h2
            | true => rw [hnil hx]; simp [structureFrom]
          · intro hu hp
            apply hnil
            rw [(trivial_iff c).2 hu, (exhaustiveProd_iff p hs).2 hp]
            rfl
    · rintro ⟨⟨h1, h2⟩, ⟨h3, h4⟩, h5⟩
      rw [h1, h2]
      refine ⟨h3, ?_⟩
      simp only
      cases hx : (trivial c && exhaustiveProd p) with
      | false => exact h4
      | true =>
        simp only [Bool.and_eq_true] at hx
        rw [h5 ((trivial_iff c).1 hx.1) ((exhaustiveProd_iff p h2).1 hx.2)]
        simp [structureFrom]
theorem wellFormedP_iff : ∀ (p : Production), (checkProd p = .ok () ∧ structureProd p = .ok ()) ↔ p.WellFormed
  | .empty => by simp [checkProd, Production.WellFormed]
  | .rule r => by
    simp only [checkProd, structureProd, Production.WellFormed]
    exact wellFormed_iff r
  | .output e => by simp [checkProd, structureProd, Production.WellFormed]
end

mutual
theorem checkRule_error : ∀ (r : Rule) (e : Refusal), checkRule r = .error e →
    e = .overlappingIdentifier ∨ e = .noProduction
  | .mk vars ms, e, h => by
    simp only [checkRule] at h
    split at h
    · exact checkMatches_error ms e h
    · simp only [Except.error.injEq] at h; exact .inl h.symm
theorem checkMatches_error : ∀ (ms : Matches) (e : Refusal), checkMatches ms = .error e →
    e = .overlappingIdentifier ∨ e = .noProduction
  | .nil, e, h => absurd h (by simp [checkMatches])
  | .cons c p ms, e, h => by
    simp only [checkMatches] at h
    split at h
    · rename_i e' he
      simp only [Except.error.injEq] at h
      subst h
      exact checkProd_error p _ he
    · exact checkMatches_error ms e h
theorem checkProd_error : ∀ (p : Production) (e : Refusal), checkProd p = .error e →
    e = .overlappingIdentifier ∨ e = .noProduction
  | .empty, e, h => by simp only [checkProd, Except.error.injEq] at h; exact .inr h.symm
  | .rule r, e, h => by simp only [checkProd] at h; exact checkRule_error r e h
  | .output _, e, h => absurd h (by simp [checkProd])
end

mutual
theorem structureOk_error : ∀ (r : Rule) (e : Refusal), structureOk r = .error e →
    e = .noMatches ∨ e = .unreachable
  | .mk vars .nil, e, h => by simp only [structureOk, Except.error.injEq] at h; exact .inl h.symm
  | .mk vars (.cons c p ms), e, h => by
    simp only [structureOk] at h
    exact structureFrom_error (.cons c p ms) false e h
theorem structureFrom_error : ∀ (ms : Matches) (b : Bool) (e : Refusal), structureFrom b ms = .error e →
    e = .noMatches ∨ e = .unreachable
  | .nil, b, e, h => absurd h (by simp [structureFrom])
  | .cons c p ms, b, e, h => by
    simp only [structureFrom] at h
    split at h
    · simp only [Except.error.injEq] at h; exact .inr h.symm
    · split at h
      · rename_i e' he
        simp only [Except.error.injEq] at h
        subst h
        exact structureProd_error p _ he
      · exact structureFrom_error ms _ e h
theorem structureProd_error : ∀ (p : Production) (e : Refusal), structureProd p = .error e →
    e = .noMatches ∨ e = .unreachable
  | .empty, e, h => absurd h (by simp [structureProd])
  | .rule r, e, h => by simp only [structureProd] at h; exact structureOk_error r e h
  | .output _, e, h => absurd h (by simp [structureProd])
end

theorem compile_compose {limit : Nat} {r : Rule} {p : Prog} (h : compilePolicy limit r = .ok p) :
    ∃ p0, compose r = .ok p0 ∧ unnest limit p0 = .ok p := by
  unfold compilePolicy at h
  split at h
  · exact absurd h (by simp)
  · split at h
    · exact absurd h (by simp)
    · split at h
      · exact absurd h (by simp)
      · rename_i p0 hp
        exact ⟨p0, hp, h⟩

theorem compose_structure {r : Rule} {p : Prog} (h : compose r = .ok p) : structureOk r = .ok () := by
  unfold compose at h
  split at h
  · exact absurd h (by simp)
  · assumption

/-- **C55.** A compiled policy evaluates to the outcome of the policy under first-match semantics: the value itself
if the policy by its shape always has a match, otherwise an optional with the value, or `optional.none()` when
nothing matched; an error of a condition that was reached, or of the output, is the result.
For every policy, every unnesting limit, all functions and all activations. -/
theorem C55_first_match {limit : Nat} {r : Rule} {p : Prog} (hs : r.Source)
    (h : compilePolicy limit r = .ok p) :
    (AlwaysMatches r ∧ ∀ I σ, r.outcome I σ = .produced (p.run I σ)) ∨
    (¬ AlwaysMatches r ∧ ∀ I σ, p.run I σ = (r.outcome I σ).asOptional) := by
  obtain ⟨p0, h0, hu⟩ := compile_compose h
  have hx := exhaustive_iff r (compose_structure h0)
  have hrun : ∀ I σ, p.run I σ = p0.run I σ := fun I σ => unnest_run I σ (compose_scoped hs h0) hu
  cases he : exhaustive r with
  | true =>
    refine .inl ⟨hx.1 he, fun I σ => ?_⟩
    have := compose_shows I σ hs h0
    rw [he] at this
    rw [hrun]
    simpa [Shows] using this
  | false =>
    refine .inr ⟨fun ha => by rw [hx.2 ha] at he; exact absurd he (by simp), fun I σ => ?_⟩
    have := compose_shows I σ hs h0
    rw [he] at this
    rw [hrun]
    simpa [Shows] using this

theorem compose_ok_iff (r : Rule) :
    ((∃ p, checkRule r = .ok () ∧ compose r = .ok p) ↔ r.WellFormed) := by
  rw [← wellFormed_iff r]
  constructor
  · rintro ⟨p, h1, h2⟩
    exact ⟨h1, compose_structure h2⟩
  · rintro ⟨h1, h2⟩
    obtain ⟨init, e, hc⟩ := composeRule_total r [] [] h1 h2
    exact ⟨⟨init, e⟩, h1, by simp [compose, h2, hc]⟩

/-- **C55, acceptance.** Without unnesting a policy is accepted exactly when it is well formed. -/
theorem C55_accepted_iff (r : Rule) : (∃ p, compilePolicy 0 r = .ok p) ↔ r.WellFormed := by
  rw [← compose_ok_iff]
  constructor
  · rintro ⟨p, h⟩
    have h0 := h
    unfold compilePolicy at h0
    simp only [ne_eq, not_true_eq_false, false_and, if_false] at h0
    obtain ⟨p0, hc, hu⟩ := compile_compose h
    refine ⟨p0, ?_, hc⟩
    split at h0
    · exact absurd h0 (by simp)
    · assumption
  · rintro ⟨p, h1, h2⟩
    refine ⟨p, ?_⟩
    simp [compilePolicy, h1, h2, unnest]

/-- **C55, refusal.** The compiler never runs into one of its internal errors, and a well-formed policy can
only be refused for the unnesting limit. -/
theorem C55_refusals {limit : Nat} {r : Rule} {e : Refusal} (h : compilePolicy limit r = .error e) :
    (e = .badLimit ∧ limit = 1) ∨ (e = .cannotUnnest ∧ r.WellFormed) ∨
    (¬ r.WellFormed ∧ (e = .overlappingIdentifier ∨ e = .noProduction ∨ e = .noMatches ∨ e = .unreachable)) := by
  have hck := checkRule_error
  unfold compilePolicy at h
  split at h
  · rename_i hl
    simp only [Except.error.injEq] at h
    exact .inl ⟨h.symm, by omega⟩
  · split at h
    · rename_i e' he
      simp only [Except.error.injEq] at h
      subst h
      refine .inr (.inr ⟨?_, ?_⟩)
      · rw [← wellFormed_iff]; rintro ⟨h1, _⟩; rw [h1] at he; exact absurd he (by simp)
      · rcases hck r _ he with h | h <;> simp [h]
    · rename_i hk
      split at h
      · rename_i e' he
        simp only [Except.error.injEq] at h
        subst h
        cases hso : structureOk r with
        | error e1 =>
          refine .inr (.inr ⟨?_, ?_⟩)
          · rw [← wellFormed_iff]; rintro ⟨_, h1⟩; rw [h1] at hso; exact absurd hso (by simp)
          · simp only [compose, hso, Except.error.injEq] at he
            subst he
            rcases structureOk_error r _ hso with h | h <;> simp [h]
        | ok u =>
          obtain ⟨init, e, hc⟩ := composeRule_total r [] [] hk hso
          exact absurd he (by simp [compose, hso, hc])
      · rename_i p hp
        refine .inr (.inl ⟨?_, ?_⟩)
        · unfold unnest at h
          split at h
          · exact absurd h (by simp)
          · split at h
            · simp only [Except.error.injEq] at h; exact h.symm
            · exact absurd h (by simp)
        · exact (wellFormed_iff r).1 ⟨hk, compose_structure hp⟩

mutual
theorem alwaysMatches_outcome (I : Interp) : ∀ (r : Rule) (σ : Env), AlwaysMatches r → ∃ v, r.outcome I σ = .produced v
  | .mk vars ms, σ, h => by
    cases h with
    | mk h =>
      simp only [Rule.outcome]
      exact matchesAlways_outcome I ms _ h
theorem matchesAlways_outcome (I : Interp) : ∀ (ms : Matches) (σ : Env), MatchesAlways ms →
    ∃ v, ms.outcome I σ = .produced v
  | .nil, σ, h => by cases h
  | .cons c p ms, σ, h => by
    cases h with
    | here hu hp =>
      obtain ⟨v, hv⟩ := produces_outcome I p σ hp
      exact ⟨v, by simp [Matches.outcome, hu, hv]⟩
    | fallthrough hu hm =>
      obtain ⟨v, hv⟩ := matchesAlways_outcome I ms σ hm
      simp only [Matches.outcome, if_pos hu]
      cases p.outcome I σ with
      | noMatch => exact ⟨v, hv⟩
      | produced w => exact ⟨w, rfl⟩
    | conditional hu hp hm =>
      obtain ⟨v, hv⟩ := matchesAlways_outcome I ms σ hm
      obtain ⟨w, hw⟩ := produces_outcome I p σ hp
      simp only [Matches.outcome, if_neg hu, hv, hw]
      split <;> exact ⟨_, rfl⟩
theorem produces_outcome (I : Interp) : ∀ (p : Production) (σ : Env), Produces p →
    ∃ v, p.outcome I σ = .produced v
  | .empty, σ, h => by cases h
  | .rule r, σ, h => by
    cases h with
    | rule h => simp only [Production.outcome]; exact alwaysMatches_outcome I r σ h
  | .output e, σ, _ => ⟨eval I [] σ noLocals e, by simp only [Production.outcome]⟩
end

/-- **C55, unreachable matches.** What is refused as unreachable could never have an effect: after an
unconditional match that always produces, the remaining matches do not matter. -/
theorem C55_unreachable (I : Interp) (σ : Env) {c : Option Ex} {p : Production} (ms : Matches)
    (hu : Unconditional c) (hp : Produces p) :
    Matches.outcome I σ (.cons c p ms) = Matches.outcome I σ (.cons c p .nil) := by
  obtain ⟨v, hv⟩ := produces_outcome I p σ hp
  simp [Matches.outcome, hu, hv]

/-- **C56.** The unnesting limit has no influence on the value of a policy. -/
theorem C56_meaning {limit : Nat} {r : Rule} {p q : Prog} (hs : r.Source)
    (hp : compilePolicy 0 r = .ok p) (hq : compilePolicy limit r = .ok q) (I : Interp) (σ : Env) :
    q.run I σ = p.run I σ := by
  obtain ⟨p0, h0, hu⟩ := compile_compose hp
  obtain ⟨q0, h1, hv⟩ := compile_compose hq
  have : q0 = p0 := by rw [h0] at h1; exact (Except.ok.inj h1).symm
  subst this
  rw [unnest_run I σ (compose_scoped hs h0) hv, unnest_run I σ (compose_scoped hs h0) hu]

end Policy
