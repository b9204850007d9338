import Verif.Policy.Height

/-!
# Policies: concrete cases
-/

set_option linter.unusedSimpArgs false

namespace Policy

/-- `a`, `b`: boolean inputs. -/
def exEnv (a b : Bool) : Env := fun x =>
  if x = "a" then .bool a else if x = "b" then .bool b else .err ("no such attribute: " ++ x)

/-- Only `!_` is interpreted. -/
def exInterp : Interp where
  op := fun f vs => match f, vs with
    | "!_", [.bool x] => .bool (!x)
    | "same", _ => .bool true
    | _, _ => .err "no such overload"
  items := fun _ => none

/--
```
variables: - v: a
match:
- rule:                      # unconditional, may have no match
    variables: - v: "!variables.v"
    match:
    - condition: variables.v
      output: 1
- condition: b
  rule:
    match:
    - condition: variables.v
      output: 2
    - output: 3
- output: 4
```
-/
def exPolicy : Rule :=
  .mk [("v", .ref "a")]
    (.cons none (.rule (.mk [("v", .app (.other "!_") [.ref "variables.v"])]
        (.cons (some (.ref "variables.v")) (.output (.const (.data 1))) .nil)))
    (.cons (some (.ref "b")) (.rule (.mk []
        (.cons (some (.ref "variables.v")) (.output (.const (.data 2)))
        (.cons none (.output (.const (.data 3))) .nil))))
    (.cons none (.output (.const (.data 4))) .nil)))

example : exPolicy.Source := by
  simp [exPolicy, Rule.Source, Matches.Source, Production.Source, Source, SourceList]

theorem exPolicy_wellFormed : exPolicy.WellFormed := by
  simp only [exPolicy, Rule.WellFormed, Matches.WellFormed, Production.WellFormed]
  refine ⟨by simp, by simp, ⟨by simp, by simp, True.intro, True.intro, ?_⟩, ⟨⟨by simp, by simp, True.intro,
    ⟨True.intro, True.intro, by simp⟩, ?_⟩, ⟨True.intro, True.intro, by simp⟩, ?_⟩, ?_⟩
  · intro h; cases h
  · intro h; cases h
  · intro h; cases h
  · intro _ h
    cases h with
    | rule h => cases h with
      | mk h => cases h with
        | here h _ => cases h
        | fallthrough h _ => cases h
        | conditional _ _ h => cases h

theorem not_ref (x : String) : ¬ Unconditional (some (.ref x)) := by intro h; cases h
theorem not_app (op : Op) (args : List Ex) : ¬ Unconditional (some (.app op args)) := by intro h; cases h

/-- It is accepted, and always matches. -/
example : ∃ p, compilePolicy 0 exPolicy = .ok p := (C55_accepted_iff exPolicy).2 exPolicy_wellFormed

example : AlwaysMatches exPolicy := by
  unfold exPolicy
  exact .mk (.fallthrough .none (.conditional (by intro h; cases h)
    (.rule (.mk (.conditional (by intro h; cases h) .output (.here .none .output))))
    (.here .none .output)))

/-- The inner `v` hides the outer one, and is computed from it; the outer one is back afterwards; an unconditional
rule without a match falls through. -/
example : exPolicy.outcome exInterp (exEnv false false) = .produced (.data 1) := by
  simp [exPolicy, Rule.outcome, Matches.outcome, Production.outcome, declare, Env.bind, eval, evalList, apply,
    exInterp, exEnv, Unconditional.none, not_ref,
    not_ref]
example : exPolicy.outcome exInterp (exEnv true true) = .produced (.data 2) := by
  simp [exPolicy, Rule.outcome, Matches.outcome, Production.outcome, declare, Env.bind, eval, evalList, apply,
    exInterp, exEnv, Unconditional.none, not_ref,
    not_ref]
example : exPolicy.outcome exInterp (exEnv true false) = .produced (.data 4) := by
  simp [exPolicy, Rule.outcome, Matches.outcome, Production.outcome, declare, Env.bind, eval, evalList, apply,
    exInterp, exEnv, Unconditional.none, not_ref,
    not_ref]

/-- A rule that may have no match, under a condition, then a default. -/
def exNested (c : Ex) : Rule :=
  .mk [] (.cons (some c) (.rule (.mk [] (.cons (some (.ref "a")) (.output (.const (.data 1))) .nil)))
    (.cons none (.output (.const (.data 2))) .nil))

theorem exNested_wellFormed (c : Ex) : (exNested c).WellFormed := by
  simp only [exNested, Rule.WellFormed, Matches.WellFormed, Production.WellFormed]
  refine ⟨by simp, by simp, ⟨by simp, by simp, True.intro, True.intro, ?_⟩, ⟨True.intro, True.intro, by simp⟩, ?_⟩
  · intro h; cases h
  · intro _ h
    cases h with
    | rule h => cases h with
      | mk h => cases h with
        | here h _ => cases h
        | fallthrough h _ => cases h
        | conditional _ _ h => cases h

/-- **C55, the literal `true` is not any true condition.** A nested rule without a match falls through to the next
match when its condition is the literal `true`, but not when it is another expression that evaluates to
`true`: then the policy has no result, and its type is optional. -/
theorem C55_literal_true_differs :
    ∃ p q, compilePolicy 0 (exNested (.const (.bool true))) = .ok p ∧
      compilePolicy 0 (exNested (.app (.other "same") [])) = .ok q ∧
      eval exInterp [] (exEnv false false) noLocals (.app (.other "same") []) = .bool true ∧
      p.run exInterp (exEnv false false) = .data 2 ∧
      q.run exInterp (exEnv false false) = .optNone := by
  obtain ⟨p, hp⟩ := (C55_accepted_iff _).2 (exNested_wellFormed (.const (.bool true)))
  obtain ⟨q, hq⟩ := (C55_accepted_iff _).2 (exNested_wellFormed (.app (.other "same") []))
  have hsp : (exNested (.const (.bool true))).Source := by
    simp [exNested, Rule.Source, Matches.Source, Production.Source, Source]
  have hsq : (exNested (.app (.other "same") [])).Source := by
    simp [exNested, Rule.Source, Matches.Source, Production.Source, Source, SourceList]
  refine ⟨p, q, hp, hq, by simp [eval, evalList, apply, exInterp], ?_, ?_⟩
  · rcases C55_first_match hsp hp with ⟨_, h⟩ | ⟨h, _⟩
    · have := h exInterp (exEnv false false)
      simp [exNested, Rule.outcome, Matches.outcome, Production.outcome, declare, eval, evalList, apply,
        exInterp, exEnv, Unconditional.none, Unconditional.true,
        not_ref] at this
      exact this.symm
    · exact absurd (.mk (.fallthrough .true (.here .none .output))) h
  · rcases C55_first_match hsq hq with ⟨h, _⟩ | ⟨_, h⟩
    · exfalso
      cases h with
      | mk h => cases h with
        | fallthrough h _ => cases h
        | conditional _ h _ => cases h with
          | rule h => cases h with
            | mk h => cases h with
              | here h _ => cases h
              | fallthrough h _ => cases h
              | conditional _ _ h => cases h
    · rw [h]
      simp [exNested, Rule.outcome, Matches.outcome, Production.outcome, declare, eval, evalList, apply,
        exInterp, exEnv, Unconditional.none, Outcome.asOptional,
        not_ref,
        not_app]

/-- The hypotheses of `C57_height_of_chains_partial` are met by a policy that is really unnested:
a tower of ten calls with limit 2 becomes five slots and a body. -/
example : Chain 2 (tower 9) ∧ height (tower 9) = 10 ∧
    ∃ p, unnest 2 ⟨[], tower 9⟩ = .ok p ∧ p.height = 5 ∧ p.inits.length = 5 := by
  refine ⟨by simp [tower, Chain, ChainList, height, heights], by simp [tower, height, heights],
    ⟨(slice 2 [] (tower 9)).1, (slice 2 [] (tower 9)).2⟩, ?_, ?_, ?_⟩
  · simp [unnest, blockedList, tower_blocked]
  · simp [tower, slice, sliceList, cut, cutHere, height, heights, Prog.height]
  · simp [tower, slice, sliceList, cut, cutHere, height, heights]

/-- The bound of `C57_height_of_chains_partial` is reached: limit 2, height 5, as in
policy/compiler_test.cc:991. -/
example : (⟨(slice 2 [] (.app (.other "f") [.app (.other "g") [tower 1, .const (.data 0)], tower 2])).1,
    (slice 2 [] (.app (.other "f") [.app (.other "g") [tower 1, .const (.data 0)], tower 2])).2⟩ : Prog).height = 5 := by
  simp [tower, slice, sliceList, cut, cutHere, height, heights, Prog.height]

end Policy
