import Verif.Data.BuildProps

/-!
# C34/C35: the operators `==`, `!=` and `in` as evaluated, including errors and unknowns
-/

set_option linter.unusedSimpArgs false
set_option linter.unusedVariables false

namespace Cel.Data
open Cel Cel.Num Cel.Eval Cel.Data.Spec

theorem noErr_of_data {v : Value} (h : IsData v) : Deep NoErr v := by
  intro w hw
  have := h w hw
  cases w <;> simp_all [Ordinary, NoErr]

theorem maybeAdd_plain {c : StepCfg} {x : VA} (hx : PlainOperand c x) (hu : c.unknowns = true)
    (acc : Option UnknownSet) : maybeAdd c.pats acc x = acc := by
  obtain ⟨⟨_, h1⟩, h2⟩ := hx
  unfold maybeAdd
  rw [h2 hu]
  cases hv : x.v <;> simp_all [Value.isUnknown]

theorem accumulate_plain {c : StepCfg} {l r : VA} (hl : PlainOperand c l) (hr : PlainOperand c r) :
    (if c.unknowns then maybeAdd c.pats (maybeAdd c.pats none l) r else none) = none := by
  by_cases hu : c.unknowns = true
  · rw [if_pos hu, maybeAdd_plain hl hu, maybeAdd_plain hr hu]
  · rw [if_neg hu]

/-- **C34 (the operators).** On data, `==` evaluates to the boolean the equality laws are about, and
`!=` to its negation; neither ever fails. -/
theorem C34_operators (c : StepCfg) (l r : VA) (hl : IsData l.v) (hr : IsData r.v)
    (pl : PlainOperand c l) (pr : PlainOperand c r) :
    ∃ b, valueEqual l.v r.v = some b ∧ eqStep c false [l, r] = .ok ⟨.bool b, none⟩ ∧
      eqStep c true [l, r] = .ok ⟨.bool (!b), none⟩ := by
  obtain ⟨b, hb⟩ := valueEqual_total l.v r.v (noErr_of_data hl) (noErr_of_data hr)
  have key : ∀ neg, eqEval c neg l r = .bool (if neg then !b else b) := by
    intro neg
    unfold eqEval
    rw [accumulate_plain pl pr, hb]
    have h1 := pl.1.1
    have h2 := pr.1.1
    split
    · rename_i e _ heq; rw [heq] at h1; simp [Value.isError] at h1
    · rename_i e heq _; rw [heq] at h2; simp [Value.isError] at h2
    · rfl
  exact ⟨b, hb, by simp [eqStep, key], by simp [eqStep, key]⟩

/-- **C34 (errors).** An error operand of `==`, `!=` or `in` is the result; the left one if both are. -/
theorem C34_operator_errors (c : StepCfg) (neg : Bool) (l r : VA) (e : Status) :
    (l.v = .error e → eqStep c neg [l, r] = .ok ⟨.error e, none⟩ ∧ inStep c [l, r] = .ok ⟨.error e, none⟩) ∧
    (l.v.isError = false → r.v = .error e →
      eqStep c neg [l, r] = .ok ⟨.error e, none⟩ ∧ inStep c [l, r] = .ok ⟨.error e, none⟩) := by
  constructor
  · intro hl
    simp only [eqStep, inStep, eqEval, inEval, hl]
    exact ⟨trivial, trivial⟩
  · intro hl hr
    simp only [eqStep, inStep, eqEval, inEval, hr]
    generalize l.v = v at hl
    cases v <;> first | exact ⟨rfl, rfl⟩ | (simp [Value.isError] at hl)

theorem maybeAdd_mono {pats : List Pattern} {acc : Option UnknownSet} {x : VA} (h : acc.isSome = true) :
    (maybeAdd pats acc x).isSome = true := by
  unfold maybeAdd
  split
  · rfl
  · split
    · rfl
    · exact h

theorem maybeAdd_unknown {pats : List Pattern} {acc : Option UnknownSet} {x : VA} (h : x.v.isUnknown = true) :
    (maybeAdd pats acc x).isSome = true := by
  unfold maybeAdd
  cases hv : x.v <;> simp_all [Value.isUnknown]

/-- **C34 (unknowns).** With unknown processing on and no error, an unknown operand makes `==`, `!=`
and `in` unknown. -/
theorem C34_operator_unknowns (c : StepCfg) (neg : Bool) (l r : VA) (hu : c.unknowns = true)
    (hl : l.v.isError = false) (hr : r.v.isError = false)
    (h : l.v.isUnknown = true ∨ r.v.isUnknown = true) :
    (∃ u, eqStep c neg [l, r] = .ok ⟨.unknown u, none⟩) ∧ ∃ u, inStep c [l, r] = .ok ⟨.unknown u, none⟩ := by
  have hs : (maybeAdd c.pats (maybeAdd c.pats none l) r).isSome = true := by
    rcases h with h | h
    · exact maybeAdd_mono (maybeAdd_unknown h)
    · exact maybeAdd_unknown h
  obtain ⟨u, hm⟩ := Option.isSome_iff_exists.1 hs
  refine ⟨⟨u, ?_⟩, u, ?_⟩
  · simp only [eqStep, eqEval, if_pos hu, hm]
    split
    · rename_i e _ heq; rw [heq] at hl; simp [Value.isError] at hl
    · rename_i e heq _; rw [heq] at hr; simp [Value.isError] at hr
    · rfl
  · simp only [inStep, inEval, if_pos hu, hm]
    split
    · rename_i e _ heq; rw [heq] at hl; simp [Value.isError] at hl
    · rename_i e heq _; rw [heq] at hr; simp [Value.isError] at hr
    · rfl

example : ∃ b, valueEqual sample sample = some b ∧
    eqStep sampleCfg false [⟨sample, none⟩, ⟨sample, none⟩] = .ok ⟨.bool b, none⟩ ∧
    eqStep sampleCfg true [⟨sample, none⟩, ⟨sample, none⟩] = .ok ⟨.bool (!b), none⟩ :=
  C34_operators sampleCfg ⟨sample, none⟩ ⟨sample, none⟩ sample_ok.1 sample_ok.1
    ⟨⟨rfl, rfl⟩, fun h => by cases h⟩ ⟨⟨rfl, rfl⟩, fun h => by cases h⟩

end Cel.Data
