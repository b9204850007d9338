import Verif.Fold.Agree

/-!
# C50: concrete cases
-/

set_option linter.unusedVariables false

namespace Cel.Fold
open Cel Cel.Eval Cel.Data Cel.Direct

/-- Options: unknowns and missing attributes are processed, patterns in force at run time. -/
def exC : StepCfg where
  unknowns := true
  missing := true
  optionals := true
  pats := [⟨"x", []⟩]
  missingPats := [⟨"y", [none]⟩]
  debugString := fun _ => ""
  typeName := fun _ => ""
  structGet := fun _ _ _ => .err ⟨.notFound, ""⟩
  structHas := fun _ _ _ => .ok false

/-- A host counts calls. -/
def exR : RCfg Nat where
  c := exC
  fnResults := true
  shortCircuit := true
  maxIter := 0
  global := fun x h => lookupIdent true true true exC.missingPats exC.pats (fun _ => some (.int 7)) x h

/-- No variables while folding. -/
def exVars : String → Nat → Res VA × Nat := fun x h => lookupIdent true true true [] [] (fun _ => none) x h

def exF : FoldCfg Nat := ⟨planTime exR exVars, fun _ => false, 0⟩

theorem exF_for : For exF exR := ⟨exVars, rfl⟩

/-- `double(i)` of an int, without effects. -/
def exDouble : CallSite Nat where
  name := "twice"
  receiver := false
  exprId := 1
  resolver := .eager [⟨⟨"twice", false, [kInt], true⟩, fun args h =>
    match args with
    | [.int i] => (.ok (.int (2 * i)), h)
    | _ => (.err ⟨.internal, ""⟩, h)⟩]

theorem exDouble_pure : PureSite (fun _ => false) exDouble := by
  intro os hos _ o ho
  cases hos
  rcases List.mem_singleton.1 ho with rfl
  intro args
  by_cases h : ∃ i, args = [.int i]
  · obtain ⟨i, rfl⟩ := h
    exact ⟨.ok (.int (2 * i)), fun _ => rfl⟩
  · refine ⟨.err ⟨.internal, ""⟩, fun _ => ?_⟩
    simp only
    split
    · exact absurd ⟨_, rfl⟩ h
    · rfl

abbrev k (i : Int) : Src Nat := .const (.int i)
abbrev s1 (a : Src Nat) : Srcs Nat := .cons a .nil
abbrev s2 (a b : Src Nat) : Srcs Nat := .cons a (.cons b .nil)

/-- `[twice(1), 3][0] == x || [1][5] == z` -/
def exProg : Src Nat :=
  .logic true
    (.bin (.eq false) (.index (.list (fun _ => false) (s2 (.call exDouble (s1 (k 1))) (k 3))) (k 0)) (.ident "x" false))
    (.bin (.eq false) (.index (.list (fun _ => false) (s1 (k 1))) (k 5)) (.ident "z" false))

/-- What folding makes of it: `2 == x || <error> == z`. -/
theorem exProg_folded : foldConstants exF exProg = some (.logic true
    (.bin (.eq false) (k 2) (.ident "x" false))
    (.bin (.eq false) (.const (.error (indexRangeError 5 1))) (.ident "z" false))) := rfl

theorem exProg_pure : PureSites (fun _ => false) exProg := by
  simp only [exProg, PureSites, PureSitess, exDouble_pure, and_self]

example : ∃ e', foldConstants exF exProg = some e' ∧ ∀ (h : Nat) (out : Final Nat),
    Halts exR.cfg (plan exR.cfg (toExpr exR e')) (MS.start h) out ↔
      Halts exR.cfg (plan exR.cfg (toExpr exR exProg)) (MS.start h) out :=
  C50_folding_unobservable exF_for exProg exProg_pure
    (noClash_noBind ⟨⟨⟨⟨⟨trivial, trivial⟩, trivial, trivial⟩, trivial, trivial⟩, trivial, trivial⟩,
      ⟨⟨⟨trivial, trivial⟩, trivial, trivial⟩, trivial, trivial⟩⟩)

/-- The outcome: `x` is unknown by a pattern that is only known at run time. -/
example : ∃ u, meaning exR.cfg (toExpr exR exProg) 0 = .value (.unknown u) 0 := ⟨_, rfl⟩

/-- A function that counts its calls, registered as an ordinary function. -/
def exCount : CallSite Nat where
  name := "next"
  receiver := false
  exprId := 1
  resolver := .eager [⟨⟨"next", false, [], true⟩, fun _ h => (.ok (.int h), h + 1)⟩]

/-- **The hypothesis on functions is needed.** Folded, the function runs while planning and never again. -/
theorem C50_impure_observed :
    foldConstants exF (.call exCount .nil) = some (k 0) ∧
    meaning exR.cfg (toExpr exR (.call exCount .nil)) 5 = .value (.int 5) 6 ∧
    meaning exR.cfg (toExpr exR (k 0)) 5 = .value (.int 0) 5 := ⟨rfl, rfl, rfl⟩

/-- Registered as contextual it is left alone. -/
example : (foldConstants { exF with contextual := fun d => d.name == "next" } (.list (fun _ => false) (s1 (.call exCount .nil)))) =
    some (.list (fun _ => false) (s1 (.call exCount .nil))) := rfl

/-- `{1: 1, 1: 1}` fails with a status; it is left for run time. -/
example : foldConstants exF (.map (fun _ => false) (.cons (k 1) (.cons (k 1) (s2 (k 1) (k 1))))) =
    some (.map (fun _ => false) (.cons (k 1) (.cons (k 1) (s2 (k 1) (k 1))))) := rfl

end Cel.Fold
