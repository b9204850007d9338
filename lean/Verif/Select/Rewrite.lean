import Verif.Select.Spec

/-! # What the rewriter makes of an expression -/

set_option linter.unusedSimpArgs false
set_option linter.unusedVariables false

namespace Cel.Select
open Cel

/-- The qualifier of a chain's last step. -/
def qual (L : Lib) : Expr → Option SQ
  | .select _ t _ f _ => candSelect L t f
  | .index _ _ k => candIndex k
  | _ => none

def pathOf (L : Lib) : Expr → List SQ
  | .select c t e f test =>
    if Chain L (.select c t e f test) then
      match candSelect L t f with
      | some q => pathOf L e ++ [q]
      | none => []
    else []
  | .index c e k =>
    if Chain L (.index c e k) then
      match candIndex k with
      | some q => pathOf L e ++ [q]
      | none => []
    else []
  | _ => []

def bottomOf (L : Lib) : Expr → Expr
  | .select c t e f test =>
    if Chain L (.select c t e f test) then bottomOf L e else .select c t e f test
  | .index c e k => if Chain L (.index c e k) then bottomOf L e else .index c e k
  | e => e

def testOf (L : Lib) : Expr → Bool
  | .select c t e f test => if Chain L (.select c t e f test) then test || testOf L e else false
  | .index c e k => if Chain L (.index c e k) then testOf L e else false
  | _ => false

theorem getPath_none (e : Expr) (h : cand e = none) : getPath e = ([], e, false) := by
  cases e with
  | select c t e f test => simp only [cand] at h; subst h; rfl
  | index c e k => simp only [cand] at h; subst h; rfl
  | leaf n => rfl
  | node n args => rfl
  | attr e p t => rfl

theorem path_none (L : Lib) (e : Expr) (h : Chain L e = false) :
    pathOf L e = [] ∧ bottomOf L e = e ∧ testOf L e = false := by
  cases e <;> simp_all [pathOf, bottomOf, testOf]

theorem visit_spec (L : Lib) (e : Expr) :
    (Chain L e = false → ∀ b, cand (visit b (mark L e)) = none ∧
      visit b (mark L e) = visit false (mark L e)) ∧
    (Chain L e = true → cand (visit true (mark L e)) = qual L e ∧ (qual L e).isSome = true ∧
      getPath (visit true (mark L e)) = (pathOf L e, visit false (mark L (bottomOf L e)), testOf L e) ∧
      visit false (mark L e) = .attr (visit false (mark L (bottomOf L e))) (pathOf L e) (testOf L e)) := by
  match e with
  | .leaf n => simp [Chain, mark, visit, cand]
  | .node n args => simp [Chain, mark, visit, cand]
  | .attr e p t => simp [Chain, mark, visit, cand]
  | .select c t o f test =>
    have ih := visit_spec L o
    rcases hq : candSelect L t f with _ | q
    · refine ⟨fun _ b => ?_, fun h => ?_⟩
      · simp [mark, visit, hq, postVisit, cand]
      · simp [Chain, hq] at h
    · -- a candidate
      have key : getPath (visit true (mark L o)) =
          (pathOf L o, visit false (mark L (bottomOf L o)), testOf L o) := by
        rcases hc : Chain L o with _ | _
        · obtain ⟨h1, h2⟩ := ih.1 hc true
          obtain ⟨p1, p2, p3⟩ := path_none L o hc
          rw [getPath_none _ h1, p1, p2, p3, h2]
        · exact (ih.2 hc).2.2.1
      have hroot : hasRoot (.select (some q) t (visit true (mark L o)) f test) q =
          Chain L (.select c t o f test) := by
        cases q with
        | field n g => simp [hasRoot, Chain, hq]
        | attr a =>
          simp only [hasRoot, Chain, hq]
          rcases hc : Chain L o with _ | _
          · rw [(ih.1 hc true).1]; rfl
          · obtain ⟨h1, h2, _⟩ := ih.2 hc
            rw [h1, h2]
      refine ⟨fun h b => ?_, fun h => ?_⟩
      · rw [h] at hroot
        simp [mark, visit, hq, postVisit, cand, hroot, erase]
      · rw [h] at hroot
        have hp : pathOf L (.select c t o f test) = pathOf L o ++ [q] := by
          rw [pathOf, if_pos h, hq]
        have hb : bottomOf L (.select c t o f test) = bottomOf L o := by
          rw [bottomOf, if_pos h]
        have ht : testOf L (.select c t o f test) = (test || testOf L o) := by
          rw [testOf, if_pos h]
        rw [hp, hb, ht]
        refine ⟨?_, ?_, ?_, ?_⟩
        · simp [mark, visit, hq, postVisit, cand, hroot, qual]
        · simp [qual, hq]
        · simp [mark, visit, hq, postVisit, cand, hroot, getPath, key]
        · simp [mark, visit, hq, postVisit, cand, hroot, getPath, key]
  | .index c o k =>
    have ih := visit_spec L o
    rcases hq : candIndex k with _ | q
    · refine ⟨fun _ b => ?_, fun h => ?_⟩
      · simp [mark, visit, hq, postVisit, cand]
      · simp [Chain, hq] at h
    · have key : getPath (visit true (mark L o)) =
          (pathOf L o, visit false (mark L (bottomOf L o)), testOf L o) := by
        rcases hc : Chain L o with _ | _
        · obtain ⟨h1, h2⟩ := ih.1 hc true
          obtain ⟨p1, p2, p3⟩ := path_none L o hc
          rw [getPath_none _ h1, p1, p2, p3, h2]
        · exact (ih.2 hc).2.2.1
      have hroot : hasRoot (.index (some q) (visit true (mark L o)) k) q =
          Chain L (.index c o k) := by
        have hattr : ∃ a, q = .attr a := by
          rcases k with i | i | b | s | ⟨_ | a, _ | b⟩ <;> simp_all [candIndex]
            <;> exact ⟨_, hq.symm⟩
        obtain ⟨a, rfl⟩ := hattr
        simp only [hasRoot, Chain, hq, Option.isSome_some, Bool.true_and]
        rcases hc : Chain L o with _ | _
        · rw [(ih.1 hc true).1]; rfl
        · obtain ⟨h1, h2, _⟩ := ih.2 hc
          rw [h1, h2]
      refine ⟨fun h b => ?_, fun h => ?_⟩
      · rw [h] at hroot
        simp [mark, visit, hq, postVisit, cand, hroot, erase]
      · rw [h] at hroot
        have hp : pathOf L (.index c o k) = pathOf L o ++ [q] := by
          rw [pathOf, if_pos h, hq]
        have hb : bottomOf L (.index c o k) = bottomOf L o := by
          rw [bottomOf, if_pos h]
        have ht : testOf L (.index c o k) = testOf L o := by
          rw [testOf, if_pos h]
        rw [hp, hb, ht]
        refine ⟨?_, ?_, ?_, ?_⟩
        · simp [mark, visit, hq, postVisit, cand, hroot, qual]
        · simp [qual, hq]
        · simp [mark, visit, hq, postVisit, cand, hroot, getPath, key]
        · simp [mark, visit, hq, postVisit, cand, hroot, getPath, key]

end Cel.Select
