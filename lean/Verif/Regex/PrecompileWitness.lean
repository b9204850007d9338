import Verif.Regex.PrecompileProps
import Verif.Direct.Examples

/-!
# C75: instances and counterexamples
-/

set_option linter.unusedSimpArgs false
set_option linter.unusedVariables false

namespace Cel.Regex
open Cel Cel.Eval Cel.Data Cel.Direct

/-- Patterns without parentheses are literals; others are invalid. -/
def toyCompile : Compile := fun p =>
  if p = "(" then .err ⟨.invalidArgument, "invalid regular expression"⟩ else .ok fun s => s == p

/-- Variables `s` (a string), `n` (an int), `u` (unknown); others are error values. -/
def exVars : String → Unit → Res VA × Unit := fun x h =>
  (.ok (if x = "s" then ⟨.str "x", some ⟨"s", []⟩⟩
    else if x = "n" then ⟨.int 1, some ⟨"n", []⟩⟩
    else if x = "u" then ⟨.unknown (unknownOf ⟨"u", []⟩), some ⟨"u", []⟩⟩
    else ⟨.error ⟨.notFound, x⟩, none⟩), h)

def exRx (pats : List Pattern) : RCfg Unit := { exR with c := { exC with unknowns := true, pats := pats }, global := exVars }

def exP (direct : Bool) : PCfg := ⟨toyCompile, fun _ _ => true, [], direct⟩

/-- `x.matches(p)`. -/
def exMatch (x p : String) : Src Unit :=
  .call (matchesSite toyCompile true 1) (.cons (.ident x false) (.cons (.const (.str p)) .nil))

/-- Create with the pass, then evaluate. -/
def runWith (P : PCfg) (r : RCfg Unit) (e : Src Unit) : Res (Final Unit) :=
  (createProgram P r e).bind fun e' => .ok (meaning r.cfg e' ())

theorem runWith_ok {P : PCfg} {r : RCfg Unit} {e : Src Unit} {f : Final Unit} (h : runWith P r e = .ok f) :
    ∃ e', createProgram P r e = .ok e' ∧ meaning r.cfg e' () = f := by
  unfold runWith at h
  obtain ⟨e', h1, h2⟩ := bind_ok_iff.1 h
  cases h2
  exact ⟨e', h1, rfl⟩

theorem good_s : GoodSubject false (exRx []) ⟨.str "x", some ⟨"s", []⟩⟩ := ⟨fun _ => rfl, .inl ⟨_, rfl⟩⟩

theorem good_bad : GoodSubject true (exRx []) ⟨.error ⟨.notFound, "bad"⟩, none⟩ :=
  ⟨fun _ => rfl, .inr ⟨rfl, .inl ⟨_, rfl⟩⟩⟩

theorem good_u : GoodSubject true (exRx []) ⟨.unknown (unknownOf ⟨"u", []⟩), some ⟨"u", []⟩⟩ :=
  ⟨fun _ => rfl, .inr ⟨rfl, .inr ⟨rfl, _, rfl, by
    unfold Canon unknownOf; simp [Ascending]⟩⟩⟩

/-- The hypotheses of `C75_agree_partial` hold of `s.matches("x") && s.matches("x")`, whose pattern is compiled
once; and, in a recursive plan, of `bad.matches("x") || u.matches("x")` with an error and an unknown. -/
theorem C75_witness_good :
    Standard (exP false) (.logic false (exMatch "s" "x") (exMatch "s" "x")) ∧
      meaning (exRx []).cfg (guarded (exP false) (exRx []) (.logic false (exMatch "s" "x") (exMatch "s" "x"))) () =
        .value (.bool true) () ∧
      runWith (exP false) (exRx []) (.logic false (exMatch "s" "x") (exMatch "s" "x")) =
        .ok (.value (.bool true) ()) ∧
      meaning (exRx []).cfg (guarded (exP true) (exRx []) (.logic true (exMatch "bad" "x") (exMatch "u" "x"))) () =
        .value (.unknown (unknownOf ⟨"u", []⟩)) () ∧
      runWith (exP true) (exRx []) (.logic true (exMatch "bad" "x") (exMatch "u" "x")) =
        .ok (.value (.unknown (unknownOf ⟨"u", []⟩)) ()) := by
  have hg : ∀ d x, guarded (exP d) (exRx []) (exMatch x "x") =
      .op (guardOp (exP d) (exRx []) (matchesSite toyCompile true 1))
        (.cons (.ident x false) (.cons (.const (.str "x")) .nil)) := by
    intro d x
    unfold exMatch
    rw [guarded]
    simp only [guardeds, guarded]
    rfl
  have hs : ∀ h : Unit, guardOp (exP false) (exRx []) (matchesSite toyCompile true 1)
      [⟨.str "x", some ⟨"s", []⟩⟩, ⟨.str "x", none⟩] h = (.ok ⟨.bool true, none⟩, h) := by
    intro h
    simp only [guardOp]
    rw [if_pos (show GoodSubject (exP false).direct _ _ from good_s)]
    rfl
  have hb : ∀ h : Unit, guardOp (exP true) (exRx []) (matchesSite toyCompile true 1)
      [⟨.error ⟨.notFound, "bad"⟩, none⟩, ⟨.str "x", none⟩] h = (.ok ⟨.error ⟨.notFound, "bad"⟩, none⟩, h) := by
    intro h
    simp only [guardOp]
    rw [if_pos (show GoodSubject (exP true).direct _ _ from good_bad)]
    rfl
  have hu : ∀ h : Unit, guardOp (exP true) (exRx []) (matchesSite toyCompile true 1)
      [⟨.unknown (unknownOf ⟨"u", []⟩), some ⟨"u", []⟩⟩, ⟨.str "x", none⟩] h =
        (.ok ⟨.unknown (unknownOf ⟨"u", []⟩), none⟩, h) := by
    intro h
    simp only [guardOp]
    rw [if_pos (show GoodSubject (exP true).direct _ _ from good_u)]
    rfl
  refine ⟨?_, ?_, rfl, ?_, rfl⟩
  · simp only [Standard, exMatch, Standards, and_true]
    exact ⟨fun p _ => ⟨true, 1, rfl⟩, fun p _ => ⟨true, 1, rfl⟩⟩
  · rw [guarded, hg]
    have h1 : den (exRx []).cfg (.op (guardOp (exP false) (exRx []) (matchesSite toyCompile true 1))
        (.cons (.ident "s" false) (.cons (.const (.str "x")) .nil))) [] ⟨(), 0, []⟩ =
          .ok ⟨.bool true, none⟩ ⟨(), 0, []⟩ := by
      show lift (guardOp (exP false) (exRx []) (matchesSite toyCompile true 1)
        [⟨.str "x", some ⟨"s", []⟩⟩, ⟨.str "x", none⟩] ()) _ = _
      rw [hs]
      rfl
    unfold meaning
    rw [den, h1]
    change (Out.bind (den (exRx []).cfg (.op (guardOp (exP false) (exRx []) (matchesSite toyCompile true 1))
      (.cons (.ident "s" false) (.cons (.const (.str "x")) .nil))) [] ⟨(), 0, []⟩)
        fun z s => .ok ⟨calcLogic false true (.bool true) z.v, none⟩ s).final = _
    rw [h1]
    rfl
  · rw [guarded, hg, hg]
    have h1 : den (exRx []).cfg (.op (guardOp (exP true) (exRx []) (matchesSite toyCompile true 1))
        (.cons (.ident "bad" false) (.cons (.const (.str "x")) .nil))) [] ⟨(), 0, []⟩ =
          .ok ⟨.error ⟨.notFound, "bad"⟩, none⟩ ⟨(), 0, []⟩ := by
      show lift (guardOp (exP true) (exRx []) (matchesSite toyCompile true 1)
        [⟨.error ⟨.notFound, "bad"⟩, none⟩, ⟨.str "x", none⟩] ()) _ = _
      rw [hb]
      rfl
    have h2 : den (exRx []).cfg (.op (guardOp (exP true) (exRx []) (matchesSite toyCompile true 1))
        (.cons (.ident "u" false) (.cons (.const (.str "x")) .nil))) [] ⟨(), 0, []⟩ =
          .ok ⟨.unknown (unknownOf ⟨"u", []⟩), none⟩ ⟨(), 0, []⟩ := by
      show lift (guardOp (exP true) (exRx []) (matchesSite toyCompile true 1)
        [⟨.unknown (unknownOf ⟨"u", []⟩), some ⟨"u", []⟩⟩, ⟨.str "x", none⟩] ()) _ = _
      rw [hu]
      rfl
    unfold meaning
    rw [den, h1]
    change (Out.bind (den (exRx []).cfg (.op (guardOp (exP true) (exRx []) (matchesSite toyCompile true 1))
      (.cons (.ident "u" false) (.cons (.const (.str "x")) .nil))) [] ⟨(), 0, []⟩)
        fun z s => .ok ⟨calcLogic true true (.error ⟨.notFound, "bad"⟩) z.v, none⟩ s).final = _
    rw [h2]
    rfl

/-- In a plan for the stack machine an error or an unknown subject ends the evaluation with a status:
`bad.matches("x") || true` is true without the pass, `u.matches("x")` is unknown. -/
theorem C75_witness_stack :
    runWith (exP false) (exRx []) (.logic true (exMatch "bad" "x") (.const (.bool true))) =
        .ok (.status notString ()) ∧
      meaning (exRx []).cfg (toExpr (exRx []) (.logic true (exMatch "bad" "x") (.const (.bool true)))) () =
        .value (.bool true) () ∧
      runWith (exP false) (exRx []) (exMatch "u" "x") = .ok (.status notString ()) ∧
      meaning (exRx []).cfg (toExpr (exRx []) (exMatch "u" "x")) () = .value (.unknown (unknownOf ⟨"u", []⟩)) () :=
  ⟨rfl, rfl, rfl, rfl⟩

/-- A subject that is not a string ends the evaluation with a status in either plan: `n.matches("x") || true` is
true without the pass. -/
theorem C75_witness_kind (direct : Bool) :
    runWith (exP direct) (exRx []) (.logic true (exMatch "n" "x") (.const (.bool true))) =
        .ok (.status notString ()) ∧
      meaning (exRx []).cfg (toExpr (exRx []) (.logic true (exMatch "n" "x") (.const (.bool true)))) () =
        .value (.bool true) () := by
  cases direct <;> exact ⟨rfl, rfl⟩

/-- A partially unknown subject is matched: with the pattern `s.f` in force, `s.matches("x")` is unknown without
the pass and true with it. -/
theorem C75_witness_partial (direct : Bool) :
    runWith (exP direct) (exRx [⟨"s", [some (.str "f")]⟩]) (exMatch "s" "x") = .ok (.value (.bool true) ()) ∧
      meaning (exRx [⟨"s", [some (.str "f")]⟩]).cfg (toExpr (exRx [⟨"s", [some (.str "f")]⟩]) (exMatch "s" "x")) () =
        .value (.unknown (unknownOf ⟨"s", []⟩)) () := by
  cases direct <;> exact ⟨rfl, rfl⟩

/-- An invalid pattern that is never matched against prevents the program: `false && s.matches("(")` is false
without the pass. -/
theorem C75_witness_invalid (direct : Bool) :
    runWith (exP direct) (exRx []) (.logic false (.const (.bool false)) (exMatch "s" "(")) =
        .err ⟨.invalidArgument, "invalid regular expression"⟩ ∧
      meaning (exRx []).cfg (toExpr (exRx []) (.logic false (.const (.bool false)) (exMatch "s" "("))) () =
        .value (.bool false) () := by
  cases direct <;> exact ⟨rfl, rfl⟩

/-- A function of the host named `matches`. -/
def hostMatches : CallSite Unit :=
  ⟨"matches", true, 7, .eager [⟨⟨"matches", true, [kInt, kString], true⟩, fun _ h => (.ok (.bool true), h)⟩]⟩

/-- In an expression that was not checked the pass takes every call of two operands named `matches` for the standard
one; with the checker's references it does not. -/
theorem C75_witness_host (direct : Bool) :
    runWith (exP direct) (exRx []) (.call hostMatches (.cons (.ident "n" false) (.cons (.const (.str "x")) .nil))) =
        .ok (.status notString ()) ∧
      meaning (exRx []).cfg (toExpr (exRx [])
        (.call hostMatches (.cons (.ident "n" false) (.cons (.const (.str "x")) .nil)))) () = .value (.bool true) () ∧
      runWith { exP direct with refs := [(7, ["host_matches"])] } (exRx [])
        (.call hostMatches (.cons (.ident "n" false) (.cons (.const (.str "x")) .nil))) =
        .ok (.value (.bool true) ()) := by
  cases direct <;> exact ⟨rfl, rfl, rfl⟩

/-- With the checker's references the pass changes exactly the calls whose only overload is `matches_string`. -/
theorem C75_checked_calls {σ : Type} (P : PCfg) (hr : P.refs ≠ []) (cs : CallSite σ) (args : Srcs σ) (p : String)
    (ht : targetPattern P cs args = some p) : P.refs.lookup cs.exprId = some ["matches_string"] := by
  unfold targetPattern at ht
  split at ht
  · rename_i hm
    unfold isMatches at hm
    split at hm
    · cases hm
    · split at hm
      · cases hm
      · split at hm
        · rename_i he
          rw [List.isEmpty_iff] at he
          exact absurd he hr
        · split at hm
          · rename_i o ho
            rw [ho, beq_iff_eq.1 hm]
          · cases hm
  · cases ht

end Cel.Regex
