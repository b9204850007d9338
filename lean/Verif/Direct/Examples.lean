import Verif.Direct.Agree

/-!
# C23: what the hypotheses cover, and where the evaluators differ

First, expressions that satisfy the hypotheses of `C23_recursive_agrees_partial`.  Then, for every
hypothesis, an expression on which the two evaluators give different outcomes.
-/

set_option linter.unusedSimpArgs false
set_option linter.unusedVariables false

namespace Cel.Direct
open Cel Cel.Num Cel.Eval Cel.Data

/-! ## Covered -/

/-- No unknowns, no missing attributes, no optionals. -/
def exC : StepCfg :=
  ⟨false, false, false, [], [], fun _ => "", fun _ => "", fun _ _ _ => .err ⟨.notFound, ""⟩, fun _ _ _ => .ok false⟩

/-- An activation with a few variables; others are error values. -/
def exGlobal : String → Unit → Res VA × Unit := fun x h =>
  (.ok (if x = "a" then ⟨.bool true, some ⟨"a", []⟩⟩
    else if x = "b" then ⟨.bool true, some ⟨"b", []⟩⟩
    else if x = "l" then ⟨.list [.int 1, .int 2], some ⟨"l", []⟩⟩
    else if x = "o" then ⟨.opt (some (.int 1)), some ⟨"o", []⟩⟩
    else ⟨.error ⟨.notFound, x⟩, none⟩), h)

/-- Short-circuiting, no iteration budget. -/
def exR : RCfg Unit := ⟨exC, false, true, 0, exGlobal⟩

theorem exGlobal_fine (unk : Bool) (x : String) (h : Unit) (a : VA) (h' : Unit) (he : exGlobal x h = (.ok a, h')) :
    Fine unk a.v := by
  unfold exGlobal at he
  cases he
  split
  · exact .bool _
  · split
    · exact .bool _
    · split
      · exact .list _ fun v hv => by
          simp only [List.mem_cons, List.not_mem_nil, or_false] at hv
          rcases hv with e | e <;> (rw [e]; exact .int _)
      · split
        · exact .optSome _ (.int _)
        · exact .error _

theorem exR_ok : RunOK exR :=
  ⟨⟨fun h => (by cases h), fun h => (by cases h)⟩, fun _ _ _ _ h => (by cases h), exGlobal_fine _⟩

/-- With unknown processing on, but no patterns in force. -/
def exRU : RCfg Unit := { exR with c := { exC with unknowns := true } }

theorem exRU_ok : RunOK exRU :=
  ⟨⟨fun _ => rfl, fun h => (by cases h)⟩, fun _ _ _ _ h => (by cases h), exGlobal_fine _⟩

abbrev s1 (a : Src Unit) : Srcs Unit := .cons a .nil
abbrev s2 (a b : Src Unit) : Srcs Unit := .cons a (.cons b .nil)
abbrev sid (x : String) : Src Unit := .ident x false

/-- Expansion of `range.exists(x, p)` (`parser/macro.cc`). -/
def srcExists (range : Src Unit) (x : String) (p : Src Unit) : Src Unit :=
  .comp x none "@result" range (.const (.bool false)) (.nsf (.not (sid "@result"))) (.logic true (sid "@result") p)
    (sid "@result")

/-- Expansion of `range.all(x, p)`. -/
def srcAll (range : Src Unit) (x : String) (p : Src Unit) : Src Unit :=
  .comp x none "@result" range (.const (.bool true)) (.nsf (sid "@result")) (.logic false (sid "@result") p)
    (sid "@result")

/-- List concatenation, as a strict function. -/
def exConcat : CallSite Unit :=
  ⟨"_+_", false, 1, .eager [⟨⟨"_+_", false, [kList, kList], true⟩, fun args h =>
    match args with
    | [.list a, .list b] => (.ok (.list (a ++ b)), h)
    | _ => (.err ⟨.internal, ""⟩, h)⟩]⟩

/-- Expansion of `range.map(x, f)`. -/
def srcMap (range : Src Unit) (x : String) (f : Src Unit) : Src Unit :=
  .comp x none "@result" range (.list (fun _ => false) .nil) (.const (.bool true))
    (.call exConcat (s2 (sid "@result") (.list (fun _ => false) (s1 f)))) (sid "@result")

/-- Expansion of `range.filter(x, p)`. -/
def srcFilter (range : Src Unit) (x : String) (p : Src Unit) : Src Unit :=
  .comp x none "@result" range (.list (fun _ => false) .nil) (.const (.bool true))
    (.cond p (.call exConcat (s2 (sid "@result") (.list (fun _ => false) (s1 (sid x))))) (sid "@result"))
    (sid "@result")

theorem exConcat_strict (unk : Bool) : StrictSite unk exConcat := by
  intro args o ho
  simp only [exConcat, CallSite.resolve, resolveStatic, Res.ok.injEq] at ho
  split at ho
  · cases ho
    refine ⟨rfl, fun h v h' hf hi => ?_⟩
    simp only at hi
    split at hi
    · cases hi
      rename_i a b _
      have h1 := hf (.list a) (by simp)
      have h2 := hf (.list b) (by simp)
      cases h1 with
      | list _ h1 =>
        cases h2 with
        | list _ h2 =>
          refine .list _ fun v hv => ?_
          rcases List.mem_append.1 hv with hv | hv
          · exact h1 v hv
          · exact h2 v hv
    · cases hi
  · cases ho

theorem exConcat_ok : CallOK exR exConcat :=
  callOK_strict exR_ok.quiet (fun h => (by cases h)) (exConcat_strict _)

theorem exConcat_okU : CallOK exRU exConcat :=
  callOK_strict exRU_ok.quiet (fun _ => rfl) (exConcat_strict _)

/-- `cel.bind(y, l, y.map(x, [x, 1]).exists(z, z == y) && l.all(x, l.filter(w, w == x) == [x]))`: a
delayed variable, nested comprehensions, calls, literals. -/
def exProg : Src Unit :=
  .bind "y" (sid "l")
    (.logic false
      (srcExists (srcMap (sid "y") "x" (.list (fun _ => false) (s2 (sid "x") (.const (.int 1))))) "z"
        (.bin (.eq false) (sid "z") (sid "y")))
      (srcAll (sid "l") "x"
        (.bin (.eq false) (srcFilter (sid "l") "w" (.bin (.eq false) (sid "w") (sid "x")))
          (.list (fun _ => false) (s1 (sid "x"))))))

theorem exProg_safe : aliasSafe (planD [] false 0 exProg) = true := rfl

/-- Constants have no effects. -/
theorem inert_const {σ : Type} (r : RCfg σ) (K : String → Bool) (v : Value) : Inert r K (.const v) :=
  fun ρ s _ => ⟨⟨v, none⟩, by simp only [toExpr, den]⟩

/-- Variables bound to values have no effects, nor do variables of the activation whose lookup has
none. -/
theorem inert_ident {σ : Type} (r : RCfg σ) (K : String → Bool) (x : String) (hK : K x = false)
    (hg : ∀ h, ∃ a, r.global x h = (.ok a, h)) : Inert r K (.ident x false) := by
  intro ρ s hp
  simp only [toExpr, den, Bool.false_eq_true, if_false]
  cases he : envGet ρ x with
  | none =>
    obtain ⟨a, ha⟩ := hg s.host
    refine ⟨a, ?_⟩
    simp only
    show lift (r.global x s.host) s = _
    rw [ha]; rfl
  | some b =>
    cases b with
    | val a => exact ⟨a, rfl⟩
    | delayed c th => exact absurd he (hp x hK c th)

theorem exProg_adm : Adm exR (fun _ => false) exProg := by
  have hc := exConcat_ok
  have hi : ∀ K, Inert exR K (.const (.int 1)) := fun K => inert_const _ _ _
  simp only [exProg, srcExists, srcMap, srcAll, srcFilter, Adm, Adms, OptLast, TailInert, AllInert, true_and, and_true, hc, hi,
    or_true]
  have hb : ∀ b, Fine exR.c.unknowns (.bool b) := fun b => .bool b
  have hn : ∀ b, Fine exR.c.unknowns (.int b) := fun b => .int b
  simp only [hb, hn, and_self]

/-- The theorem applies to it (the slots do not clash: the bind variable has slot 0, the loops use
slots from 1 on). -/
theorem exProg_noClash : NoClash exR.cfg (toExpr exR exProg) := by
  refine ⟨fun j => j = 0, ?_⟩
  simp only [exProg, srcExists, srcMap, srcAll, srcFilter, toExpr, toExprs, Safe, SafeArgs, true_and, and_true, width, widths,
    after, Bool.false_eq_true, if_false, Nat.zero_add, Nat.add_zero, and_self]
  repeat' apply And.intro
  all_goals (refine Or.inr ?_; intro j h1 h2 h3; omega)

example (f : Final Unit) (hm : Halts exR.cfg (plan exR.cfg (toExpr exR exProg)) (MS.start ()) f) :
    SameOutcome (runDirect exR exProg ()) f :=
  C23_recursive_agrees_partial exR_ok exProg exProg_adm exProg_safe exProg_noClash () f hm

example : runDirect exR exProg () = .value (.bool false) () := rfl

/-- With unknown processing on. -/
def exProgU : Src Unit :=
  srcAll (sid "l") "x" (.bin (.eq true) (srcMap (sid "l") "y" (.not (sid "y"))) (.const (.int 1)))

theorem exProgU_ok : Adm exRU (fun _ => false) exProgU ∧ aliasSafe (planD [] false 0 exProgU) = true := by
  have hc := exConcat_okU
  have hb : ∀ b, Fine exRU.c.unknowns (.bool b) := fun b => .bool b
  have hn : ∀ b, Fine exRU.c.unknowns (.int b) := fun b => .int b
  refine ⟨?_, rfl⟩
  simp only [exProgU, srcMap, srcAll, Adm, Adms, OptLast, TailInert, AllInert, true_and, and_true, hc, hb, hn, or_true,
    true_or]

/-- Map literals with constant keys, optional last entry. -/
theorem exMap_adm : Adm exR (fun _ => false)
    (.map (fun i => i == 1) (.cons (.const (.str "a")) (.cons (srcAll (sid "l") "x" (sid "x"))
      (s2 (.const (.int 2)) (sid "o"))))) := by
  have hb : ∀ b, Fine exR.c.unknowns (.bool b) := fun b => .bool b
  have hn : ∀ b, Fine exR.c.unknowns (.int b) := fun b => .int b
  have hs : ∀ b, Fine exR.c.unknowns (.str b) := fun b => .str b
  have hid : Inert exR (fun _ => false) (sid "o") :=
    inert_ident _ _ _ rfl (fun h => ⟨_, rfl⟩)
  have hk : Inert exR (fun _ => false) (.const (.int 2)) := inert_const _ _ _
  refine ⟨⟨⟨.str "a", rfl, rfl, fun k hk => (by cases hk), ⟨⟨.int 2, rfl, rfl, ?_, trivial⟩, Or.inl rfl, trivial⟩⟩,
    Or.inr rfl, hk, hid, trivial⟩, hs _, ⟨trivial, hb _, trivial, ⟨trivial, trivial⟩, trivial⟩, hn _, trivial, trivial⟩
  intro k hk
  simp only [List.map_nil, List.nil_append, List.mem_singleton] at hk
  subst hk
  rfl

/-! ## Not covered: the evaluators differ -/

/-- The stack machine's outcome, by its meaning (the programs below do not clash). -/
abbrev iter (r : RCfg Unit) (e : Src Unit) : Final Unit := meaning r.cfg (toExpr r e) ()

/-- With a pattern `b.c` in force. -/
def exRPat : RCfg Unit := { exR with c := { exC with unknowns := true, pats := [⟨"b", [some (.str "c")]⟩] } }

/-- **Patterns.** `!(a && b)` with the pattern `b.c`: the tree of `!` sees the trail that the right
operand of `&&` left in the reference, finds it partially unknown, and returns an unknown set; the
stack machine returns `false`. -/
theorem differ_stale_trail :
    (∃ u, runDirect exRPat (.not (.logic false (sid "a") (sid "b"))) () = .value (.unknown u) ()) ∧
    iter exRPat (.not (.logic false (sid "a") (sid "b"))) = .value (.bool false) () := ⟨⟨_, rfl⟩, rfl⟩

/-- A comprehension whose step is `x == acc`. -/
def exAlias : Src Unit :=
  .comp "x" none "acc" (sid "l") (.const (.bool false)) (.const (.bool true))
    (.bin (.eq false) (sid "x") (sid "acc")) (sid "acc")

/-- **Reading the accumulator late.** The tree evaluates `x` into the accumulator itself and then
compares `x` with it. -/
theorem differ_alias : runDirect exR exAlias () = .value (.bool true) () ∧ iter exR exAlias = .value (.bool false) () ∧
    aliasSafe (planD [] false 0 exAlias) = false := ⟨rfl, rfl, rfl⟩

/-- With an iteration budget. -/
def exRBudget : RCfg Unit := { exR with maxIter := 2 }

/-- `[e, l.all(x, x)]` with `e` an error. -/
def exLate : Src Unit := .list (fun _ => false) (s2 (sid "e") (srcAll (sid "l") "x" (.const (.bool true))))

/-- **Effects after an error in a literal.** The tree stops at the first error; the stack machine goes
on and runs out of budget. -/
theorem differ_literal_error :
    runDirect exRBudget exLate () = .value (.error ⟨.notFound, "e"⟩) () ∧
    iter exRBudget exLate = .status budgetError () := ⟨rfl, rfl⟩

/-- An activation with an unknown value. -/
def exRUnk (unk sc : Bool) : RCfg Unit :=
  { exR with
    c := { exC with unknowns := unk }
    shortCircuit := sc
    global := fun x h => (.ok ⟨if x = "u" then .unknown ⟨[⟨"u", []⟩], []⟩ else .null, none⟩, h) }

/-- **Unknown keys.** `{u: 1}`: the tree reports a key of invalid kind, the stack machine the unknown. -/
theorem differ_unknown_key :
    (∃ s, runDirect (exRUnk true true) (.map (fun _ => false) (s2 (sid "u") (.const (.int 1)))) () = .value (.error s) ()) ∧
    (∃ u, iter (exRUnk true true) (.map (fun _ => false) (s2 (sid "u") (.const (.int 1)))) = .value (.unknown u) ()) :=
  ⟨⟨_, rfl⟩, ⟨_, rfl⟩⟩

/-- `{1: 1, 1: 1, 2: e}` with `e` an error. -/
def exDup : Src Unit :=
  .map (fun _ => false) (.cons (.const (.int 1)) (.cons (.const (.int 1)) (.cons (.const (.int 1))
    (.cons (.const (.int 1)) (s2 (.const (.int 2)) (sid "e"))))))

/-- **Duplicate keys.** The tree fails with a status at the second entry, the stack machine's result is
the error of the third. -/
theorem differ_duplicate_key :
    (∃ s, runDirect exR exDup () = .status s ()) ∧ iter exR exDup = .value (.error ⟨.notFound, "e"⟩) () := ⟨⟨_, rfl⟩, rfl⟩

/-- **Optional entries that are not last.** `[?1, u]`: the tree stops at the value that is no optional,
the stack machine's result is the unknown. -/
theorem differ_optional_entry :
    (∃ s, runDirect (exRUnk true true) (.list (fun i => i == 0) (s2 (.const (.int 1)) (sid "u"))) () = .value (.error s) ()) ∧
    (∃ u, iter (exRUnk true true) (.list (fun i => i == 0) (s2 (.const (.int 1)) (sid "u"))) = .value (.unknown u) ()) :=
  ⟨⟨_, rfl⟩, ⟨_, rfl⟩⟩

/-- **Unknown values while unknowns are not processed** (the hypothesis on the activation): exhaustive
`u ? 1 : 2`. -/
theorem differ_unknown_disabled :
    (∃ u, runDirect (exRUnk false false) (.cond (sid "u") (.const (.int 1)) (.const (.int 2))) () = .value (.unknown u) ()) ∧
    (∃ s, iter (exRUnk false false) (.cond (sid "u") (.const (.int 1)) (.const (.int 2))) = .value (.error s) ()) :=
  ⟨⟨_, rfl⟩, ⟨_, rfl⟩⟩

/-- With optionals enabled. -/
def exROpt : RCfg Unit := { exR with c := { exC with optionals := true } }

/-- **`has()` on an optional** holding a value without fields: error value against failing status. -/
theorem differ_has_optional :
    runDirect exROpt (.select "f" true (sid "o")) () = .value (.error badSelectTarget) () ∧
    iter exROpt (.select "f" true (sid "o")) = .status badSelectTarget () := ⟨rfl, rfl⟩

/-- With a missing-attribute pattern `l[0]` in force. -/
def exRMiss : RCfg Unit :=
  { exR with c := { exC with unknowns := true, missing := true, missingPats := [⟨"l", [some (.int 0)]⟩] } }

/-- **Missing attributes.** `[l[0]]`: the tree of a list literal checks its elements, the stack machine's
step does not. -/
theorem differ_missing :
    (∃ s, runDirect exRMiss (.list (fun _ => false) (s1 (.index (sid "l") (.const (.int 0))))) () = .value (.error s) ()) ∧
    iter exRMiss (.list (fun _ => false) (s1 (.index (sid "l") (.const (.int 0))))) = .value (.list [.int 1]) () :=
  ⟨⟨_, rfl⟩, rfl⟩

/-- **The one difference in text** (`StSim`). -/
theorem differ_ternary_text :
    runDirect exR (.cond (.const (.int 1)) (.const .null) (.const .null)) () =
      .value (.error ⟨.unknown, "No matching overloads found : _?_:_"⟩) () ∧
    iter exR (.cond (.const (.int 1)) (.const .null) (.const .null)) =
      .value (.error ⟨.unknown, "No matching overloads found : <jump_condition>"⟩) () := ⟨rfl, rfl⟩

/-- `l.exists(x, x == 1) && cel.bind(y, 10, y == 10)` -/
def exClash : Src Unit :=
  .logic false (srcExists (sid "l") "x" (.bin (.eq false) (sid "x") (.const (.int 1))))
    (.bind "y" (.const (.int 10)) (.bin (.eq false) (sid "y") (.const (.int 10))))

/-- **Slot clashes.** Here the stack machine is wrong (a stale iteration variable is taken for the bind
variable) and the tree is right. -/
theorem differ_clash :
    runDirect exR exClash () = .value (.bool true) () ∧
    Halts exR.cfg (plan exR.cfg (toExpr exR exClash)) (MS.start ()) (.value (.bool false) ()) :=
  ⟨rfl, run_halts (n := 60) rfl⟩

/-- The full claim is false: for some configuration meeting `RunOK`, some program gives a different value. -/
theorem C23_not_unconditional :
    ¬ ∀ (r : RCfg Unit) (e : Src Unit) (f : Final Unit), RunOK r →
      Halts r.cfg (plan r.cfg (toExpr r e)) (MS.start ()) f → SameOutcome (runDirect r e ()) f := by
  intro h
  have := h exR exClash _ exR_ok differ_clash.2
  rw [differ_clash.1] at this
  rcases this.1 with h | ⟨s, t, h, _⟩ <;> cases h

end Cel.Direct
