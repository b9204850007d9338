import Verif.Syntax.Stable

/-
Where the text is wrong, and examples of `Good`.
-/

set_option linter.unusedVariables false
set_option linter.unusedSimpArgs false
set_option linter.unusedTactic false

namespace Cel.Syntax

variable {cfg : Cfg}

/-- A variable. -/
abbrev var (s : String) : Ex := .ident ⟨false, s⟩

theorem good_x : Good cfg (var "x") := .ident (by decide)

theorem member_x : RMem cfg [.id "x"] (var "x") :=
  (Reads.ident (cfg := cfg) (d := false) (s := "x") (by decide)).2

theorem ex_parse {ts : List Tok} {x : Ex} (h : REx cfg ts x) : parse cfg ts = some x := by
  have := h [] trivial
  rw [List.append_nil] at this
  rw [parse, this]

theorem un_parse {ts : List Tok} {x : Ex} (h : RUn cfg ts x) : parse cfg ts = some x :=
  ex_parse (.of_or (.of_rel (.of_add (.of_mul (.of_un h)))) (logicTree_one _ _ _))

theorem un_none {ts : List Tok} (h : parseUnary cfg ts = none) : parse cfg ts = none := by
  rw [parse, parseExpr, parseOr, parseAnd, parseRel, parseAdd, parseMul, h]
  rfl

/-! ### Signs -/

/-- `-(-x)` is printed `--x`, which is read as `x`. -/
theorem C54_double_negation :
    unparse cfg (.op1 .neg (.op1 .neg (var "x"))) = some [.minus, .minus, .id "x"] ∧
    parse cfg [.minus, .minus, .id "x"] = some (var "x") := by
  refine ⟨by simp [Ex.op1, unparse, unparseArgs, printCall, unaryTok, printUnary, isComplex, Exs.length, nested, nameToks, rawTok], un_parse fun rest hr => ?_⟩
  have hr := hr.mono (show 1 ≤ 2 by decide)
  have e : (countOps .minus ([.minus, .minus, .id "x"] ++ rest)) = (2, [.id "x"] ++ rest) := by simp [countOps]
  have e' : (countOps .excl ([.minus, .minus, .id "x"] ++ rest)).1 = 0 := by simp [countOps]
  rw [parseUnary, e, e', if_neg (by simp [signedLiteral]), if_neg (by simp), if_pos (by simp),
    member_x rest (memOk_of_stops hr), memberLoop_stop hr]
  simp [applyOps]

/-- `!(!x)` is printed `!!x`, which is read as `x`. -/
theorem C54_double_not :
    unparse cfg (.op1 .not (.op1 .not (var "x"))) = some [.excl, .excl, .id "x"] ∧
    parse cfg [.excl, .excl, .id "x"] = some (var "x") := by
  refine ⟨by simp [Ex.op1, unparse, unparseArgs, printCall, unaryTok, printUnary, isComplex, Exs.length, nested, nameToks, rawTok], un_parse fun rest hr => ?_⟩
  have hr := hr.mono (show 1 ≤ 2 by decide)
  have e : (countOps .excl ([.excl, .excl, .id "x"] ++ rest)) = (2, [.id "x"] ++ rest) := by simp [countOps]
  rw [parseUnary, e, if_neg (by simp [signedLiteral]), if_pos (by simp),
    member_x rest (memOk_of_stops hr), memberLoop_stop hr]
  simp [applyOps]

/-- `!(-x)` is printed `!-x`, which does not parse. -/
theorem C54_not_of_minus :
    unparse cfg (.op1 .not (.op1 .neg (var "x"))) = some [.excl, .minus, .id "x"] ∧
    parse cfg [.excl, .minus, .id "x"] = none := by
  refine ⟨by simp [Ex.op1, unparse, unparseArgs, printCall, unaryTok, printUnary, isComplex, Exs.length, nested, nameToks, rawTok], un_none ?_⟩
  have e : (countOps .excl [.excl, .minus, .id "x"]) = (1, [.minus, .id "x"]) := by simp [countOps]
  have hp : parseMember cfg [.minus, .id "x"] = none := by
    rw [parseMember, parsePrimary] <;> simp [literal]
  rw [parseUnary, e, if_neg (by simp [signedLiteral]), if_pos (by simp), hp]
  rfl

/-- `(-x).f` is printed `-x.f`, which is read as `-(x.f)`. -/
theorem C54_select_of_minus :
    unparse cfg (.select (.op1 .neg (var "x")) "f" false) = some [.minus, .id "x", .dot, .id "f"] ∧
    parse cfg [.minus, .id "x", .dot, .id "f"] = some (.op1 .neg (.select (var "x") "f" false)) := by
  refine ⟨by simp [Ex.op1, unparse, unparseArgs, printCall, unaryTok, printUnary, isComplex, isBinTern, Exs.length, nested, nameToks, rawTok, fieldTok]; decide, ?_⟩
  exact un_parse (RUn.neg (ts := [.id "x", .dot, .id "f"]) rfl (member_x.select (t := .id "f") rfl))

/-- `(-x)[i]` is printed `-x[i]`, which is read as `-(x[i])`. -/
theorem C54_index_of_minus :
    unparse cfg (.op2 .index (.op1 .neg (var "x")) (var "x")) =
      some [.minus, .id "x", .lbracket, .id "x", .rbracket] ∧
    parse cfg [.minus, .id "x", .lbracket, .id "x", .rbracket] =
      some (.op1 .neg (.op2 .index (var "x") (var "x"))) := by
  refine ⟨by simp [Ex.op1, Ex.op2, unparse, unparseArgs, printCall, unaryTok, binaryTok, printIndex, printUnary, isComplex, isBinTern, callFn, samePrec, Fn.prec, prec, Exs.length, nested, nameToks, rawTok, optToks], ?_⟩
  exact un_parse (RUn.neg (ts := [.id "x", .lbracket, .id "x", .rbracket]) rfl
    (member_x.index (Reads.ident (cfg := cfg) (d := false) (s := "x") (by decide)).ex))

/-- `-(1)`, a call, is printed `-1`, which is read as a literal. -/
theorem C54_minus_of_literal :
    unparse cfg (.op1 .neg (.const (.int 1))) = some [.minus, .int 1] ∧
    parse cfg [.minus, .int 1] = some (.const (.int (-1))) := by
  refine ⟨by simp [Ex.op1, unparse, unparseArgs, printCall, unaryTok, printUnary, isComplex, Exs.length, nested, constToks], ?_⟩
  have := (Reads.const (cfg := cfg) (c := .int (-1)) (by simp [goodConst])).ex
  exact ex_parse this

/-! ### Other forms -/

/-- `has((x + x).f)` is printed `has(x + x.f)`, which does not parse. -/
theorem C54_has_of_sum :
    unparse cfg (.select (.op2 .add (var "x") (var "x")) "f" true) =
      some [.id "has", .lparen, .id "x", .plus, .id "x", .dot, .id "f", .rparen] ∧
    parse cfg [.id "has", .lparen, .id "x", .plus, .id "x", .dot, .id "f", .rparen] = none := by
  refine ⟨by simp [Ex.op2, unparse, unparseArgs, printCall, unaryTok, binaryTok, printBinary, complexWrt, isComplex, samePrec, leftRecursive, Exs.length, nested, nameToks, rawTok, fieldTok]; decide, un_none ?_⟩
  have hx := (Reads.ident (cfg := cfg) (d := false) (s := "x") (by decide))
  have hs : Reads cfg 1 [.id "x", .dot, .id "f"] (.select (var "x") "f" false) :=
    ⟨.inr ⟨_, _, rfl, by simp, by simp⟩, member_x.select (t := .id "f") rfl⟩
  have he : REx cfg [.id "x", .plus, .id "x", .dot, .id "f"]
      (.op2 .add (var "x") (.select (var "x") "f" false)) :=
    .of_or (.of_rel (.of_add (RAdd.bin (ta := [.id "x"]) (t := .plus) rfl (hx.add (by decide)) (hs.mul (by decide)))))
      (logicTree_one _ _ _)
  have ha := ArgsRead.parse (cfg := cfg) (ts := [[.id "x", .plus, .id "x", .dot, .id "f"]])
    (xs := .cons (.op2 .add (var "x") (.select (var "x") "f" false)) .nil) ⟨he, trivial⟩ []
  have hn : parseNamed cfg false "has" [.lparen, .id "x", .plus, .id "x", .dot, .id "f", .rparen] = none := by
    rw [parseNamed.eq_def]
    simp only [messageName]
    rw [if_neg (by decide)]
    simp only [sepBy, List.cons_append, List.nil_append] at ha
    rw [ha]
    rfl
  have hm : MemHead [.id "has", .lparen, .id "x", .plus, .id "x", .dot, .id "f", .rparen] :=
    .inr ⟨_, _, rfl, by simp, by simp⟩
  have := parseUnary_mem (cfg := cfg) hm []
  rw [List.append_nil] at this
  rw [this, parseMember, parsePrimary, hn]
  rfl

/-- A field called `true` is printed as it is, and the text does not parse. -/
theorem C54_field_true :
    unparse cfg (.select (var "x") "true" false) = some [.id "x", .dot, .true_] ∧
    parse cfg [.id "x", .dot, .true_] = none := by
  refine ⟨by simp [unparse, isComplex, isBinTern, nested, nameToks, rawTok, fieldTok]; decide, un_none ?_⟩
  have hm : MemHead [.id "x", .dot, .true_] := .inr ⟨_, _, rfl, by simp, by simp⟩
  have := parseUnary_mem (cfg := cfg) hm []
  rw [List.append_nil] at this
  have h2 := member_x (cfg := cfg) [.dot, .true_] ⟨by simp [messageName], by simp⟩
  simp only [List.cons_append, List.nil_append] at h2
  rw [this, h2, memberLoop]
  · rfl
  · intro t r h; cases h
  · intro f r h; cases h

/-- The deprecated operator `_in_` is read back as `@in`. -/
theorem C54_old_in :
    unparse cfg (.op2 .inOld (var "x") (var "x")) = some [.id "x", .in_, .id "x"] ∧
    parse cfg [.id "x", .in_, .id "x"] = some (.op2 .in_ (var "x") (var "x")) := by
  refine ⟨by simp [Ex.op2, unparse, unparseArgs, printCall, unaryTok, binaryTok, printBinary, complexWrt, isComplex, samePrec, leftRecursive, Exs.length, nested, nameToks, rawTok], ?_⟩
  have hx := (Reads.ident (cfg := cfg) (d := false) (s := "x") (by decide))
  exact ex_parse (.of_or (.of_rel (RRel.bin (ta := [.id "x"]) (t := .in_) rfl (hx.rel (by decide)) (hx.add (by decide))))
    (logicTree_one _ _ _))

/-- A double whose text looks like an integer (`1.0` is printed `1`) is read
back as an int. -/
theorem C54_double_as_int (m n : Nat) (h : cfg.dblTok m = .int n) (hn : n < 2 ^ 63) :
    ∃ ts, unparse cfg (.const (.dbl false m)) = some ts ∧ parse cfg ts = some (.const (.int n)) := by
  refine ⟨[.int n], by simp [unparse, constToks, h], ?_⟩
  have hg : goodConst cfg (.int n) = true := by
    simp only [goodConst, Bool.and_eq_true, decide_eq_true_eq]
    omega
  have := (Reads.const (cfg := cfg) hg).ex
  have e : constToks cfg (.int (n : Int)) = [.int n] := by
    have : ¬ ((n : Int) < 0) := by omega
    simp [constToks, this]
  rw [e] at this
  exact ex_parse this

/-- The second variable of a comprehension is not printed. -/
theorem C54_second_variable (v v2 a : String) (r i c s res : Ex) :
    unparse cfg (.comp v v2 r a i c s res) = unparse cfg (.comp v "" r a i c s res) := by
  rw [unparse, unparse]

/-- `x && (x && x)` is printed without parentheses and read as `(x && x) && x`:
not the same expression, though the same chain. -/
theorem C54_reassociated (h : cfg.variadic = false) :
    norm cfg (.op2 .and (var "x") (.op2 .and (var "x") (var "x"))) =
      .op2 .and (.op2 .and (var "x") (var "x")) (var "x") := by
  simp [Ex.op2, norm, normArgs, chain, leavesArgs, leaves, logicTree, h, Parser.balance,
    Parser.balancedTree, Parser.takeTerm, treeEx, Exs.length]

/-! ### The hypotheses are met -/

/-- `[-1, 2u].exists(y, y > x * (x - 3) || has(m.f) && !m.f.g(x)) ? {"a": x[0]} : T.U{f: x}` -/
def sample : Ex :=
  .op3 .cond
    (existsEx (.list (.cons false (.const (.int (-1))) (.cons false (.const (.uint 2)) .nil))) "y"
      (.op2 .or (.op2 .gt (var "y") (.op2 .mul (var "x") (.op2 .sub (var "x") (.const (.int 3)))))
        (.op2 .and (.select (var "m") "f" true)
          (.op1 .not (.mcall (.select (var "m") "f" false) "g" (.cons (var "x") .nil))))))
    (.map (.cons false (.const (.str "a")) (.op2 .index (var "x") (.const (.int 0))) .nil))
    (.struct false ["T", "U"] (.cons false "f" (var "x") .nil))

theorem sample_good : Good cfg sample := by
  refine .cond (.exists (.list ?_ ?_) rfl (by decide) (by decide)
    (.logic (.inr rfl) (by decide) ?_)) (.map ?_ ?_ ?_) (.struct (by decide) ?_ ?_ ?_)
  · simp only [Els.toList, List.mem_cons, List.not_mem_nil, or_false, forall_eq_or_imp, forall_eq]
    exact ⟨.const (by simp [goodConst]), .const (by simp [goodConst])⟩
  · simp [Els.toList]
  · simp only [Exs.toList, List.mem_cons, List.not_mem_nil, or_false, forall_eq_or_imp, forall_eq]
    refine ⟨.bin rfl (.ident (by decide)) (.bin rfl good_x (.bin rfl good_x (.const (by simp [goodConst])))),
      .logic (.inl rfl) (by decide) ?_⟩
    simp only [Exs.toList, List.mem_cons, List.not_mem_nil, or_false, forall_eq_or_imp, forall_eq]
    refine ⟨.has (.ident (by decide)) rfl (by rw [fieldId, show lexId "f" = true by decide]; rfl),
      .not (.mcall (.select (.ident (by decide)) rfl (by rw [fieldId, show lexId "f" = true by decide]; rfl))
        rfl (by decide) (by decide) ?_) rfl⟩
    simp only [Exs.toList, List.mem_cons, List.not_mem_nil, or_false, forall_eq_or_imp, forall_eq]
    exact good_x
  · simp only [Ents.toList, List.mem_cons, List.not_mem_nil, or_false, forall_eq]
    exact .const rfl
  · simp only [Ents.toList, List.mem_cons, List.not_mem_nil, or_false, forall_eq]
    exact .index good_x rfl (.const (by simp [goodConst]))
  · simp [Ents.toList]
  · simp only [Flds.toList, List.mem_cons, List.not_mem_nil, or_false, forall_eq]
    exact good_x
  · simp only [Flds.toList, List.mem_cons, List.not_mem_nil, or_false, forall_eq]
    rw [fieldId, show lexId "f" = true by decide]; rfl
  · simp [Flds.toList]

/-- The sample reads back as itself. -/
example : ∃ ts, unparse {} sample = some ts ∧ parse {} ts = some sample := by
  obtain ⟨ts, h1, h2⟩ := C54_roundtrip_partial {} sample sample_good
  refine ⟨ts, h1, ?_⟩
  rw [h2]
  simp [sample, Ex.op1, Ex.op2, Ex.op3, norm, normArgs, normEls, normFlds, normEnts, existsEx, chain, leavesArgs,
    leaves, logicTree, Parser.balance, Parser.balancedTree, Parser.takeTerm, treeEx, Exs.length, accu]

/-- Parentheses where they are needed: `x * (x - 3)`. -/
example : unparse {} (.op2 .mul (var "x") (.op2 .sub (var "x") (.const (.int 3)))) =
    some [.id "x", .star, .lparen, .id "x", .minus, .int 3, .rparen] := by
  simp [Ex.op2, unparse, unparseArgs, printCall, unaryTok, binaryTok, printBinary, complexWrt, isComplex, lowerPrec,
    samePrec, leftRecursive, Fn.prec, prec, Exs.length, nested, nameToks, rawTok, constToks]

end Cel.Syntax
