import Verif.Syntax.RoundTrip

/-
C54: reading back and printing again changes nothing more: the text is the same,
and from then on the expression is the same.
-/

set_option linter.unusedVariables false
set_option linter.unusedSimpArgs false
set_option linter.unusedTactic false

namespace Cel.Syntax

variable {cfg : Cfg}

/-! ### The text of a chain depends on its terms only -/

/-- The token of a logical operator. -/
def logicTok (o : Op) : Tok := if o = .and then .and else .or

/-- The text of an operand of `o`. -/
def part (cfg : Cfg) (o : Op) (e : Ex) : Option (List Tok) :=
  (unparse cfg e).map (nested (complexWrt (.op o) e))

def parts (cfg : Cfg) (o : Op) : List Ex → Option (List (List Tok))
  | [] => some []
  | e :: r =>
    match part cfg o e, parts cfg o r with
    | some t, some ts => some (t :: ts)
    | _, _ => none

theorem parts_append (o : Op) : ∀ l m : List Ex, parts cfg o (l ++ m) =
    match parts cfg o l, parts cfg o m with
    | some ts, some us => some (ts ++ us)
    | _, _ => none
  | [], m => by
    simp only [parts, List.nil_append]
    cases parts cfg o m <;> rfl
  | e :: l, m => by
    rw [List.cons_append, parts, parts_append o l m, parts]
    cases part cfg o e <;> cases parts cfg o l <;> cases parts cfg o m <;> rfl

theorem sepBy_append (s : Tok) : ∀ (ts us : List (List Tok)), ts ≠ [] → us ≠ [] →
    sepBy s (ts ++ us) = sepBy s ts ++ s :: sepBy s us
  | [], _, h, _ => absurd rfl h
  | [t], u :: us, _, _ => by simp [sepBy]
  | t :: t' :: ts, us, _, h => by
    have := sepBy_append s (t' :: ts) us (by simp) h
    simp only [List.cons_append] at this ⊢
    rw [sepBy, this]
    · simp [sepBy]
    · simp

/-- The text of a chain with given terms. -/
def joined (cfg : Cfg) (o : Op) (l : List Ex) : Option (List Tok) :=
  (parts cfg o l).map (sepBy (logicTok o))

theorem parts_ne {o : Op} : ∀ {l : List Ex} {ts}, l ≠ [] → parts cfg o l = some ts → ts ≠ []
  | [], _, h, _ => absurd rfl h
  | e :: r, ts, _, h => by
    rw [parts] at h
    split at h
    · cases h; simp
    · cases h

theorem logicParts_eq (o : Op) : ∀ (args : Exs) (ts : List (List Tok)), unparseArgs cfg args = some ts →
    parts cfg o args.toList = some (logicParts (.op o) args ts)
  | .nil, ts, h => by
    rw [unparseArgs] at h; cases h
    rfl
  | .cons e r, ts, h => by
    rw [unparseArgs] at h
    cases he : unparse cfg e with
    | none => simp [he] at h
    | some t =>
      cases hr : unparseArgs cfg r with
      | none => simp [he, hr] at h
      | some ts' =>
        simp only [he, hr, Option.some.injEq] at h
        subst h
        rw [Exs.toList, parts, part, he, logicParts_eq o r ts' hr]
        rfl

theorem parts_none (o : Op) : ∀ (args : Exs), unparseArgs cfg args = none → parts cfg o args.toList = none
  | .nil, h => by rw [unparseArgs] at h; cases h
  | .cons e r, h => by
    rw [unparseArgs] at h
    rw [Exs.toList, parts, part]
    cases he : unparse cfg e with
    | none => rfl
    | some t =>
      cases hr : unparseArgs cfg r with
      | none => rw [parts_none o r hr]; rfl
      | some ts' => simp [he, hr] at h

/-- A call of `&&` or `||` with two or more arguments prints as the chain of
its arguments. -/
theorem unparse_logic {o : Op} (ho : o = .and ∨ o = .or) {args : Exs} (h : 2 ≤ args.length) :
    unparse cfg (.call (.op o) args) = joined cfg o args.toList := by
  rw [unparse, joined]
  cases ha : unparseArgs cfg args with
  | none => rw [parts_none o args ha]; rfl
  | some ts =>
    rw [logicParts_eq o args ts ha]
    rcases ho with rfl | rfl
    · show printBinary (.op .and) .and args ts = _
      rw [printBinary.eq_def, if_neg (by omega), if_pos (Or.inl rfl)]; rfl
    · show printBinary (.op .or) .or args ts = _
      rw [printBinary.eq_def, if_neg (by omega), if_pos (Or.inr rfl)]; rfl

theorem joined_one (o : Op) (e : Ex) : joined cfg o [e] = part cfg o e := by
  rw [joined, parts, parts]
  cases part cfg o e <;> rfl

theorem joined_append {o : Op} {l m : List Ex} (hl : l ≠ []) (hm : m ≠ []) : joined cfg o (l ++ m) =
    match joined cfg o l, joined cfg o m with
    | some t, some u => some (t ++ logicTok o :: u)
    | _, _ => none := by
  rw [joined, parts_append, joined, joined]
  cases h1 : parts cfg o l with
  | none => rfl
  | some ts =>
    cases h2 : parts cfg o m with
    | none => rfl
    | some us =>
      simp only [Option.map_some]
      rw [sepBy_append _ _ _ (parts_ne hl h1) (parts_ne hm h2)]

theorem joined_cons (o : Op) (e : Ex) (r : List Ex) : joined cfg o (e :: r) =
    if r = [] then part cfg o e else
    match part cfg o e, joined cfg o r with
    | some t, some u => some (t ++ logicTok o :: u)
    | _, _ => none := by
  split
  · rename_i h; subst h; exact joined_one o e
  · rename_i h
    have := joined_append (cfg := cfg) (o := o) (l := [e]) (m := r) (by simp) h
    rw [joined_one] at this
    exact this

theorem toList_ne {args : Exs} (h : 1 ≤ args.length) : args.toList ≠ [] := by
  cases args with
  | nil => simp [Exs.length] at h
  | cons e r => simp [Exs.toList]

theorem length_toList : ∀ args : Exs, args.toList.length = args.length
  | .nil => rfl
  | .cons e r => by rw [Exs.toList, List.length_cons, length_toList r, Exs.length]

mutual
theorem part_leaves {o : Op} (ho : o = .and ∨ o = .or) : ∀ e : Ex,
    joined cfg o (leaves o e) = part cfg o e
  | .call (.op o') args => by
    rw [leaves]
    split
    · rename_i h
      obtain ⟨rfl, h⟩ := h
      rw [part, unparse_logic ho h, joinedArgs_leaves ho args (by omega)]
      have : complexWrt (.op o') (.call (.op o') args) = false := by
        simp [complexWrt, lowerPrec]
      rw [this]
      cases joined cfg o' args.toList <;> rfl
    · exact joined_one ..
  | .const c => by rw [leaves]; exact joined_one ..
  | .ident n => by rw [leaves]; exact joined_one ..
  | .select e f t => by rw [leaves]; exact joined_one ..
  | .call (.name n) args => by rw [leaves]; exact joined_one ..
  | .mcall e f args => by rw [leaves]; exact joined_one ..
  | .list els => by rw [leaves]; exact joined_one ..
  | .struct d n fs => by rw [leaves]; exact joined_one ..
  | .map es => by rw [leaves]; exact joined_one ..
  | .comp v v2 r a i c s res => by rw [leaves]; exact joined_one ..
theorem joinedArgs_leaves {o : Op} (ho : o = .and ∨ o = .or) : ∀ es : Exs, 1 ≤ es.length →
    joined cfg o (leavesArgs o es) = joined cfg o es.toList
  | .nil, h => by simp [Exs.length] at h
  | .cons e .nil, _ => by
    rw [leavesArgs, leavesArgs, List.append_nil, Exs.toList, Exs.toList, joined_one, part_leaves ho e]
  | .cons e (.cons e' r), _ => by
    have h1 := part_leaves ho e
    have h2 := joinedArgs_leaves ho (.cons e' r) (by simp [Exs.length])
    have hne : leavesArgs o (.cons e' r) ≠ [] := by
      intro h
      have := leavesArgs_length o (.cons e' r)
      rw [h] at this
      simp [Exs.length] at this
    rw [leavesArgs, joined_append (leaves_ne_nil o e) hne, h1, h2]
    conv_rhs => rw [Exs.toList, joined_cons, if_neg (toList_ne (args := .cons e' r) (by simp [Exs.length]))]
end

/-- Two expressions that the unparser treats alike as operands. -/
structure Alike (cfg : Cfg) (e x : Ex) : Prop where
  text : unparse cfg x = unparse cfg e
  fn : callFn x = callFn e
  complex : isComplex x = isComplex e
  number : numeral x = numeral e

theorem isUnary_fn (e : Ex) : isUnary e = (match callFn e with
    | some (.op .not) | some (.op .neg) => true | _ => false) := by
  cases e <;> try rfl
  rename_i fn args
  cases fn <;> try rfl
  rename_i o
  cases o <;> rfl

theorem isOperator_fn (e : Ex) : isOperator e = (match callFn e with
    | some (.op .not) | some (.op .neg) | some (.op .and) | some (.op .or) | some (.op .cond) => true
    | some (.op o) => isArith o | _ => false) := by
  cases e <;> try rfl
  rename_i fn args
  cases fn <;> try rfl
  rename_i o
  cases o <;> rfl

theorem lowerPrec_fn (p : Nat) (e : Ex) : lowerPrec p e = (match callFn e with
    | some fn => decide (p < fn.prec) | none => false) := by
  cases e <;> rfl

theorem samePrec_fn {p : Nat} (hp : p ≠ 0) (e : Ex) : samePrec p e = (match callFn e with
    | some fn => p == fn.prec | none => false) := by
  cases e <;> try rfl
  simp [samePrec, callFn, hp]

namespace Alike
variable {e x : Ex} (h : Alike cfg e x)
include h

theorem unary : isUnary x = isUnary e := by rw [isUnary_fn, isUnary_fn, h.fn]
theorem operator : isOperator x = isOperator e := by rw [isOperator_fn, isOperator_fn, h.fn]
theorem wrt (fn : Fn) : complexWrt fn x = complexWrt fn e := by
  rw [complexWrt, complexWrt, h.complex, lowerPrec_fn, lowerPrec_fn, h.fn]
theorem same {p : Nat} (hp : p ≠ 0) : samePrec p x = samePrec p e := by
  rw [samePrec_fn hp, samePrec_fn hp, h.fn]
theorem binTern : isBinTern x = isBinTern e := by
  rw [isBinTern, isBinTern, h.complex, h.fn, h.same (by decide)]
theorem condNest : condNested x = condNested e := by
  rw [condNested, condNested, h.complex, h.same (by decide)]
theorem parts (o : Op) : part cfg o x = part cfg o e := by
  rw [part, part, h.text, h.wrt]

end Alike

theorem args_alike : ∀ {args : Exs}, (∀ e ∈ args.toList, Alike cfg e (norm cfg e)) →
    unparseArgs cfg (normArgs cfg args) = unparseArgs cfg args
  | .nil, _ => by rw [normArgs]
  | .cons e r, h => by
    rw [normArgs, unparseArgs, unparseArgs, (h e (by simp [Exs.toList])).text,
      args_alike fun e he => h e (by simp [Exs.toList, he])]

theorem els_alike : ∀ {els : Els}, (∀ x ∈ els.toList, Alike cfg x.2 (norm cfg x.2)) →
    unparseEls cfg (normEls cfg els) = unparseEls cfg els
  | .nil, _ => by rw [normEls]
  | .cons o e r, h => by
    rw [normEls, unparseEls, unparseEls, (h (o, e) (by simp [Els.toList])).text,
      els_alike fun e he => h e (by simp [Els.toList, he])]

theorem flds_alike : ∀ {fs : Flds}, (∀ x ∈ fs.toList, Alike cfg x.2.2 (norm cfg x.2.2)) →
    unparseFlds cfg (normFlds cfg fs) = unparseFlds cfg fs
  | .nil, _ => by rw [normFlds]
  | .cons o f e r, h => by
    rw [normFlds, unparseFlds, unparseFlds, (h (o, f, e) (by simp [Flds.toList])).text,
      flds_alike fun e he => h e (by simp [Flds.toList, he])]

theorem ents_alike : ∀ {es : Ents}, (∀ x ∈ es.toList, Alike cfg x.2.1 (norm cfg x.2.1)) →
    (∀ x ∈ es.toList, Alike cfg x.2.2 (norm cfg x.2.2)) →
    unparseEnts cfg (normEnts cfg es) = unparseEnts cfg es
  | .nil, _, _ => by rw [normEnts]
  | .cons o k v r, h, h' => by
    rw [normEnts, unparseEnts, unparseEnts, (h (o, k, v) (by simp [Ents.toList])).text,
      (h' (o, k, v) (by simp [Ents.toList])).text,
      ents_alike (fun e he => h e (by simp [Ents.toList, he])) (fun e he => h' e (by simp [Ents.toList, he]))]

theorem parts_alike (o : Op) : ∀ {args : Exs}, (∀ e ∈ args.toList, Alike cfg e (norm cfg e)) →
    parts cfg o (normArgs cfg args).toList = parts cfg o args.toList
  | .nil, _ => by rw [normArgs]
  | .cons e r, h => by
    rw [normArgs, Exs.toList, Exs.toList, parts, parts, (h e (by simp [Exs.toList])).parts o,
      parts_alike o fun e he => h e (by simp [Exs.toList, he])]

theorem joined_alike (o : Op) {args : Exs} (h : ∀ e ∈ args.toList, Alike cfg e (norm cfg e)) :
    joined cfg o (normArgs cfg args).toList = joined cfg o args.toList := by
  rw [joined, joined, parts_alike o h]

/-! ### Chains again -/

theorem Good.args {o : Op} {args : Exs} (ho : o = .and ∨ o = .or) (h : Good cfg (.call (.op o) args)) :
    2 ≤ args.length ∧ ∀ e ∈ args.toList, Good cfg e := by
  rcases ho with rfl | rfl <;> cases h
  all_goals first
    | (rename_i h; cases h; done)
    | exact ⟨by assumption, by assumption⟩

theorem toList_ofList : ∀ l : List Ex, (Exs.ofList l).toList = l
  | [] => rfl
  | e :: r => by rw [Exs.ofList, Exs.toList, toList_ofList r]

theorem good_tree {o : Op} (ho : o = .and ∨ o = .or) : ∀ (T : Parser.Tree Ex), wide T →
    (∀ z ∈ T.leaves, Good cfg z) → Good cfg (treeEx o T)
  | .leaf a, _, h => h a (by simp [Parser.Tree.leaves])
  | .node _ l r, w, h => by
    refine Good.logic ho (by simp [Exs.length]) ?_
    intro e he
    simp only [Exs.toList, List.mem_cons, List.not_mem_nil, or_false] at he
    rcases he with rfl | rfl
    · exact good_tree ho l w.1 fun z hz => h z (by simp [Parser.Tree.leaves, hz])
    · exact good_tree ho r w.2 fun z hz => h z (by simp [Parser.Tree.leaves, hz])
  | .flat _ es, w, h => by
    refine Good.logic ho (by rw [length_ofList]; exact w) ?_
    rw [toList_ofList]
    exact h

theorem normArgs_ofList {l : List Ex} (h : ∀ z ∈ l, norm cfg z = z) :
    normArgs cfg (Exs.ofList l) = Exs.ofList l := by
  induction l with
  | nil => rw [Exs.ofList, normArgs]
  | cons e r ih => rw [Exs.ofList, normArgs, h e (by simp), ih fun z hz => h z (by simp [hz])]

theorem norm_logic {o : Op} (ho : o = .and ∨ o = .or) (args : Exs) :
    norm cfg (.call (.op o) args) = chain cfg o (normArgs cfg args) := by
  rcases ho with rfl | rfl <;> rw [norm]

/-- The chain with these terms. -/
theorem chain_eq {o : Op} {args : Exs} {l : List Ex} {x : Ex} (h : leavesArgs o args = l)
    (hx : logicTree cfg.variadic o l = some x) : chain cfg o args = x := by
  rw [chain, h, hx]

theorem norm_tree {o : Op} (ho : o = .and ∨ o = .or) : ∀ (T : Parser.Tree Ex), wide T →
    (∀ z ∈ T.leaves, norm cfg z = z ∧ leaves o z = [z]) →
    leaves o (norm cfg (treeEx o T)) = T.leaves ∧
      logicTree cfg.variadic o T.leaves = some (norm cfg (treeEx o T))
  | .leaf a, _, h => by
    have := h a (by simp [Parser.Tree.leaves])
    rw [treeEx, this.1, this.2]
    exact ⟨rfl, logicTree_one _ _ _⟩
  | .node _ l r, w, h => by
    have h1 := norm_tree ho l w.1 fun z hz => h z (by simp [Parser.Tree.leaves, hz])
    have h2 := norm_tree ho r w.2 fun z hz => h z (by simp [Parser.Tree.leaves, hz])
    have hl : leavesArgs o (normArgs cfg (.cons (treeEx o l) (.cons (treeEx o r) .nil))) =
        (Parser.Tree.node 0 l r).leaves := by
      rw [normArgs, normArgs, normArgs, leavesArgs, leavesArgs, leavesArgs, h1.1, h2.1,
        Parser.Tree.leaves, List.append_nil]
    obtain ⟨c1, c2, _⟩ := chain_spec cfg o (normArgs cfg (.cons (treeEx o l) (.cons (treeEx o r) .nil)))
      (by rw [normArgs_length]; simp [Exs.length])
    rw [hl] at c1 c2
    rw [treeEx, Ex.op2, norm_logic ho]
    exact ⟨c2, c1⟩
  | .flat _ es, w, h => by
    have hl : leavesArgs o (normArgs cfg (Exs.ofList es)) = es := by
      rw [normArgs_ofList (l := es) fun z hz => (h z hz).1]
      exact leavesArgs_ofList o es fun z hz => (h z hz).2
    obtain ⟨c1, c2, _⟩ := chain_spec cfg o (normArgs cfg (Exs.ofList es))
      (by rw [normArgs_length, length_ofList]; exact w)
    rw [hl] at c1 c2
    rw [treeEx, norm_logic ho]
    exact ⟨c2, c1⟩

/-- The balancer's tree of given terms. -/
theorem logicTree_tree {v : Bool} {o : Op} {l : List Ex} {x : Ex} (hl : 2 ≤ l.length)
    (h : logicTree v o l = some x) : ∃ T, wide T ∧ T.leaves = l ∧ x = treeEx o T := by
  match l, hl with
  | t :: t' :: ts, _ =>
    have hlen : (t :: List.map (·.2) (((t' :: ts).map fun e => ((0 : Int), e)))).length ≠ 1 := by simp
    have hterms : t :: List.map (·.2) (((t' :: ts).map fun e => ((0 : Int), e))) = t :: t' :: ts := by
      simp [Function.comp_def]
    cases v with
    | true =>
      rw [logicTree, List.map_cons, Parser.C39_variadic, Option.map_some, Option.some.injEq] at h
      refine ⟨_, ?_, ?_, h.symm⟩
      · simp [wide]
      · simp [Parser.Tree.leaves, Function.comp_def]
    | false =>
      obtain ⟨T, hT, hlv, _, hd⟩ := Parser.C39_structure t ((t' :: ts).map fun e => ((0 : Int), e))
      rw [hterms] at hlv
      have hw : wide T := by
        rw [Parser.balance] at hT
        simp only [hlen, if_false, Bool.false_eq_true, Option.map_eq_some_iff] at hT
        obtain ⟨p, hp, rfl⟩ := hT
        exact wide_balancedTree _ _ _ _ _ (Nat.le_refl _) _ p.2 hp
      rw [logicTree, hT, Option.map_some, Option.some.injEq] at h
      exact ⟨T, hw, hlv, h.symm⟩

/-! ### The induction -/

/-- What is shown of every expression. -/
structure Stable (cfg : Cfg) (e : Ex) : Prop where
  alike : Alike cfg e (norm cfg e)
  good : Good cfg (norm cfg e)
  idem : norm cfg (norm cfg e) = norm cfg e
  terms : ∀ o, o = .and ∨ o = .or → ∀ z ∈ leaves o (norm cfg e), Good cfg z ∧ norm cfg z = z

theorem Stable.of {e : Ex} (h1 : Alike cfg e (norm cfg e)) (h2 : Good cfg (norm cfg e))
    (h3 : norm cfg (norm cfg e) = norm cfg e) (h4 : ∀ o, o = .and ∨ o = .or → callFn e ≠ some (.op o)) :
    Stable cfg e := by
  refine ⟨h1, h2, h3, fun o ho z hz => ?_⟩
  rw [leaves_of_ne (by rw [h1.fn]; exact h4 o ho), List.mem_singleton] at hz
  subst hz
  exact ⟨h2, h3⟩

theorem normArgs_idem : ∀ {args : Exs}, (∀ e ∈ args.toList, Stable cfg e) →
    normArgs cfg (normArgs cfg args) = normArgs cfg args
  | .nil, _ => by rw [normArgs, normArgs]
  | .cons e r, h => by
    rw [normArgs, normArgs, (h e (by simp [Exs.toList])).idem, normArgs_idem fun e he => h e (by simp [Exs.toList, he])]

theorem normArgs_good : ∀ {args : Exs}, (∀ e ∈ args.toList, Stable cfg e) →
    ∀ e ∈ (normArgs cfg args).toList, Good cfg e
  | .nil, _ => by rw [normArgs]; simp [Exs.toList]
  | .cons e r, h => by
    rw [normArgs, Exs.toList]
    intro x hx
    rw [List.mem_cons] at hx
    rcases hx with rfl | hx
    · exact (h e (by simp [Exs.toList])).good
    · exact normArgs_good (fun e he => h e (by simp [Exs.toList, he])) x hx

theorem terms_args {o : Op} (ho : o = .and ∨ o = .or) : ∀ {args : Exs}, (∀ e ∈ args.toList, Stable cfg e) →
    ∀ z ∈ leavesArgs o (normArgs cfg args), Good cfg z ∧ norm cfg z = z
  | .nil, _ => by rw [normArgs, leavesArgs]; simp
  | .cons e r, h => by
    rw [normArgs, leavesArgs]
    intro z hz
    rw [List.mem_append] at hz
    rcases hz with hz | hz
    · exact (h e (by simp [Exs.toList])).terms o ho z hz
    · exact terms_args ho (fun e he => h e (by simp [Exs.toList, he])) z hz

theorem normEls_idem : ∀ {els : Els}, (∀ x ∈ els.toList, Stable cfg x.2) →
    normEls cfg (normEls cfg els) = normEls cfg els
  | .nil, _ => by rw [normEls, normEls]
  | .cons o e r, h => by
    rw [normEls, normEls, (h (o, e) (by simp [Els.toList])).idem, normEls_idem fun e he => h e (by simp [Els.toList, he])]

theorem normEls_mem : ∀ {els : Els}, ∀ x ∈ (normEls cfg els).toList, ∃ y ∈ els.toList, x = (y.1, norm cfg y.2)
  | .nil, x, h => by rw [normEls] at h; simp [Els.toList] at h
  | .cons o e r, x, h => by
    rw [normEls, Els.toList, List.mem_cons] at h
    rcases h with rfl | h
    · exact ⟨(o, e), by simp [Els.toList], rfl⟩
    · obtain ⟨y, hy, rfl⟩ := normEls_mem x h
      exact ⟨y, by simp [Els.toList, hy], rfl⟩

theorem normFlds_idem : ∀ {fs : Flds}, (∀ x ∈ fs.toList, Stable cfg x.2.2) →
    normFlds cfg (normFlds cfg fs) = normFlds cfg fs
  | .nil, _ => by rw [normFlds, normFlds]
  | .cons o f e r, h => by
    rw [normFlds, normFlds, (h (o, f, e) (by simp [Flds.toList])).idem, normFlds_idem fun e he => h e (by simp [Flds.toList, he])]

theorem normFlds_mem : ∀ {fs : Flds}, ∀ x ∈ (normFlds cfg fs).toList,
    ∃ y ∈ fs.toList, x = (y.1, y.2.1, norm cfg y.2.2)
  | .nil, x, h => by rw [normFlds] at h; simp [Flds.toList] at h
  | .cons o f e r, x, h => by
    rw [normFlds, Flds.toList, List.mem_cons] at h
    rcases h with rfl | h
    · exact ⟨(o, f, e), by simp [Flds.toList], rfl⟩
    · obtain ⟨y, hy, rfl⟩ := normFlds_mem x h
      exact ⟨y, by simp [Flds.toList, hy], rfl⟩

theorem normEnts_idem : ∀ {es : Ents}, (∀ x ∈ es.toList, Stable cfg x.2.1) → (∀ x ∈ es.toList, Stable cfg x.2.2) →
    normEnts cfg (normEnts cfg es) = normEnts cfg es
  | .nil, _, _ => by rw [normEnts, normEnts]
  | .cons o k v r, h, h' => by
    rw [normEnts, normEnts, (h (o, k, v) (by simp [Ents.toList])).idem, (h' (o, k, v) (by simp [Ents.toList])).idem,
      normEnts_idem (fun e he => h e (by simp [Ents.toList, he])) (fun e he => h' e (by simp [Ents.toList, he]))]

theorem normEnts_mem : ∀ {es : Ents}, ∀ x ∈ (normEnts cfg es).toList,
    ∃ y ∈ es.toList, x = (y.1, norm cfg y.2.1, norm cfg y.2.2)
  | .nil, x, h => by rw [normEnts] at h; simp [Ents.toList] at h
  | .cons o k v r, x, h => by
    rw [normEnts, Ents.toList, List.mem_cons] at h
    rcases h with rfl | h
    · exact ⟨(o, k, v), by simp [Ents.toList], rfl⟩
    · obtain ⟨y, hy, rfl⟩ := normEnts_mem x h
      exact ⟨y, by simp [Ents.toList, hy], rfl⟩

theorem logic_stable {o : Op} {args : Exs} (ho : o = .and ∨ o = .or) (hl : 2 ≤ args.length)
    (ih : ∀ e ∈ args.toList, Stable cfg e) : Stable cfg (.call (.op o) args) := by
  have hl' : 2 ≤ (normArgs cfg args).length := by rw [normArgs_length]; exact hl
  obtain ⟨c1, c2, c3⟩ := chain_spec cfg o (normArgs cfg args) hl'
  have hll : 2 ≤ (leavesArgs o (normArgs cfg args)).length :=
    Nat.le_trans hl' (leavesArgs_length o _)
  have hleaf := leavesArgs_leaf o (normArgs cfg args)
  have ht := terms_args ho ih
  obtain ⟨T, w, hT, hx⟩ := logicTree_tree hll c1
  have hgood : Good cfg (chain cfg o (normArgs cfg args)) := by
    rw [hx]
    exact good_tree ho T w (by rw [hT]; exact fun z hz => (ht z hz).1)
  have hidem : norm cfg (chain cfg o (normArgs cfg args)) = chain cfg o (normArgs cfg args) := by
    have := (norm_tree (cfg := cfg) ho T w (by rw [hT]; exact fun z hz => ⟨(ht z hz).2, hleaf z hz⟩)).2
    rw [hT, c1, Option.some.injEq, ← hx] at this
    exact this.symm
  have hargs : ∃ args', chain cfg o (normArgs cfg args) = .call (.op o) args' := by
    revert c3
    cases chain cfg o (normArgs cfg args) <;> simp [callFn]
  obtain ⟨args', hargs⟩ := hargs
  have hl2 : 2 ≤ args'.length := by rw [hargs] at hgood; exact (hgood.args ho).1
  have hal : Alike cfg (.call (.op o) args) (chain cfg o (normArgs cfg args)) := by
    refine ⟨?_, c3, ?_, ?_⟩
    · rw [hargs, unparse_logic ho hl2, ← joinedArgs_leaves ho args' (by omega), unparse_logic ho hl,
        ← joined_alike o (fun e he => (ih e he).alike), ← joinedArgs_leaves ho (normArgs cfg args) (by omega)]
      have : leavesArgs o args' = leaves o (chain cfg o (normArgs cfg args)) := by
        rw [hargs, leaves, if_pos ⟨rfl, hl2⟩]
      rw [this, c2]
    · rw [hargs]; simp [isComplex, hl2, hl]
    · rw [hargs]; rcases ho with rfl | rfl <;> rfl
  refine ⟨by rw [norm_logic ho]; exact hal, by rw [norm_logic ho]; exact hgood, by rw [norm_logic ho]; exact hidem, ?_⟩
  intro o' ho' z hz
  rw [norm_logic ho] at hz
  by_cases he : o' = o
  · subst he
    rw [c2] at hz
    exact ht z hz
  · rw [leaves_of_ne (by rw [c3]; simpa using fun h => he h.symm), List.mem_singleton] at hz
    subst hz
    exact ⟨hgood, hidem⟩

theorem stable {e : Ex} (h : Good cfg e) : Stable cfg e := by
  induction h with
  | const hc =>
    exact .of (by rw [norm]; exact ⟨rfl, rfl, rfl, rfl⟩) (by rw [norm]; exact .const hc) (by rw [norm, norm]) (by simp [callFn])
  | ident hs =>
    exact .of (by rw [norm]; exact ⟨rfl, rfl, rfl, rfl⟩) (by rw [norm]; exact .ident hs) (by rw [norm, norm]) (by simp [callFn])
  | select he hu hf ih =>
    refine .of ?_ ?_ (by rw [norm, norm, ih.idem]) (by simp [callFn])
    · rw [norm]
      exact ⟨by rw [unparse, unparse, ih.alike.text, ih.alike.binTern], rfl, rfl,
        by rw [numeral, numeral, ih.alike.number]⟩
    · rw [norm]
      exact .select ih.good (by rw [ih.alike.unary]; exact hu) hf
  | has he hu hf ih =>
    refine .of ?_ ?_ (by rw [norm, norm, ih.idem]) (by simp [callFn])
    · rw [norm]
      exact ⟨by rw [unparse, unparse, ih.alike.text, ih.alike.binTern], rfl, rfl, rfl⟩
    · rw [norm]
      exact .has ih.good (by rw [ih.alike.operator]; exact hu) hf
  | not he hu ih =>
    have e1 : ∀ e, norm cfg (.op1 .not e) = .op1 .not (norm cfg e) := fun e => by
      simp [Ex.op1, norm, normArgs]
    refine .of ?_ ?_ (by rw [e1, e1, ih.idem]) (by simp [callFn, Ex.op1])
    · rw [e1]
      refine ⟨?_, rfl, rfl, rfl⟩
      rename_i e
      simp only [Ex.op1, unparse, unparseArgs, ih.alike.text, printCall, unaryTok]
      cases unparse cfg e <;> simp [printUnary, ih.alike.complex]
    · rw [e1]; exact .not ih.good (by rw [ih.alike.unary]; exact hu)
  | neg he hu hn ih =>
    have e1 : ∀ e, norm cfg (.op1 .neg e) = .op1 .neg (norm cfg e) := fun e => by
      simp [Ex.op1, norm, normArgs]
    refine .of ?_ ?_ (by rw [e1, e1, ih.idem]) (by simp [callFn, Ex.op1])
    · rw [e1]
      refine ⟨?_, rfl, rfl, rfl⟩
      rename_i e
      simp only [Ex.op1, unparse, unparseArgs, ih.alike.text, printCall, unaryTok]
      cases unparse cfg e <;> simp [printUnary, ih.alike.complex]
    · rw [e1]
      exact .neg ih.good (by rw [ih.alike.unary]; exact hu) (by rw [ih.alike.complex, ih.alike.number]; exact hn)
  | bin ho ga gb iha ihb =>
    rename_i o a b
    have e1 : ∀ a b, norm cfg (.op2 o a b) = .op2 o (norm cfg a) (norm cfg b) := fun a b => by
      cases o <;> simp [isArith] at ho <;> simp [Ex.op2, norm, normArgs]
    refine .of ?_ ?_ (by rw [e1, e1, iha.idem, ihb.idem]) ?_
    · rw [e1]
      refine ⟨?_, rfl, rfl, by cases o <;> simp [isArith] at ho <;> rfl⟩
      simp only [Ex.op2, unparse, unparseArgs, iha.alike.text, ihb.alike.text]
      cases unparse cfg a <;> cases unparse cfg b <;> try rfl
      cases o <;> simp [isArith] at ho <;>
        simp [printCall, unaryTok, binaryTok, printBinary, Exs.length, iha.alike.wrt, ihb.alike.wrt,
          ihb.alike.same (show (5 : Nat) ≠ 0 by decide), ihb.alike.same (show (4 : Nat) ≠ 0 by decide),
          ihb.alike.same (show (3 : Nat) ≠ 0 by decide), Fn.prec, prec]
    · rw [e1]; exact .bin ho iha.good ihb.good
    · rintro o' ho' h
      simp only [Ex.op2, callFn, Option.some.injEq, Fn.op.injEq] at h
      subst h
      rcases ho' with rfl | rfl <;> simp [isArith] at ho
  | logic ho hl ga ih => exact logic_stable ho hl ih
  | cond ga gb gc iha ihb ihc =>
    rename_i a b c
    have e1 : ∀ a b c, norm cfg (.op3 .cond a b c) = .op3 .cond (norm cfg a) (norm cfg b) (norm cfg c) :=
      fun a b c => by simp [Ex.op3, norm, normArgs]
    refine .of ?_ ?_ (by rw [e1, e1, iha.idem, ihb.idem, ihc.idem]) (by simp [callFn, Ex.op3])
    · rw [e1]
      refine ⟨?_, rfl, rfl, rfl⟩
      simp only [Ex.op3, unparse, unparseArgs, iha.alike.text, ihb.alike.text, ihc.alike.text]
      cases unparse cfg a <;> cases unparse cfg b <;> cases unparse cfg c <;> try rfl
      simp [printCall, unaryTok, binaryTok, printTernary, iha.alike.condNest, ihb.alike.condNest, ihc.alike.condNest]
    · rw [e1]; exact .cond iha.good ihb.good ihc.good
  | index ga hu gb iha ihb =>
    rename_i a b
    have e1 : ∀ a b, norm cfg (.op2 .index a b) = .op2 .index (norm cfg a) (norm cfg b) := fun a b => by
      simp [Ex.op2, norm, normArgs]
    refine .of ?_ ?_ (by rw [e1, e1, iha.idem, ihb.idem]) (by simp [callFn, Ex.op2])
    · rw [e1]
      refine ⟨?_, rfl, rfl, iha.alike.number⟩
      simp only [Ex.op2, unparse, unparseArgs, iha.alike.text, ihb.alike.text]
      cases unparse cfg a <;> cases unparse cfg b <;> try rfl
      simp [printCall, unaryTok, binaryTok, printIndex, iha.alike.binTern]
    · rw [e1]; exact .index iha.good (by rw [iha.alike.unary]; exact hu) ihb.good
  | optIndex hopt ga hu gb iha ihb =>
    rename_i a b
    have e1 : ∀ a b, norm cfg (.op2 .optIndex a b) = .op2 .optIndex (norm cfg a) (norm cfg b) := fun a b => by
      simp [Ex.op2, norm, normArgs]
    refine .of ?_ ?_ (by rw [e1, e1, iha.idem, ihb.idem]) (by simp [callFn, Ex.op2])
    · rw [e1]
      refine ⟨?_, rfl, rfl, iha.alike.number⟩
      simp only [Ex.op2, unparse, unparseArgs, iha.alike.text, ihb.alike.text]
      cases unparse cfg a <;> cases unparse cfg b <;> try rfl
      simp [printCall, unaryTok, binaryTok, printIndex, iha.alike.binTern]
    · rw [e1]; exact .optIndex hopt iha.good (by rw [iha.alike.unary]; exact hu) ihb.good
  | optSelect hopt ga hu hf iha =>
    rename_i a f
    have e1 : ∀ a, norm cfg (.op2 .optSelect a (.const (.str f))) = .op2 .optSelect (norm cfg a) (.const (.str f)) :=
      fun a => by simp [Ex.op2, norm, normArgs]
    refine .of ?_ ?_ (by rw [e1, e1, iha.idem]) (by simp [callFn, Ex.op2])
    · rw [e1]
      refine ⟨?_, rfl, rfl, iha.alike.number⟩
      simp only [Ex.op2, unparse, unparseArgs, iha.alike.text]
      cases unparse cfg a <;> try rfl
      simp [printCall, unaryTok, binaryTok, printOptSelect, iha.alike.binTern]
    · rw [e1]; exact .optSelect hopt iha.good (by rw [iha.alike.unary]; exact hu) hf
  | call hs hm ga ih =>
    rename_i d s args
    have e1 : ∀ args, norm cfg (.call (.name ⟨d, s⟩) args) = .call (.name ⟨d, s⟩) (normArgs cfg args) :=
      fun args => by simp [norm]
    refine .of ?_ ?_ (by rw [e1, e1, normArgs_idem ih]) (by simp [callFn])
    · rw [e1]
      refine ⟨?_, rfl, by simp [isComplex, normArgs_length], rfl⟩
      rw [unparse, unparse, args_alike fun e he => (ih e he).alike]
      cases unparseArgs cfg args <;> rfl
    · rw [e1]; exact .call hs (by rw [normArgs_length]; exact hm) (normArgs_good ih)
  | mcall he hu hf hm ga ihe ih =>
    rename_i e f args
    refine .of ?_ ?_ (by rw [norm, norm, ihe.idem, normArgs_idem ih]) (by simp [callFn])
    · rw [norm]
      refine ⟨?_, rfl, by simp [isComplex, normArgs_length], by rw [numeral, numeral, ihe.alike.number]⟩
      rw [unparse, unparse, args_alike fun e he => (ih e he).alike, ihe.alike.text, ihe.alike.binTern]
    · rw [norm]
      exact .mcall ihe.good (by rw [ihe.alike.unary]; exact hu) hf (by rw [normArgs_length]; exact hm) (normArgs_good ih)
  | list ga ho ih =>
    refine .of ?_ ?_ (by rw [norm, norm, normEls_idem ih]) (by simp [callFn])
    · rw [norm]
      exact ⟨by rw [unparse, unparse, els_alike fun e he => (ih e he).alike], rfl, rfl, rfl⟩
    · rw [norm]
      refine .list ?_ ?_ <;> intro x hx <;> obtain ⟨y, hy, rfl⟩ := normEls_mem x hx
      · exact (ih y hy).good
      · exact ho y hy
  | struct hn ga hf ho ih =>
    refine .of ?_ ?_ (by rw [norm, norm, normFlds_idem ih]) (by simp [callFn])
    · rw [norm]
      exact ⟨by rw [unparse, unparse, flds_alike fun e he => (ih e he).alike], rfl, rfl, rfl⟩
    · rw [norm]
      refine .struct hn ?_ ?_ ?_ <;> intro x hx <;> obtain ⟨y, hy, rfl⟩ := normFlds_mem x hx
      · exact (ih y hy).good
      · exact hf y hy
      · exact ho y hy
  | map gk gv ho ihk ihv =>
    refine .of ?_ ?_ (by rw [norm, norm, normEnts_idem ihk ihv]) (by simp [callFn])
    · rw [norm]
      exact ⟨by rw [unparse, unparse, ents_alike (fun e he => (ihk e he).alike) fun e he => (ihv e he).alike], rfl, rfl, rfl⟩
    · rw [norm]
      refine .map ?_ ?_ ?_ <;> intro x hx <;> obtain ⟨y, hy, rfl⟩ := normEnts_mem x hx
      · exact (ihk y hy).good
      · exact (ihv y hy).good
      · exact ho y hy
  | all gr hu hv hv' gp ihr ihp =>
    rename_i r v p
    have e1 : ∀ r p, norm cfg (allEx r v p) = allEx (norm cfg r) v (norm cfg p) := fun r p => rfl
    refine .of ?_ ?_ (by rw [e1, e1, ihr.idem, ihp.idem]) (by simp [callFn, allEx])
    · rw [e1]
      exact ⟨by simp [unparse, unparseStep, allEx, Ex.op2, ihr.alike.text, ihp.alike.text, ihr.alike.complex], rfl, rfl, ihr.alike.number⟩
    · rw [e1]; exact .all ihr.good (by rw [ihr.alike.unary]; exact hu) hv hv' ihp.good
  | «exists» gr hu hv hv' gp ihr ihp =>
    rename_i r v p
    have e1 : ∀ r p, norm cfg (existsEx r v p) = existsEx (norm cfg r) v (norm cfg p) := fun r p => rfl
    refine .of ?_ ?_ (by rw [e1, e1, ihr.idem, ihp.idem]) (by simp [callFn, existsEx])
    · rw [e1]
      exact ⟨by simp [unparse, unparseStep, existsEx, Ex.op2, ihr.alike.text, ihp.alike.text, ihr.alike.complex], rfl, rfl, ihr.alike.number⟩
    · rw [e1]; exact .exists ihr.good (by rw [ihr.alike.unary]; exact hu) hv hv' ihp.good
  | existsOne gr hu hv hv' gp ihr ihp =>
    rename_i r v p
    have e1 : ∀ r p, norm cfg (existsOneEx r v p) = existsOneEx (norm cfg r) v (norm cfg p) := fun r p => rfl
    refine .of ?_ ?_ (by rw [e1, e1, ihr.idem, ihp.idem]) (by simp [callFn, existsOneEx])
    · rw [e1]
      exact ⟨by simp [unparse, unparseStep, existsOneEx, Ex.op2, Ex.op3, isCall, ihr.alike.text, ihp.alike.text, ihr.alike.complex], rfl, rfl, ihr.alike.number⟩
    · rw [e1]; exact .existsOne ihr.good (by rw [ihr.alike.unary]; exact hu) hv hv' ihp.good
  | map2 gr hu hv hv' gp ihr ihp =>
    rename_i r v p
    have e1 : ∀ r p, norm cfg (map2Ex r v p) = map2Ex (norm cfg r) v (norm cfg p) := fun r p => rfl
    refine .of ?_ ?_ (by rw [e1, e1, ihr.idem, ihp.idem]) (by simp [callFn, map2Ex])
    · rw [e1]
      exact ⟨by simp [unparse, unparseStep, map2Ex, Ex.op2, isCall, accu, ihr.alike.text, ihp.alike.text, ihr.alike.complex], rfl, rfl, ihr.alike.number⟩
    · rw [e1]; exact .map2 ihr.good (by rw [ihr.alike.unary]; exact hu) hv hv' ihp.good
  | map3 gr hu hv hv' gp gt ihr ihp iht =>
    rename_i r v p t
    have e1 : ∀ r p t, norm cfg (map3Ex r v p t) = map3Ex (norm cfg r) v (norm cfg p) (norm cfg t) := fun r p t => rfl
    refine .of ?_ ?_ (by rw [e1, e1, ihr.idem, ihp.idem, iht.idem]) (by simp [callFn, map3Ex])
    · rw [e1]
      exact ⟨by simp [unparse, unparseStep, unparseAppended, map3Ex, Ex.op2, Ex.op3, isCall, accu, ihr.alike.text, ihp.alike.text, iht.alike.text, ihr.alike.complex], rfl, rfl, ihr.alike.number⟩
    · rw [e1]; exact .map3 ihr.good (by rw [ihr.alike.unary]; exact hu) hv hv' ihp.good iht.good

/-- **C54 (stable text), partial.** Printing, reading back and printing again
gives the same text, and reading that back gives the same expression again. -/
theorem C54_stable_partial (cfg : Cfg) (e x : Ex) (ts : List Tok) (h : Good cfg e)
    (h1 : unparse cfg e = some ts) (h2 : parse cfg ts = some x) :
    unparse cfg x = some ts ∧ Good cfg x ∧ norm cfg x = x := by
  obtain ⟨ts', h1', h2'⟩ := C54_roundtrip_partial cfg e h
  rw [h1] at h1'
  cases h1'
  rw [h2] at h2'
  cases h2'
  have hs := stable h
  exact ⟨by rw [hs.alike.text, h1], hs.good, hs.idem⟩

end Cel.Syntax
