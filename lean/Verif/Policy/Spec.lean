import Verif.Policy.Compile

/-!
# What a policy means

First-match semantics, on the policy as written: no slots, no composed expression.
Nothing here refers to the compiler; only the syntax of rules and the meaning of expressions is shared.
-/

namespace Policy

/-- What evaluating a rule gives: no match, or a value (which may be an error). -/
inductive Outcome where
  | noMatch
  | produced (v : Val)
  deriving Repr, DecidableEq

/-- The variables of a rule, in declaration order; each sees those before it and those of the rules around,
and hides one of the same name. -/
def declare (I : Interp) : Env → List (String × Ex) → Env
  | σ, [] => σ
  | σ, (x, e) :: vs => declare I (σ.bind ("variables." ++ x) (eval I [] σ noLocals e)) vs

/-- A match without a condition, or with the literal `true`. -/
inductive Unconditional : Option Ex → Prop
  | none : Unconditional none
  | true : Unconditional (some (.const (.bool true)))

instance : DecidablePred Unconditional := fun c =>
  match c with
  | .none => .isTrue .none
  | .some (.const (.bool true)) => .isTrue .true
  | .some (.const (.bool false)) => .isFalse (by intro h; cases h)
  | .some (.const .optNone) => .isFalse (by intro h; cases h)
  | .some (.const (.optSome _)) => .isFalse (by intro h; cases h)
  | .some (.const (.err _)) => .isFalse (by intro h; cases h)
  | .some (.const (.data _)) => .isFalse (by intro h; cases h)
  | .some (.ref _) => .isFalse (by intro h; cases h)
  | .some (.loc _) => .isFalse (by intro h; cases h)
  | .some (.index _) => .isFalse (by intro h; cases h)
  | .some (.app _ _) => .isFalse (by intro h; cases h)
  | .some (.compr _ _ _ _ _ _ _) => .isFalse (by intro h; cases h)

mutual
/-- The outcome of a rule under an environment. -/
def Rule.outcome (I : Interp) (σ : Env) : Rule → Outcome
  | .mk vars ms => ms.outcome I (declare I σ vars)
/-- The matches, in order. An unconditional match that is a rule without a match falls through to the next one.
A match whose condition holds is taken: if it is a rule without a match, that is the outcome. -/
def Matches.outcome (I : Interp) (σ : Env) : Matches → Outcome
  | .nil => .noMatch
  | .cons c p ms =>
    if Unconditional c then
      match p.outcome I σ with
      | .noMatch => ms.outcome I σ
      | .produced v => .produced v
    else
      match eval I [] σ noLocals (c.getD (.const (.bool true))) with
      | .bool true => p.outcome I σ
      | .bool false => ms.outcome I σ
      | .err e => .produced (.err e)
      | _ => .produced (.err "no matching overload: _?_:_")
/-- What a match produces. -/
def Production.outcome (I : Interp) (σ : Env) : Production → Outcome
  | .empty => .noMatch
  | .rule r => r.outcome I σ
  | .output e => .produced (eval I [] σ noLocals e)
end

/-- An outcome as an optional value: `optional.none()`, `optional.of(v)`, or the error. -/
def Outcome.asOptional : Outcome → Val
  | .noMatch => .optNone
  | .produced (.err e) => .err e
  | .produced v => .optSome v

mutual
/-- A rule which, by its shape alone, never lacks a match. -/
inductive AlwaysMatches : Rule → Prop
  | mk {vars ms} : MatchesAlways ms → AlwaysMatches (.mk vars ms)
/-- Every conditional match is always a match once its condition holds, and there is an unconditional one. -/
inductive MatchesAlways : Matches → Prop
  /-- an unconditional match that always produces: what follows must not lead to `noMatch` either
  (it is unreachable, and refused by the compiler) -/
  | here {c p} : Unconditional c → Produces p → MatchesAlways (.cons c p .nil)
  | fallthrough {c p ms} : Unconditional c → MatchesAlways ms → MatchesAlways (.cons c p ms)
  | conditional {c p ms} : ¬ Unconditional c → Produces p → MatchesAlways ms → MatchesAlways (.cons c p ms)
/-- A production that always produces. -/
inductive Produces : Production → Prop
  | output {e} : Produces (.output e)
  | rule {r} : AlwaysMatches r → Produces (.rule r)
end

mutual
/-- Source expressions: no `@index` (it is no identifier of the language). -/
def Source : Ex → Prop
  | .const _ => True
  | .ref _ => True
  | .loc _ => True
  | .index _ => False
  | .app _ args => SourceList args
  | .compr _ _ a b c d e => Source a ∧ Source b ∧ Source c ∧ Source d ∧ Source e
/-- Over a list. -/
def SourceList : List Ex → Prop
  | [] => True
  | e :: es => Source e ∧ SourceList es
end

mutual
/-- All expressions of the policy are source expressions. -/
def Rule.Source : Rule → Prop
  | .mk vars ms => (∀ v ∈ vars, Policy.Source v.2) ∧ ms.Source
/-- Over the matches. -/
def Matches.Source : Matches → Prop
  | .nil => True
  | .cons c p ms => (∀ e, c = some e → Policy.Source e) ∧ p.Source ∧ ms.Source
/-- Over a production. -/
def Production.Source : Production → Prop
  | .empty => True
  | .rule r => r.Source
  | .output e => Policy.Source e
end

mutual
/-- The policies the compiler accepts (apart from the type checks): distinct variable names in each rule, at
least one match in each rule, an output or a rule in each match, and nothing after an unconditional match
that always produces. -/
def Rule.WellFormed : Rule → Prop
  | .mk vars ms => (vars.map Prod.fst).Nodup ∧ ms ≠ .nil ∧ ms.WellFormed
/-- Over the matches. -/
def Matches.WellFormed : Matches → Prop
  | .nil => True
  | .cons c p ms => p.WellFormed ∧ ms.WellFormed ∧ (Unconditional c → Produces p → ms = .nil)
/-- Over a production. -/
def Production.WellFormed : Production → Prop
  | .empty => False
  | .rule r => r.WellFormed
  | .output _ => True
end

mutual
/-- At every node, at most one child is as tall as the limit. -/
def Chain (h : Nat) : Ex → Prop
  | .const _ => True
  | .ref _ => True
  | .loc _ => True
  | .index _ => True
  | .app _ args => (args.filter (fun a => decide (h ≤ height a))).length ≤ 1 ∧ ChainList h args
  | .compr _ _ a b c d e =>
    ([a, b, c, d, e].filter (fun a => decide (h ≤ height a))).length ≤ 1 ∧
      Chain h a ∧ Chain h b ∧ Chain h c ∧ Chain h d ∧ Chain h e
/-- Over a list. -/
def ChainList (h : Nat) : List Ex → Prop
  | [] => True
  | e :: es => Chain h e ∧ ChainList h es
end

end Policy
