import Verif.Policy.Ast

/-!
# The policy compiler

Model of policy/compiler.cc from `CompileRule` (433-498) through `FirstMatchComposer` (545-900) to `Unnester`
(903-1048) and `CompilePolicy` (1052-1110).

Not modelled: parsing and type checking of the embedded expressions (the model starts from checked
expressions), output types (`OutputTypeIsCompatible`), the check of the composed expression, expression ids
and source positions, explanations (they are compiled and not used).
-/

namespace Policy

mutual
/-- `cel::Rule` (policy/cel_policy.h): variables in declaration order, then matches. -/
inductive Rule where
  | mk (vars : List (String × Ex)) (ms : Matches)
/-- The matches of a rule: an optional condition and what is produced. -/
inductive Matches where
  | nil
  | cons (c : Option Ex) (p : Production) (ms : Matches)
/-- `Match::has_output_block` / `Match::has_rule` / neither (`std::monostate`). -/
inductive Production where
  | empty
  | rule (r : Rule)
  | output (e : Ex)
end

/-- Why a policy is refused. The last three are `absl::InternalError`s. -/
inductive Refusal where
  | overlappingIdentifier
  | noProduction
  | noMatches
  | unreachable
  | cannotUnnest
  | badLimit
  | internalUnreachable
  | internalNotWrapped
  | internalExhaustive
  deriving Repr, DecidableEq

/-! ## CompileRule -/

/-- The duplicate check of `CompileRule` (policy/compiler.cc:438-446). -/
def varsDistinct : List String → List (String × Ex) → Bool
  | _, [] => true
  | seen, (x, _) :: vs => !seen.contains x && varsDistinct (x :: seen) vs

/-- `absl::StrCat("variables.", name)` (policy/compiler.cc:447). -/
def ident (x : String) : String := "variables." ++ x

mutual
/-- `CompileRule` (policy/compiler.cc:433-498) as far as it can refuse here: all issues of severity error are
collected, and any of them ends the compilation (1081-1084).  The first is reported. -/
def checkRule : Rule → Except Refusal Unit
  | .mk vars ms =>
    if varsDistinct [] vars then checkMatches ms else .error .overlappingIdentifier
/-- The loop over the matches. -/
def checkMatches : Matches → Except Refusal Unit
  | .nil => .ok ()
  | .cons _ p ms =>
    match checkProd p with
    | .error e => .error e
    | .ok () => checkMatches ms
/-- `CompileMatch` (policy/compiler.cc:399-431). -/
def checkProd : Production → Except Refusal Unit
  | .empty => .error .noProduction
  | .rule r => checkRule r
  | .output _ => .ok ()
end

/-! ## Exhaustiveness -/

/-- `IsTriviallyTrueCondition` (policy/compiler.cc:631-643). -/
def trivial : Option Ex → Bool
  | none => true
  | some (.const (.bool true)) => true
  | some _ => false

mutual
/-- `IsExhaustive(rule)` (policy/compiler.cc:660-683). -/
def exhaustive : Rule → Bool
  | .mk _ ms => exhaustiveFrom false ms
/-- The loop, with the flag `has_default`. -/
def exhaustiveFrom : Bool → Matches → Bool
  | hasDefault, .nil => hasDefault
  | hasDefault, .cons c p ms =>
    if !trivial c && !exhaustiveProd p then false
    else exhaustiveFrom (hasDefault || (trivial c && exhaustiveProd p)) ms
/-- `IsExhaustive(match)` (policy/compiler.cc:647-658). -/
def exhaustiveProd : Production → Bool
  | .empty => false
  | .rule r => exhaustive r
  | .output _ => true
end

mutual
/-- `CheckMatchStructure` (policy/compiler.cc:685-721). -/
def structureOk : Rule → Except Refusal Unit
  | .mk _ .nil => .error .noMatches
  | .mk _ (.cons c p ms) => structureFrom false (.cons c p ms)
/-- The loop, with the flag `seen_trivially_true`. -/
def structureFrom : Bool → Matches → Except Refusal Unit
  | _, .nil => .ok ()
  | seen, .cons c p ms =>
    if seen then .error .unreachable
    else
      match structureProd p with
      | .error e => .error e
      | .ok () => structureFrom (trivial c && exhaustiveProd p) ms
/-- The recursion into nested rules. -/
def structureProd : Production → Except Refusal Unit
  | .empty => .ok ()
  | .rule r => structureOk r
  | .output _ => .ok ()
end

/-! ## Composition -/

/-- `VariableScope` (policy/compiler.cc:571): names to slot numbers; the newest entry wins. -/
abbrev Scope := List (String × Nat)

/-- `ResolvePolicyVariable` (policy/compiler.cc:723-732); the scopes are listed innermost first, and a later
entry of the same scope has replaced the earlier one. -/
def resolve : List Scope → String → Option Nat
  | [], _ => none
  | s :: ss, x =>
    match s.lookup x with
    | some n => some n
    | none => resolve ss x

/-- `absl::StartsWith(ref.name(), "variable")` followed by the lookup (policy/compiler.cc:877-892). -/
def blockIndex (ss : List Scope) (x : String) : Option Nat :=
  if "variable".toList.isPrefixOf x.toList then resolve ss x else none

mutual
/-- `MapVariables` (policy/compiler.cc:894-898) with `IndexRewrite` (734-756). -/
def mapVars (ss : List Scope) : Ex → Ex
  | .const v => .const v
  | .ref x =>
    match blockIndex ss x with
    | some n => .index n
    | none => .ref x
  | .loc x => .loc x
  | .index n => .index n
  | .app op args => .app op (mapVarsList ss args)
  | .compr iv av a b c d e =>
    .compr iv av (mapVars ss a) (mapVars ss b) (mapVars ss c) (mapVars ss d) (mapVars ss e)
/-- Over a list. -/
def mapVarsList (ss : List Scope) : List Ex → List Ex
  | [] => []
  | e :: es => mapVars ss e :: mapVarsList ss es
end

/-- `ComposeRuleVariables` (policy/compiler.cc:900-918): each variable becomes a slot, and is in scope for
those after it. `s` is the scope of this rule, `ss` those around it. -/
def composeVars (ss : List Scope) : Scope → List Ex → List (String × Ex) → Scope × List Ex
  | s, init, [] => (s, init)
  | s, init, (x, e) :: vs =>
    composeVars ss ((ident x, init.length) :: s) (init ++ [mapVars (s :: ss) e]) vs

/-- `optional.of(e)` when the rule must wrap and the production is not wrapped
(policy/compiler.cc:784-786, 822-824). -/
def wrapIf (needsWrap isWrapped : Bool) (e : Ex) : Ex :=
  if needsWrap && !isWrapped then .app .optOf [e] else e

mutual
/-- `ComposeRule` (policy/compiler.cc:758-838): the slots so far, to the slots, the expression, and whether it
is optional. `rule.matches.back()` on a rule without matches is undefined; `Compose` has refused those. -/
def composeRule (ss : List Scope) (init : List Ex) : Rule → Except Refusal (List Ex × Ex × Bool)
  | .mk vars ms =>
    composeMatches ((composeVars ss [] init vars).1 :: ss) (!exhaustiveFrom false ms)
      (composeVars ss [] init vars).2 ms
/-- The loop of `ComposeRule` and what follows it. The last match is left out of the loop when its condition is
trivially true (`has_default`). -/
def composeMatches (ss : List Scope) (needsWrap : Bool) (init : List Ex) :
    Matches → Except Refusal (List Ex × Ex × Bool)
  | .nil => .ok (init, .app .optNone [], true)
  | .cons c p ms =>
    match trivial c, ms with
    | true, .nil =>
      -- has_default: policy/compiler.cc:815-831
      match composeProd ss init p with
      | .error e => .error e
      | .ok (init1, e1, w1) => .ok (init1, wrapIf needsWrap w1 e1, needsWrap)
    | true, .cons c' p' ms' =>
      if exhaustiveProd p then .error .internalUnreachable
      else
        match composeProd ss init p with
        | .error e => .error e
        | .ok (init1, e1, w1) =>
          if w1 then
            match composeMatches ss needsWrap init1 (.cons c' p' ms') with
            | .error e => .error e
            | .ok (init2, e2, w2) =>
              .ok (init2, .app (if needsWrap then .orElse else .orValue) [wrapIf needsWrap w1 e1, e2], w2)
          else .error .internalNotWrapped
    | false, ms =>
      match composeProd ss init p with
      | .error e => .error e
      | .ok (init1, e1, w1) =>
        match composeMatches ss needsWrap init1 ms with
        | .error e => .error e
        | .ok (init2, e2, w2) =>
          .ok (init2,
            .app .cond [mapVars ss (c.getD (.const (.bool true))), wrapIf needsWrap w1 e1, e2], w2)
/-- `ComposeProduction` (policy/compiler.cc:840-866). -/
def composeProd (ss : List Scope) (init : List Ex) : Production → Except Refusal (List Ex × Ex × Bool)
  | .empty => .error .noProduction
  | .rule r => composeRule ss init r
  | .output e => .ok (init, mapVars ss e, false)
end

/-- `FirstMatchComposer::Compose` (policy/compiler.cc:600-629), without the final type check. -/
def compose (r : Rule) : Except Refusal Prog :=
  match structureOk r with
  | .error e => .error e
  | .ok () =>
    match composeRule [] [] r with
    | .error e => .error e
    | .ok (init, body, wrapped) =>
      if wrapped = !exhaustive r then .ok ⟨init, body⟩ else .error .internalExhaustive

/-! ## Unnesting -/

/-- `node.height() % height_ == 0` (policy/compiler.cc:990). -/
def cutHere (h : Nat) (e : Ex) : Bool := height e % h == 0

mutual
/-- Does `e` have a node whose height is a multiple of the limit and which is a comprehension or inside one?  The first pass of `Slice` (policy/compiler.cc:986-1003) with
`HasComprehensionParent` (905-914); `inC` says whether an ancestor is a comprehension. -/
def blocked (h : Nat) (inC : Bool) : Ex → Bool
  | .const v => inC && cutHere h (.const v)
  | .ref x => inC && cutHere h (.ref x)
  | .loc x => inC && cutHere h (.loc x)
  | .index n => inC && cutHere h (.index n)
  | .app op args => (inC && cutHere h (.app op args)) || blockedList h inC args
  | .compr iv av a b c d e =>
    cutHere h (.compr iv av a b c d e) ||
      (blocked h true a || blocked h true b || blocked h true c || blocked h true d || blocked h true e)
/-- Over a list. -/
def blockedList (h : Nat) (inC : Bool) : List Ex → Bool
  | [] => false
  | e :: es => blocked h inC e || blockedList h inC es
end

/-- `PostVisitRewrite`: cut the node whose original form is `orig`, given the result of its children. -/
def cut (h : Nat) (orig : Ex) (r : List Ex × Ex) : List Ex × Ex :=
  if cutHere h orig then (r.1 ++ [r.2], .index r.1.length) else r

mutual
/-- `UnnestRewriter` (policy/compiler.cc:945-976): in postorder, a node to be cut is appended to the block list and
replaced by its index. The heights are those before any rewriting. Returns the block list and the
expression. -/
def slice (h : Nat) (init : List Ex) : Ex → List Ex × Ex
  | .const v => cut h (.const v) (init, .const v)
  | .ref x => cut h (.ref x) (init, .ref x)
  | .loc x => cut h (.loc x) (init, .loc x)
  | .index n => cut h (.index n) (init, .index n)
  | .app op args =>
    cut h (.app op args) ((sliceList h init args).1, .app op (sliceList h init args).2)
  | .compr iv av a b c d e =>
    cut h (.compr iv av a b c d e)
      ((slice h (slice h (slice h (slice h (slice h init a).1 b).1 c).1 d).1 e).1,
       .compr iv av (slice h init a).2 (slice h (slice h init a).1 b).2
        (slice h (slice h (slice h init a).1 b).1 c).2
        (slice h (slice h (slice h (slice h init a).1 b).1 c).1 d).2
        (slice h (slice h (slice h (slice h (slice h init a).1 b).1 c).1 d).1 e).2)
/-- Over a list, left to right. -/
def sliceList (h : Nat) (init : List Ex) : List Ex → List Ex × List Ex
  | [] => (init, [])
  | e :: es =>
    ((sliceList h (slice h init e).1 es).1, (slice h init e).2 :: (sliceList h (slice h init e).1 es).2)
end

/-- `Unnester::Unnest` (policy/compiler.cc:925-931): `Slice` unless the limit is 0, then `Cleanup`.
The first pass looks at the whole block, the second rewrites only the body (policy/compiler.cc:1008-1013).
The root is not cut: it is outside the body. (It is no comprehension either, and has no comprehension
above it.) The list of slots is a node of its own, but not in a comprehension. -/
def unnest (h : Nat) (p : Prog) : Except Refusal Prog :=
  if h = 0 then .ok p
  else if blockedList h false p.inits || blocked h false p.body then .error .cannotUnnest
  else .ok ⟨(slice h p.inits p.body).1, (slice h p.inits p.body).2⟩

/-- `CompilePolicy` (policy/compiler.cc:1052-1110). -/
def compilePolicy (limit : Nat) (r : Rule) : Except Refusal Prog :=
  if limit ≠ 0 ∧ limit < 2 then .error .badLimit
  else
    match checkRule r with
    | .error e => .error e
    | .ok () =>
      match compose r with
      | .error e => .error e
      | .ok p => unnest limit p

end Policy
