import Verif.Walk.Main
import Verif.Proto.Types

set_option linter.unusedSimpArgs false
set_option linter.unusedVariables false

/-!
# The AST validators – `validator/*.cc`

A validation looks at the nodes of the navigable AST and reports issues.  An issue is where it is
(the id of an expression, `none`: nowhere) and what it says.
-/

namespace Cel.Walk
open Cel Cel.Proto Cel.Num

/-- What an issue says. -/
inductive Complaint where
  | depth (height max : Int)
  | nesting (count limit : Int)
  | typeMismatch (expected actual : TypeSpec)
  | badRegex (error : String)
  | badTimestamp
  | timestampRange
  | badDuration
  | durationRange

structure Issue where
  loc : Option Int
  what : Complaint

/-- What a validation returns and the issues it reports; `none`: undefined behaviour. -/
abbrev Verdict := Option (Bool × List Issue)

/-- `const NavigableAstNode&` and the expression it is for. -/
def nodeExpr (t : NExpr) (m : Nav) (i : Nat) : Option (NavNode × NNode × List NExpr) :=
  match m.nodes[i]? with
  | none => none
  | some x =>
    match deref t x.expr with
    | none => none
    | some (l, ks) => some (x, l, ks)

/-- `for (const auto& node : context.navigable_ast().Root().DescendantsPostorder())`. -/
def rootPostorder (m : Nav) : Option (List Nat) :=
  match m.nodes[0]? with
  | none => none
  | some x => m.descendantsPostorder x

/-- A loop over nodes that goes on after a failure. -/
def forNodes (t : NExpr) (m : Nav) (body : NavNode → NNode → List NExpr → Verdict) :
    List Nat → Verdict
  | [] => some (true, [])
  | i :: is =>
    match nodeExpr t m i with
    | none => none
    | some (x, l, ks) =>
      match body x l ks with
      | none => none
      | some (b, iss) =>
        match forNodes t m body is with
        | none => none
        | some (b', iss') => some (b && b', iss ++ iss')

/-- `AstDepthValidator(max_depth)` – `validator/ast_depth_validator.cc:24-34`.  Simplification: the
height, a `size_t`, is taken to fit in the `int` it is assigned to. -/
def astDepthValidator (maxDepth : Int) (m : Nav) : Verdict :=
  match m.nodes[0]? with
  | none => none
  | some root =>
    let height : Int := root.height
    if height > maxDepth then some (false, [⟨none, .depth height maxDepth⟩]) else some (true, [])

/-- `IsEmptyRangeComprehension` – `validator/comprehension_nesting_validator.cc:26-31`, on the
children of a comprehension. -/
def isEmptyRange (ks : List NExpr) : Bool :=
  match (ks[0]? : Option NExpr) with
  | some (.node ⟨_, .list opt⟩ _) => opt.isEmpty
  | _ => false

/-- The inner loop – `validator/comprehension_nesting_validator.cc:51-58`. -/
def countUp (t : NExpr) (m : Nav) : Nat → Option Nat → Int → Option Int
  | _, none, count => some count
  | 0, some _, _ => none
  | fuel + 1, some i, count =>
    match nodeExpr t m i with
    | none => none
    | some (x, l, ks) =>
      countUp t m fuel x.parent
        (if x.kind = .comprehension ∧ isEmptyRange ks = false then count + 1 else count)

/-- The outer loop – `validator/comprehension_nesting_validator.cc:40-66`. -/
def nestingLoop (t : NExpr) (m : Nav) (limit : Int) : List Nat → Verdict
  | [] => some (true, [])
  | i :: is =>
    match nodeExpr t m i with
    | none => none
    | some (x, l, ks) =>
      if x.kind ≠ .comprehension then nestingLoop t m limit is
      else if isEmptyRange ks then nestingLoop t m limit is
      else
        match countUp t m (m.nodes.length + 1) (some i) 0 with
        | none => none
        | some count =>
          if count > limit then some (false, [⟨some l.id, .nesting count limit⟩])
          else nestingLoop t m limit is

/-- `ComprehensionNestingLimitValidator(limit)`. -/
def nestingValidator (limit : Int) (t : NExpr) (m : Nav) : Verdict :=
  match rootPostorder m with
  | none => none
  | some is => nestingLoop t m limit is

/-- `exempt_functions.contains(expr()->call_expr().function())`. -/
def functionIn (exempt : List String) (l : NNode) : Bool :=
  match l.kind with
  | .call fn => exempt.contains fn
  | _ => false

/-- `InExemptFunction` – `validator/homogeneous_literal_validator.cc:33-48`, from `node.parent()`
on. -/
def inExempt (t : NExpr) (m : Nav) (exempt : List String) : Nat → Option Nat → Option Bool
  | _, none => some false
  | 0, some _ => none
  | fuel + 1, some i =>
    match nodeExpr t m i with
    | none => none
    | some (x, l, _) =>
      if x.kind = .call ∧ functionIn exempt l = true then
        some true
      else inExempt t m exempt fuel x.parent

/-- `IsOptional` – `validator/homogeneous_literal_validator.cc:50-52`. -/
def isOptional : TypeSpec → Bool
  | .abstract name _ => name = "optional_type"
  | _ => false

/-- `GetOptionalParameter` – `validator/homogeneous_literal_validator.cc:54-56`; `none`: there is no
parameter (reading it is undefined behaviour). -/
def optionalParameter : TypeSpec → Option TypeSpec
  | .abstract _ (p :: _) => some p
  | _ => none

mutual
/-- `TypeSpec::operator==` – `common/ast/metadata.h:730-743`, `common/ast/metadata.cc:183-214`. -/
def typeEq : TypeSpec → TypeSpec → Bool
  | .unset, .unset => true
  | .dyn, .dyn => true
  | .error, .error => true
  | .null, .null => true
  | .primitive p, .primitive q => p = q
  | .wrapper p, .wrapper q => p = q
  | .wellKnown p, .wellKnown q => p = q
  | .list a, .list b => typeEq a b
  | .map k v, .map k' v' => typeEq k k' && typeEq v v'
  | .function r as, .function r' as' => typeEq r r' && typesEq as as'
  | .message n, .message n' => n = n'
  | .typeParam n, .typeParam n' => n = n'
  | .typeNull, .typeNull => true
  | .typeOf a, .typeOf b => typeEq a b
  | .abstract n ps, .abstract n' ps' => n = n' && typesEq ps ps'
  | _, _ => false
def typesEq : List TypeSpec → List TypeSpec → Bool
  | [], [] => true
  | a :: as, b :: bs => typeEq a b && typesEq as bs
  | _, _ => false
end

mutual
/-- `TypeEquiv` – `validator/homogeneous_literal_validator.cc:65-106`. -/
def typeEquiv : TypeSpec → TypeSpec → Bool
  | .wrapper p, .primitive q => p = q
  | .primitive p, .wrapper q => p = q
  | .list a, .list b => typeEq (.list a) (.list b) || typeEquiv a b
  | .map k v, .map k' v' =>
    typeEq (.map k v) (.map k' v') || (typeEquiv k k' && typeEquiv v v')
  | .abstract n ps, .abstract n' ps' =>
    typeEq (.abstract n ps) (.abstract n' ps') || (n = n' && typesEquiv ps ps')
  | .error, _ => true
  | _, .error => true
  | a, b => typeEq a b
/-- The loop over the parameters, whose numbers have to agree. -/
def typesEquiv : List TypeSpec → List TypeSpec → Bool
  | [], [] => true
  | a :: as, b :: bs => typeEquiv a b && typesEquiv as bs
  | _, _ => false
end

/-- `element.expr().id()`: an unset one is the default expression. -/
def exprId : NExpr → Int
  | .absent => NNode.dflt.id
  | .node l _ => l.id

/-- The type that counts for an element: the parameter of an `optional_type`, for an optional
element – `validator/homogeneous_literal_validator.cc:127-132`. -/
def typeToCheck (optional : Bool) (actual : TypeSpec) : Option TypeSpec :=
  if optional && isOptional actual then optionalParameter actual else some actual

/-- The elements of a list – `validator/homogeneous_literal_validator.cc:122-146`. -/
def listLoop (types : Int → TypeSpec) : Option TypeSpec → List Bool → List NExpr → Verdict
  | expected, o :: os, k :: ks =>
    match typeToCheck o (types (exprId k)) with
    | none => none
    | some ty =>
      match expected with
      | none => listLoop types (some ty) os ks
      | some e =>
        if typeEquiv e ty then listLoop types (some e) os ks
        else some (false, [⟨some (exprId k), .typeMismatch e ty⟩])
  | _, _, _ => some (true, [])

/-- The entries of a map – `validator/homogeneous_literal_validator.cc:152-188`. -/
def mapLoop (types : Int → TypeSpec) : Option (TypeSpec × TypeSpec) → List NEntry → List NExpr →
    Verdict
  | expected, en :: es, k :: v :: ks =>
    match typeToCheck en.optional (types (exprId v)) with
    | none => none
    | some vty =>
      let kty := types (exprId k)
      match expected with
      | none => mapLoop types (some (kty, vty)) es ks
      | some (ek, ev) =>
        if !typeEquiv ek kty then some (false, [⟨some (exprId k), .typeMismatch ek kty⟩])
        else if !typeEquiv ev vty then some (false, [⟨some (exprId v), .typeMismatch ev vty⟩])
        else mapLoop types (some (ek, ev)) es ks
  | _, _, _ => some (true, [])

/-- The body of the loop – `validator/homogeneous_literal_validator.cc:116-190`. -/
def homogeneousBody (t : NExpr) (m : Nav) (types : Int → TypeSpec) (exempt : List String)
    (x : NavNode) (l : NNode) (ks : List NExpr) : Verdict :=
  match l.kind with
  | .list opt =>
    match inExempt t m exempt (m.nodes.length + 1) x.parent with
    | none => none
    | some true => some (true, [])
    | some false => listLoop types none opt ks
  | .map es =>
    match inExempt t m exempt (m.nodes.length + 1) x.parent with
    | none => none
    | some true => some (true, [])
    | some false => mapLoop types none es ks
  | _ => some (true, [])

/-- `HomogeneousLiteralValidator(exempt_functions)`; `types` is `Ast::GetTypeOrDyn`. -/
def homogeneousValidator (types : Int → TypeSpec) (exempt : List String) (t : NExpr) (m : Nav) :
    Verdict :=
  match rootPostorder m with
  | none => none
  | some is => forNodes t m (homogeneousBody t m types exempt) is

/-- `CheckPattern` – `validator/regex_validator.cc:32-69`; `re` is what is wrong with a pattern
(RE2), `args` the children of the call (target first). -/
def checkPattern (re : String → Option String) (argIndex : Int) (ks : List NExpr) :
    Bool × List Issue :=
  let size : Int := (ks.length : Int) - 1
  let pattern : Option NExpr :=
    if hasChild ks 0 then
      if argIndex = 0 then ks[0]?
      else if size > argIndex - 1 ∧ 0 ≤ argIndex - 1 then ks[(argIndex - 1 + 1).toNat]? else none
    else if size > argIndex ∧ 0 ≤ argIndex then ks[(argIndex + 1).toNat]? else none
  match pattern with
  | some (.node ⟨id, .const (.string s)⟩ _) =>
    match re s with
    | some e => (false, [⟨some id, .badRegex e⟩])
    | none => (true, [])
  | _ => (true, [])

/-- The first configuration for the function – `validator/regex_validator.cc:82-89`. -/
def regexBody (re : String → Option String) (config : List (String × Int))
    (x : NavNode) (l : NNode) (ks : List NExpr) : Verdict :=
  match l.kind with
  | .call fn =>
    match config.find? (fun c => c.1 = fn) with
    | some c => some (checkPattern re c.2 ks)
    | none => some (true, [])
  | _ => some (true, [])

/-- `RegexPatternValidator(id, config)`. -/
def regexValidator (re : String → Option String) (config : List (String × Int)) (t : NExpr)
    (m : Nav) : Verdict :=
  match rootPostorder m with
  | none => none
  | some is => forNodes t m (regexBody re config) is

/-- `internal::ValidateTimestamp` – `internal/time.cc:105-119`. -/
def timestampOk : Tm → Bool
  | .inf _ => false
  | .fin s => decide (minTmTicks ≤ s ∧ s ≤ maxTmTicks)

/-- `internal::ValidateDuration` – `internal/time.cc:72-86`. -/
def durationOk : Dur → Bool
  | .inf _ => false
  | .fin s => decide (minDurTicks ≤ s ∧ s ≤ maxDurTicks)

/-- `absl::FromUnixSeconds`. -/
def fromUnixSeconds (s : Int) : Tm := .fin (s * tps)

/-- The only child of a call, if it is a constant – `validator/timestamp_literal_validator.cc:40-50`. -/
def literalArg (t : NExpr) (m : Nav) (x : NavNode) : Option (Option (Int × Const)) :=
  match x.children with
  | [c] =>
    match nodeExpr t m c with
    | none => none
    | some (y, l, _) =>
      match l.kind with
      | .const k => some (some (l.id, k))
      | _ => some none
  | _ => some none

/-- `ValidateTimestamps` – `validator/timestamp_literal_validator.cc:32-74`; `parse` is
`absl::ParseTime(absl::RFC3339_full, ..)`. -/
def timestampBody (parse : String → Option Tm) (t : NExpr) (m : Nav) (x : NavNode) (l : NNode)
    (ks : List NExpr) : Verdict :=
  match l.kind with
  | .call fn =>
    if fn ≠ "timestamp" then some (true, [])
    else match literalArg t m x with
      | none => none
      | some none => some (true, [])
      | some (some (id, c)) =>
        match c with
        | .string s =>
          match parse s with
          | none => some (false, [⟨some id, .badTimestamp⟩])
          | some ts =>
            if timestampOk ts then some (true, []) else some (false, [⟨some id, .timestampRange⟩])
        | .int i =>
          if timestampOk (fromUnixSeconds i) then some (true, [])
          else some (false, [⟨some id, .timestampRange⟩])
        | _ => some (true, [])
  | _ => some (true, [])

def timestampValidator (parse : String → Option Tm) (t : NExpr) (m : Nav) : Verdict :=
  match rootPostorder m with
  | none => none
  | some is => forNodes t m (timestampBody parse t m) is

/-- `ValidateDurations` – `validator/timestamp_literal_validator.cc:76-119`; `parse` is
`absl::ParseDuration`. -/
def durationBody (parse : String → Option Dur) (t : NExpr) (m : Nav) (x : NavNode) (l : NNode)
    (ks : List NExpr) : Verdict :=
  match l.kind with
  | .call fn =>
    if fn ≠ "duration" then some (true, [])
    else match literalArg t m x with
      | none => none
      | some none => some (true, [])
      | some (some (id, c)) =>
        match c with
        | .string s =>
          match parse s with
          | none => some (false, [⟨some id, .badDuration⟩])
          | some d =>
            if durationOk d then some (true, []) else some (false, [⟨some id, .durationRange⟩])
        | _ => some (true, [])
  | _ => some (true, [])

def durationValidator (parse : String → Option Dur) (t : NExpr) (m : Nav) : Verdict :=
  match rootPostorder m with
  | none => none
  | some is => forNodes t m (durationBody parse t m) is

/-- `Validator::Validate` – `validator/validator.cc:32-42`. -/
def validate : List Verdict → Verdict
  | [] => some (true, [])
  | v :: vs =>
    match v with
    | none => none
    | some (b, iss) =>
      match validate vs with
      | none => none
      | some (b', iss') => some (b && b', iss ++ iss')

/-- The part of a `ValidationResult` the validator touches: the AST, if there still is one, and the
issues. -/
structure VResult where
  ast : Option NExpr
  issues : List Issue

/-- `Validator::UpdateValidationResult` – `validator/validator.cc:44-57`; `run` is `Validate`. -/
def updateResult (run : NExpr → Verdict) (r : VResult) : Option VResult :=
  match r.ast with
  | none => some r
  | some ast =>
    match run ast with
    | none => none
    | some (valid, issues) => some ⟨if valid then some ast else none, r.issues ++ issues⟩

end Cel.Walk
