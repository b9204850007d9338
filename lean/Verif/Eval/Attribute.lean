import Verif.Eval.Order
import Verif.Base

/-!
# Attributes, attribute patterns, unknown sets

`base/attribute.h`, `base/attribute.cc`, `base/attribute_set.h`, `common/function_descriptor.cc`,
`eval/eval/attribute_trail.h`, `eval/eval/attribute_utility.cc`.
-/

namespace Cel.Eval

/-- `cel::AttributeQualifier`'s variant (`base/attribute.h` lines 41, 124); `invalid k` is the `Kind`
alternative that stands for every unsupported qualifier value (the public constructors only make
`Kind` 0). -/
inductive Qual where
  | invalid (k : Nat)
  | int (i : Int)
  | uint (u : Int)
  | str (s : String)
  | bool (b : Bool)
  deriving DecidableEq, Repr

/-- `AttributeQualifier::IsMatch` / `operator==` (`base/attribute.h` lines 97-99,
`base/attribute.cc` lines 315-321). -/
def Qual.eq (a b : Qual) : Bool :=
  match a, b with
  | .invalid _, _ => false
  | _, .invalid _ => false
  | .int x, .int y => decide (x = y)
  | .uint x, .uint y => decide (x = y)
  | .str x, .str y => decide (x = y)
  | .bool x, .bool y => decide (x = y)
  | _, _ => false

/-- `AttributeQualifier::operator<` with the five comparator visitors
(`base/attribute.cc` lines 138-245). -/
def Qual.lt (a b : Qual) : Bool :=
  match a with
  | .invalid x => match b with | .invalid y => decide (x < y) | _ => false
  | .int x => match b with
    | .invalid _ => true | .int y => decide (x < y) | .uint _ => true | .str _ => true | .bool _ => false
  | .uint x => match b with
    | .invalid _ => true | .int _ => false | .uint y => decide (x < y) | .str _ => true | .bool _ => false
  | .str x => match b with
    | .invalid _ => true | .int _ => false | .uint _ => false | .str y => strLt x y | .bool _ => false
  | .bool x => match b with
    | .invalid _ => true | .int _ => true | .uint _ => true | .str _ => true
    | .bool y => decide (x = false ∧ y = true)

/-- `cel::Attribute` (`base/attribute.h` lines 178-214). -/
structure Attr where
  var : String
  path : List Qual
  deriving DecidableEq, Repr

/-- The element loop of `Attribute::operator==` (`base/attribute.cc` lines 259-263). -/
def pathEq : List Qual → List Qual → Bool
  | [], [] => true
  | a :: as, b :: bs => if !(Qual.eq a b) then false else pathEq as bs
  | _, _ => false

/-- `Attribute::operator==` (`base/attribute.cc` lines 247-266). -/
def Attr.eq (a b : Attr) : Bool :=
  if a.var ≠ b.var then false
  else if a.path.length ≠ b.path.length then false
  else pathEq a.path b.path

/-- `Attribute::operator<` (`base/attribute.cc` lines 268-297).  Simplified: the pointer-identity
shortcut is omitted (it returns `false`, as the loop does on identical contents). -/
def Attr.lt (a b : Attr) : Bool :=
  lexLoop Qual.lt Qual.eq (strLt a.var b.var) a.path b.path

/-- `AttributeQualifierPattern` (`base/attribute.h` lines 130-175): `none` is the wildcard. -/
abbrev QualPat := Option Qual

/-- `AttributeQualifierPattern::IsMatch` (`base/attribute.h` lines 166-169). -/
def QualPat.isMatch (p : QualPat) (q : Qual) : Bool :=
  match p with
  | none => true
  | some v => Qual.eq v q

/-- `cel::AttributePattern` (`base/attribute.h` lines 221-267). -/
structure Pattern where
  var : String
  path : List QualPat
  deriving DecidableEq, Repr

/-- `AttributePattern::MatchType` (`base/attribute.h` lines 224-228). -/
inductive MatchType where
  | none | partialMatch | full
  deriving DecidableEq, Repr

/-- Loop body of `AttributePattern::IsMatch` at index `i` (`base/attribute.h` lines 256-260). -/
def Pattern.matchAt (p : Pattern) (a : Attr) (i : Nat) : Bool :=
  match p.path[i]?, a.path[i]? with
  | some qp, some q => QualPat.isMatch qp q
  | _, _ => false

/-- `AttributePattern::IsMatch` (`base/attribute.h` lines 243-262). -/
def Pattern.isMatch (p : Pattern) (a : Attr) : MatchType :=
  if a.var ≠ p.var then .none
  else
    let maxIndex := if p.path.length > a.path.length then a.path.length else p.path.length
    let result := if p.path.length > a.path.length then MatchType.partialMatch else MatchType.full
    if (List.range maxIndex).all (p.matchAt a) then result else .none

/-- Loop of `MatchAgainstPatterns` (`eval/eval/attribute_utility.cc` lines 53-61). -/
def matchLoop (a : Attr) : List Pattern → MatchType → MatchType
  | [], r => r
  | p :: ps, r =>
    match p.isMatch a with
    | .full => .full
    | .partialMatch => matchLoop a ps .partialMatch
    | .none => matchLoop a ps r

/-- `MatchAgainstPatterns` (`eval/eval/attribute_utility.cc` lines 50-63). -/
def matchAgainst (ps : List Pattern) (a : Attr) : MatchType := matchLoop a ps .none

/-- `AttributeTrail`: absent or an attribute (`eval/eval/attribute_trail.h` lines 20-60). -/
abbrev Trail := Option Attr

/-- `AttributeTrail::Step` (`eval/eval/attribute_trail.cc` lines 22-33): an empty trail stays
empty. -/
def Trail.step (t : Trail) (q : Qual) : Trail :=
  match t with
  | none => none
  | some a => some ⟨a.var, a.path ++ [q]⟩

/-- `cel::FunctionDescriptor` (`common/function_descriptor.h` lines 46-120); kinds are numbers. -/
structure FnDesc where
  name : String
  receiver : Bool
  kinds : List Nat
  strict : Bool
  deriving DecidableEq, Repr

/-- `FunctionDescriptor::operator==` (`common/function_descriptor.cc` lines 47-53). -/
def FnDesc.eq (a b : FnDesc) : Bool :=
  decide (a.name = b.name) && decide (a.receiver = b.receiver) && decide (a.kinds = b.kinds)

/-- `FunctionDescriptor::operator<` (`common/function_descriptor.cc` lines 55-96). -/
def FnDesc.lt (a b : FnDesc) : Bool :=
  if strLt a.name b.name then true
  else if a.name ≠ b.name then false
  else if a.receiver = false ∧ b.receiver = true then true
  else if a.receiver ≠ b.receiver then false
  else lexLoop natLt natEq false a.kinds b.kinds

/-- `cel::FunctionResult` (`base/function_result.h` lines 27-58). -/
structure FnResult where
  desc : FnDesc
  exprId : Int
  deriving DecidableEq, Repr

/-- `operator<` on `FunctionResult` (`base/function_result.h` lines 64-66). -/
def FnResult.lt (a b : FnResult) : Bool := FnDesc.lt a.desc b.desc

/-- `cel::Unknown` = `AttributeSet` + `FunctionResultSet` (`common/unknown.h`,
`base/internal/unknown_set.h` lines 31-46); the two `btree_set`s as ascending lists. -/
structure UnknownSet where
  attrs : List Attr
  fns : List FnResult
  deriving DecidableEq, Repr

/-- `AttributeSet::Merge` / repeated `Add` (`base/attribute_set.h` lines 56-61, 84-97). -/
def attrUnion (a b : List Attr) : List Attr := setUnion Attr.lt a b

/-- `FunctionResultSet` merge (`base/function_result_set.cc` lines 20-26). -/
def fnUnion (a b : List FnResult) : List FnResult := setUnion FnResult.lt a b

/-- `AttributeUtility::MergeUnknownValues` (`eval/eval/attribute_utility.cc` lines 133-146):
two empty sets to which both operands are added in order. -/
def UnknownSet.merge (a b : UnknownSet) : UnknownSet :=
  ⟨attrUnion (attrUnion [] a.attrs) b.attrs, fnUnion (fnUnion [] a.fns) b.fns⟩

/-- `AttributeUtility::CheckForMissingAttribute` (`eval/eval/attribute_utility.cc` lines 75-86). -/
def checkMissing (ps : List Pattern) (t : Trail) : Bool :=
  match t with
  | none => false
  | some a => decide (matchAgainst ps a = .full)

/-- `AttributeUtility::CheckForUnknown` (`eval/eval/attribute_utility.cc` lines 89-101). -/
def checkUnknown (ps : List Pattern) (t : Trail) (usePartial : Bool) : Bool :=
  match t with
  | none => false
  | some a =>
    match matchAgainst ps a with
    | .full => true
    | .partialMatch => usePartial
    | .none => false

/-- `AttributeUtility::CreateUnknownSet(attr)` (`eval/eval/attribute_utility.cc` lines 202-204). -/
def unknownOf (a : Attr) : UnknownSet := ⟨[a], []⟩

/-- `Attribute::AsString` part: one qualifier (`base/attribute.cc` lines 35-72).  `none` is the
InvalidArgument status. -/
def Qual.asSuffix : Qual → Option String
  | .invalid _ => none
  | .int i => some ("[" ++ toString i ++ "]")
  | .uint u => some ("[" ++ toString u ++ "]")
  | .bool b => some ("[" ++ (if b then "true" else "false") ++ "]")
  | .str s => some ("." ++ s)

/-- The qualifier loop of `Attribute::AsString` (`base/attribute.cc` lines 307-312). -/
def asStringLoop (acc : String) : List Qual → Option String
  | [] => some acc
  | q :: qs => match q.asSuffix with
    | none => none
    | some s => asStringLoop (acc ++ s) qs

/-- `Attribute::AsString` (`base/attribute.cc` lines 299-313). -/
def Attr.asString (a : Attr) : Option String :=
  if a.var = "" then none else asStringLoop a.var a.path

end Cel.Eval
