import Verif.Syntax.Ast

/-
The unparser (`tools/cel_unparser.cc`), printing tokens.

Simplifications: white space is left out and the text is already cut into
tokens; `source_info.macro_calls` is empty (with an entry, the unparser prints
the recorded call in place of the expression).
-/

set_option linter.unusedVariables false

namespace Cel.Syntax

/-! ### Operators (common/operators.cc) -/

/-- `LookupPrecedence` (common/operators.cc:104-133, 168-175). -/
def prec : Op → Nat
  | .cond => 8
  | .or => 7
  | .and => 6
  | .eq | .gt | .ge | .in_ | .lt | .le | .ne | .inOld => 5
  | .add | .sub => 4
  | .div | .mod | .mul => 3
  | .not | .neg => 2
  | .index => 1
  | .optIndex | .optSelect | .notStrictlyFalse => 0

/-- The same for the function of a call. -/
def Fn.prec : Fn → Nat
  | .op o => Syntax.prec o
  | .name _ => 0

/-- `LookupUnaryOperator` (common/operators.cc:33-37). -/
def unaryTok : Fn → Option Tok
  | .op .neg => some .minus
  | .op .not => some .excl
  | _ => none

/-- `LookupBinaryOperator` (common/operators.cc:39-57). -/
def binaryTok : Fn → Option Tok
  | .op .or => some .or
  | .op .and => some .and
  | .op .le => some .le
  | .op .lt => some .lt
  | .op .ge => some .ge
  | .op .gt => some .gt
  | .op .eq => some .eq
  | .op .ne => some .ne
  | .op .inOld => some .in_
  | .op .in_ => some .in_
  | .op .add => some .plus
  | .op .sub => some .minus
  | .op .mul => some .star
  | .op .div => some .slash
  | .op .mod => some .percent
  | _ => none

/-- `IsOperatorSamePrecedence(op, expr)` (common/operators.cc:213-219). -/
def samePrec (p : Nat) : Ex → Bool
  | .call fn _ => p == fn.prec
  | .mcall _ _ _ => p == 0
  | _ => false

/-- `IsOperatorLowerPrecedence(op, expr)` (common/operators.cc:221-227). -/
def lowerPrec (p : Nat) : Ex → Bool
  | .call fn _ => p < fn.prec
  | _ => false

/-- `IsOperatorLeftRecursive` (common/operators.cc:229-231). -/
def leftRecursive : Fn → Bool
  | .op .and => false
  | .op .or => false
  | _ => true

/-! ### Which operands are parenthesized -/

/-- `IsComplexOperator` (cel_unparser.cc:546-549). -/
def isComplex : Ex → Bool
  | .call _ args => 2 ≤ args.length
  | .mcall _ _ args => 2 ≤ args.length
  | _ => false

/-- `IsComplexOperatorWithRespectTo` (cel_unparser.cc:536-544). -/
def complexWrt (fn : Fn) (e : Ex) : Bool := isComplex e && lowerPrec fn.prec e

/-- The function of a call expression. -/
def callFn : Ex → Option Fn
  | .call fn _ => some fn
  | _ => none

/-- `IsBinaryOrTernaryOperator` (cel_unparser.cc:555-561). -/
def isBinTern (e : Ex) : Bool :=
  isComplex e && ((match callFn e with
    | some fn => (binaryTok fn).isSome
    | none => false) || samePrec 8 e)

/-- `VisitMaybeNested` (cel_unparser.cc:484-494). -/
def nested (b : Bool) (ts : List Tok) : List Tok :=
  if b then .lparen :: ts ++ [.rparen] else ts

/-! ### Pieces without recursion -/

/-- `kSimpleIdentifierPattern` (cel_unparser.cc:66). -/
def isSimpleId (s : String) : Bool :=
  match s.toList with
  | [] => false
  | c :: cs => (c.isAlpha || c == '_') && cs.all fun c => c.isAlphanum || c == '_'

/-- A name printed as it is, as the lexer reads it. -/
def rawTok (s : String) : Tok :=
  if s = "true" then .true_ else if s = "false" then .false_ else if s = "null" then .null_
  else if s = "in" then .in_ else .id s

/-- `FormatField` (cel_unparser.cc:75-81). -/
def fieldTok (s : String) : Tok :=
  if s = "in" || !isSimpleId s then .esc s else rawTok s

/-- A name with its leading dot. -/
def nameToks (n : Name) : List Tok := if n.dot then [.dot, rawTok n.id] else [rawTok n.id]

/-- `VisitConst` (cel_unparser.cc:197-228). -/
def constToks (cfg : Cfg) : Const → List Tok
  | .null => [.null_]
  | .bool b => [if b then .true_ else .false_]
  | .int i => if i < 0 then [.minus, .int i.natAbs] else [.int i.natAbs]
  | .uint n => [.uint n]
  | .dbl neg m => if neg then [.minus, cfg.dblTok m] else [cfg.dblTok m]
  | .str s => [.str s]
  | .bytes b => [.bytes b]

/-- Parts with a separator between them. -/
def sepBy (sep : Tok) : List (List Tok) → List Tok
  | [] => []
  | [t] => t
  | t :: ts => t ++ sep :: sepBy sep ts

/-- `'?'` for an optional part. -/
def optToks (b : Bool) (ts : List Tok) : List Tok := if b then .quest :: ts else ts

/-- `VisitUnary` (cel_unparser.cc:433-443). -/
def printUnary (t : Tok) (args : Exs) (ts : List (List Tok)) : Option (List Tok) :=
  match args, ts with
  | .cons a .nil, [ta] => some (t :: nested (isComplex a) ta)
  | _, _ => none

/-- The operands of a logical operator (cel_unparser.cc:452-461). -/
def logicParts (fn : Fn) : Exs → List (List Tok) → List (List Tok)
  | .cons a as, t :: ts => nested (complexWrt fn a) t :: logicParts fn as ts
  | _, _ => []

/-- `VisitBinary` (cel_unparser.cc:445-482). -/
def printBinary (fn : Fn) (t : Tok) (args : Exs) (ts : List (List Tok)) : Option (List Tok) :=
  if args.length < 2 then none
  else if fn = .op .and ∨ fn = .op .or then some (sepBy t (logicParts fn args ts))
  else match args, ts with
    | .cons a (.cons b .nil), [ta, tb] =>
      some (nested (complexWrt fn a) ta ++ t ::
        nested (complexWrt fn b || (leftRecursive fn && samePrec fn.prec b)) tb)
    | _, _ => none

/-- `VisitIndex` and `VisitOptIndex` (cel_unparser.cc:496-520). -/
def printIndex (opt : Bool) (args : Exs) (ts : List (List Tok)) : Option (List Tok) :=
  match args, ts with
  | .cons a (.cons _ .nil), [ta, tb] =>
    some (nested (isBinTern a) ta ++ .lbracket :: optToks opt tb ++ [.rbracket])
  | _, _ => none

/-- `VisitOptSelect` (cel_unparser.cc:250-262). -/
def printOptSelect (args : Exs) (ts : List (List Tok)) : Option (List Tok) :=
  match args, ts with
  | .cons a (.cons (.const (.str f)) .nil), [ta, _] =>
    some (nested (isBinTern a) ta ++ [.dot, .quest, fieldTok f])
  | _, _ => none

/-- Whether an operand of `?:` is parenthesized (cel_unparser.cc:528-543). -/
def condNested (e : Ex) : Bool := samePrec 8 e || isComplex e

/-- `VisitTernary` (cel_unparser.cc:522-546). -/
def printTernary (args : Exs) (ts : List (List Tok)) : Option (List Tok) :=
  match args, ts with
  | .cons a (.cons b (.cons c .nil)), [ta, tb, tc] =>
    some (nested (condNested a) ta ++ .quest :: nested (condNested b) tb ++
      .colon :: nested (condNested c) tc)
  | _, _ => none

/-- `VisitCall` (cel_unparser.cc:264-309), given the texts of the arguments. -/
def printCall (fn : Fn) (args : Exs) (ts : List (List Tok)) : Option (List Tok) :=
  match unaryTok fn with
  | some t => printUnary t args ts
  | none =>
    match binaryTok fn with
    | some t => printBinary fn t args ts
    | none =>
      match fn with
      | .op .index => printIndex false args ts
      | .op .optIndex => printIndex true args ts
      | .op .optSelect => printOptSelect args ts
      | .op .cond => printTernary args ts
      | .op _ => none
      | .name n => some (nameToks n ++ .lparen :: sepBy .comma ts ++ [.rparen])

/-- The call of a macro: `name(v, …)`. -/
def macroToks (f v : String) (ts : List (List Tok)) : List Tok :=
  .id f :: .lparen :: sepBy .comma ([rawTok v] :: ts) ++ [.rparen]

/-- Whether the expression is a call (`Expr::kCallExpr`). -/
def isCall : Ex → Bool
  | .call _ _ => true
  | .mcall _ _ _ => true
  | _ => false

/-- The name of a message. -/
def messageToks (dot : Bool) (ns : List String) : List Tok :=
  (if dot then [.dot] else []) ++ sepBy .dot (ns.map fun s => [rawTok s])

/-! ### The visitors -/

mutual
/-- `Unparser::Visit` (cel_unparser.cc:171-195). -/
def unparse (cfg : Cfg) : Ex → Option (List Tok)
  | .const c => some (constToks cfg c)
  | .ident n => some (nameToks n)
  -- VisitSelect (cel_unparser.cc:235-248)
  | .select e f test =>
    match unparse cfg e with
    | none => none
    | some t =>
      if test then some (.id "has" :: .lparen :: t ++ [.dot, fieldTok f, .rparen])
      else some (nested (isBinTern e) t ++ [.dot, fieldTok f])
  | .call fn args =>
    match unparseArgs cfg args with
    | none => none
    | some ts => printCall fn args ts
  -- VisitCall with a target (cel_unparser.cc:293-308)
  | .mcall e f args =>
    match unparse cfg e, unparseArgs cfg args with
    | some t, some ts =>
      some (nested (isBinTern e) t ++ .dot :: rawTok f :: .lparen :: sepBy .comma ts ++ [.rparen])
    | _, _ => none
  -- VisitCreateList (cel_unparser.cc:311-326)
  | .list els =>
    match unparseEls cfg els with
    | none => none
    | some ts => some (.lbracket :: sepBy .comma ts ++ [.rbracket])
  -- VisitCreateStruct (cel_unparser.cc:328-362)
  | .struct dot ns fs =>
    match unparseFlds cfg fs with
    | none => none
    | some ts => some (messageToks dot ns ++ .lbrace :: sepBy .comma ts ++ [.rbrace])
  | .map es =>
    match unparseEnts cfg es with
    | none => none
    | some ts => some (.lbrace :: sepBy .comma ts ++ [.rbrace])
  -- VisitComprehension and the macros (cel_unparser.cc:364-431)
  | .comp v _ range _ _ _ step result =>
    match unparse cfg range, unparseStep cfg (isCall result) step with
    | some tr, some (f, ts) => some (nested (isComplex range) tr ++ .dot :: macroToks f v ts)
    | _, _ => none

/-- Which macro a loop step comes from, and the texts of the macro's arguments
after the variable (`VisitComprehension`, `VisitAllMacro`, `VisitExistsMacro`,
`VisitExistsOneMacro`, `VisitMapMacro`, cel_unparser.cc:364-431). -/
def unparseStep (cfg : Cfg) (callResult : Bool) : Ex → Option (String × List (List Tok))
  | .call (.op .and) (.cons _ (.cons p .nil)) => (unparse cfg p).map fun t => ("all", [t])
  | .call (.op .and) _ => none
  | .call (.op .or) (.cons _ (.cons p .nil)) => (unparse cfg p).map fun t => ("exists", [t])
  | .call (.op .or) _ => none
  | .call (.op .cond) (.cons p (.cons e (.cons _ .nil))) =>
    if callResult then (unparse cfg p).map fun t => ("exists_one", [t])
    else
      match unparse cfg p, unparseAppended cfg e with
      | some tp, some tt => some ("map", [tp, tt])
      | _, _ => none
  | .call _ (.cons p (.cons _ (.cons _ .nil))) =>
    if callResult then (unparse cfg p).map fun t => ("exists_one", [t]) else none
  | .mcall _ _ (.cons p (.cons _ (.cons _ .nil))) =>
    if callResult then (unparse cfg p).map fun t => ("exists_one", [t]) else none
  | .call (.op .cond) (.cons _ (.cons (.list (.cons _ t .nil)) .nil)) => none
  | .call _ (.cons _ (.cons (.list (.cons _ t .nil)) .nil)) =>
    if callResult then none else (unparse cfg t).map fun t => ("map", [t])
  | .mcall _ _ (.cons _ (.cons (.list (.cons _ t .nil)) .nil)) =>
    if callResult then none else (unparse cfg t).map fun t => ("map", [t])
  | _ => none

/-- The text of the single element of the list that a `map` step appends. -/
def unparseAppended (cfg : Cfg) : Ex → Option (List Tok)
  | .call _ (.cons _ (.cons (.list (.cons _ t .nil)) .nil)) => unparse cfg t
  | .mcall _ _ (.cons _ (.cons (.list (.cons _ t .nil)) .nil)) => unparse cfg t
  | _ => none

def unparseArgs (cfg : Cfg) : Exs → Option (List (List Tok))
  | .nil => some []
  | .cons e r =>
    match unparse cfg e, unparseArgs cfg r with
    | some t, some ts => some (t :: ts)
    | _, _ => none

def unparseEls (cfg : Cfg) : Els → Option (List (List Tok))
  | .nil => some []
  | .cons o e r =>
    match unparse cfg e, unparseEls cfg r with
    | some t, some ts => some (optToks o t :: ts)
    | _, _ => none

def unparseFlds (cfg : Cfg) : Flds → Option (List (List Tok))
  | .nil => some []
  | .cons o f e r =>
    match unparse cfg e, unparseFlds cfg r with
    | some t, some ts => some (optToks o (fieldTok f :: .colon :: t) :: ts)
    | _, _ => none

def unparseEnts (cfg : Cfg) : Ents → Option (List (List Tok))
  | .nil => some []
  | .cons o k v r =>
    match unparse cfg k, unparse cfg v, unparseEnts cfg r with
    | some tk, some tv, some ts => some (optToks o (tk ++ .colon :: tv) :: ts)
    | _, _, _ => none
end

end Cel.Syntax
