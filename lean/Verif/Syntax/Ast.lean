import Verif.Parser.Balance

/-
Abstract syntax and tokens of CEL source, for the parser (`parser/parser.cc`,
`parser/internal/Cel.g4`) and the unparser (`tools/cel_unparser.cc`).

Simplifications: expressions carry no ids; the names of operators (`_+_`) are a
type of their own, distinct from the identifiers of the grammar, which cannot
contain such characters; a double is a sign and the bit pattern of its
magnitude.
-/

set_option linter.unusedVariables false

namespace Cel.Syntax

/-! ### Expressions (common/expr.h, common/constant.h) -/

/-- `CelOperator` (common/operators.cc:136-163). -/
inductive Op where
  | cond | or | and | eq | ne | lt | le | gt | ge | in_ | inOld
  | add | sub | mul | div | mod | not | neg | index | optIndex | optSelect
  | notStrictlyFalse
  deriving DecidableEq, Repr

/-- An identifier with or without a leading dot. -/
structure Name where
  dot : Bool := false
  id : String
  deriving DecidableEq, Repr

/-- The function of a call expression. -/
inductive Fn where
  | op (o : Op)
  | name (n : Name)
  deriving DecidableEq, Repr

/-- `Constant` (common/constant.h). -/
inductive Const where
  | null
  | bool (b : Bool)
  | int (i : Int)
  | uint (n : Nat)
  | dbl (neg : Bool) (mag : Nat)
  | str (s : String)
  | bytes (b : List UInt8)
  deriving DecidableEq, Repr

mutual
/-- `Expr` (common/expr.h). -/
inductive Ex where
  | const (c : Const)
  | ident (n : Name)
  | select (e : Ex) (field : String) (test : Bool)
  | call (fn : Fn) (args : Exs)
  | mcall (target : Ex) (fn : String) (args : Exs)
  | list (els : Els)
  | struct (dot : Bool) (name : List String) (fields : Flds)
  | map (entries : Ents)
  | comp (v v2 : String) (range : Ex) (accu : String) (init cond step result : Ex)
/-- Arguments. -/
inductive Exs where
  | nil
  | cons (e : Ex) (r : Exs)
/-- List elements, each with its "optional" mark. -/
inductive Els where
  | nil
  | cons (opt : Bool) (e : Ex) (r : Els)
/-- Fields of a message, each with its "optional" mark. -/
inductive Flds where
  | nil
  | cons (opt : Bool) (field : String) (e : Ex) (r : Flds)
/-- Entries of a map, each with its "optional" mark. -/
inductive Ents where
  | nil
  | cons (opt : Bool) (k v : Ex) (r : Ents)
end

/-- Arguments as a list. -/
def Exs.toList : Exs → List Ex
  | .nil => []
  | .cons e r => e :: r.toList

/-- A list as arguments. -/
def Exs.ofList : List Ex → Exs
  | [] => .nil
  | e :: r => .cons e (Exs.ofList r)

/-- The number of arguments. -/
def Exs.length : Exs → Nat
  | .nil => 0
  | .cons _ r => r.length + 1

/-- A call of an operator. -/
def Ex.op1 (o : Op) (a : Ex) : Ex := .call (.op o) (.cons a .nil)
/-- A call of an operator. -/
def Ex.op2 (o : Op) (a b : Ex) : Ex := .call (.op o) (.cons a (.cons b .nil))
/-- A call of an operator. -/
def Ex.op3 (o : Op) (a b c : Ex) : Ex := .call (.op o) (.cons a (.cons b (.cons c .nil)))

/-! ### Tokens (parser/internal/Cel.g4, lexer rules) -/

/-- The tokens of the lexer.  Literals carry the value they denote. -/
inductive Tok where
  | id (s : String)
  | esc (s : String)
  | int (n : Nat)
  | uint (n : Nat)
  | float (mag : Nat)
  | str (s : String)
  | bytes (b : List UInt8)
  | true_ | false_ | null_
  | eq | ne | in_ | lt | le | ge | gt | and | or
  | lbracket | rbracket | lbrace | rbrace | lparen | rparen
  | dot | comma | minus | excl | quest | colon | plus | star | slash | percent
  deriving DecidableEq, Repr

/-- What the parser and the unparser depend on. -/
structure Cfg where
  /-- `ParserOptions::enable_variadic_logical_operators` -/
  variadic : Bool := false
  /-- `ParserOptions::enable_optional_syntax` -/
  optionals : Bool := false
  /-- `ParserOptions::enable_quoted_identifiers` -/
  quoted : Bool := false
  /-- the token that the text `absl::StrCat` makes of a non-negative double
  lexes to: a double (perhaps another one: six digits), an integer (`1.0` is
  printed as `1`), or an identifier (`inf`, `nan`) -/
  dblTok : Nat → Tok := Tok.float

/-- `cel::internal::LexisIsReserved` (internal/lexis.cc:28-61). -/
def reserved : List String :=
  ["false", "true", "null", "in", "as", "break", "const", "continue", "else", "for", "function",
   "if", "import", "let", "loop", "package", "namespace", "return", "var", "void", "while"]

/-- `AccuVarName()`: `kAccumulatorVariableName` (common/expr.h:48). -/
def accuVar : String := "@result"

/-- `kDeprecatedAccumulatorVariableName`. -/
def oldAccuVar : String := "__result__"

/-- `NewAccuIdent` (common/expr_factory.h:189). -/
def accu : Ex := .ident ⟨false, accuVar⟩

/-! ### Chains of `&&` and `||` -/

/-- The tree of `ExpressionBalancer` as calls. -/
def treeEx (o : Op) : Parser.Tree Ex → Ex
  | .leaf e => e
  | .node _ l r => .op2 o (treeEx o l) (treeEx o r)
  | .flat _ es => .call (.op o) (Exs.ofList es)

/-- `visitConditionalAnd`/`visitConditionalOr` on the terms of a chain
(parser/parser.cc:914-954): the balancer of `Verif/Parser/Balance.lean`. -/
def logicTree (variadic : Bool) (o : Op) : List Ex → Option Ex
  | [] => none
  | t :: ts => (Parser.balance variadic t (ts.map fun e => (0, e))).map (treeEx o)

end Cel.Syntax
