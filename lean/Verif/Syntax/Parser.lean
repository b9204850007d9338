import Verif.Syntax.Ast

/-
The parser on tokens: the rules of `parser/internal/Cel.g4` as recursive descent
with greedy loops (what ANTLR's adaptive prediction does for this grammar: the
longest repetition, the first alternative where two fit), with the visitors of
`parser/parser.cc` as actions, and the standard macros (`parser/macro.cc`).

Simplifications: a reported error is `none`; error recovery, limits on recursion
and size, ids and positions are left out; the standard macros are registered and
no others.  Left-recursive rules are loops.
-/

set_option linter.unusedVariables false

namespace Cel.Syntax

/-! ### Macros -/

/-- `IsSimpleIdentifier` and the check of the accumulator's name
(parser/macro.cc:44-47, 93-101). -/
def macroVar : Ex → Option String
  | .ident ⟨false, v⟩ => if v = "" ∨ v = oldAccuVar then none else some v
  | _ => none

/-- `ExpandAllMacro` (parser/macro.cc:88-117). -/
def allEx (r : Ex) (v : String) (p : Ex) : Ex :=
  .comp v "" r accuVar (.const (.bool true)) (.op1 .notStrictlyFalse accu) (.op2 .and accu p) accu

/-- `ExpandExistsMacro` (parser/macro.cc:125-151). -/
def existsEx (r : Ex) (v : String) (p : Ex) : Ex :=
  .comp v "" r accuVar (.const (.bool false)) (.op1 .notStrictlyFalse (.op1 .not accu))
    (.op2 .or accu p) accu

/-- `ExpandExistsOneMacro` (parser/macro.cc:160-189). -/
def existsOneEx (r : Ex) (v : String) (p : Ex) : Ex :=
  .comp v "" r accuVar (.const (.int 0)) (.const (.bool true))
    (.op3 .cond p (.op2 .add accu (.const (.int 1))) accu) (.op2 .eq accu (.const (.int 1)))

/-- `ExpandMap2Macro` (parser/macro.cc:198-222). -/
def map2Ex (r : Ex) (v : String) (t : Ex) : Ex :=
  .comp v "" r accuVar (.list .nil) (.const (.bool true))
    (.op2 .add accu (.list (.cons false t .nil))) accu

/-- `ExpandMap3Macro` (parser/macro.cc:230-257). -/
def map3Ex (r : Ex) (v : String) (p t : Ex) : Ex :=
  .comp v "" r accuVar (.list .nil) (.const (.bool true))
    (.op3 .cond p (.op2 .add accu (.list (.cons false t .nil))) accu) accu

/-- `ExpandFilterMacro` (parser/macro.cc:265-294). -/
def filterEx (r : Ex) (v : String) (p : Ex) : Ex := map3Ex r v p (.ident ⟨false, v⟩)

/-- `GlobalCallOrMacroImpl` (parser/parser.cc:1458-1485) with `ExpandHasMacro`
(parser/macro.cc:70-80). -/
def globalCall (n : Name) (args : Exs) : Option Ex :=
  if n = ⟨false, "has"⟩ ∧ args.length = 1 then
    match args with
    | .cons (.select e f false) .nil => some (.select e f true)
    | _ => none
  else some (.call (.name n) args)

/-- The receiver-style macros that are registered (parser/standard_macros.cc). -/
def isMacro (f : String) (n : Nat) : Bool :=
  (f = "all" && n = 2) || (f = "exists" && n = 2) || (f = "exists_one" && n = 2)
    || (f = "map" && (n = 2 || n = 3)) || (f = "filter" && n = 2)

/-- `ReceiverCallOrMacroImpl` (parser/parser.cc:1487-1517). -/
def memberCall (t : Ex) (f : String) (args : Exs) : Option Ex :=
  if isMacro f args.length then
    match args with
    | .cons v (.cons p .nil) =>
      (macroVar v).map fun v =>
        if f = "all" then allEx t v p
        else if f = "exists" then existsEx t v p
        else if f = "exists_one" then existsOneEx t v p
        else if f = "map" then map2Ex t v p
        else filterEx t v p
    | .cons v (.cons p (.cons e .nil)) => (macroVar v).map fun v => map3Ex t v p e
    | _ => none
  else some (.mcall t f args)

/-! ### Pieces without recursion -/

/-- The operators of `relation` (Cel.g4:38). -/
def relOp : Tok → Option Op
  | .lt => some .lt
  | .le => some .le
  | .ge => some .ge
  | .gt => some .gt
  | .eq => some .eq
  | .ne => some .ne
  | .in_ => some .in_
  | _ => none

/-- The operators of `calc`, second alternative (Cel.g4:44). -/
def addOp : Tok → Option Op
  | .plus => some .add
  | .minus => some .sub
  | _ => none

/-- The operators of `calc`, first alternative (Cel.g4:43). -/
def mulOp : Tok → Option Op
  | .star => some .mul
  | .slash => some .div
  | .percent => some .mod
  | _ => none

/-- `escapeIdent` (Cel.g4:101-104) and `NormalizeIdentifier`
(parser/parser.cc:1021-1038). -/
def fieldOf (cfg : Cfg) : Tok → Option String
  | .id s => some s
  | .esc s => if cfg.quoted then some s else none
  | _ => none

/-- `literal` (Cel.g4:110-119) and its visitors (parser/parser.cc:1310-1411). -/
def literal : List Tok → Option (Ex × List Tok)
  | .minus :: .int n :: r => if n ≤ 2 ^ 63 then some (.const (.int (-n)), r) else none
  | .minus :: .float m :: r => some (.const (.dbl true m), r)
  | .int n :: r => if n < 2 ^ 63 then some (.const (.int n), r) else none
  | .uint n :: r => if n < 2 ^ 64 then some (.const (.uint n), r) else none
  | .float m :: r => some (.const (.dbl false m), r)
  | .str s :: r => some (.const (.str s), r)
  | .bytes b :: r => some (.const (.bytes b), r)
  | .true_ :: r => some (.const (.bool true), r)
  | .false_ :: r => some (.const (.bool false), r)
  | .null_ :: r => some (.const .null, r)
  | _ => none

/-- The rest of a message name, up to and with the brace: the lookahead that
tells `CreateMessage` from `Ident` (Cel.g4:71-72). -/
def messageName : List Tok → Option (List String × List Tok)
  | .lbrace :: r => some ([], r)
  | .dot :: .id s :: r => (messageName r).map fun x => (s :: x.1, x.2)
  | _ => none

/-- `ops+='-'` or `ops+='!'`: how many, and the rest. -/
def countOps (t : Tok) : List Tok → Nat × List Tok
  | [] => (0, [])
  | x :: r => if x = t then ((countOps t r).1 + 1, (countOps t r).2) else (0, x :: r)

/-- `visitNegate`/`visitLogicalNot` (parser/parser.cc:1001-1019). -/
def applyOps (o : Op) (n : Nat) (e : Ex) : Ex := if n % 2 = 0 then e else .op1 o e

/-- Whether a minus sign belongs to the literal that follows
(`MemberExpr` comes before `Negate` in `unary`). -/
def signedLiteral : List Tok → Bool
  | .minus :: .int _ :: _ => true
  | .minus :: .float _ :: _ => true
  | _ => false

/-- `'?'?`. -/
def optMark : List Tok → Bool × List Tok
  | .quest :: r => (true, r)
  | r => (false, r)

/-! ### The rules -/

mutual
/-- `expr` (Cel.g4:24-26), `visitExpr` (parser/parser.cc:898-912). -/
def parseExpr (cfg : Cfg) (ts : List Tok) : Option (Ex × List Tok) :=
  parseOr cfg [] ts >>= fun (c, r) =>
    match r with
    | .quest :: r =>
      parseOr cfg [] r >>= fun (a, r) =>
        match r with
        | .colon :: r =>
          parseExpr cfg r >>= fun (b, r) => some (.op3 .cond c a b, r)
        | _ => none
    | _ => some (c, r)
partial_fixpoint

/-- `conditionalOr` (Cel.g4:28-30) after the terms `acc`. -/
def parseOr (cfg : Cfg) (acc : List Ex) (ts : List Tok) : Option (Ex × List Tok) :=
  parseAnd cfg [] ts >>= fun (e, r) => orLoop cfg (acc ++ [e]) r
partial_fixpoint

def orLoop (cfg : Cfg) (acc : List Ex) (r : List Tok) : Option (Ex × List Tok) :=
  match r with
  | .or :: r' => parseOr cfg acc r'
  | _ => (logicTree cfg.variadic .or acc).map fun e => (e, r)
partial_fixpoint

/-- `conditionalAnd` (Cel.g4:32-34) after the terms `acc`. -/
def parseAnd (cfg : Cfg) (acc : List Ex) (ts : List Tok) : Option (Ex × List Tok) :=
  parseRel cfg ts >>= fun (e, r) => andLoop cfg (acc ++ [e]) r
partial_fixpoint

def andLoop (cfg : Cfg) (acc : List Ex) (r : List Tok) : Option (Ex × List Tok) :=
  match r with
  | .and :: r' => parseAnd cfg acc r'
  | _ => (logicTree cfg.variadic .and acc).map fun e => (e, r)
partial_fixpoint

/-- `relation` (Cel.g4:36-39), `visitRelation` (parser/parser.cc:956-974). -/
def parseRel (cfg : Cfg) (ts : List Tok) : Option (Ex × List Tok) :=
  parseAdd cfg ts >>= fun (e, r) => relLoop cfg e r
partial_fixpoint

def relLoop (cfg : Cfg) (e : Ex) (r : List Tok) : Option (Ex × List Tok) :=
  match r with
  | [] => some (e, [])
  | t :: r' =>
    match relOp t with
    | none => some (e, t :: r')
    | some o =>
      parseAdd cfg r' >>= fun (e', r'') => relLoop cfg (.op2 o e e') r''
partial_fixpoint

/-- `calc` (Cel.g4:41-45), the additive operators; `visitCalc`
(parser/parser.cc:976-994). -/
def parseAdd (cfg : Cfg) (ts : List Tok) : Option (Ex × List Tok) :=
  parseMul cfg ts >>= fun (e, r) => addLoop cfg e r
partial_fixpoint

def addLoop (cfg : Cfg) (e : Ex) (r : List Tok) : Option (Ex × List Tok) :=
  match r with
  | [] => some (e, [])
  | t :: r' =>
    match addOp t with
    | none => some (e, t :: r')
    | some o =>
      parseMul cfg r' >>= fun (e', r'') => addLoop cfg (.op2 o e e') r''
partial_fixpoint

/-- `calc` (Cel.g4:41-45), the multiplicative operators. -/
def parseMul (cfg : Cfg) (ts : List Tok) : Option (Ex × List Tok) :=
  parseUnary cfg ts >>= fun (e, r) => mulLoop cfg e r
partial_fixpoint

def mulLoop (cfg : Cfg) (e : Ex) (r : List Tok) : Option (Ex × List Tok) :=
  match r with
  | [] => some (e, [])
  | t :: r' =>
    match mulOp t with
    | none => some (e, t :: r')
    | some o =>
      parseUnary cfg r' >>= fun (e', r'') => mulLoop cfg (.op2 o e e') r''
partial_fixpoint

/-- `unary` (Cel.g4:47-51). -/
def parseUnary (cfg : Cfg) (ts : List Tok) : Option (Ex × List Tok) :=
  if signedLiteral ts then parseMember cfg ts
  else if (countOps .excl ts).1 ≠ 0 then
    parseMember cfg (countOps .excl ts).2 >>= fun (e, r) => some (applyOps .not (countOps .excl ts).1 e, r)
  else if (countOps .minus ts).1 ≠ 0 then
    parseMember cfg (countOps .minus ts).2 >>= fun (e, r) => some (applyOps .neg (countOps .minus ts).1 e, r)
  else parseMember cfg ts
partial_fixpoint

/-- `member` (Cel.g4:53-58). -/
def parseMember (cfg : Cfg) (ts : List Tok) : Option (Ex × List Tok) :=
  parsePrimary cfg ts >>= fun (e, r) => memberLoop cfg e r
partial_fixpoint

/-- `Select`, `MemberCall`, `Index` (Cel.g4:55-57; parser/parser.cc:1040-1091). -/
def memberLoop (cfg : Cfg) (e : Ex) (r : List Tok) : Option (Ex × List Tok) :=
  match r with
  | .dot :: .quest :: t :: r' =>
    match fieldOf cfg t with
    | none => none
    | some f =>
      if cfg.optionals then memberLoop cfg (.op2 .optSelect e (.const (.str f))) r' else none
  | .dot :: .id f :: .lparen :: r' =>
    parseArgs cfg r' >>= fun (args, r'') =>
      memberCall e f args >>= fun e' => memberLoop cfg e' r''
  | .dot :: t :: r' =>
    match fieldOf cfg t with
    | none => none
    | some f => memberLoop cfg (.select e f false) r'
  | .lbracket :: r' =>
    parseExpr cfg (optMark r').2 >>= fun (i, r'') =>
      match r'' with
      | .rbracket :: r3 =>
        if (optMark r').1 then
          if cfg.optionals then memberLoop cfg (.op2 .optIndex e i) r3 else none
        else memberLoop cfg (.op2 .index e i) r3
      | _ => none
  | _ => some (e, r)
partial_fixpoint

/-- `primary` (Cel.g4:60-73; parser/parser.cc:1093-1253). -/
def parsePrimary (cfg : Cfg) (ts : List Tok) : Option (Ex × List Tok) :=
  match ts with
  | .lparen :: r =>
    parseExpr cfg r >>= fun (e, r') =>
      match r' with
      | .rparen :: r'' => some (e, r'')
      | _ => none
  | .lbracket :: r => parseEls cfg r >>= fun x => some (.list x.1, x.2)
  | .lbrace :: r => parseEnts cfg r >>= fun x => some (.map x.1, x.2)
  | .dot :: .id s :: r => parseNamed cfg true s r
  | .id s :: r => parseNamed cfg false s r
  | _ => literal ts
partial_fixpoint

/-- `Ident`, `GlobalCall` and `CreateMessage`. -/
def parseNamed (cfg : Cfg) (dot : Bool) (s : String) (r : List Tok) : Option (Ex × List Tok) :=
  match messageName r with
  | some (ns, r') => parseFlds cfg r' >>= fun x => some (.struct dot (s :: ns) x.1, x.2)
  | none =>
    if s ∈ reserved then none
    else match r with
      | .lparen :: r' =>
        parseArgs cfg r' >>= fun (args, r'') => (globalCall ⟨dot, s⟩ args).map fun e => (e, r'')
      | _ => some (.ident ⟨dot, s⟩, r)
partial_fixpoint

/-- `exprList? ')'` (Cel.g4:75-77). -/
def parseArgs (cfg : Cfg) (ts : List Tok) : Option (Exs × List Tok) :=
  match ts with
  | .rparen :: r => some (.nil, r)
  | _ => parseArgs1 cfg ts
partial_fixpoint

def parseArgs1 (cfg : Cfg) (ts : List Tok) : Option (Exs × List Tok) :=
  parseExpr cfg ts >>= fun (e, r) =>
    match r with
    | .comma :: r' => parseArgs1 cfg r' >>= fun x => some (.cons e x.1, x.2)
    | .rparen :: r' => some (.cons e .nil, r')
    | _ => none
partial_fixpoint

/-- `listInit? ','? ']'` (Cel.g4:67, 79-81; parser/parser.cc:1214-1234). -/
def parseEls (cfg : Cfg) (ts : List Tok) : Option (Els × List Tok) :=
  match ts with
  | .rbracket :: r => some (.nil, r)
  | .comma :: .rbracket :: r => some (.nil, r)
  | _ => parseEls1 cfg ts
partial_fixpoint

def parseEls1 (cfg : Cfg) (ts : List Tok) : Option (Els × List Tok) :=
  if (optMark ts).1 && !cfg.optionals then none
  else parseExpr cfg (optMark ts).2 >>= fun (e, r) =>
      match r with
      | .rbracket :: r' => some (.cons (optMark ts).1 e .nil, r')
      | .comma :: .rbracket :: r' => some (.cons (optMark ts).1 e .nil, r')
      | .comma :: r' => parseEls1 cfg r' >>= fun x => some (.cons (optMark ts).1 e x.1, x.2)
      | _ => none
partial_fixpoint

/-- `fieldInitializerList? ','? '}'` (Cel.g4:72, 83-89; parser/parser.cc:1122-1156). -/
def parseFlds (cfg : Cfg) (ts : List Tok) : Option (Flds × List Tok) :=
  match ts with
  | .rbrace :: r => some (.nil, r)
  | .comma :: .rbrace :: r => some (.nil, r)
  | _ => parseFlds1 cfg ts
partial_fixpoint

def parseFlds1 (cfg : Cfg) (ts : List Tok) : Option (Flds × List Tok) :=
  if (optMark ts).1 && !cfg.optionals then none
  else match (optMark ts).2 with
    | t :: .colon :: r =>
      match fieldOf cfg t with
      | none => none
      | some f =>
        parseExpr cfg r >>= fun (e, r) =>
          match r with
          | .rbrace :: r' => some (.cons (optMark ts).1 f e .nil, r')
          | .comma :: .rbrace :: r' => some (.cons (optMark ts).1 f e .nil, r')
          | .comma :: r' => parseFlds1 cfg r' >>= fun x => some (.cons (optMark ts).1 f e x.1, x.2)
          | _ => none
    | _ => none
partial_fixpoint

/-- `mapInitializerList? ','? '}'` (Cel.g4:69, 91-93; parser/parser.cc:1285-1308). -/
def parseEnts (cfg : Cfg) (ts : List Tok) : Option (Ents × List Tok) :=
  match ts with
  | .rbrace :: r => some (.nil, r)
  | .comma :: .rbrace :: r => some (.nil, r)
  | _ => parseEnts1 cfg ts
partial_fixpoint

def parseEnts1 (cfg : Cfg) (ts : List Tok) : Option (Ents × List Tok) :=
  if (optMark ts).1 && !cfg.optionals then none
  else parseExpr cfg (optMark ts).2 >>= fun (k, r) =>
      match r with
      | .colon :: r =>
        parseExpr cfg r >>= fun (v, r) =>
          match r with
          | .rbrace :: r' => some (.cons (optMark ts).1 k v .nil, r')
          | .comma :: .rbrace :: r' => some (.cons (optMark ts).1 k v .nil, r')
          | .comma :: r' => parseEnts1 cfg r' >>= fun x => some (.cons (optMark ts).1 k v x.1, x.2)
          | _ => none
      | _ => none
partial_fixpoint
end

/-- `start` (Cel.g4:20-22): an expression and the end of the input. -/
def parse (cfg : Cfg) (ts : List Tok) : Option Ex :=
  match parseExpr cfg ts with
  | some (e, []) => some e
  | _ => none

end Cel.Syntax
