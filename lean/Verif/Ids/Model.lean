import Verif.Proto.Expr
import Verif.Parser.Balance

set_option linter.unusedSimpArgs false
set_option linter.unusedVariables false

/-!
# Expression ids in the parser

* the id counter, source ranges and macro calls of the parser – `parser/parser.cc:161-411`
  (`ParserMacroExprFactory`)
* `MacroExprFactory::Copy` – `parser/macro_expr_factory.cc:27-127`
* macro expanders, written with the factory – `parser/macro_expr_factory.h:50-310`,
  the standard ones `parser/macro.cc:72-382`
* the visitor: in which order ids are taken – `parser/parser.cc:898-1310`, `:1460-1515`

The visitor is modelled on an abstract syntax tree of a text without syntax errors; whatever reports
an error (the parser then returns no AST) is `none`.
-/

namespace Cel.Ids
open Cel Cel.Proto

/-! ## The factory -/

/-- `cel::SourceRange` – `common/source.h`. -/
structure Range where
  start : Int
  stop : Int
  deriving DecidableEq

/-- `SourceRange{}`. -/
def Range.unknown : Range := ⟨-1, -1⟩
/-- `range.begin != -1 || range.end != -1` – `parser/parser.cc:204`. -/
def Range.known (r : Range) : Bool := r.start != -1 || r.stop != -1

/-- The data members of `ParserMacroExprFactory` that survive an error-free parse –
`parser/parser.cc:403-410`: `expr_id_`, `positions_`, `macro_position_`, `macro_calls_`.  `int64_t`
ids are unbounded here (a parse would need 2^63 allocations). -/
structure St where
  next : Int
  pos : Int → Option Range
  macroPos : Range
  calls : Int → Option NExpr

/-- A new factory – `parser/parser.cc:403-410`. -/
def St.init : St := ⟨1, fun _ => none, .unknown, fun _ => none⟩

/-- `positions_.insert(std::pair{id, range})`: an entry that is there already is kept. -/
def insertPos (pos : Int → Option Range) (id : Int) (r : Range) : Int → Option Range := fun i =>
  if i = id then (match pos id with | some r0 => some r0 | none => some r) else pos i

/-- `NextId(range)` – `parser/parser.cc:202-208`. -/
def nextIdAt (r : Range) (s : St) : Int × St :=
  (s.next, { s with next := s.next + 1, pos := if r.known then insertPos s.pos s.next r else s.pos })

/-- `NextId()` – `parser/parser.cc:393`. -/
def nextId (s : St) : Int × St := nextIdAt s.macroPos s

/-- `GetSourceRange(id)` – `parser/parser.cc:195-200`. -/
def rangeOf (s : St) (id : Int) : Range :=
  match s.pos id with
  | some r => r
  | none => .unknown

/-- `CopyId(id)` – `parser/parser.cc:395-400`. -/
def copyId (id : Int) (s : St) : Int × St :=
  if id = 0 then (0, s) else nextIdAt (rangeOf s id) s

/-- `EraseId(id)` – `parser/parser.cc:385-390`. -/
def eraseId (id : Int) (s : St) : St :=
  { s with
    pos := fun i => if i = id then none else s.pos i
    next := if s.next = id + 1 then s.next - 1 else s.next }

/-- Several ids, one after the other. -/
def allocAll : List Range → St → List Int × St
  | [], s => ([], s)
  | r :: rs, s =>
    let p := nextIdAt r s
    let q := allocAll rs p.2
    (p.1 :: q.1, q.2)

def copyIds : List Int → St → List Int × St
  | [], s => ([], s)
  | i :: is, s =>
    let p := copyId i s
    let q := copyIds is p.2
    (p.1 :: q.1, q.2)

/-! ## Expressions -/

/-- The ids of a node's fields or entries, grouped by the child before which they are taken: a field
before its value, an entry before its key – `macro_expr_factory.cc:112-127`,
`parser/parser.cc:1141-1180`, `:1281-1300`. -/
def groups : NKind → List (List Int)
  | .struct _ fs => fs.map fun f => [f.id]
  | .map es => es.flatMap fun e => [[e.id], []]
  | _ => []

def setFieldIds : List NField → List Int → List NField
  | f :: fs, i :: is => ⟨i, f.name, f.optional⟩ :: setFieldIds fs is
  | _, _ => []

def setEntryIds : List NEntry → List Int → List NEntry
  | e :: es, i :: is => ⟨i, e.optional⟩ :: setEntryIds es is
  | _, _ => []

/-- The same kind, its fields or entries with these ids. -/
def withIds (k : NKind) (is : List Int) : NKind :=
  match k with
  | .struct n fs => .struct n (setFieldIds fs is)
  | .map es => .map (setEntryIds es is)
  | k => k

def isCall : NKind → Bool
  | .call _ => true
  | _ => false

def isList : NKind → Bool
  | .list _ => true
  | _ => false

/-- What `Copy` and `BuildMacroCallArg` keep of a kind: they call the `NewComprehension` that takes
one iteration variable – `macro_expr_factory.cc:99-104`, `parser/parser.cc:342-350`. -/
def oneVar : NKind → NKind
  | .comprehension v _ a => .comprehension v "" a
  | k => k

/-! ## `Copy` -/

mutual
/-- `Copy(expr)` – `macro_expr_factory.cc:27-109`; an unset child reads as `Expr{}`. -/
def copy : NExpr → St → NExpr × St
  | .absent, s => (.node ⟨0, .unspecified⟩ [], s)
  | .node l ks, s =>
    let p := copyId l.id s
    let q := copyKids (isCall l.kind) (groups l.kind) ks p.2
    (.node ⟨p.1, withIds (oneVar l.kind) q.1⟩ q.2.1, q.2.2)
/-- The children in order, with the ids of fields and entries (`:110-127`); a call that has no target
(`has_target()`, `:54-57`) keeps none. -/
def copyKids (call : Bool) : List (List Int) → List NExpr → St → List Int × List NExpr × St
  | gs, [], s =>
    let p := copyIds gs.flatten s
    (p.1, [], p.2)
  | gs, k :: ks, s =>
    let p := copyIds (gs.headD []) s
    let q := if call && !k.present then (.absent, p.2) else copy k p.2
    let r := copyKids call gs.tail ks q.2
    (p.1 ++ r.1, q.1 :: r.2.1, r.2.2)
end

/-! ## Macro calls -/

mutual
/-- `BuildMacroCallArg(expr)` – `parser/parser.cc:263-353`. -/
def buildArg (calls : Int → Option NExpr) : NExpr → NExpr
  | .absent => .node ⟨0, .unspecified⟩ []
  | .node l ks =>
    if (calls l.id).isSome then .node ⟨l.id, .unspecified⟩ []
    else .node ⟨l.id, oneVar l.kind⟩ (buildArgs calls (isCall l.kind || isList l.kind) ks)
/-- The children: unset targets and unset list elements stay unset. -/
def buildArgs (calls : Int → Option NExpr) (keep : Bool) : List NExpr → List NExpr
  | [] => []
  | k :: ks => (if keep && !k.present then .absent else buildArg calls k) :: buildArgs calls keep ks
end

def idOf : NExpr → Int
  | .absent => 0
  | .node l _ => l.id

/-- `AddMacroCall` – `parser/parser.cc:253-261`; `insert` keeps an entry that is there already. -/
def addMacroCall (id : Int) (function : String) (target : Option NExpr) (args : List NExpr) (s : St) : St :=
  { s with calls := fun i =>
      if i = id then
        (match s.calls id with
        | some c => some c
        | none => some (.node ⟨0, .call function⟩ (target.getD .absent :: args)))
      else s.calls i }

/-! ## Macro expanders

An expander is what it makes with the factory: a program over registers that hold the target, the
arguments and what has been made so far.  `std::move`d registers are empty. -/

inductive Instr where
  /-- a factory function other than `NewCall`: `NewBoolConst`, `NewIdent`, `NewSelect`, `NewList`,
  `NewMemberCall`, `NewStruct`, `NewMap`, `NewComprehension`, … with moved children.  The ids of its
  fields or entries (`NewStructField`, `NewMapEntry`) are taken right before the node's. -/
  | new (kind : NKind) (regs : List Nat)
  /-- `NewCall` -/
  | call (function : String) (regs : List Nat)
  /-- `Copy` of a register that stays -/
  | copy (reg : Nat)
  /-- take the first child out of a node (`release_operand()`) and drop the node -/
  | release (reg : Nat)

structure Prog where
  instrs : List Instr
  ret : Nat

abbrev Regs := List (Option NExpr)

/-- `std::move(x)`. -/
def take (regs : Regs) (i : Nat) : Option (NExpr × Regs) :=
  match regs[i]? with
  | some (some e) => some (e, regs.set i none)
  | _ => none

def takeAll : Regs → List Nat → Option (List NExpr × Regs)
  | regs, [] => some ([], regs)
  | regs, i :: is =>
    match take regs i with
    | none => none
    | some (e, regs1) =>
      match takeAll regs1 is with
      | none => none
      | some (es, regs2) => some (e :: es, regs2)

/-- One factory call – `macro_expr_factory.h:58-283`. -/
def step (regs : Regs) (s : St) : Instr → Option (Regs × St)
  | .new k is =>
    match takeAll regs is with
    | none => none
    | some (es, regs1) =>
      let p := allocAll ((groups k).flatten.map fun _ => s.macroPos) s
      let q := nextId p.2
      some (regs1 ++ [some (.node ⟨q.1, withIds k p.1⟩ es)], q.2)
  | .call f is =>
    match takeAll regs is with
    | none => none
    | some (es, regs1) =>
      let q := nextId s
      some (regs1 ++ [some (.node ⟨q.1, .call f⟩ (.absent :: es))], q.2)
  | .copy i =>
    match regs[i]? with
    | some (some e) =>
      let q := copy e s
      some (regs ++ [some q.1], q.2)
    | _ => none
  | .release i =>
    match take regs i with
    | some (.node _ (.node l ks :: _), regs1) => some (regs1 ++ [some (.node l ks)], s)
    | _ => none

def runInstrs (regs : Regs) (s : St) : List Instr → Option (Regs × St)
  | [] => some (regs, s)
  | i :: is =>
    match step regs s i with
    | none => none
    | some (regs1, s1) => runInstrs regs1 s1 is

/-- The expression a program returns; `none` if it uses a register that is empty. -/
def runProg (p : Prog) (inputs : List NExpr) (s : St) : Option (NExpr × St) :=
  match runInstrs (inputs.map some) s p.instrs with
  | none => none
  | some (regs, s1) =>
    match take regs p.ret with
    | none => none
    | some (e, _) => some (e, s1)

/-- What an expander does with a call: nothing (`std::nullopt`), report an error, or expand. -/
inductive Outcome where
  | decline
  | error
  | expand (p : Prog)

/-- `MacroExpander` – `parser/macro.h`. -/
abbrev Expander := Option NExpr → List NExpr → Outcome

/-- `MacroRegistry::FindMacro(name, arg_count, receiver_style)` and the options of the parser. -/
structure Env where
  macros : String → Nat → Bool → Option Expander
  addMacroCalls : Bool
  variadic : Bool

/-- `NewCall(expr_id, function, args)` / `NewMemberCall(expr_id, function, target, args)`. -/
def plainCall (id : Int) (f : String) (target : Option NExpr) (args : List NExpr) : NExpr :=
  .node ⟨id, .call f⟩ (target.getD .absent :: args)

/-- The recorded call – `parser/parser.cc:1465-1470`, `:1476-1479`, `:1495-1502`, `:1508-1511`. -/
def recordCall (env : Env) (e : NExpr) (f : String) (target : Option NExpr) (args : List NExpr)
    (calls : Int → Option NExpr) (s : St) : St :=
  if env.addMacroCalls then
    addMacroCall (idOf e) f (target.map (buildArg calls)) (args.map (buildArg calls)) s
  else s

/-- `GlobalCallOrMacroImpl`, `ReceiverCallOrMacroImpl` – `parser/parser.cc:1460-1515`. -/
def callOrMacro (env : Env) (id : Int) (f : String) (target : Option NExpr) (args : List NExpr) (s : St) :
    Option (NExpr × St) :=
  match env.macros f args.length target.isSome with
  | none => some (plainCall id f target args, s)
  | some m =>
    match m target args with
    | .decline => some (plainCall id f target args, s)
    | .error => none
    | .expand p =>
      match runProg p (target.toList ++ args) { s with macroPos := rangeOf s id } with
      | none => none
      | some (e, s1) =>
        some (e, eraseId id
          (recordCall env e f target args s.calls { s1 with macroPos := .unknown }))

/-! ## The visitor -/

/-- A node of the syntax tree with the source ranges of the tokens the visitor looks at.  Parentheses
and even numbers of `!` or `-` leave no node (`:1098-1100`, `:1005-1007`, `:1016-1018`). -/
inductive SNode where
  /-- a literal or an identifier; the children are none – `:1182-1202`, `:1302-1430` -/
  | const (c : Const) (r : Range)
  | ident (name : String) (r : Range)
  /-- `[e, ?e, …]` – `:1229-1256` -/
  | list (optional : List Bool) (r : Range)
  /-- `Name{f: e, …}` – `:1116-1180` -/
  | message (name : String) (fields : List (String × Bool × Range)) (r : Range)
  /-- `{k: v, …}` – `:1268-1300` -/
  | map (entries : List (Bool × Range)) (r : Range)
  /-- `e.f` – `:1043-1069` -/
  | select (field : String) (op : Range)
  /-- `e.?f` – `:1051-1065` -/
  | optSelect (field : String) (op whole : Range)
  /-- `f(e, …)`, `!e`, `-e` – `:1003-1023`, `:1204-1227` -/
  | global (f : String) (r : Range)
  /-- `e.f(e, …)` – `:1071-1083` -/
  | member (f : String) (r : Range)
  /-- `e op e`, `e[e]` – `:960-1000`, `:1085-1096` -/
  | binary (f : String) (op : Range)
  /-- `e ? e : e` – `:898-913` -/
  | cond (op : Range)
  /-- `e || e || …`, `e && e && …` – `:915-958` -/
  | logic (f : String) (ops : List Range)

/-- The children in the order they are written; map: key, value, key, value, … -/
abbrev Syn := Proto.Tree SNode

def consHead (r : Range) (gs : List (List Range)) : List (List Range) :=
  (r :: gs.headD []) :: gs.tail

/-- The ranges for which ids are taken before each child and after the last. -/
def before : SNode → List (List Range)
  | .const _ r => [[r]]
  | .ident _ r => [[r]]
  | .list _ r => [[r]]
  | .message _ fs r => consHead r (fs.map fun f => [f.2.2])
  | .map es r => consHead r (es.flatMap fun e => [[e.2], []])
  | .select _ op => [[], [op]]
  | .optSelect _ op whole => [[], [op, whole]]
  | .global _ r => [[r]]
  | .member _ r => [[], [r]]
  | .binary _ op => [[], [op]]
  | .cond op => [[], [op]]
  | .logic _ ops => [] :: [] :: ops.map fun o => [o]

/-- `NewCall(ops_[mid], function_, arguments)` for what the balancer builds –
`parser/parser.cc:580-608`. -/
def ofTerms (f : String) : Parser.Tree NExpr → NExpr
  | .leaf e => e
  | .node id l r => .node ⟨id, .call f⟩ [.absent, ofTerms f l, ofTerms f r]
  | .flat id args => .node ⟨id, .call f⟩ (.absent :: args)

/-- What the visitor makes of the ids it took and the visited children. -/
def build (env : Env) (n : SNode) (ids : List Int) (es : List NExpr) (s : St) : Option (NExpr × St) :=
  match n, ids, es with
  | .const c _, [i], [] => some (.node ⟨i, .const c⟩ [], s)
  | .ident x _, [i], [] => some (.node ⟨i, .ident x⟩ [], s)
  | .list opt _, [i], es => some (.node ⟨i, .list opt⟩ es, s)
  | .message name fs _, i :: is, es =>
    some (.node ⟨i, withIds (.struct name (fs.map fun f => ⟨0, f.1, f.2.1⟩)) is⟩ es, s)
  | .map ents _, i :: is, es =>
    some (.node ⟨i, withIds (.map (ents.map fun e => ⟨0, e.1⟩)) is⟩ es, s)
  | .select f _, [i], [e] => some (.node ⟨i, .select f false⟩ [e], s)
  | .optSelect f _ _, [i, j], [e] =>
    some (.node ⟨i, .call "_?._"⟩ [.absent, e, .node ⟨j, .const (.string f)⟩ []], s)
  | .global f _, [i], es => callOrMacro env i f none es s
  | .member f _, [i], e :: es => callOrMacro env i f (some e) es s
  | .binary f _, [i], [a, b] => callOrMacro env i f none [a, b] s
  | .cond _, [i], [a, b, c] => some (.node ⟨i, .call "_?_:_"⟩ [.absent, a, b, c], s)
  | .logic f _, is, e :: es =>
    if is.length = es.length then
      match Parser.balance env.variadic e (is.zip es) with
      | some t => some (ofTerms f t, s)
      | none => none
    else none
  | _, _, _ => none

mutual
/-- `visit` – `parser/parser.cc:640-890`. -/
def visit (env : Env) : Syn → St → Option (NExpr × St)
  | .absent, _ => none
  | .node n ks, s =>
    match visitKids env (before n) ks s with
    | none => none
    | some (ids, es, s1) => build env n ids es s1
def visitKids (env : Env) : List (List Range) → List Syn → St → Option (List Int × List NExpr × St)
  | gs, [], s =>
    let p := allocAll gs.flatten s
    some (p.1, [], p.2)
  | gs, k :: ks, s =>
    let p := allocAll (gs.headD []) s
    match visit env k p.2 with
    | none => none
    | some (e, s1) =>
      match visitKids env gs.tail ks s1 with
      | none => none
      | some (is, es, s2) => some (p.1 ++ is, e :: es, s2)
end

/-- The parsed expression, the positions and the macro calls – `parser/parser.cc:1620-1760`. -/
def parse (env : Env) (t : Syn) : Option (NExpr × St) := visit env t St.init

end Cel.Ids
