import Verif.Ids.Model

set_option linter.unusedSimpArgs false
set_option linter.unusedVariables false

/-!
# The standard macros – `parser/macro.cc:72-382`, and `cel.bind` – `extensions/bindings_ext.cc:66-84`

Registers of a receiver macro: 0 target, 1 … arguments; of `has`: 0 the argument.
-/

namespace Cel.Ids
open Cel Cel.Proto

/-- `IsSimpleIdentifier` – `parser/macro.cc:44-47`: the name, if it is one. -/
def simpleName : NExpr → Option String
  | .node ⟨_, .ident n⟩ _ => if n ≠ "" ∧ n.toList.head? ≠ some '.' then some n else none
  | _ => none

/-- `NewAccuIdent()`. -/
def accu : Instr := .new (.ident "@result") []
def litBool (b : Bool) : Instr := .new (.const (.bool b)) []
def litInt (i : Int) : Instr := .new (.const (.int i)) []
/-- `NewComprehension(var, range, accu, init, condition, step, result)`. -/
def comp (v a : String) (regs : List Nat) : Instr := .new (.comprehension v "" a) regs

/-- `ExpandHasMacro` – `parser/macro.cc:72-86`. -/
def hasProg (field : String) : Prog := ⟨[.release 0, .new (.select field true) [1]], 2⟩
/-- `ExpandAllMacro` – `:105-115`. -/
def allProg (v : String) : Prog :=
  ⟨[litBool true, accu, .call "@not_strictly_false" [4], accu, .call "_&&_" [6, 2], accu,
    comp v "@result" [0, 3, 5, 7, 8]], 9⟩
/-- `ExpandExistsMacro` – `:137-148`. -/
def existsProg (v : String) : Prog :=
  ⟨[litBool false, accu, .call "!_" [4], .call "@not_strictly_false" [5], accu, .call "_||_" [7, 2], accu,
    comp v "@result" [0, 3, 6, 8, 9]], 10⟩
/-- `ExpandExistsOneMacro` – `:171-187`. -/
def existsOneProg (v : String) : Prog :=
  ⟨[litInt 0, litBool true, accu, litInt 1, .call "_+_" [5, 6], accu, .call "_?_:_" [2, 7, 8], accu, litInt 1,
    .call "_==_" [10, 11], comp v "@result" [0, 3, 4, 9, 12]], 13⟩
/-- `ExpandMap2Macro` – `:210-221`. -/
def map2Prog (v : String) : Prog :=
  ⟨[.new (.list []) [], litBool true, accu, .new (.list [false]) [2], .call "_+_" [5, 6], accu,
    comp v "@result" [0, 3, 4, 7, 8]], 9⟩
/-- `ExpandMap3Macro` – `:244-257`. -/
def map3Prog (v : String) : Prog :=
  ⟨[.new (.list []) [], litBool true, accu, .new (.list [false]) [3], .call "_+_" [6, 7], accu,
    .call "_?_:_" [2, 8, 9], accu, comp v "@result" [0, 4, 5, 10, 11]], 12⟩
/-- `ExpandFilterMacro` – `:281-296`. -/
def filterProg (v : String) : Prog :=
  ⟨[.new (.list []) [], litBool true, accu, .new (.list [false]) [1], .call "_+_" [5, 6], accu,
    .call "_?_:_" [2, 7, 8], accu, comp v "@result" [0, 3, 4, 9, 10]], 11⟩
/-- `ExpandOptMapMacro` – `:319-336`. -/
def optMapProg (v : String) : Prog :=
  ⟨[.copy 0, .new (.call "hasValue") [0], .new (.list []) [], .new (.call "value") [3], litBool false,
    comp "#unused" v [5, 6, 7, 1, 2], .call "optional.of" [8], .call "optional.none" [],
    .call "_?_:_" [4, 9, 10]], 11⟩
/-- `ExpandOptFlatMapMacro` – `:361-376`. -/
def optFlatMapProg (v : String) : Prog :=
  ⟨[.copy 0, .new (.call "hasValue") [0], .new (.list []) [], .new (.call "value") [3], litBool false,
    comp "#unused" v [5, 6, 7, 1, 2], .call "optional.none" [], .call "_?_:_" [4, 8, 9]], 10⟩
/-- `cel.bind` – `bindings_ext.cc:78-83` (the two factory calls among the arguments of
`NewComprehension` are unordered in C++; here the list first). -/
def bindProg (v : String) : Prog :=
  ⟨[.new (.list []) [], litBool false, comp "#unused" v [4, 2, 5, 1, 3]], 6⟩

/-- The checks on the variable name common to the macros – `:96-104` and so on. -/
def withVar (prog : String → Prog) : NExpr → Outcome := fun var =>
  match simpleName var with
  | none => .error
  | some v => if v = "__result__" then .error else .expand (prog v)

/-- A macro on a target, with `n` arguments the first of which names a variable. -/
def varMacro (n : Nat) (prog : String → Prog) : Expander := fun target args =>
  if args.length = n then withVar prog (args.headD .absent) else .error

def expandHas : Expander := fun _ args =>
  match args with
  | [.node ⟨_, .select f false⟩ _] => .expand (hasProg f)
  | _ => .error

def expandBind : Expander := fun target args =>
  match target, args with
  | some (.node ⟨_, .ident "cel"⟩ _), .node ⟨_, .ident v⟩ _ :: _ => .expand (bindProg v)
  | some (.node ⟨_, .ident "cel"⟩ _), _ => .error
  | _, _ => .decline

/-- `Macro::AllMacros()`, the optional ones and `cel.bind`: name, number of arguments, receiver style. -/
def stdList : List ((String × Nat × Bool) × Expander) :=
  [(("has", 1, false), expandHas),
   (("all", 2, true), varMacro 2 allProg),
   (("exists", 2, true), varMacro 2 existsProg),
   (("exists_one", 2, true), varMacro 2 existsOneProg),
   (("map", 2, true), varMacro 2 map2Prog),
   (("map", 3, true), varMacro 3 map3Prog),
   (("filter", 2, true), varMacro 2 filterProg),
   (("optMap", 2, true), varMacro 2 optMapProg),
   (("optFlatMap", 2, true), varMacro 2 optFlatMapProg),
   (("bind", 3, true), expandBind)]

/-- `FindMacro` with these registered – `parser/macro_registry.cc:57-77`. -/
def stdMacros (name : String) (argc : Nat) (receiver : Bool) : Option Expander :=
  (stdList.find? fun m => m.1 = (name, argc, receiver)).map (·.2)

end Cel.Ids
