import Verif.Direct.Rel

/-!
# Precompiling constant patterns of `matches`

`eval/compiler/regex_precompilation_optimization.cc`, `eval/eval/regex_match_step.cc` and the standard `matches`
function of `runtime/standard/regex_functions.cc`, on the source expressions of `Verif/Direct/Model.lean`.
-/

set_option linter.unusedVariables false

namespace Cel.Regex
open Cel Cel.Eval Cel.Data Cel.Direct

/-- A compiled pattern: what `RE2::PartialMatch` answers. -/
abbrev Prog := String → Bool

/-- Compiling a pattern and `CheckRE2` (`internal/re2_options.h` lines 30-60) for one maximal program size. -/
abbrev Compile := String → Res Prog

/-- The standard `matches` (`runtime/standard/regex_functions.cc` lines 32-52). -/
def matchesOverload {σ : Type} (compile : Compile) (receiver : Bool) : Overload σ where
  desc := ⟨"matches", receiver, [kString, kString], true⟩
  impl args h :=
    match args with
    | [.str s, .str p] =>
      match compile p with
      | .ok re => (.ok (.bool (re s)), h)
      | .err e => (.ok (.error e), h)
      | .ub => (.ub, h)
    | _ => (.err ⟨.internal, "unexpected argument"⟩, h)

/-- The step of a call of the standard `matches`. -/
def matchesSite {σ : Type} (compile : Compile) (receiver : Bool) (id : Int) : CallSite σ :=
  ⟨"matches", receiver, id, .eager [matchesOverload compile receiver]⟩

/-- `reference_map`: the overloads the checker chose for each expression id. -/
abbrev RefMap := List (Int × List String)

/-- `IsFunctionOverload` (`eval/compiler/regex_precompilation_optimization.cc` lines 62-91). -/
def isMatches {σ : Type} (refs : RefMap) (cs : CallSite σ) (nargs : Nat) : Bool :=
  if cs.name ≠ "matches" then false
  else if nargs ≠ 2 then false
  else if refs.isEmpty then true
  else
    match refs.lookup cs.exprId with
    | some [o] => o == "matches_string"
    | _ => false

def srcsLen {σ : Type} : Srcs σ → Nat
  | .nil => 0
  | .cons _ es => srcsLen es + 1

/-- The last argument (`call_expr.args().back()`, line 149) if it is a constant string: a literal, or a constant
step left by folding (lines 177-213). -/
def constPattern {σ : Type} : Srcs σ → Option String
  | .nil => none
  | .cons e .nil =>
    match e with
    | .const (.str p) => some p
    | _ => none
  | .cons _ es => constPattern es

/-- `RegexProgramBuilder::programs_`: the programs built so far. -/
abbrev Cache := List (String × Prog)

/-- `BuildRegexProgram` (`eval/compiler/regex_precompilation_optimization.cc` lines 101-117).  Whether a program
built before is still alive is left open. -/
def build (compile : Compile) (alive : Cache → String → Bool) (k : Cache) (p : String) : Res (Prog × Cache) :=
  match k.lookup p with
  | some re =>
    if alive k p then .ok (re, k)
    else
      match compile p with
      | .ok re => .ok (re, (p, re) :: k.filter fun e => e.1 ≠ p)
      | .err e => .err e
      | .ub => .ub
  | none =>
    match compile p with
    | .ok re => .ok (re, (p, re) :: k)
    | .err e => .err e
    | .ub => .ub

/-- "First argument for regular expression match must be a string". -/
def notString : Status := ⟨.internal, "First argument for regular expression match must be a string"⟩

/-- `RegexMatchDirectStep` and `RegexMatchStep` (`eval/eval/regex_match_step.cc` lines 60-120) on the subject. -/
def matchStep (direct : Bool) (re : Prog) (x : VA) : Res VA :=
  match x.v with
  | .str s => .ok ⟨.bool (re s), none⟩
  | .error e => if direct then .ok ⟨.error e, none⟩ else .err notString
  | .unknown u => if direct then .ok ⟨.unknown u, none⟩ else .err notString
  | _ => .err notString

/-- The step, on the value stack. -/
def matchOp {σ : Type} (direct : Bool) (re : Prog) : Op σ := fun xs h =>
  match xs with
  | [x] => (matchStep direct re x, h)
  | _ => (.err ⟨.internal, "Insufficient arguments supplied for regular expression match"⟩, h)

/-- Options of the pass. -/
structure PCfg where
  compile : Compile
  alive : Cache → String → Bool
  refs : RefMap
  /-- recursive plan -/
  direct : Bool

def mk1 {σ : Type} (f : Op σ) (r : Res (Expr σ × Cache)) : Res (Expr σ × Cache) :=
  r.bind fun a => .ok (.op f (.cons a.1 .nil), a.2)

/-- `OnPostVisit` (`eval/compiler/regex_precompilation_optimization.cc` lines 136-172) with `RewriteRecursivePlan`
and `RewriteStackMachinePlan` (lines 228-262) for a call whose operands are planned. -/
def callNode {σ : Type} (P : PCfg) (r : RCfg σ) (cs : CallSite σ) (args : Srcs σ) (args' : Exprs σ) (k : Cache) :
    Res (Expr σ × Cache) :=
  match (if isMatches P.refs cs (srcsLen args) then constPattern args else none) with
  | none => .ok (.op (callOp r cs) args', k)
  | some p =>
    (build P.compile P.alive k p).bind fun b =>
      match args' with
      | .cons subject _ => .ok (.op (matchOp P.direct b.1) (.cons subject .nil), b.2)
      | .nil => .ok (.op (callOp r cs) args', b.2)

mutual
/-- Planning with the pass: the steps of `toExpr`, operands first. -/
def precompile {σ : Type} (P : PCfg) (r : RCfg σ) : Src σ → Cache → Res (Expr σ × Cache)
  | .const v, k => .ok (.const v, k)
  | .ident x abs, k => .ok (.ident x abs, k)
  | .call cs args, k => (precompiles P r args k).bind fun a => callNode P r cs args a.1 a.2
  | .not a, k => mk1 (op1 (notStep r.c.unknowns r.c.pats)) (precompile P r a k)
  | .nsf a, k => mk1 (op1 notStrictlyFalse) (precompile P r a k)
  | .bin o a b, k => (precompile P r a k).bind fun a => (precompile P r b a.2).bind fun b =>
      .ok (.op (binOp r o) (.cons a.1 (.cons b.1 .nil)), b.2)
  | .index a b, k => (precompile P r a k).bind fun a => (precompile P r b a.2).bind fun b =>
      .ok (.op (opR (indexStep r.c)) (.cons a.1 (.cons b.1 .nil)), b.2)
  | .select f test a, k => mk1 (opR (selectStep r.c f test)) (precompile P r a k)
  | .list opt args, k => (precompiles P r args k).bind fun a => .ok (.op (opR (listStep r.c opt)) a.1, a.2)
  | .map opt args, k => (precompiles P r args k).bind fun a => .ok (.op (opR (mapStep r.c opt)) a.1, a.2)
  | .logic o a b, k => (precompile P r a k).bind fun a => (precompile P r b a.2).bind fun b =>
      .ok (.logic o a.1 b.1, b.2)
  | .cond c t f, k => (precompile P r c k).bind fun c => (precompile P r t c.2).bind fun t =>
      (precompile P r f t.2).bind fun f => .ok (.cond c.1 t.1 f.1, f.2)
  | .comp iter iter2 accu range init cnd stp res, k =>
    (precompile P r range k).bind fun a => (precompile P r init a.2).bind fun b =>
      (precompile P r cnd b.2).bind fun c => (precompile P r stp c.2).bind fun d =>
        (precompile P r res d.2).bind fun e => .ok (.comp iter iter2 accu a.1 b.1 c.1 d.1 e.1, e.2)
  | .bind x init body, k => (precompile P r init k).bind fun a => (precompile P r body a.2).bind fun b =>
      .ok (.bind x a.1 b.1, b.2)
def precompiles {σ : Type} (P : PCfg) (r : RCfg σ) : Srcs σ → Cache → Res (Exprs σ × Cache)
  | .nil, k => .ok (.nil, k)
  | .cons e es, k => (precompile P r e k).bind fun a => (precompiles P r es a.2).bind fun b =>
      .ok (.cons a.1 b.1, b.2)
end

/-- A program created with the pass: planning may fail. -/
def createProgram {σ : Type} (P : PCfg) (r : RCfg σ) (e : Src σ) : Res (Expr σ) :=
  (precompile P r e []).bind fun a => .ok a.1

end Cel.Regex
