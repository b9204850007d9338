/-!
# Policies: expressions and what they mean

The expression language the policy compiler cuts and pastes, and its meaning.
Everything a policy author can write inside an expression other than the five functions the compiler
itself inserts is interpreted by an arbitrary function of the argument values, so the theorems hold
whatever those functions do (they may be strict, commutative over errors, partial, ...).
They are pure: an expression evaluated twice gives the same value.
-/

namespace Policy

/-- Values.  Models `Value` (common/value.h) as far as the composed expression inspects it: booleans
(the test of `_?_:_`), optional values (eval/eval/optional_or_step.cc), errors.  An unknown set takes the
same paths through these steps as an error, so `err` stands for both. All other values are `data`. -/
inductive Val where
  | bool (b : Bool)
  | optNone
  | optSome (v : Val)
  | err (e : String)
  | data (n : Nat)
  deriving Repr, DecidableEq, Inhabited

/-- Operators: the five functions the policy compiler inserts (policy/compiler.cc:765-822: `_?_:_`,
`optional.of`, `optional.none`, and the member functions `or` and `orValue`, whose target is the first
argument here), and everything else: calls, selections, list, map and message creation. -/
inductive Op where
  | cond
  | optOf
  | optNone
  | orElse
  | orValue
  | other (f : String)
  deriving Repr, DecidableEq

/-- Checked expressions (common/expr.h, common/ast.h).
`ref x` is a node whose reference-map entry names the variable `x` (an identifier or a selection chain such
as `variables.x`; the checker decides, policy/compiler.cc:874-892); `loc x` is a reference to a
comprehension variable, whose name never contains a dot; `index n` is `@indexN`, which cannot be written in
source text.  `compr` has the iteration variable, the accumulator, and the five subexpressions in the order
of common/navigable_ast.cc.  Expression ids are not modelled: the compiler uses them to find nodes, and
they are unique (DCHECK at policy/compiler.cc:985). -/
inductive Ex where
  | const (v : Val)
  | ref (x : String)
  | loc (x : String)
  | index (n : Nat)
  | app (op : Op) (args : List Ex)
  | compr (iv av : String) (range init cond step result : Ex)
  deriving Repr, Inhabited

/-- What the functions mean: any total function on values; and what a value offers to a comprehension. -/
structure Interp where
  op : String → List Val → Val
  items : Val → Option (List Val)

/-- The five fixed functions; everything else goes to the interpretation.
`cond`: eval/eval/ternary_step.cc. `optOf`/`optNone`: runtime/optional_types.cc:50-56 (the function dispatch
does not call a strict function with an error argument). `orElse`/`orValue`: `EvalOptionalOr`,
eval/eval/optional_or_step.cc:131-165. -/
def apply (I : Interp) : Op → List Val → Val
  | .cond, [.bool true, a, _] => a
  | .cond, [.bool false, _, b] => b
  | .cond, [.err e, _, _] => .err e
  | .cond, _ => .err "no matching overload: _?_:_"
  | .optOf, [.err e] => .err e
  | .optOf, [v] => .optSome v
  | .optOf, _ => .err "no matching overload: optional.of"
  | .optNone, [] => .optNone
  | .optNone, _ => .err "no matching overload: optional.none"
  | .orElse, [.err e, _] => .err e
  | .orElse, [.optSome v, _] => .optSome v
  | .orElse, [.optNone, .err e] => .err e
  | .orElse, [.optNone, .optSome v] => .optSome v
  | .orElse, [.optNone, .optNone] => .optNone
  | .orElse, _ => .err "no matching overload: or"
  | .orValue, [.err e, _] => .err e
  | .orValue, [.optSome v, _] => v
  | .orValue, [.optNone, b] => b
  | .orValue, _ => .err "no matching overload: orValue"
  | .other f, vs => I.op f vs

/-- The comprehension loop (eval/eval/comprehension_step.cc), with the bodies as functions of the item and the
accumulator. Simplified: a condition that is not a boolean ends the loop with the condition's value. -/
def loop (cond step : Val → Val → Val) : List Val → Val → Val
  | [], acc => acc
  | x :: xs, acc =>
    match cond x acc with
    | .bool true => loop cond step xs (step x acc)
    | .bool false => acc
    | v => v

/-- Variable environments. -/
abbrev Env := String → Val

/-- An environment with one more binding. -/
def Env.bind (ρ : Env) (x : String) (v : Val) : Env := fun y => if y = x then v else ρ y

mutual
/-- The value of an expression, given the values `slots` of the `cel.@block` variables, the activation `σ` and
the comprehension variables `ρ`. -/
def eval (I : Interp) (slots : List Val) (σ : Env) (ρ : Env) : Ex → Val
  | .const v => v
  | .ref x => σ x
  | .loc x => ρ x
  | .index n => (slots[n]?).getD (.err "no such slot")
  | .app op args => apply I op (evalList I slots σ ρ args)
  | .compr iv av range init cond step result =>
    match I.items (eval I slots σ ρ range) with
    | none => .err "not iterable"
    | some items =>
      eval I slots σ
        (ρ.bind av (loop
          (fun x acc => eval I slots σ ((ρ.bind iv x).bind av acc) cond)
          (fun x acc => eval I slots σ ((ρ.bind iv x).bind av acc) step)
          items (eval I slots σ ρ init)))
        result
/-- The values of a list of expressions. -/
def evalList (I : Interp) (slots : List Val) (σ : Env) (ρ : Env) : List Ex → List Val
  | [] => []
  | e :: es => eval I slots σ ρ e :: evalList I slots σ ρ es
end

/-- The environment outside any comprehension. -/
def noLocals : Env := fun _ => .err "unbound comprehension variable"

/-- A program: the slots of the outermost `cel.@block` and its body. A root that is no block is a program
without slots (this is the form `Cleanup` produces, policy/compiler.cc:1017-1037). -/
structure Prog where
  inits : List Ex
  body : Ex
  deriving Repr

/-- The values of the slots of a block, each of which sees those before it.  Models
eval/eval/lazy_init_step.cc: a slot is evaluated when first used and its value kept; for pure expressions
that is the value the expression has, whether or not it is used. -/
def slotVals (I : Interp) (σ : Env) : List Ex → List Val → List Val
  | [], vs => vs
  | e :: es, vs => slotVals I σ es (vs ++ [eval I vs σ noLocals e])

/-- The value of a program. -/
def Prog.run (I : Interp) (σ : Env) (p : Prog) : Val :=
  eval I (slotVals I σ p.inits []) σ noLocals p.body

mutual
/-- The number of nodes on the longest path down from an expression: `NavigableAstNode::height`
(common/navigable_ast.cc:138 and 168-172). -/
def height : Ex → Nat
  | .const _ => 1
  | .ref _ => 1
  | .loc _ => 1
  | .index _ => 1
  | .app _ args => 1 + heights args
  | .compr _ _ a b c d e => 1 + max (height a) (max (height b) (max (height c) (max (height d) (height e))))
/-- The largest height of a list of expressions (0 for the empty list). -/
def heights : List Ex → Nat
  | [] => 0
  | e :: es => max (height e) (heights es)
end

/-- The height of the whole AST: without slots the program is its body; with slots it is a call of
`cel.@block` with a list and the body. -/
def Prog.height (p : Prog) : Nat :=
  if p.inits = [] then Policy.height p.body else 1 + max (1 + heights p.inits) (Policy.height p.body)

end Policy
