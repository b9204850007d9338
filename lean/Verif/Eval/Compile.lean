import Verif.Eval.Machine

/-!
# The planner's flattening (`eval/compiler/flat_expr_builder.cc`)
-/

namespace Cel.Eval
open Cel

/-- What the planner knows about a variable in scope: the slot of a comprehension variable, or the
slot and extracted subexpression of a `cel.bind` variable (`LookupSlot`,
`eval/compiler/flat_expr_builder.cc` lines 713-780).  `w` (the number of slots reserved for the
initializer) is only used to state the correctness theorem. -/
inductive Ent where
  | val (k : Nat)
  | delayed (k w sub : Nat)

/-- Variables in scope, innermost first. -/
abbrev Scope := List (String × Ent)

/-- `LookupSlot` (`eval/compiler/flat_expr_builder.cc` lines 713-780). -/
def scopeGet : Scope → String → Option Ent
  | [], _ => none
  | (y, e) :: Γ, x => if x = y then some e else scopeGet Γ x

/-- Slots of the iteration variables: one, or two (`eval/compiler/flat_expr_builder.cc`
lines 1330-1341). -/
def iterSlots : Option String → Nat
  | none => 1
  | some _ => 2

mutual
/-- Slots reserved by an expression when nothing is released (inside a `cel.bind` initializer,
`eval/compiler/flat_expr_builder.cc` lines 1350-1365). -/
def width {σ : Type} : Expr σ → Nat
  | .const _ => 0
  | .ident _ _ => 0
  | .op _ args => widths args
  | .logic _ a b => width a + width b
  | .cond c t f => width c + width t + width f
  | .comp _ iter2 _ range init cnd stp res =>
    iterSlots iter2 + 1 + width range + width init + width cnd + width stp + width res
  | .bind _ init body => 1 + width init + width body
def widths {σ : Type} : Exprs σ → Nat
  | .nil => 0
  | .cons e es => width e + widths es
end

/-- First slot free for the next sibling: slots of a finished expression are released unless it is
inside a `cel.bind` initializer (`eval/compiler/flat_expr_builder.cc` lines 1350-1365, 1400-1403). -/
def after {σ : Type} (ini : Bool) (n : Nat) (e : Expr σ) : Nat := if ini then n + width e else n

/-- Scope entries of the iteration variables: first `iter_var`, then `iter_var2`
(`eval/compiler/flat_expr_builder.cc` lines 735-760). -/
def iterScope (iter : String) (iter2 : Option String) (n : Nat) : Scope :=
  match iter2 with
  | none => [(iter, .val n)]
  | some y => [(iter, .val n), (y, .val (n + 1))]

/-- Slot of `iter_var2`. -/
def slot2 (iter2 : Option String) (n : Nat) : Option Nat :=
  match iter2 with
  | none => none
  | some _ => some (n + 1)

mutual
/-- Flattening of an expression in scope `Γ`, inside a `cel.bind` initializer or not (`ini`), with
first free slot `n` and next subexpression index `m`: the steps, and the subexpressions extracted
meanwhile.

* operands: post-order, `AddStep` of the operation last (`AddResolvedFunctionStep` lines 1540-1600)
* `&&`/`||`: `BinaryCondVisitor` lines 2150-2260
* `?:`: `TernaryCondVisitor` lines 2289-2360, `ExhaustiveTernaryCondVisitor` lines 2371-2383
* comprehensions: `PreVisitComprehension` lines 1293-1388, `ComprehensionVisitor` lines 2385-2465
* `cel.bind`: `LazyInit` lines 808-826, `MaybeExtractSubexpression` lines 1836-1870,
  `PostVisitArgTrivial` lines 2467-2496 -/
def compile {σ : Type} (cfg : Cfg σ) (Γ : Scope) (ini : Bool) (n m : Nat) :
    Expr σ → List (Instr σ) × List (List (Instr σ))
  | .const v => ([.const v], [])
  | .ident x abs =>
    match (if abs then none else scopeGet Γ x) with
    | none => ([.ident x], [])
    | some (.val k) => ([.slot x k], [])
    | some (.delayed k _ sub) => ([.lazyInit k sub], [])
  | .op f args =>
    let r := compileArgs cfg Γ ini n m args
    (r.1 ++ [.op args.len f], r.2)
  | .logic isOr a b =>
    let ra := compile cfg Γ ini n m a
    let rb := compile cfg Γ ini (after ini n a) (m + ra.2.length) b
    if cfg.shortCircuit then
      (ra.1 ++ ([.condJump isOr true (rb.1.length + 1)] ++ (rb.1 ++ [.logic isOr])), ra.2 ++ rb.2)
    else (ra.1 ++ (rb.1 ++ [.logic isOr]), ra.2 ++ rb.2)
  | .cond c t f =>
    let rc := compile cfg Γ ini n m c
    let nt := after ini n c
    let rt := compile cfg Γ ini nt (m + rc.2.length) t
    let nf := after ini nt t
    let rf := compile cfg Γ ini nf (m + rc.2.length + rt.2.length) f
    if cfg.shortCircuit then
      (rc.1 ++ ([.boolCheckJump (rt.1.length + rf.1.length + 2),
          .condJump false false (rt.1.length + 1)] ++ (rt.1 ++ ([.jump rf.1.length] ++ rf.1))),
        rc.2 ++ (rt.2 ++ rf.2))
    else (rc.1 ++ (rt.1 ++ (rf.1 ++ [.ternary])), rc.2 ++ (rt.2 ++ rf.2))
  | .comp iter iter2 accu range init cnd stp res =>
    let ka := n + iterSlots iter2
    let Γr := (accu, Ent.val ka) :: Γ
    let Γl := iterScope iter iter2 n ++ Γr
    let n0 := ka + 1
    let r0 := compile cfg Γ ini n0 m range
    let n1 := after ini n0 range
    let m1 := m + r0.2.length
    let r1 := compile cfg Γ ini n1 m1 init
    let n2 := after ini n1 init
    let m2 := m1 + r1.2.length
    let r2 := compile cfg Γl ini n2 m2 cnd
    let n3 := after ini n2 cnd
    let m3 := m2 + r2.2.length
    let r3 := compile cfg Γl ini n3 m3 stp
    let n4 := after ini n3 stp
    let m4 := m3 + r3.2.length
    let r4 := compile cfg Γr ini n4 m4 res
    (r0.1 ++
      ([.compInit (r1.1.length + r2.1.length + r3.1.length + r4.1.length + 4)] ++
      (r1.1 ++
      ([.compNext n (slot2 iter2 n) ka (r2.1.length + r3.1.length + 2)] ++
      (r2.1 ++
      ([.compCond n (slot2 iter2 n) ka (r3.1.length + 1) (r3.1.length + r4.1.length + 2)] ++
      (r3.1 ++
      ([.jump (-(r2.1.length + r3.1.length + 3 : Int))] ++
      (r4.1 ++ [.compFinish ka])))))))),
     r0.2 ++ (r1.2 ++ (r2.2 ++ (r3.2 ++ r4.2))))
  | .bind x init body =>
    let ri := compile cfg Γ true (n + 1) m init
    let sub := m + ri.2.length
    let rb := compile cfg ((x, .delayed n (width init) sub) :: Γ) ini (n + 1 + width init) (sub + 1) body
    (rb.1 ++ [.clearSlot n], ri.2 ++ ([ri.1] ++ rb.2))
/-- Operands from left to right. -/
def compileArgs {σ : Type} (cfg : Cfg σ) (Γ : Scope) (ini : Bool) (n m : Nat) :
    Exprs σ → List (Instr σ) × List (List (Instr σ))
  | .nil => ([], [])
  | .cons e es =>
    let r := compile cfg Γ ini n m e
    let rs := compileArgs cfg Γ ini (after ini n e) (m + r.2.length) es
    (r.1 ++ rs.1, r.2 ++ rs.2)
end

/-- The whole program: main path first, then the extracted subexpressions
(`FlattenExpressionTable`, `eval/compiler/flat_expr_builder.cc` lines 2511-2540). -/
def plan {σ : Type} (cfg : Cfg σ) (e : Expr σ) : Prog σ :=
  let r := compile cfg [] false 0 1 e
  r.1 :: r.2

end Cel.Eval
