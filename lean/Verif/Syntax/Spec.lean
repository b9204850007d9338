import Verif.Syntax.Parser
import Verif.Syntax.Unparser

/-
What "the text reads back as the same expression" means, and for which
expressions it is claimed.
-/

set_option linter.unusedVariables false

namespace Cel.Syntax

/-! ### Equality up to the association of `&&` and `||` chains

The parser makes a balanced tree of a chain `a && b && c`, however it was
written.  `norm` gives every chain the tree that the parser gives it. -/


mutual
/-- The terms of the chain of `o` at the root of an expression. -/
def leaves (o : Op) : Ex → List Ex
  | .call (.op o') args =>
    if o' = o ∧ 2 ≤ args.length then leavesArgs o args else [.call (.op o') args]
  | .const c => [.const c]
  | .ident n => [.ident n]
  | .select e f t => [.select e f t]
  | .call (.name n) args => [.call (.name n) args]
  | .mcall e f args => [.mcall e f args]
  | .list els => [.list els]
  | .struct d n fs => [.struct d n fs]
  | .map es => [.map es]
  | .comp v v2 r a i c s res => [.comp v v2 r a i c s res]
def leavesArgs (o : Op) : Exs → List Ex
  | .nil => []
  | .cons e r => leaves o e ++ leavesArgs o r
end

/-- A chain of `o` with these operands, as the parser would build it. -/
def chain (cfg : Cfg) (o : Op) (args : Exs) : Ex :=
  match logicTree cfg.variadic o (leavesArgs o args) with
  | some e => e
  | none => .call (.op o) args

mutual
/-- The same expression, each chain of `&&` or of `||` balanced as the parser
balances it.  The operator that a macro puts in a loop step is not part of a
chain. -/
def norm (cfg : Cfg) : Ex → Ex
  | .const c => .const c
  | .ident n => .ident n
  | .select e f t => .select (norm cfg e) f t
  | .call (.op .and) args => chain cfg .and (normArgs cfg args)
  | .call (.op .or) args => chain cfg .or (normArgs cfg args)
  | .call fn args => .call fn (normArgs cfg args)
  | .mcall e f args => .mcall (norm cfg e) f (normArgs cfg args)
  | .list els => .list (normEls cfg els)
  | .struct d n fs => .struct d n (normFlds cfg fs)
  | .map es => .map (normEnts cfg es)
  | .comp v v2 r a i c s res =>
    .comp v v2 (norm cfg r) a (norm cfg i) (norm cfg c)
      (match s with
        | .call fn args => .call fn (normArgs cfg args)
        | s => norm cfg s) (norm cfg res)
def normArgs (cfg : Cfg) : Exs → Exs
  | .nil => .nil
  | .cons e r => .cons (norm cfg e) (normArgs cfg r)
def normEls (cfg : Cfg) : Els → Els
  | .nil => .nil
  | .cons o e r => .cons o (norm cfg e) (normEls cfg r)
def normFlds (cfg : Cfg) : Flds → Flds
  | .nil => .nil
  | .cons o f e r => .cons o f (norm cfg e) (normFlds cfg r)
def normEnts (cfg : Cfg) : Ents → Ents
  | .nil => .nil
  | .cons o k v r => .cons o (norm cfg k) (norm cfg v) (normEnts cfg r)
end

/-! ### The expressions that the claim covers -/

/-- A name that the lexer reads as an identifier. -/
def lexId (s : String) : Bool :=
  isSimpleId s && !(["true", "false", "null", "in"].contains s)

/-- A name that may be a variable or a global function. -/
def varId (s : String) : Bool := lexId s && !reserved.contains s

/-- `ESC_IDENTIFIER` (Cel.g4:188): what may stand between back quotes. -/
def escId (s : String) : Bool :=
  !s.toList.isEmpty && s.toList.all fun c =>
    c.isAlphanum || c == '_' || c == '.' || c == '-' || c == '/' || c == ' '

/-- A field name that reads back: an identifier, or one that back quotes can
hold, if the parser accepts them. -/
def fieldId (cfg : Cfg) (s : String) : Bool :=
  lexId s || (cfg.quoted && escId s && (s = "in" || !isSimpleId s))

/-- A literal that reads back as itself. -/
def goodConst (cfg : Cfg) : Const → Bool
  | .int i => -2 ^ 63 ≤ i && i < 2 ^ 63
  | .uint n => n < 2 ^ 64
  | .dbl _ m => cfg.dblTok m = .float m
  | _ => true

/-- Calls that stand as operators: `- !`, the binary operators, `?:`. -/
def isUnary : Ex → Bool
  | .call (.op .not) _ => true
  | .call (.op .neg) _ => true
  | _ => false

/-- The binary operators other than `&&` and `||`. -/
def isArith : Op → Bool
  | .eq | .ne | .lt | .le | .gt | .ge | .in_ | .add | .sub | .mul | .div | .mod => true
  | _ => false

/-- Any operator of the source language that is not written after its operand. -/
def isOperator : Ex → Bool
  | .call (.op .not) _ => true
  | .call (.op .neg) _ => true
  | .call (.op .and) _ => true
  | .call (.op .or) _ => true
  | .call (.op .cond) _ => true
  | .call (.op o) _ => isArith o
  | _ => false

/-- Whether the text of an operand begins with a number. -/
def numeral : Ex → Bool
  | .const (.int _) => true
  | .const (.dbl _ _) => true
  | .select e _ false => numeral e
  | .mcall e _ _ => numeral e
  | .call (.op .index) (.cons e _) => numeral e
  | .call (.op .optIndex) (.cons e _) => numeral e
  | .call (.op .optSelect) (.cons e _) => numeral e
  | .comp _ _ r _ _ _ _ _ => numeral r
  | _ => false

/-- Elements, fields and entries as lists. -/
def Els.toList : Els → List (Bool × Ex)
  | .nil => []
  | .cons o e r => (o, e) :: r.toList
/-- Elements, fields and entries as lists. -/
def Flds.toList : Flds → List (Bool × String × Ex)
  | .nil => []
  | .cons o f e r => (o, f, e) :: r.toList
/-- Elements, fields and entries as lists. -/
def Ents.toList : Ents → List (Bool × Ex × Ex)
  | .nil => []
  | .cons o k v r => (o, k, v) :: r.toList

/-- The expressions covered.  Left out are those that no source text denotes and
those whose text is wrong (see the counterexamples). -/
inductive Good (cfg : Cfg) : Ex → Prop
  | const {c} : goodConst cfg c = true → Good cfg (.const c)
  | ident {d s} : varId s = true → Good cfg (.ident ⟨d, s⟩)
  /-- not `(-x).f` -/
  | select {e f} : Good cfg e → isUnary e = false → fieldId cfg f = true →
      Good cfg (.select e f false)
  /-- not `has((a + b).f)` -/
  | has {e f} : Good cfg e → isOperator e = false → fieldId cfg f = true →
      Good cfg (.select e f true)
  /-- not `!!x`, not `!(-x)` -/
  | not {e} : Good cfg e → isUnary e = false → Good cfg (.op1 .not e)
  /-- not `-(-x)`, `-(!x)`, `-(1)` or `-(1.f)` -/
  | neg {e} : Good cfg e → isUnary e = false → isComplex e = true ∨ numeral e = false →
      Good cfg (.op1 .neg e)
  | bin {o a b} : isArith o = true → Good cfg a → Good cfg b → Good cfg (.op2 o a b)
  | logic {o args} : o = .and ∨ o = .or → 2 ≤ args.length → (∀ e ∈ args.toList, Good cfg e) →
      Good cfg (.call (.op o) args)
  | cond {a b c} : Good cfg a → Good cfg b → Good cfg c → Good cfg (.op3 .cond a b c)
  | index {a b} : Good cfg a → isUnary a = false → Good cfg b → Good cfg (.op2 .index a b)
  | optIndex {a b} : cfg.optionals = true → Good cfg a → isUnary a = false → Good cfg b →
      Good cfg (.op2 .optIndex a b)
  | optSelect {a f} : cfg.optionals = true → Good cfg a → isUnary a = false →
      fieldId cfg f = true → Good cfg (.op2 .optSelect a (.const (.str f)))
  | call {d s args} : varId s = true → ¬ (d = false ∧ s = "has" ∧ args.length = 1) →
      (∀ e ∈ args.toList, Good cfg e) → Good cfg (.call (.name ⟨d, s⟩) args)
  | mcall {e f args} : Good cfg e → isUnary e = false → lexId f = true →
      isMacro f args.length = false → (∀ a ∈ args.toList, Good cfg a) → Good cfg (.mcall e f args)
  | list {els} : (∀ x ∈ els.toList, Good cfg x.2) →
      (∀ x ∈ els.toList, x.1 = true → cfg.optionals = true) →
      Good cfg (.list els)
  | struct {d s ns fs} : (∀ n ∈ s :: ns, lexId n = true) →
      (∀ x ∈ fs.toList, Good cfg x.2.2) → (∀ x ∈ fs.toList, fieldId cfg x.2.1 = true) →
      (∀ x ∈ fs.toList, x.1 = true → cfg.optionals = true) →
      Good cfg (.struct d (s :: ns) fs)
  | map {es} : (∀ x ∈ es.toList, Good cfg x.2.1) → (∀ x ∈ es.toList, Good cfg x.2.2) →
      (∀ x ∈ es.toList, x.1 = true → cfg.optionals = true) → Good cfg (.map es)
  | all {r v p} : Good cfg r → isUnary r = false → varId v = true → v ≠ oldAccuVar →
      Good cfg p → Good cfg (allEx r v p)
  | exists {r v p} : Good cfg r → isUnary r = false → varId v = true → v ≠ oldAccuVar →
      Good cfg p → Good cfg (existsEx r v p)
  | existsOne {r v p} : Good cfg r → isUnary r = false → varId v = true → v ≠ oldAccuVar →
      Good cfg p → Good cfg (existsOneEx r v p)
  | map2 {r v t} : Good cfg r → isUnary r = false → varId v = true → v ≠ oldAccuVar →
      Good cfg t → Good cfg (map2Ex r v t)
  | map3 {r v p t} : Good cfg r → isUnary r = false → varId v = true → v ≠ oldAccuVar →
      Good cfg p → Good cfg t → Good cfg (map3Ex r v p t)

/-- A filter is a map of its variable. -/
theorem Good.filter {cfg : Cfg} {r v p} (hr : Good cfg r) (hu : isUnary r = false)
    (hv : varId v = true) (hv' : v ≠ oldAccuVar) (hp : Good cfg p) : Good cfg (filterEx r v p) :=
  Good.map3 hr hu hv hv' hp (Good.ident hv)

end Cel.Syntax
