import Verif.Select.Model

/-!
# What the select optimization must preserve

The outcome of an expression, up to which error it is: `Agree`.  `Fine` are the conditions under
which it does; the theorems in `Defects.lean` show that none of those about values can be left out.
-/

namespace Cel.Select
open Cel

/-- Two outcomes agree when they are the same value, or both error values, or when evaluation is
aborted with a status in both cases. -/
def VAgree (v w : Val) : Prop := v = w ∨ (isError v = true ∧ isError w = true)

def Agree : Res Val → Res Val → Prop
  | .ok v, .ok w => VAgree v w
  | .err _, .err _ => True
  | .ub, .ub => True
  | _, _ => False

inductive AgreeAll : List (Res Val) → List (Res Val) → Prop where
  | nil : AgreeAll [] []
  | cons (a b l m) : Agree a b → AgreeAll l m → AgreeAll (a :: l) (b :: m)

/-- The parts of an expression that the optimization turns into one step: a field of a message, and
what is selected from a field of a message by constant keys or indices. -/
def Chain (L : Lib) : Expr → Bool
  | .select _ t e f _ =>
    match candSelect L t f with
    | some (.field _ _) => true
    | some (.attr _) => Chain L e
    | none => false
  | .index _ e k => (candIndex k).isSome && Chain L e
  | _ => false

/-- An element fits the declared type. -/
def elemOK (t : FT) : Elem → Prop
  | .scal _ => ∃ z, t = .scalar z
  | .msg m => t = .msg m.type

/-- A message as the protobuf library makes it: names and numbers of fields are unique, and what its
fields hold is of their declared types. -/
structure MsgOK (L : Lib) (m : Msg) : Prop where
  plain : L.wk m.type = .none
  names : ∀ d ∈ L.fields m.type, ∀ d' ∈ L.fields m.type, d.number = d'.number → d = d'
  rep : ∀ d ∈ L.fields m.type, ∀ t, d.shape = .rep t → ∀ e ∈ repElems m d, elemOK t e
  map : ∀ d ∈ L.fields m.type, ∀ k t, d.shape = .map k t → ∀ e ∈ mapEntries m d, elemOK t e.2
  one : ∀ d ∈ L.fields m.type, ∀ t c, d.shape = .one t → cont m d = some c → ∃ e, c = .one e ∧ elemOK t e

/-- Wrappers, durations and timestamps become scalars. -/
def LibOK (L : Lib) : Prop :=
  ∀ m, (L.wk m.type = .wrapper ∨ L.wk m.type = .time) →
    (∃ n, L.conv m = .scal n) ∨ ∃ b, L.conv m = .bool b

def In32 (i : Int) : Prop := -(2 ^ 31) ≤ i ∧ i ≤ 2 ^ 31 - 1

/-- A constant of the language: `int` and `uint` are 64-bit, and the conversions of a double are
consistent. -/
def constOK : Const → Prop
  | .int i => -(2 ^ 63) ≤ i ∧ i ≤ 2 ^ 63 - 1
  | .uint i => 0 ≤ i ∧ i ≤ 2 ^ 64 - 1
  | .dbl a b =>
    (∀ i, a = some i → (-(2 ^ 63) ≤ i ∧ i ≤ 2 ^ 63 - 1) ∧ b = if 0 ≤ i then some i else none) ∧
      ∀ i, b = some i → 0 ≤ i ∧ i ≤ 2 ^ 64 - 1 ∧ (i ≤ 2 ^ 63 - 1 → a = some i)
  | _ => True

/-- An operand of a select has its checked type (so it is not null), an unset wrapper is not read or
is null in the plain evaluation too, and presence is tested only by keys of the right type. -/
def SelFine (L : Lib) (N : Env) (v : Val) (t : OType) (f : String) (test : Bool) : Prop :=
  match t with
  | .message T =>
    isError v = true ∨ ∃ m, v = .msg m ∧ m.type = T ∧ MsgOK L m ∧
      (test = true ∨ N.unsetNull = true ∨
        ∀ d t', byName L T f = some d → d.shape = .one (.msg t') → L.wk t' = .wrapper →
          (cont m d).isSome = true)
  | .map => isError v = true ∨ ∃ k l, v = .map k l ∧ (test = true → k = .str)
  | .other => True

/-- An index of a list is an `int` of 32 bits (or, with heterogeneous equality, a double equal to
one), and a numeric key is of the declared type of the key. -/
def IdxFine (N : Env) (v : Val) (c : Const) : Prop :=
  match v, c with
  | .list _, .int i => In32 i
  | .list l, .uint i => N.het = false ∨ l.length ≤ i
  | .list _, .dbl (some i) _ => N.het = true ∧ In32 i
  | .map k _, .int _ => k ≠ .u32 ∧ k ≠ .u64
  | .map k _, .uint _ => k ≠ .i32 ∧ k ≠ .i64
  | .map k _, .dbl (some _) _ => N.het = true ∧ k ≠ .u32 ∧ k ≠ .u64
  | .map k _, .dbl none _ => N.het = true ∧ k ≠ .i32 ∧ k ≠ .i64
  | _, _ => True

/-- An element of a repeated scalar field. -/
def scalarElem (L : Lib) : Expr → Bool
  | .index _ (.select _ (.message T) _ f _) _ =>
    match byName L T f with
    | some d => match d.shape with | .rep (.scalar _) => true | _ => false
    | none => false
  | _ => false

def isTest : Expr → Bool
  | .select _ _ _ _ t => t
  | _ => false

/-- What the checker rejects: selecting from an element of a repeated scalar field, or from the
result of a presence test. -/
def Deep (L : Lib) (e : Expr) : Bool := scalarElem L e || isTest e

mutual
/-- The conditions, at every select and every index that becomes part of an optimized step. -/
def Fine (L : Lib) (N : Env) : Expr → Prop
  | .leaf _ => True
  | .select c t e f test =>
    Fine L N e ∧ (Chain L (.select c t e f test) = true →
      (Chain L e = true → Deep L e = false) ∧ ∀ v, eval L N e = .ok v → SelFine L N v t f test)
  | .index c e k =>
    Fine L N e ∧ (Chain L (.index c e k) = true →
      Deep L e = false ∧ constOK k ∧ ∀ v, eval L N e = .ok v → IdxFine N v k)
  | .node _ args => FineAll L N args
  | .attr _ _ _ => False
def FineAll (L : Lib) (N : Env) : List Expr → Prop
  | [] => True
  | e :: l => Fine L N e ∧ FineAll L N l
end

/-- The other operations do not look at which error they are given. -/
def Respects (N : Env) : Prop :=
  ∀ n l m, AgreeAll l m → Agree (N.node n l) (N.node n m)

end Cel.Select
