import Verif.Types.Model
import Verif.Checker.Sound

/-!
# C60: what type soundness means

Which values belong to a type, when a program's variables, functions and messages keep to their declarations, and which expressions the
theorem speaks of: those whose type map mentions no dynamic type.
-/

namespace Cel.Types
open Cel Cel.Eval Cel.Data Cel.Direct Cel.Checker

/-! ## Values of a type -/

/-- Errors that say an operation met a value of a type it is not made for. -/
def typeErrorTexts : List (List Char) :=
  ["No matching overloads found".toList, "Applying SELECT to non-message type".toList, "Invalid container type: ".toList,
    "Index error: expected integer type".toList, "Invalid map key type: ".toList]

def TypeError (s : Status) : Prop := ∃ p ∈ typeErrorTexts, p <+: s.msg.toList

/-- `HasType t v`: `v` is a value of type `t`. Errors and unknowns belong to no type. -/
inductive HasType : Ty → Value → Prop
  | null : HasType (.b .null) .null
  | bool (b) : HasType (.b .bool) (.bool b)
  | int (i) : HasType (.b .int) (.int i)
  | uint (u) : HasType (.b .uint) (.uint u)
  | double (d) : HasType (.b .double) (.dbl d)
  | string (s) : HasType (.b .string) (.str s)
  | bytes (b) : HasType (.b .bytes) (.bytes b)
  | duration (d) : HasType (.b .duration) (.dur d)
  | timestamp (t) : HasType (.b .timestamp) (.ts t)
  | type (ps n) : HasType (.con .type ps) (.typ n)
  | list {t l} : (∀ v ∈ l, HasType t v) → HasType (.con .list [t]) (.list l)
  | map {k v m} : (∀ e ∈ m, HasType k e.1) → (∀ e ∈ m, HasType v e.2) → HasType (.con .map [k, v]) (.map m)
  | struct (n i) : HasType (.con (.struct n) []) (.struct n i)
  | enum (n i) : HasType (.con (.enum n) []) (.int i)
  | optNone (t) : HasType (optionalTy t) (.opt none)
  | optSome {t v} : HasType t v → HasType (optionalTy t) (.opt (some v))
  | opaque {n} (ps i) : n ≠ "optional_type" → HasType (.con (.opaque n) ps) (.opaq n i)
  | wrapperNull {w p} : Wraps w p → HasType (.b w) .null
  | wrapper {w p v} : Wraps w p → HasType (.b p) v → HasType (.b w) v
  | dyn {v} : v.isError = false → v.isUnknown = false → HasType (.b .dyn) v
  | any {v} : v.isError = false → v.isUnknown = false → HasType (.b .any) v

/-- What evaluating an expression of type `t` may give: a value of the type, an error that is no type error, or, if unknowns are
processed, an unknown. -/
inductive Fine (unknowns : Bool) (t : Ty) : Value → Prop
  | value {v} : HasType t v → Fine unknowns t v
  | error {s} : ¬ TypeError s → Fine unknowns t (.error s)
  | unknown (u) : unknowns = true → Fine unknowns t (.unknown u)

/-- The same for a step, which may also fail as a whole. -/
def FineRes (unknowns : Bool) (t : Ty) : Res VA → Prop
  | .ok x => Fine unknowns t x.v
  | .err s => ¬ TypeError s
  | .ub => False

/-! ## Types that are not dynamic -/

/-- Base types whose values are of one kind. -/
def StrictBase (legacy : Bool) : Base → Prop
  | .bool | .int | .uint | .double | .string | .bytes | .duration | .timestamp => True
  | .null => legacy = false
  | _ => False

/-- Types the language allows for map keys. -/
def KeyTy (t : Ty) : Prop := t = .b .bool ∨ t = .b .int ∨ t = .b .uint ∨ t = .b .string

/-- A type that mentions no `dyn`, `any`, wrapper or error type (nor `null`, where null may be assigned to messages), whose maps have key
types the language allows. -/
inductive Strict (legacy : Bool) : Ty → Prop
  | base {b} : StrictBase legacy b → Strict legacy (.b b)
  | struct (n) : Strict legacy (.con (.struct n) [])
  | type {ps} : ps.length ≤ 1 → Strict legacy (.con .type ps)
  | list {t} : Strict legacy t → Strict legacy (.con .list [t])
  | map {k v} : KeyTy k → Strict legacy v → Strict legacy (.con .map [k, v])
  | opaque {n ps} : (∀ p ∈ ps, Strict legacy p) → Strict legacy (.con (.opaque n) ps)

/-- The same for a declared type, which may have type parameters. -/
inductive Clean (legacy : Bool) : Ty → Prop
  | param (x) : Clean legacy (.param x)
  | base {b} : StrictBase legacy b → Clean legacy (.b b)
  | struct (n) : Clean legacy (.con (.struct n) [])
  | type {ps} : ps.length ≤ 1 → (∀ p ∈ ps, Shaped p) → Clean legacy (.con .type ps)
  | list {t} : Clean legacy t → Clean legacy (.con .list [t])
  | map {k v} : Clean legacy k → Clean legacy v → Clean legacy (.con .map [k, v])
  | opaque {n ps} : (∀ p ∈ ps, Clean legacy p) → Clean legacy (.con (.opaque n) ps)

/-- No enum, function or unknown type occurs in it: instantiation turns those into the error type. -/
inductive Inst : Ty → Prop
  | param (x) : Inst (.param x)
  | base {b} : b ≠ .unknown → Inst (.b b)
  | struct (n) : Inst (.con (.struct n) [])
  | type {ps} : ps.length ≤ 1 → (∀ p ∈ ps, Inst p) → Inst (.con .type ps)
  | list {t} : Inst t → Inst (.con .list [t])
  | map {k v} : Inst k → Inst v → Inst (.con .map [k, v])
  | opaque {n ps} : (∀ p ∈ ps, Inst p) → Inst (.con (.opaque n) ps)

mutual
/-- Type parameters replaced. -/
def subst (θ : Name → Ty) : Ty → Ty
  | .param x => θ x
  | .con h ps => .con h (substAll θ ps)
def substAll (θ : Name → Ty) : List Ty → List Ty
  | [] => []
  | p :: ps => subst θ p :: substAll θ ps
end

/-! ## Programs that keep to their declarations -/

/-- Calls the planner does not look up: operators with steps of their own. -/
def builtins : List String := ["_&&_", "_||_", "_?_:_", "!_", "@not_strictly_false", "_==_", "_!=_", "@in", "_[_]"]

def pA : Ty := .param (.other "A")
def pB : Ty := .param (.other "B")
def listOf (t : Ty) : Ty := .con .list [t]
def mapOf (k v : Ty) : Ty := .con .map [k, v]

/-- Their declarations in the standard library (`checker/standard_library.cc` lines 205-262, 383-414) and, for `[]`, in the optional
library (`checker/optional.cc`): parameters and result. -/
def standard : String → List (List Ty × Ty)
  | "_&&_" | "_||_" => [([.b .bool, .b .bool], .b .bool)]
  | "_?_:_" => [([.b .bool, pA, pA], pA)]
  | "!_" | "@not_strictly_false" => [([.b .bool], .b .bool)]
  | "_==_" | "_!=_" => [([pA, pA], .b .bool)]
  | "@in" => [([pA, listOf pA], .b .bool), ([pA, mapOf pA pB], .b .bool)]
  | "_[_]" => [([listOf pA, .b .int], pA), ([mapOf pA pB, pA], pB),
      ([optionalTy (listOf pA), .b .int], optionalTy pA), ([optionalTy (mapOf pA pB), pA], optionalTy pB)]
  | _ => []

/-- Pairwise, and equally many. -/
inductive Both {α β : Type} (R : α → β → Prop) : List α → List β → Prop
  | nil : Both R [] []
  | cons {a b as bs} : R a b → Both R as bs → Both R (a :: as) (b :: bs)

/-- The runtime keeps to the declarations: variables have their types, functions give results of the type declared for arguments of the
types declared (for every choice of the type parameters), fields of messages have their types, and none of them reports a type error. -/
structure Conforms {σ : Type} (d : Decls) (legacy : Bool) (r : RCfg σ) (m : Impl σ) : Prop where
  vars : ∀ x t h, d.vars x = some t → FineRes r.c.unknowns t (r.global x h).1
  funcs : ∀ fn fd o, d.funcs fn = some fd → o ∈ fd.overloads → fn ∉ builtins →
    ∀ (θ : Name → Ty) (args : List VA) h, (∀ p ∈ o.args, Strict legacy (subst θ p)) →
      Both (fun p (x : VA) => Fine r.c.unknowns (subst θ p) x.v) o.args args →
      FineRes r.c.unknowns (subst θ o.result) (m.call fn o.member args h).1
  create : ∀ name t fs ts (args : List VA) h, d.types name = some t → Both (fun f u => d.fields name f = some u) fs ts →
    Both (fun u (x : VA) => Fine r.c.unknowns u x.v) ts args → FineRes r.c.unknowns t (m.create name fs args h).1
  get : ∀ s i f t, d.fields s f = some t → (Strict legacy t ∨ ∃ n, t = .con (.enum n) []) → match r.c.structGet s i f with
    | .ok v => HasType t v
    | .err e => ¬ TypeError e
    | .ub => False
  has : ∀ s i f, match r.c.structHas s i f with
    | .ok _ => True
    | .err e => ¬ TypeError e
    | .ub => False

/-- The environment is put together as the builders do: variables and fields without type parameters, operators declared as in the
standard library. -/
structure Decls.Ok (d : Decls) : Prop where
  vars : ∀ x t, d.vars x = some t → Shaped t ∧ Ground t
  fields : ∀ s f t, d.fields s f = some t → Shaped t ∧ Ground t
  types : ∀ n t, d.types n = some t → Shaped t ∧ Ground t
  names : ∀ fn fd, d.funcs fn = some fd → fd.name = fn
  ops : ∀ fn fd o, fn ∈ builtins → d.funcs fn = some fd → o ∈ fd.overloads → o.member = false ∧ (o.args, o.result) ∈ standard fn

/-! ## The expressions -/

mutual
/-- Every type in the type map satisfies `p`, but for the empty list `cel.bind` is written with. -/
def Ast.Every {α : Type} (p : α → Prop) : Ast α → Prop
  | .const a _ => p a
  | .ident a _ _ => p a
  | .select a e _ _ => p a ∧ e.Every p
  | .call a _ _ args => p a ∧ args.Every p
  | .list a es => p a ∧ es.Every p
  | .map a es => p a ∧ es.Every p
  | .struct a _ _ vs => p a ∧ vs.Every p
  | .comp a iter iter2 _ range init cnd stp res =>
    p a ∧ (isBind iter iter2 range cnd = true ∨ range.Every p) ∧ init.Every p ∧ cnd.Every p ∧ stp.Every p ∧ res.Every p
def Asts.Every {α : Type} (p : α → Prop) : Asts α → Prop
  | .nil => True
  | .cons e es => e.Every p ∧ es.Every p
end

mutual
/-- The name occurs as an identifier (without a leading dot). -/
def Ast.mentions {α : Type} (x : String) : Ast α → Bool
  | .const _ _ => false
  | .ident _ y abs => !abs && x == y
  | .select _ e _ _ => e.mentions x
  | .call _ _ _ args => args.mentions x
  | .list _ es => es.mentions x
  | .map _ es => es.mentions x
  | .struct _ _ _ vs => vs.mentions x
  | .comp _ _ _ _ range init cnd stp res =>
    range.mentions x || init.mentions x || cnd.mentions x || stp.mentions x || res.mentions x
def Asts.mentions {α : Type} (x : String) : Asts α → Bool
  | .nil => false
  | .cons e es => e.mentions x || es.mentions x
end

/-- Messages and maps. -/
def Selectable : Ty → Prop
  | .con (.struct _) _ => True
  | .con .map _ => True
  | _ => False

mutual
/-- What the checker does not ask for and the macros provide. The condition of a comprehension is a boolean and does not mention the
iteration variables; its step has the type of the initial accumulator. A presence test is made on a message, on a map, or on an optional one.
An optional list is not indexed (an index out of range would put an error into the optional value). -/
def Ast.Regular : Ast Ty → Prop
  | .const _ _ => True
  | .ident _ _ _ => True
  | .select _ e _ test => (test = true → Selectable e.ann ∨ ∃ t, optionalOf e.ann = some t ∧ Selectable t) ∧ e.Regular
  | .call _ fn recv args => (fn = "_[_]" → recv = false → ∀ t ts, args.anns ≠ optionalTy (listOf t) :: ts) ∧ args.Regular
  | .list _ es => es.Regular
  | .map _ es => es.Regular
  | .struct _ _ _ vs => vs.Regular
  | .comp _ iter iter2 _ range init cnd stp res =>
    (isBind iter iter2 range cnd = true ∨
      cnd.ann = .b .bool ∧ stp.ann = init.ann ∧ cnd.mentions iter = false ∧ (∀ y, iter2 = some y → cnd.mentions y = false)) ∧
      range.Regular ∧ init.Regular ∧ cnd.Regular ∧ stp.Regular ∧ res.Regular
def Asts.Regular : Asts Ty → Prop
  | .nil => True
  | .cons e es => e.Regular ∧ es.Regular
end

/-- An overload without dynamic types, none of whose type parameters is named like a type variable of the checker. -/
def StrictOverload (legacy : Bool) (o : Checker.Overload) : Prop :=
  (Clean legacy o.result ∧ Inst o.result) ∧ (∀ p ∈ o.args, Clean legacy p ∧ Inst p) ∧
    ∀ x, Occurs x o.result ∨ (∃ p ∈ o.args, Occurs x p) → isTypeVar x = false

mutual
/-- The functions it calls and the fields it sets are declared without dynamic types. -/
def Ast.Uses {α : Type} (d : Decls) (legacy : Bool) : Ast α → Prop
  | .const _ _ => True
  | .ident _ _ _ => True
  | .select _ e _ _ => e.Uses d legacy
  | .call _ fn _ args => (∀ fd, d.funcs fn = some fd → ∀ o ∈ fd.overloads, StrictOverload legacy o) ∧ args.Uses d legacy
  | .list _ es => es.Uses d legacy
  | .map _ es => es.Uses d legacy
  | .struct _ name fs vs => (∀ f ∈ fs, ∀ t, d.fields name f = some t → Strict legacy t) ∧ vs.Uses d legacy
  | .comp _ _ _ _ range init cnd stp res =>
    range.Uses d legacy ∧ init.Uses d legacy ∧ cnd.Uses d legacy ∧ stp.Uses d legacy ∧ res.Uses d legacy
def Asts.Uses {α : Type} (d : Decls) (legacy : Bool) : Asts α → Prop
  | .nil => True
  | .cons e es => e.Uses d legacy ∧ es.Uses d legacy
end

/-- The outcome of a whole evaluation of an expression of type `t`. -/
def FineFinal {σ : Type} (unknowns : Bool) (t : Ty) : Final σ → Prop
  | .value v _ => Fine unknowns t v
  | .status s _ => ¬ TypeError s
  | .ub => False

end Cel.Types
