import Mathlib.Data.List.Basic

/-!
# The comprehension vulnerability check

`eval/compiler/comprehension_vulnerability_check.cc`: the planner can be told to reject comprehensions whose
accumulator may grow exponentially.
-/

namespace Cel.Growth

mutual
/-- `cel::Expr` (`common/expr.h`) without ids.  `target` holds the receiver, if any; a struct is the list of its
set field values; a map is its set keys and its set values.  Constants are numbered: the number says which value
the constant has (`Dom.const`).  A comprehension with one variable has `iter2 = ""`. -/
inductive X where
  | unspecified
  | const (n : Nat)
  | ident (name : String)
  | select (e : X) (field : String) (testOnly : Bool)
  | call (fn : String) (target : Xs) (args : Xs)
  | list (es : Xs)
  | struct (type : String) (vals : Xs)
  | map (keys vals : Xs)
  | comp (iter : String) (iter2 : String) (accu : String) (range init cond step result : X)
inductive Xs where
  | nil
  | cons (e : X) (es : Xs)
end

def Xs.length : Xs → Nat
  | .nil => 0
  | .cons _ es => es.length + 1

/-- The names of the operators (`base/builtins.h` lines 24-100). -/
def kTernary := "_?_:_"
def kAdd := "_+_"
def kIndex := "_[_]"
def kDyn := "dyn"

mutual
/-- `ComprehensionAccumulationReferences` (`eval/compiler/comprehension_vulnerability_check.cc` lines 95-229). -/
def refs (a : String) : X → Nat
  | .unspecified => 0
  | .const _ => 0
  | .ident n => if n = a then 1 else 0
  | .select e _ test => if test then 0 else refs a e
  | .call fn _ args => callRefs a fn args
  | .list es => sumRefs a es
  | .struct _ vs => sumRefs a vs
  | .map _ vs => sumRefs a vs
  | .comp iter _ accu range init _ step result =>
    max (if accu ≠ a ∧ iter ≠ a then refs a step else 0)
      (max (if accu ≠ a then refs a result else 0) (refs a init + refs a range))
/-- The handler for calls (lines 101-129). -/
def callRefs (a : String) (fn : String) : Xs → Nat
  | .nil => 0
  | .cons x .nil => if fn = kAdd then refs a x else if fn = kDyn then refs a x else 0
  | .cons x (.cons y .nil) => if fn = kAdd then refs a x + refs a y else if fn = kIndex then refs a x else 0
  | .cons x (.cons y (.cons z .nil)) =>
    if fn = kTernary then max (refs a y) (refs a z)
    else if fn = kAdd then refs a x + (refs a y + refs a z) else 0
  | .cons x (.cons y (.cons z (.cons w ws))) =>
    if fn = kAdd then refs a x + (refs a y + (refs a z + (refs a w + sumRefs a ws))) else 0
def sumRefs (a : String) : Xs → Nat
  | .nil => 0
  | .cons e es => refs a e + sumRefs a es
end

/-- `ComprehensionHasMemoryExhaustionVulnerability` (lines 231-236). -/
def vulnerable (accu : String) (step : X) : Bool := refs accu step ≥ 2

mutual
/-- `ComprehensionVulnerabilityCheck::OnPreVisit` (lines 238-249) on every node: does planning succeed? -/
def passes : X → Bool
  | .unspecified => true
  | .const _ => true
  | .ident _ => true
  | .select e _ _ => passes e
  | .call _ t args => passesAll t && passesAll args
  | .list es => passesAll es
  | .struct _ vs => passesAll vs
  | .map ks vs => passesAll ks && passesAll vs
  | .comp _ _ accu range init cond step result =>
    !vulnerable accu step && passes range && passes init && passes cond && passes step && passes result
def passesAll : Xs → Bool
  | .nil => true
  | .cons e es => passes e && passesAll es
end

/-! ## What the expressions compute -/

/-- A domain of values with a measure of size, and what the operators compute.  The inequalities say that every
operator's result is no larger than its operands together, up to a constant; errors and unknowns count as
constants. -/
structure Dom (V : Type) where
  size : V → Nat
  /-- a constant -/
  c : Nat
  const : Nat → V
  undef : V
  add : List V → V
  index : V → V → V
  dyn : V → V
  select : V → String → V
  has : V → String → V
  list : List V → V
  struct : String → List V → V
  map : List V → List V → V
  /-- any other function: receiver and arguments -/
  fn : String → List V → List V → V
  truth : V → Option Bool
  /-- the values of the loop variables in each iteration, when the value can be iterated over; the flag says
  whether there are two variables -/
  items : Bool → V → Option (List (V × V))
  noRange : V → V
  noCond : V → V
  /-- functions whose results are small whatever their arguments are, such as `size` and `==` -/
  flat : String → Prop
  undef_size : size undef ≤ c
  has_size : ∀ v f, size (has v f) ≤ c
  add_size : ∀ vs, size (add vs) ≤ (vs.map size).sum + c
  index_size : ∀ v k, size (index v k) ≤ size v + c
  dyn_size : ∀ v, size (dyn v) ≤ size v + c
  select_size : ∀ v f, size (select v f) ≤ size v + c
  list_size : ∀ vs, size (list vs) ≤ (vs.map size).sum + vs.length + c
  struct_size : ∀ t vs, size (struct t vs) ≤ (vs.map size).sum + vs.length + c
  map_size : ∀ ks vs, size (map ks vs) ≤ (ks.map size).sum + (vs.map size).sum + ks.length + c
  flat_size : ∀ f, flat f → ∀ t vs, size (fn f t vs) ≤ c
  fn_size : ∀ f m b, ∃ k, ∀ t vs, t.length + vs.length ≤ m → (∀ v ∈ t, size v ≤ b) → (∀ v ∈ vs, size v ≤ b) →
    size (fn f t vs) ≤ k
  items_size : ∀ two v its, items two v = some its → its.length ≤ size v ∧ ∀ it ∈ its, size it.1 ≤ size v + c ∧ size it.2 ≤ size v + c
  noRange_size : ∀ v, size (noRange v) ≤ c
  noCond_size : ∀ v, size (noCond v) ≤ c

variable {V : Type}

def bind (ρ : String → V) (x : String) (v : V) : String → V := fun n => if n = x then v else ρ n

/-- The loop of a comprehension: `some v` for its result, the accumulator otherwise. -/
def loop (D : Dom V) (cond : V → V × V → V) (step : V → V × V → V) : List (V × V) → V → V ⊕ V
  | [], a => .inl a
  | it :: its, a =>
    match D.truth (cond a it) with
    | some true => loop D cond step its (step a it)
    | some false => .inl a
    | none => .inr (D.noCond (cond a it))

/-- Calls: the conditional, `+`, indexing and `dyn`; everything else is some function. -/
def evalCall (D : Dom V) (fn : String) (t args : List V) : V :=
  if fn = kTernary then
    match args with
    | [p, x, y] =>
      match D.truth p with
      | some true => x
      | some false => y
      | none => D.noCond p
    | _ => D.fn fn t args
  else if fn = kAdd then D.add args
  else if fn = kIndex then
    match args with
    | [x, k] => D.index x k
    | _ => D.fn fn t args
  else if fn = kDyn then
    match args with
    | [x] => D.dyn x
    | _ => D.fn fn t args
  else D.fn fn t args

mutual
/-- The value of an expression. -/
def eval (D : Dom V) : X → (String → V) → V
  | .unspecified, _ => D.undef
  | .const n, _ => D.const n
  | .ident x, ρ => ρ x
  | .select e f test, ρ => if test then D.has (eval D e ρ) f else D.select (eval D e ρ) f
  | .call fn t args, ρ => evalCall D fn (evals D t ρ) (evals D args ρ)
  | .list es, ρ => D.list (evals D es ρ)
  | .struct ty vs, ρ => D.struct ty (evals D vs ρ)
  | .map ks vs, ρ => D.map (evals D ks ρ) (evals D vs ρ)
  | .comp iter iter2 accu range init cond step result, ρ =>
    match D.items (decide (iter2 ≠ "")) (eval D range ρ) with
    | none => D.noRange (eval D range ρ)
    | some its =>
      match loop D (fun a it => eval D cond (bind (bind (bind ρ accu a) iter2 it.2) iter it.1))
          (fun a it => eval D step (bind (bind (bind ρ accu a) iter2 it.2) iter it.1)) its (eval D init ρ) with
      | .inl a => eval D result (bind ρ accu a)
      | .inr v => v
def evals (D : Dom V) : Xs → (String → V) → List V
  | .nil, _ => []
  | .cons e es, ρ => eval D e ρ :: evals D es ρ
end

end Cel.Growth
