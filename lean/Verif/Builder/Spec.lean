import Verif.Builder.Model
/-!
# Specification vocabulary for the program builder

Everything is stated about the heap and the operations themselves; no tree is
assumed.
-/
namespace Verif.Builder
section
variable {σ δ : Type}

/-- Flattening the subexpression `r` terminates without fault and yields `c`. -/
def Program (h : Heap σ δ) (r : Id) (c : List (Out σ δ)) : Prop :=
  ∃ N, ∀ n, N ≤ n → ∃ h', flattenSubexpression n h r = some (c, h')

/-- The programs of a list of subexpressions, one for each. -/
inductive Programs (h : Heap σ δ) : List Id → List (List (Out σ δ)) → Prop where
  | nil : Programs h [] []
  | cons {i l c cs} : Program h i c → Programs h l cs → Programs h (i :: l) (c :: cs)

/-- The code of a list of elements: a step is itself, a child is its program. -/
inductive Codes (h : Heap σ δ) : List (Elem σ) → List (Out σ δ) → Prop where
  | nil : Codes h [] []
  | step {s r c} : Codes h r c → Codes h (.step s :: r) (.step s :: c)
  | sub {i r ci c} : Program h i ci → Codes h r c → Codes h (.sub i :: r) (ci ++ c)

/-- The subexpression `i` hangs below `r`; `pre` is the code of everything that
comes before it there and `post` the code of everything after it. -/
inductive Seg (h : Heap σ δ) : Id → Id → List (Out σ δ) → List (Out σ δ) → Prop where
  | here {r} : Seg h r r [] []
  | child {r q c i l m cl cm pre post} :
      h r = some ⟨.tree (l ++ .sub c :: m), q⟩ → Codes h l cl → Codes h m cm →
      Seg h c i pre post → Seg h r i (cl ++ pre) (post ++ cm)

/-- The programs the builder will hand out: the main one and the extracted ones. -/
def Owner (b : Builder σ δ) (r : Id) : Prop := b.root = some r ∨ r ∈ b.extracted

/-- Builder states reachable by any sequence of calls, in any order, that does
not run into undefined behaviour. -/
inductive Reach : Builder σ δ → Prop where
  | init : Reach .init
  | enter {b b' : Builder σ δ} {e f} : Reach b → enter b e = some (f, b') → Reach b'
  | exit {b b' : Builder σ δ} {e} : Reach b → exit b e = some b' → Reach b'
  | addStep {b b' : Builder σ δ} {s f} : Reach b → addStep b s = some (f, b') → Reach b'
  | extractSubexpression {b b' : Builder σ δ} {e k} :
      Reach b → extractSubexpression b e = some (k, b') → Reach b'
  | getSubplan {b b' : Builder σ δ} {n e l} :
      Reach b → getSubplan n b e = some (l, b') → Reach b'
  | extractSubplan {b b' : Builder σ δ} {n e l} :
      Reach b → extractSubplan n b e = some (l, b') → Reach b'
  | replaceSubplan {b b' : Builder σ δ} {n e path f} :
      Reach b → replaceSubplan n b e path = some (f, b') → Reach b'
  | replaceRecursive {b : Builder σ δ} {e d k} :
      Reach b → Reach (replaceRecursive b e d k).2
  | extractRecursiveDependencies {b : Builder σ δ} {e} :
      Reach b → Reach (extractRecursiveDependencies b e).2
  | addSubplanStep {b b' : Builder σ δ} {e s f} :
      Reach b → addSubplanStep b e s = some (f, b') → Reach b'
  | flattenMain {b b' : Builder σ δ} {n l} :
      Reach b → flattenMain n b = some (l, b') → Reach b'
  | flattenSubexpressions {b b' : Builder σ δ} {n l} :
      Reach b → flattenSubexpressions n b = some (l, b') → Reach b'

/-- What an operation on the node `e` does to every program the builder will hand
out: where `e` is part of the program, its segment — and nothing else — goes from
`old` to `new`; where it is not, the program is the same. -/
def Replaces (b b' : Builder σ δ) (e : Id) (old new : List (Out σ δ)) : Prop :=
  ∀ r, Owner b r →
    (∀ pre post, Seg b.map r e pre post →
      Program b.map r (pre ++ old ++ post) ∧ Program b'.map r (pre ++ new ++ post)) ∧
    ((∀ pre post, ¬ Seg b.map r e pre post) →
      ∀ c, Program b.map r c → Program b'.map r c)

/-- The elements are all children with a recursive program: these are the
programs and their depths. -/
inductive AllRecursive (h : Heap σ δ) : List (Elem σ) → List (δ × Int) → Prop where
  | nil : AllRecursive h [] []
  | cons {c r d k q ds} : h c = some ⟨.recur d k, q⟩ → AllRecursive h r ds →
      AllRecursive h (.sub c :: r) ((d, k) :: ds)

/-- No program the builder will hand out changes. -/
def SamePrograms (b b' : Builder σ δ) : Prop :=
  ∀ r, Owner b r → ∀ c, Program b.map r c ↔ Program b'.map r c

end

/-! ## Planning scripts -/

mutual
/-- The calls the planner makes for one AST node: enter it, plan its children and
add its steps in some order, perhaps replace the whole by a recursive program,
exit it. -/
inductive Plan (σ δ : Type) : Type where
  | node (e : Id) (items : Items σ δ) (fin : Option (δ × Int))
inductive Items (σ δ : Type) : Type where
  | nil
  | step (s : σ) (r : Items σ δ)
  | sub (p : Plan σ δ) (r : Items σ δ)
end

section
variable {σ δ : Type}

def Plan.id : Plan σ δ → Id
  | .node e _ _ => e

mutual
/-- The expressions entered, in order. -/
def Plan.entered : Plan σ δ → List Id
  | .node e items _ => e :: items.entered
def Items.entered : Items σ δ → List Id
  | .nil => []
  | .step _ r => r.entered
  | .sub p r => p.entered ++ r.entered
end

mutual
/-- The recursive program of a node: its own, or that of its only element. -/
def Plan.direct : Plan σ δ → Option (δ × Int)
  | .node _ items fin =>
    match fin with
    | some d => some d
    | none => items.direct
def Items.direct : Items σ δ → Option (δ × Int)
  | .sub p .nil => p.direct
  | _ => none
end

mutual
/-- The program expected of a planning script: the steps in the order in which
they were added, a recursive program counting as one step. -/
def Plan.steps : Plan σ δ → List (Out σ δ)
  | .node e items fin =>
    match (Plan.node e items fin).direct with
    | some (d, _) => [.wrapped d e]
    | none => items.steps
def Items.steps : Items σ δ → List (Out σ δ)
  | .nil => []
  | .step s r => .step s :: r.steps
  | .sub p r => p.steps ++ r.steps
end

mutual
/-- Running a script: the calls, in order. -/
def Plan.run : Plan σ δ → Builder σ δ → Option (Builder σ δ)
  | .node e items fin, b =>
    match enter b e with
    | some (true, b1) =>
      match items.run b1 with
      | some b2 =>
        match fin with
        | some (d, k) => exit (replaceRecursive b2 e d k).2 e
        | none => exit b2 e
      | none => none
    | _ => none
def Items.run : Items σ δ → Builder σ δ → Option (Builder σ δ)
  | .nil, b => some b
  | .step s r, b =>
    match addStep b s with
    | some (true, b1) => r.run b1
    | _ => none
  | .sub p r, b =>
    match p.run b with
    | some b1 => r.run b1
    | none => none
end

end
end Verif.Builder
