/-!
# The program builder (`eval/compiler/flat_expr_builder_extensions.{h,cc}`)

The planner, the optimizers and the library extensions build a program by
calling the `ProgramBuilder` / `PlannerContext` interface.  Behind it is a heap
of `Subexpression` objects, one for each AST node entered so far; they refer to
each other by pointer, so the model keeps the heap (`subprogram_map_`) and not a
tree.  `none` as the result of an operation stands for undefined behaviour in
the C++ (a failed `ABSL_DCHECK`, a null dereference, `absl::get` of the wrong
alternative) or for a loop that has used up its fuel.
-/
set_option linter.unusedVariables false

namespace Verif.Builder

/-- `const cel::Expr*`: the key of `subprogram_map_`, and at the same time the
identity of the `Subexpression` it owns (`self_`,
flat_expr_builder_extensions.h:218–220).  Simplification: the expression id that
`WrappedDirectStep` records (`self_->id()`) is identified with the pointer. -/
abbrev Id := Nat

/-- A step of a flattened plan: an iterative step `σ`, or a `WrappedDirectStep`
around a recursive program `δ` (flat_expr_builder_extensions.cc:222–226). -/
inductive Out (σ δ : Type) where
  | step (s : σ)
  | wrapped (d : δ) (i : Id)
  deriving DecidableEq, Repr

/-- `Subexpression::Element` (flat_expr_builder_extensions.h:87–88): a step or a
pointer to another subexpression. -/
inductive Elem (σ : Type) where
  | step (s : σ)
  | sub (i : Id)
  deriving DecidableEq, Repr

/-- `program_`: `variant<TreePlan, FlattenedPlan, RecursiveProgram>`
(flat_expr_builder_extensions.h:216). -/
inductive Prog (σ δ : Type) where
  | tree (es : List (Elem σ))
  | flat (l : List (Out σ δ))
  | recur (d : δ) (depth : Int)
  deriving DecidableEq, Repr

/-- `Subexpression` (flat_expr_builder_extensions.h:85–221) without `owner_`. -/
structure Node (σ δ : Type) where
  prog : Prog σ δ
  parent : Option Id
  deriving DecidableEq, Repr

/-- `subprogram_map_` (flat_expr_builder_extensions.h:303). -/
abbrev Heap (σ δ : Type) := Id → Option (Node σ δ)

/-- `ProgramBuilder` (flat_expr_builder_extensions.h:300–303). -/
structure Builder (σ δ : Type) where
  map : Heap σ δ
  root : Option Id
  current : Option Id
  extracted : List Id

section
variable {σ δ : Type}

/-- `ProgramBuilder::ProgramBuilder` and `Reset`
(flat_expr_builder_extensions.cc:288–289, 440–445). -/
def Builder.init : Builder σ δ := ⟨fun _ => none, none, none, []⟩

/-- Overwriting one entry of the heap (no C++ counterpart). -/
def set (h : Heap σ δ) (i : Id) (n : Node σ δ) : Heap σ δ :=
  fun j => if j = i then some n else h j

/-! ## `Subexpression::ComputeSize` (flat_expr_builder_extensions.cc:72–97) -/

/-- The inner loop, lines 88–94: children are pushed on the stack, whose top is
the head of the list; steps are counted. -/
def sizeScan : List (Elem σ) → List Id → Nat → List Id × Nat
  | [], st, sz => (st, sz)
  | .sub c :: r, st, sz => sizeScan r (c :: st) sz
  | .step _ :: r, st, sz => sizeScan r st (sz + 1)

/-- The outer loop, lines 78–95. -/
def sizeLoop (h : Heap σ δ) : Nat → List Id → Nat → Option Nat
  | _, [], sz => some sz
  | 0, _ :: _, _ => none
  | n + 1, i :: st, sz =>
    match h i with
    | none => none
    | some nd =>
      match nd.prog with
      | .flat l => sizeLoop h n st (sz + l.length)
      | .recur _ _ => sizeLoop h n st (sz + 1)
      | .tree es =>
        let r := sizeScan es st sz
        sizeLoop h n r.1 r.2

/-- `ComputeSize`, lines 72–97. -/
def computeSize (fuel : Nat) (h : Heap σ δ) (i : Id) : Option Nat :=
  match h i with
  | none => none
  | some nd =>
    match nd.prog with
    | .flat l => some l.length
    | .recur _ _ => some 1
    | .tree _ => sizeLoop h fuel [i] 0

/-! ## `Subexpression::CalculateOffset` (flat_expr_builder_extensions.cc:160–196) -/

/-- The size of one element, lines 184–192. -/
def elemSize (fuel : Nat) (h : Heap σ δ) : Elem σ → Option Nat
  | .sub c => computeSize fuel h c
  | .step _ => some 1

/-- The summing loop, lines 183–193, over the elements it visits. -/
def sumSizes (fuel : Nat) (h : Heap σ δ) : List (Elem σ) → Option Nat
  | [] => some 0
  | e :: r =>
    match elemSize fuel h e, sumSizes fuel h r with
    | some a, some b => some (a + b)
    | _, _ => none

/-- `CalculateOffset`, lines 160–196.  Indices out of range and a program that is
not a tree plan are the failed `ABSL_DCHECK`s of lines 163–164 and 177–180.
Simplification: indices are natural numbers, and `int` does not overflow. -/
def calculateOffset (fuel : Nat) (h : Heap σ δ) (i : Id) (base target : Nat) :
    Option Int :=
  match h i with
  | none => none
  | some nd =>
    match nd.prog with
    | .flat _ => none
    | .recur _ _ => none
    | .tree es =>
      let back := decide (target ≤ base + 1)
      let start := if back then target else base + 1
      let stop := if back then base + 1 else target
      if es.length < start ∨ es.length < stop then none
      else
        match sumSizes fuel h ((es.drop start).take (stop - start)) with
        | none => none
        | some s => some (if back then -(s : Int) else (s : Int))

/-! ## `Subexpression::Flatten` (flat_expr_builder_extensions.cc:198–253) -/

/-- `Record`, lines 199–202. -/
structure Record where
  sub : Id
  offset : Nat
  deriving DecidableEq, Repr

/-- The state of the loop.  `stack`'s head is the back of `flatten_stack`. -/
structure FlatSt (σ δ : Type) where
  heap : Heap σ δ
  stack : List Record
  flat : List (Out σ δ)

/-- The inner loop, lines 228–247: steps are moved to the output until a child is
met.  The result is the output and, if a child stopped the loop, its index and
the child.  Simplification: a moved-from step stays in the element list until the
list is cleared; no index below the resume offset is read again. -/
def scan : List (Elem σ) → Nat → List (Out σ δ) → List (Out σ δ) × Option (Nat × Id)
  | [], _, out => (out, none)
  | .step s :: r, i, out => scan r (i + 1) (out ++ [.step s])
  | .sub c :: _, i, out => (out, some (i, c))

/-- The body of the loop for the record on top, lines 213–250. -/
def flatIter (s : FlatSt σ δ) (top : Record) (st : List Record) : Option (FlatSt σ δ) :=
  match s.heap top.sub with
  | none => none
  | some nd =>
    match nd.prog with
    | .flat l => some ⟨set s.heap top.sub ⟨.flat [], nd.parent⟩, st, s.flat ++ l⟩
    | .recur d _ =>
      some ⟨set s.heap top.sub ⟨.tree [], nd.parent⟩, st, s.flat ++ [.wrapped d top.sub]⟩
    | .tree es =>
      match scan (es.drop top.offset) top.offset s.flat with
      | (out, some (i, c)) => some ⟨s.heap, ⟨c, 0⟩ :: ⟨top.sub, i + 1⟩ :: st, out⟩
      | (out, none) => some ⟨set s.heap top.sub ⟨.tree [], nd.parent⟩, st, out⟩

/-- `while (!flatten_stack.empty())`, lines 212–251. -/
def flatLoop : Nat → FlatSt σ δ → Option (FlatSt σ δ)
  | n, s =>
    match s.stack with
    | [] => some s
    | top :: st =>
      match n with
      | 0 => none
      | n + 1 =>
        match flatIter s top st with
        | none => none
        | some s' => flatLoop n s'

/-- `Flatten`, lines 198–253. -/
def flatten (fuel : Nat) (h : Heap σ δ) (i : Id) : Option (Heap σ δ) :=
  match h i with
  | none => none
  | some nd =>
    match nd.prog with
    | .flat _ => some h
    | _ =>
      match flatLoop fuel ⟨h, [⟨i, 0⟩], []⟩ with
      | none => none
      | some s =>
        match s.heap i with
        | none => none
        | some nd' => some (set s.heap i ⟨.flat s.flat, nd'.parent⟩)

/-- `ExtractTo`, lines 262–273, on a subexpression that has been flattened: the
steps and the heap in which the subexpression is an empty tree plan. -/
def extractTo (h : Heap σ δ) (i : Id) : Option (List (Out σ δ) × Heap σ δ) :=
  match h i with
  | some ⟨.flat l, p⟩ => some (l, set h i ⟨.tree [], p⟩)
  | _ => none

/-- `FlattenSubexpression`, lines 275–286, for a non-null argument. -/
def flattenSubexpression (fuel : Nat) (h : Heap σ δ) (i : Id) :
    Option (List (Out σ δ) × Heap σ δ) :=
  match flatten fuel h i with
  | none => none
  | some h' => extractTo h' i

/-- `FlattenMain`, lines 291–295. -/
def flattenMain (fuel : Nat) (b : Builder σ δ) : Option (List (Out σ δ) × Builder σ δ) :=
  match b.root with
  | none => some ([], b)
  | some r =>
    match flattenSubexpression fuel b.map r with
    | none => none
    | some (l, h) => some (l, { b with map := h, root := none })

/-- The loop of `FlattenSubexpressions`, lines 300–302. -/
def flattenAll (fuel : Nat) : Heap σ δ → List Id → Option (List (List (Out σ δ)) × Heap σ δ)
  | h, [] => some ([], h)
  | h, i :: r =>
    match flattenSubexpression fuel h i with
    | none => none
    | some (l, h') =>
      match flattenAll fuel h' r with
      | none => none
      | some (ls, h'') => some (l :: ls, h'')

/-- `FlattenSubexpressions`, lines 297–305. -/
def flattenSubexpressions (fuel : Nat) (b : Builder σ δ) :
    Option (List (List (Out σ δ)) × Builder σ δ) :=
  match flattenAll fuel b.map b.extracted with
  | none => none
  | some (ls, h) => some (ls, { b with map := h, extracted := [] })

/-! ## Entering, exiting and adding steps -/

/-- `EnterSubexpression`, lines 307–325 with `MakeSubexpression`, lines 382–391.
The flag says whether a subexpression was created; an already indexed expression
gives `nullptr` and changes nothing.  The current subexpression has to be a tree
plan (`AddSubexpression`, flat_expr_builder_extensions.h:122–126). -/
def enter (b : Builder σ δ) (e : Id) : Option (Bool × Builder σ δ) :=
  match b.map e with
  | some _ => some (false, b)
  | none =>
    match b.current with
    | none =>
      some (true, { b with map := set b.map e ⟨.tree [], none⟩, root := some e,
                           current := some e })
    | some c =>
      match b.map c with
      | some ⟨.tree es, p⟩ =>
        some (true, { b with
          map := set (set b.map e ⟨.tree [], some c⟩) c ⟨.tree (es ++ [.sub e]), p⟩,
          current := some e })
      | _ => none

/-- `MaybeReassignChildRecursiveProgram`, lines 44–66. -/
def maybeReassign (h : Heap σ δ) (p : Id) : Heap σ δ :=
  match h p with
  | some ⟨.tree [.sub c], pp⟩ =>
    match h c with
    | some ⟨.recur d k, cp⟩ => set (set h c ⟨.tree [], cp⟩) p ⟨.recur d k, pp⟩
    | _ => h
  | _ => h

/-- `GetSubexpression`, lines 340–348, as a test on a possibly null key. -/
def indexed (h : Heap σ δ) : Option Id → Option Id
  | none => none
  | some i => (h i).map fun _ => i

/-- `ExitSubexpression`, lines 327–338. -/
def exit (b : Builder σ δ) (e : Id) : Option (Builder σ δ) :=
  match b.current with
  | none => none
  | some c =>
    if c ≠ e then none
    else
      match b.map c with
      | none => none
      | some nd =>
        some { b with map := maybeReassign b.map c, current := indexed b.map nd.parent }

/-- `Subexpression::AddStep`, flat_expr_builder_extensions.h:108–120. -/
def subAddStep (h : Heap σ δ) (i : Id) (s : σ) : Option (Bool × Heap σ δ) :=
  match h i with
  | none => none
  | some nd =>
    match nd.prog with
    | .recur _ _ => some (false, h)
    | .flat l => some (true, set h i ⟨.flat (l ++ [.step s]), nd.parent⟩)
    | .tree es => some (true, set h i ⟨.tree (es ++ [.step s]), nd.parent⟩)

/-- `ProgramBuilder::AddStep`, lines 350–357. -/
def addStep (b : Builder σ δ) (s : σ) : Option (Bool × Builder σ δ) :=
  match b.current with
  | none => some (false, b)
  | some c =>
    match subAddStep b.map c s with
    | none => none
    | some (r, h) => some (r, { b with map := h })

/-! ## Recursive programs of the children -/

/-- The loop of `RecursiveDependencyDepth`, lines 107–116. -/
def depthLoop (h : Heap σ δ) : List (Elem σ) → Int → Option Int
  | [], k => some k
  | .step _ :: _, _ => none
  | .sub c :: r, k =>
    match h c with
    | some ⟨.recur _ j, _⟩ => depthLoop h r (max k j)
    | _ => none

/-- `RecursiveDependencyDepth`, lines 101–118. -/
def recursiveDependencyDepth (h : Heap σ δ) (i : Id) : Option Int :=
  match h i with
  | some ⟨.tree es, _⟩ => depthLoop h es 0
  | _ => none

/-- The loop of `ExtractRecursiveDependencies`, lines 127–136: the programs of the
children are moved out one by one; a step, or a child without a recursive program,
makes the result empty, but what has been moved out is gone. -/
def depsLoop : Heap σ δ → List (Elem σ) → List δ → List δ × Heap σ δ
  | h, [], acc => (acc, h)
  | h, .step _ :: _, _ => ([], h)
  | h, .sub c :: r, acc =>
    match h c with
    | some ⟨.recur d _, q⟩ => depsLoop (set h c ⟨.tree [], q⟩) r (acc ++ [d])
    | _ => ([], h)

/-- `ExtractRecursiveDependencies`, lines 120–138. -/
def extractRecursiveDependencies (b : Builder σ δ) (i : Id) : List δ × Builder σ δ :=
  match b.map i with
  | some ⟨.tree es, _⟩ =>
    let r := depsLoop b.map es []
    (r.1, { b with map := r.2 })
  | _ => ([], b)

/-! ## Extraction -/

/-- The search and erase of `ExtractChild`, lines 145–156. -/
def eraseChild (c : Id) : List (Elem σ) → Option (List (Elem σ))
  | [] => none
  | .sub i :: r =>
    if i = c then some r
    else
      match eraseChild c r with
      | none => none
      | some r' => some (.sub i :: r')
  | .step s :: r =>
    match eraseChild c r with
    | none => none
    | some r' => some (.step s :: r')

/-- `ExtractSubexpression`, lines 359–380, with `ExtractChild`, lines 140–158.
`none` for the index stands for −1.  A recursive parent is not excluded by
`ExtractChild` and makes `elements()` fail. -/
def extractSubexpression (b : Builder σ δ) (e : Id) :
    Option (Option Nat × Builder σ δ) :=
  match b.map e with
  | none => some (none, b)
  | some nd =>
    match indexed b.map nd.parent with
    | none => some (none, b)
    | some p =>
      match b.map p with
      | none => none
      | some pn =>
        match pn.prog with
        | .flat _ => some (none, b)
        | .recur _ _ => none
        | .tree es =>
          match eraseChild e es with
          | none => some (none, b)
          | some es' =>
            some (some b.extracted.length,
              { b with map := set b.map p ⟨.tree es', pn.parent⟩,
                       extracted := b.extracted ++ [e] })

/-! ## `PlannerContext` -/

/-- `GetSubplan`, lines 397–404: an expression that is not indexed has an empty
view. -/
def getSubplan (fuel : Nat) (b : Builder σ δ) (e : Id) :
    Option (List (Out σ δ) × Builder σ δ) :=
  match b.map e with
  | none => some ([], b)
  | some _ =>
    match flatten fuel b.map e with
    | none => none
    | some h =>
      match h e with
      | some ⟨.flat l, _⟩ => some (l, { b with map := h })
      | _ => none

/-- `ExtractSubplan`, lines 406–420 (`none` inside is the error status). -/
def extractSubplan (fuel : Nat) (b : Builder σ δ) (e : Id) :
    Option (Option (List (Out σ δ)) × Builder σ δ) :=
  match b.map e with
  | none => some (none, b)
  | some _ =>
    match flattenSubexpression fuel b.map e with
    | none => none
    | some (l, h) => some (some l, { b with map := h })

/-- `ReplaceSubplan(node, path)`, lines 422–438; the flag is the status. -/
def replaceSubplan (fuel : Nat) (b : Builder σ δ) (e : Id) (path : List (Out σ δ)) :
    Option (Bool × Builder σ δ) :=
  match b.map e with
  | none => some (false, b)
  | some _ =>
    match flatten fuel b.map e with
    | none => none
    | some h =>
      match h e with
      | some nd => some (true, { b with map := set h e ⟨.flat path, nd.parent⟩ })
      | none => none

/-- `ReplaceSubplan(node, step, depth)`, lines 447–458. -/
def replaceRecursive (b : Builder σ δ) (e : Id) (d : δ) (depth : Int) :
    Bool × Builder σ δ :=
  match b.map e with
  | none => (false, b)
  | some nd => (true, { b with map := set b.map e ⟨.recur d depth, nd.parent⟩ })

/-- `AddSubplanStep`, lines 460–473: the result of `AddStep` is ignored. -/
def addSubplanStep (b : Builder σ δ) (e : Id) (s : σ) : Option (Bool × Builder σ δ) :=
  match b.map e with
  | none => some (false, b)
  | some _ =>
    match subAddStep b.map e s with
    | none => none
    | some (_, h) => some (true, { b with map := h })

end
end Verif.Builder
