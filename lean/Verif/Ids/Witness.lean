import Verif.Ids.Main

set_option linter.unusedSimpArgs false
set_option linter.unusedVariables false

/-!
# C85: examples
-/

namespace Cel.Ids
open Cel Cel.Proto

def one (n : Int) : Range := ⟨n, n + 1⟩
def stdEnv : Env := ⟨stdMacros, true, false⟩
def name (x : String) (n : Int) : Syn := .node (.ident x (one n)) []

/-- `a.?b.optMap(x, {"k": has(x.c)})`. -/
def sample : Syn :=
  .node (.member "optMap" (one 8))
    [.node (.optSelect "b" (one 1) (one 0)) [name "a" 0], name "x" 9,
     .node (.map [(false, one 16)] (one 12)) [.node (.const (.string "k") (one 13)) [],
       .node (.global "has" (one 20)) [.node (.select "c" (one 22)) [name "x" 21]]]]

/-- **C85 (example).** Two macros, one of which copies its target: twenty ids, all different, the
copies (13, 14, 15) at the positions of what they copy (2, 1, 3). -/
theorem C85_example :
    (∀ r ∈ ranges sample, r.known = true) ∧
    (parse stdEnv sample).map (fun p => (allIds p.1, p.2.next, (allIds p.1).map fun i => (rangeOf p.2 i).start)) =
      some ([23, 16, 2, 1, 3, 21, 20, 17, 18, 13, 14, 15, 19, 5, 6, 7, 8, 12, 10, 22], 24,
        [8, 8, 1, 0, 0, 8, 8, 8, 8, 1, 0, 0, 8, 9, 12, 16, 13, 20, 21, 8]) := by
  refine ⟨?_, by decide +kernel⟩
  intro r hr
  simp only [sample, name, ranges, rangesAll, before, consHead, List.flatMap_cons, List.flatMap_nil, List.headD,
    List.tail, List.flatten_cons, List.flatten_nil, List.append_nil, List.nil_append, List.cons_append,
    List.mem_cons, List.not_mem_nil, or_false] at hr
  rcases hr with rfl | rfl | rfl | rfl | rfl | rfl | rfl | rfl | rfl | rfl | rfl <;> decide

/-- A macro that returns its target. -/
def sameMacro : Expander := fun _ _ => .expand ⟨[], 0⟩

/-- **C85 (reuse).** When an expansion takes no id, the call's own id is given back and used again:
in `[a.same(), b]` the id 3 of the call becomes that of `b` – and has the position of `b`. -/
theorem C85_reuse :
    (parse ⟨fun f _ _ => if f = "same" then some sameMacro else none, false, false⟩
      (.node (.list [false, false] (one 0)) [.node (.member "same" (one 5)) [name "a" 1], name "b" 9])).map
        (fun p => (allIds p.1, p.2.next, rangeOf p.2 3)) = some ([1, 2, 3], 4, one 9) := by rfl

end Cel.Ids
