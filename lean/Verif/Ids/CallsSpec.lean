import Verif.Ids.Spec

set_option linter.unusedSimpArgs false
set_option linter.unusedVariables false

/-!
# Reading an expression back with its macro calls
-/

namespace Cel.Ids
open Cel Cel.Proto

def isComp : NKind → Bool
  | .comprehension _ _ _ => true
  | _ => false

mutual
/-- `Reads calls e r`: with the macro calls `calls`, `e` reads as `r`.  A node with a recorded call
reads as that call, read the same way; any other node reads as itself – it must be no comprehension,
as these cannot be written. -/
inductive Reads (calls : Int → Option NExpr) : NExpr → NExpr → Prop
  | recorded {l : NNode} {ks : List NExpr} {i : Int} {f : String} {cs rs : List NExpr}
      (hc : calls l.id = some (.node ⟨i, .call f⟩ cs)) (h : ReadsAll calls true cs rs) :
      Reads calls (.node l ks) (.node ⟨0, .call f⟩ rs)
  | plain {l : NNode} {ks rs : List NExpr} (hc : calls l.id = none) (hk : isComp l.kind = false)
      (h : ReadsAll calls (isCall l.kind) ks rs) : Reads calls (.node l ks) (.node ⟨0, bareKind l.kind⟩ rs)
/-- Child by child; only a call may have an unset one. -/
inductive ReadsAll (calls : Int → Option NExpr) : Bool → List NExpr → List NExpr → Prop
  | nil {c : Bool} : ReadsAll calls c [] []
  | unset {ks rs : List NExpr} (h : ReadsAll calls true ks rs) : ReadsAll calls true (.absent :: ks) (.absent :: rs)
  | cons {c : Bool} {k r : NExpr} {ks rs : List NExpr} (h : Reads calls k r) (hs : ReadsAll calls c ks rs) :
      ReadsAll calls c (k :: ks) (r :: rs)
end

/-- No macros. -/
def noMacros (variadic : Bool) : Env := ⟨fun _ _ _ => none, false, variadic⟩

/-- Every expansion ends with a node that it made. -/
def FreshMacros (env : Env) : Prop :=
  ∀ f n b m target args p, env.macros f n b = some m → m target args = .expand p → args.length = n →
    target.isSome = b → ∀ s e s1, runProg p (target.toList ++ args) s = some (e, s1) →
      s.next ≤ idOf e ∧ idOf e < s1.next

end Cel.Ids
