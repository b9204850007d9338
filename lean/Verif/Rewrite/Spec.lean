import Verif.Rewrite.Model

set_option linter.unusedSimpArgs false
set_option linter.unusedVariables false

/-!
# What rewriting an expression means

Without a stack: the rewriter may replace the node; then, child by child, the children of what it
left are rewritten in place; then the rewriter may replace the result.
-/

namespace Cel.Rewrite
open Cel Cel.Proto Cel.Walk

/-- The expressions from the root to `a`. -/
def chain (a : Addr) : List Addr := (List.range (a.length + 1)).map fun i => a.take i

mutual
/-- Rewriting the node `n` at address `a` in state `s` gives the node `n'` and the state `s'`; the
rewriter reported a change: `b`. -/
inductive Rw {S : Type} (R : Rewriter S) (cb : Bool) :
    Addr → NExpr → S → NExpr → S → Bool → Prop where
  | node {a : Addr} {n : NExpr} {s s1 s2 s3 : S} {l l' : NNode} {ks ks1 ks' : List NExpr}
      {b1 b2 b3 : Bool} :
      R.pre n (R.path (chain a) s) = (s1, .node l ks, b1) →
      RwKids R cb a l [] (touchKids l.kind ks)
        (visits R (.node l ks) (.preExpr (.loc a) :: preKind l.kind (.loc a)) s1) ks1 s2 b2 →
      R.post (.node l ks1)
        (visits R (.node l ks1) (postKind l.kind (.loc a) ++ [.postExpr (.loc a)]) s2) =
          (s3, .node l' ks', b3) →
      Rw R cb a n s (.node l' ks') (R.path (chain a).dropLast s3) (b1 || b2 || b3)
/-- The children of the node `l` at `a`: `done` are rewritten, the rest is to do. -/
inductive RwKids {S : Type} (R : Rewriter S) (cb : Bool) :
    Addr → NNode → List NExpr → List NExpr → S → List NExpr → S → Bool → Prop where
  | nil {a : Addr} {l : NNode} {done : List NExpr} {s : S} : RwKids R cb a l done [] s done s false
  | unset {a : Addr} {l : NNode} {done cs ks : List NExpr} {s s' : S} {b : Bool} :
      RwKids R cb a l (done ++ [.absent]) cs s ks s' b →
      RwKids R cb a l done (.absent :: cs) s ks s' b
  | kid {a : Addr} {l : NNode} {done cs ks : List NExpr} {c c' : NExpr} {s s1 s' : S} {b1 b2 : Bool} :
      c.present = true →
      Rw R cb (a ++ [done.length]) c
        (visits R (.node l (done ++ c :: cs)) (before cb (.loc a) (edge l.kind done.length)) s)
        c' s1 b1 →
      RwKids R cb a l (done ++ [c']) cs
        (visits R (.node l (done ++ c' :: cs)) (after cb (.loc a) (edge l.kind done.length)) s1)
        ks s' b2 →
      RwKids R cb a l done (c :: cs) s ks s' (b1 || b2)
end

/-- The rewriter leaves expressions. -/
structure Rewriter.Sound {S : Type} (R : Rewriter S) : Prop where
  pre : ∀ n s, n.present = true → WFC n → (R.pre n s).2.1.present = true ∧ WFC (R.pre n s).2.1
  post : ∀ n s, n.present = true → WFC n → (R.post n s).2.1.present = true ∧ WFC (R.post n s).2.1

mutual
/-- The expression with the unset list elements and comprehension parts created. -/
def touch : NExpr → NExpr
  | .absent => .absent
  | .node l ks => .node l (touches (readsUnset l.kind) ks)
def touches (create : Bool) : List NExpr → List NExpr
  | [] => []
  | .absent :: cs => (if create then .node NNode.dflt [] else .absent) :: touches create cs
  | .node l ks :: cs => touch (.node l ks) :: touches create cs
end

end Cel.Rewrite
