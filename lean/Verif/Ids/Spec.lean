import Verif.Ids.Model

set_option linter.unusedSimpArgs false
set_option linter.unusedVariables false

/-!
# What is claimed of ids
-/

namespace Cel.Ids
open Cel Cel.Proto

mutual
/-- All ids of an expression – of its nodes, of the fields of its messages and of the entries of its
maps – in source order. -/
def allIds : NExpr → List Int
  | .absent => []
  | .node l ks => l.id :: idsKids (groups l.kind) ks
def idsKids : List (List Int) → List NExpr → List Int
  | gs, [] => gs.flatten
  | gs, k :: ks => gs.headD [] ++ (allIds k ++ idsKids gs.tail ks)
end

/-- The kind with the ids of fields and entries forgotten. -/
def bareKind : NKind → NKind
  | .struct n fs => .struct n (fs.map fun f => ⟨0, f.name, f.optional⟩)
  | .map es => .map (es.map fun e => ⟨0, e.optional⟩)
  | k => k

mutual
/-- The expression with all ids forgotten. -/
def bare : NExpr → NExpr
  | .absent => .absent
  | .node l ks => .node ⟨0, bareKind l.kind⟩ (bareAll ks)
def bareAll : List NExpr → List NExpr
  | [] => []
  | k :: ks => bare k :: bareAll ks
end

mutual
/-- Only calls have unset children (no target). -/
def Complete : NExpr → Prop
  | .absent => False
  | .node l ks => CompleteAll (isCall l.kind) ks
def CompleteAll (call : Bool) : List NExpr → Prop
  | [] => True
  | k :: ks => ((call = true ∧ k = .absent) ∨ Complete k) ∧ CompleteAll call ks
end

mutual
/-- No comprehension has a second iteration variable. -/
def OneVariable : NExpr → Prop
  | .absent => True
  | .node l ks => (∀ v v2 a, l.kind = .comprehension v v2 a → v2 = "") ∧ OneVariables ks
def OneVariables : List NExpr → Prop
  | [] => True
  | k :: ks => OneVariable k ∧ OneVariables ks
end

mutual
/-- The second iteration variable of every comprehension is dropped. -/
def dropSecond : NExpr → NExpr
  | .absent => .absent
  | .node l ks => .node ⟨l.id, oneVar l.kind⟩ (dropSeconds ks)
def dropSeconds : List NExpr → List NExpr
  | [] => []
  | k :: ks => dropSecond k :: dropSeconds ks
end

/-- `n` consecutive ids. -/
def upFrom (i : Int) : Nat → List Int
  | 0 => []
  | n + 1 => i :: upFrom (i + 1) n

mutual
/-- Every range in the syntax tree is a proper one. -/
def Located (good : Range → Prop) : Syn → Prop
  | .absent => True
  | .node n ks => (∀ g ∈ before n, ∀ r ∈ g, good r) ∧ LocatedAll good ks
def LocatedAll (good : Range → Prop) : List Syn → Prop
  | [] => True
  | k :: ks => Located good k ∧ LocatedAll good ks
end

mutual
/-- The source ranges in a syntax tree. -/
def ranges : Syn → List Range
  | .absent => []
  | .node n ks => (before n).flatten ++ rangesAll ks
def rangesAll : List Syn → List Range
  | [] => []
  | k :: ks => ranges k ++ rangesAll ks
end

end Cel.Ids
