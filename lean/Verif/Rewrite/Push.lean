import Verif.Rewrite.Spec

set_option linter.unusedSimpArgs false
set_option linter.unusedVariables false

/-! # The records pushed for a node are its set children, in order -/

namespace Cel.Rewrite
open Cel Cel.Proto Cel.Walk

/-- The record pushed for the child at `x` of the node at `p`. -/
def recOf (cb : Bool) (p x : Addr) : Edge → Rec
  | .target => .arg x p kTarget
  | .arg n => .arg x p n
  | .part c => compRec cb x p c
  | _ => .expr x

/-- The record of one child. -/
def kidRec (cb : Bool) (a : Addr) (k : NKind) (i : Nat) (c : NExpr) : List StackRec :=
  if c.present then [⟨recOf cb a (a ++ [i]) (edge k i), false⟩] else []

/-- The records of the set children, from position `i` on. -/
def kidRecs (cb : Bool) (a : Addr) (k : NKind) (i : Nat) : List NExpr → List StackRec
  | [] => []
  | c :: cs => kidRec cb a k i c ++ kidRecs cb a k (i + 1) cs

theorem kidRecs_append (cb : Bool) (a : Addr) (k : NKind) : ∀ (cs : List NExpr) (i : Nat) (c : NExpr),
    kidRecs cb a k i (cs ++ [c]) = kidRecs cb a k i cs ++ kidRec cb a k (i + cs.length) c
  | [], i, c => by simp [kidRecs]
  | d :: cs, i, c => by
    simp only [List.cons_append, kidRecs, kidRecs_append cb a k cs (i + 1) c, List.length_cons,
      List.append_assoc]
    rw [show i + 1 + cs.length = i + (cs.length + 1) by omega]

theorem kidRecs_take (cb : Bool) (a : Addr) (k : NKind) (ks : List NExpr) (n : Nat)
    (h : n < ks.length) : kidRecs cb a k 0 (ks.take (n + 1)) =
      kidRecs cb a k 0 (ks.take n) ++ kidRec cb a k n ((ks[n]?).getD .absent) := by
  rw [List.take_add_one, List.getElem?_eq_getElem h]
  simp only [Option.toList_some, Option.getD_some]
  rw [kidRecs_append, List.length_take, Nat.min_eq_left (Nat.le_of_lt h), Nat.zero_add]

theorem present_at {ks : List NExpr} (hp : ∀ x ∈ ks, x.present = true) {n : Nat} (h : n < ks.length) :
    ((ks[n]?).getD .absent).present = true := by
  rw [List.getElem?_eq_getElem h]; exact hp _ (List.getElem_mem h)

theorem pushListDeps_eq (cb : Bool) (a : Addr) (opt : List Bool) (ks : List NExpr)
    (hp : ∀ x ∈ ks, x.present = true) : ∀ (n : Nat) (stack : List StackRec), n ≤ ks.length →
    pushListDeps a n stack = kidRecs cb a (.list opt) 0 (ks.take n) ++ stack
  | 0, stack, h => by simp [pushListDeps, kidRecs]
  | n + 1, stack, h => by
    rw [pushListDeps, pushListDeps_eq cb a opt ks hp n _ (by omega),
      kidRecs_take _ _ _ _ _ (by omega), List.append_assoc]
    congr 1
    simp [kidRec, present_at hp (show n < ks.length by omega), edge, recOf, push]

theorem pushStructDeps_eq (cb : Bool) (a : Addr) (name : String) (fs : List NField)
    (ks : List NExpr) : ∀ (n : Nat) (stack : List StackRec), n ≤ ks.length →
    pushStructDeps a ks n stack = kidRecs cb a (.struct name fs) 0 (ks.take n) ++ stack
  | 0, stack, h => by simp [pushStructDeps, kidRecs]
  | n + 1, stack, h => by
    rw [pushStructDeps, pushStructDeps_eq cb a name fs ks n _ (by omega),
      kidRecs_take _ _ _ _ _ (by omega), List.append_assoc]
    congr 1
    simp only [kidRec, edge, recOf, push, hasChild]
    by_cases hc : Tree.present ((ks[n]?).getD .absent) = true <;> simp [hc]

theorem map_kid (cb : Bool) (a : Addr) (es : List NEntry) (ks : List NExpr) (n : Nat)
    (stack : List StackRec) :
    (if hasChild ks n then push stack (.expr (a ++ [n])) else stack) =
      kidRec cb a (.map es) n ((ks[n]?).getD .absent) ++ stack := by
  simp only [kidRec, edge, recOf, push, hasChild]
  by_cases hc : Tree.present ((ks[n]?).getD .absent) = true
  · by_cases hn : n % 2 = 0 <;> simp [hn, hc]
  · simp [hc]

theorem pushMapDeps_eq (cb : Bool) (a : Addr) (es : List NEntry) (ks : List NExpr) :
    ∀ (n : Nat) (stack : List StackRec), 2 * n ≤ ks.length →
    pushMapDeps a ks n stack = kidRecs cb a (.map es) 0 (ks.take (2 * n)) ++ stack
  | 0, stack, h => by simp [pushMapDeps, kidRecs]
  | n + 1, stack, h => by
    simp only [pushMapDeps]
    rw [pushMapDeps_eq cb a es ks n _ (by omega), show 2 * (n + 1) = 2 * n + 1 + 1 by omega,
      kidRecs_take _ _ _ _ _ (by omega), kidRecs_take _ _ _ _ _ (by omega),
      map_kid cb a es ks (2 * n + 1), map_kid cb a es ks (2 * n)]
    simp only [List.append_assoc]

theorem pushArgs_eq (cb : Bool) (a : Addr) (fn : String) (args : List NExpr)
    (hargs : ∀ x ∈ args, x.present = true) : ∀ (n : Nat) (stack : List StackRec), n ≤ args.length →
    pushArgs a n stack = kidRecs cb a (.call fn) 1 (args.take n) ++ stack
  | 0, stack, h => by simp [pushArgs, kidRecs]
  | n + 1, stack, h => by
    rw [pushArgs, pushArgs_eq cb a fn args hargs n _ (by omega), List.take_add_one,
      List.getElem?_eq_getElem (show n < args.length by omega)]
    simp only [Option.toList_some]
    rw [kidRecs_append, List.append_assoc, List.length_take,
      Nat.min_eq_left (show n ≤ args.length by omega), Nat.add_comm 1 n]
    congr 1
    have hp := hargs _ (List.getElem_mem (show n < args.length by omega))
    simp [kidRec, hp, edge, recOf, push]

theorem pushCallDeps_eq (cb : Bool) (a : Addr) (fn : String) (t : NExpr) (args : List NExpr)
    (hargs : ∀ x ∈ args, x.present = true) (stack : List StackRec) :
    pushCallDeps a (t :: args) stack = kidRecs cb a (.call fn) 0 (t :: args) ++ stack := by
  simp only [pushCallDeps, List.length_cons, Nat.add_sub_cancel]
  rw [pushArgs_eq cb a fn args hargs args.length stack (Nat.le_refl _), List.take_length]
  cases t with
  | absent => simp [hasChild, Tree.present, kidRec, kidRecs]
  | node l ks => simp [hasChild, Tree.present, kidRec, kidRecs, push, recOf, edge]

theorem comp_kid (cb : Bool) (a : Addr) (v v2 w : String) (ks : List NExpr)
    (hp : ∀ x ∈ ks, x.present = true) (n : Nat) (c : CArg) (h : n < ks.length)
    (he : edge (.comprehension v v2 w) n = .part c) :
    kidRec cb a (.comprehension v v2 w) n ((ks[n]?).getD .absent) =
      [⟨compRec cb (a ++ [n]) a c, false⟩] := by
  simp [kidRec, present_at hp h, he, recOf]

theorem pushCompDeps_eq (cb : Bool) (a : Addr) (v v2 w : String) (ks : List NExpr)
    (hp : ∀ x ∈ ks, x.present = true) (h : ks.length = 5) (stack : List StackRec) :
    pushCompDeps cb a stack = kidRecs cb a (.comprehension v v2 w) 0 ks ++ stack := by
  have h5 : ks.take 5 = ks := List.take_of_length_le (by omega)
  rw [← h5, kidRecs_take _ _ _ _ 4 (by omega), kidRecs_take _ _ _ _ 3 (by omega),
    kidRecs_take _ _ _ _ 2 (by omega), kidRecs_take _ _ _ _ 1 (by omega),
    kidRecs_take _ _ _ _ 0 (by omega)]
  simp only [List.take_zero, kidRecs, List.nil_append, h5]
  rw [comp_kid cb a v v2 w ks hp 0 .iterRange (by omega) rfl,
    comp_kid cb a v v2 w ks hp 1 .accuInit (by omega) rfl,
    comp_kid cb a v v2 w ks hp 2 .loopCondition (by omega) rfl,
    comp_kid cb a v v2 w ks hp 3 .loopStep (by omega) rfl,
    comp_kid cb a v v2 w ks hp 4 .result (by omega) rfl]
  simp [pushCompDeps, push]

theorem pushExprDeps_eq (cb : Bool) (a : Addr) (k : NKind) (ks : List NExpr) (hs : CShape k ks)
    (hp : readsUnset k = true → ∀ x ∈ ks, x.present = true) (stack : List StackRec) :
    pushExprDeps cb a k ks stack = kidRecs cb a k 0 ks ++ stack := by
  cases k with
  | unspecified => simp only [CShape] at hs; simp [hs, pushExprDeps, kidRecs]
  | const c => simp only [CShape] at hs; simp [hs, pushExprDeps, kidRecs]
  | ident n => simp only [CShape] at hs; simp [hs, pushExprDeps, kidRecs]
  | select f b =>
    simp only [CShape] at hs
    match ks, hs with
    | [.absent], _ => simp [pushExprDeps, pushSelectDeps, hasChild, Tree.present, kidRecs, kidRec]
    | [.node l cs], _ =>
      simp [pushExprDeps, pushSelectDeps, hasChild, Tree.present, kidRecs, kidRec, push, recOf, edge]
  | call fn =>
    simp only [CShape] at hs
    obtain ⟨t, args, rfl, hargs⟩ := hs
    exact pushCallDeps_eq cb a fn t args hargs stack
  | list opt =>
    simp only [CShape] at hs
    simp only [pushExprDeps]
    rw [pushListDeps_eq cb a opt ks (hp rfl) opt.length stack (by omega), ← hs, List.take_length]
  | struct name fs =>
    simp only [CShape] at hs
    simp only [pushExprDeps]
    rw [pushStructDeps_eq cb a name fs ks fs.length stack (by omega), ← hs, List.take_length]
  | map es =>
    simp only [CShape] at hs
    simp only [pushExprDeps]
    rw [pushMapDeps_eq cb a es ks es.length stack (by omega), ← hs, List.take_length]
  | comprehension v v2 w =>
    simp only [CShape] at hs
    exact pushCompDeps_eq cb a v v2 w ks (hp rfl) hs stack

/-! ## Creating the unset children -/

theorem present_created (n : NExpr) : (created n).present = true := by
  cases n <;> simp [created, Tree.present]

theorem wfc_created (n : NExpr) (h : WFC n) : WFC (created n) := by
  cases n with
  | absent => simp [created, WFC, CShape, WFCs, NNode.dflt]
  | node l ks => exact h

theorem touchKids_present (k : NKind) (ks : List NExpr) (h : readsUnset k = true) :
    ∀ x ∈ touchKids k ks, x.present = true := by
  cases k <;> simp [readsUnset] at h <;> simp [touchKids] <;> intro x _ <;> exact present_created x

theorem touchKids_shape (k : NKind) (ks : List NExpr) (h : CShape k ks) : CShape k (touchKids k ks) := by
  cases k <;> simpa [touchKids, CShape] using h

theorem wfcs_iff (ks : List NExpr) : WFCs ks ↔ ∀ x ∈ ks, WFC x := by
  induction ks with
  | nil => simp [WFCs]
  | cons k ks ih => simp [WFCs, ih]

theorem touchKids_wfcs (k : NKind) (ks : List NExpr) (h : WFCs ks) : WFCs (touchKids k ks) := by
  rw [wfcs_iff] at h ⊢
  have hm : ∀ x ∈ ks.map created, WFC x := by
    intro x hx
    obtain ⟨y, hy, rfl⟩ := List.mem_map.mp hx
    exact wfc_created y (h y hy)
  cases k <;> first | exact h | exact hm

/-! ## Events -/

theorem preEvents_eq (a : Addr) (k : NKind) :
    preEvents a k = .preExpr (.loc a) :: preKind k (.loc a) := by
  cases k <;> rfl

theorem postEvents_eq (a : Addr) (k : NKind) :
    postEvents a k = postKind k (.loc a) ++ [.postExpr (.loc a)] := by
  cases k <;> rfl

/-! ## Chains -/

theorem chain_snoc (a : Addr) (i : Nat) : chain (a ++ [i]) = chain a ++ [a ++ [i]] := by
  have h1 : (a ++ [i]).length + 1 = (a.length + 1) + 1 := by simp
  rw [chain, h1, List.range_succ, List.map_append]
  congr 1
  · rw [chain]
    apply List.map_congr_left
    intro j hj
    rw [List.take_append_of_le_length (by have := List.mem_range.mp hj; omega)]
  · rw [List.map_singleton, List.take_of_length_le (by simp)]

theorem chain_nil : chain [] = [[]] := rfl

theorem chain_last (a : Addr) : (chain a).dropLast ++ [a] = chain a := by
  rcases List.eq_nil_or_concat a with rfl | ⟨b, i, rfl⟩
  · rfl
  · rw [List.concat_eq_append, chain_snoc, List.dropLast_concat]

theorem chain_parent (a : Addr) (i : Nat) : (chain (a ++ [i])).dropLast = chain a := by
  rw [chain_snoc, List.dropLast_concat]

end Cel.Rewrite
