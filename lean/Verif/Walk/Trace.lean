import Verif.Walk.Model
import Verif.Proto.EraseOk

set_option linter.unusedSimpArgs false
set_option linter.unusedVariables false

/-! # The visitor calls of `AstTraverse` are those of the recursive specification -/

namespace Cel.Walk
open Cel Cel.Proto

/-! ## The records pushed are the readable children -/

/-- The record pushed for a readable child of `p`. -/
def recOf (cb : Bool) (p : Ref) : VT → Rec
  | .mk e r _ _ =>
    match e with
    | .target => .arg r p kTarget
    | .arg n => .arg r p n
    | .part a => compRec cb r p a
    | _ => .expr r

def unvisited (k : Rec) : StackRec := ⟨k, false⟩

/-- The readable child at a position, if there is one. -/
def kidAt (k : NKind) (a : Addr) (i : Nat) : NExpr → List VT
  | .absent => if readsUnset k then [.mk (edge k i) .dflt NNode.dflt []] else []
  | .node l ks => [view (edge k i) (a ++ [i]) (.node l ks)]

theorem viewKids_cons (k : NKind) (a : Addr) (i : Nat) (c : NExpr) (cs : List NExpr) :
    viewKids k a i (c :: cs) = kidAt k a i c ++ viewKids k a (i + 1) cs := by
  cases c with
  | absent => simp only [viewKids, kidAt]; by_cases h : readsUnset k = true <;> simp [h]
  | node l ks => simp [viewKids, kidAt]

theorem viewKids_append (k : NKind) (a : Addr) : ∀ (cs : List NExpr) (i : Nat) (c : NExpr),
    viewKids k a i (cs ++ [c]) = viewKids k a i cs ++ kidAt k a (i + cs.length) c
  | [], i, c => by simp [viewKids_cons, viewKids]
  | d :: cs, i, c => by
    simp only [List.cons_append, viewKids_cons, viewKids_append k a cs (i + 1) c, List.length_cons,
      List.append_assoc]
    rw [show i + 1 + cs.length = i + (cs.length + 1) by omega]

theorem viewKids_take (k : NKind) (a : Addr) (ks : List NExpr) (n : Nat) (h : n < ks.length) :
    viewKids k a 0 (ks.take (n + 1)) =
      viewKids k a 0 (ks.take n) ++ kidAt k a n ((ks[n]?).getD .absent) := by
  rw [List.take_add_one, List.getElem?_eq_getElem h]
  simp only [Option.toList_some, Option.getD_some]
  rw [viewKids_append, List.length_take, Nat.min_eq_left (Nat.le_of_lt h), Nat.zero_add]

theorem recOf_view (cb : Bool) (p : Ref) (e : Edge) (a : Addr) (l : NNode) (ks : List NExpr) :
    recOf cb p (view e a (.node l ks)) = recOf cb p (.mk e (.loc a) l []) := by
  simp [view, recOf]

theorem pushListDeps_eq (cb : Bool) (a : Addr) (opt : List Bool) (ks : List NExpr) :
    ∀ (n : Nat) (stack : List StackRec), n ≤ ks.length →
    pushListDeps (.loc a) ks n stack =
      ((viewKids (.list opt) a 0 (ks.take n)).map fun v => unvisited (recOf cb (.loc a) v)) ++ stack
  | 0, stack, h => by simp [pushListDeps, viewKids]
  | n + 1, stack, h => by
    rw [pushListDeps, pushListDeps_eq cb a opt ks n _ (by omega), viewKids_take _ _ _ _ (by omega),
      List.map_append, List.append_assoc]
    congr 1
    rw [List.getElem?_eq_getElem (show n < ks.length by omega)]
    cases hk : ks[n] with
    | absent =>
      simp [kidAt, readsUnset, edge, recOf, push, childRef, unvisited,
        List.getElem?_eq_getElem (show n < ks.length by omega), hk]
    | node l cs =>
      simp [kidAt, readsUnset, edge, recOf, push, childRef, unvisited, view,
        List.getElem?_eq_getElem (show n < ks.length by omega), hk]

theorem pushStructDeps_eq (cb : Bool) (a : Addr) (name : String) (fs : List NField)
    (ks : List NExpr) : ∀ (n : Nat) (stack : List StackRec), n ≤ ks.length →
    pushStructDeps (.loc a) ks n stack =
      ((viewKids (.struct name fs) a 0 (ks.take n)).map fun v => unvisited (recOf cb (.loc a) v)) ++
        stack
  | 0, stack, h => by simp [pushStructDeps, viewKids]
  | n + 1, stack, h => by
    rw [pushStructDeps, pushStructDeps_eq cb a name fs ks n _ (by omega),
      viewKids_take _ _ _ _ (by omega), List.map_append, List.append_assoc]
    congr 1
    rw [List.getElem?_eq_getElem (show n < ks.length by omega)]
    cases hk : ks[n] with
    | absent =>
      simp [kidAt, readsUnset, hasChild, Tree.present,
        List.getElem?_eq_getElem (show n < ks.length by omega), hk]
    | node l cs =>
      simp [kidAt, readsUnset, edge, recOf, push, childRef, unvisited, view, hasChild, Tree.present,
        List.getElem?_eq_getElem (show n < ks.length by omega), hk]

theorem map_kid (cb : Bool) (a : Addr) (es : List NEntry) (ks : List NExpr) (n : Nat)
    (h : n < ks.length) (stack : List StackRec) :
    (if hasChild ks n then push stack (.expr (childRef (.loc a) ks n)) else stack) =
      ((kidAt (.map es) a n ((ks[n]?).getD .absent)).map fun v => unvisited (recOf cb (.loc a) v)) ++
        stack := by
  rw [List.getElem?_eq_getElem h]
  cases hk : ks[n] with
  | absent =>
    simp [kidAt, readsUnset, hasChild, Tree.present, List.getElem?_eq_getElem h, hk]
  | node l cs =>
    simp only [kidAt, readsUnset, edge, recOf, push, childRef, unvisited, view, hasChild,
      Tree.present, List.getElem?_eq_getElem h, hk, Option.getD_some, if_true, List.map_cons,
      List.map_nil, List.cons_append, List.nil_append]
    by_cases hn : n % 2 = 0 <;> simp [hn]

theorem pushMapDeps_eq (cb : Bool) (a : Addr) (es : List NEntry) (ks : List NExpr) :
    ∀ (n : Nat) (stack : List StackRec), 2 * n ≤ ks.length →
    pushMapDeps (.loc a) ks n stack =
      ((viewKids (.map es) a 0 (ks.take (2 * n))).map fun v => unvisited (recOf cb (.loc a) v)) ++
        stack
  | 0, stack, h => by simp [pushMapDeps, viewKids]
  | n + 1, stack, h => by
    simp only [pushMapDeps]
    rw [pushMapDeps_eq cb a es ks n _ (by omega), show 2 * (n + 1) = 2 * n + 1 + 1 by omega,
      viewKids_take _ _ _ _ (by omega), viewKids_take _ _ _ _ (by omega),
      map_kid cb a es ks (2 * n + 1) (by omega), map_kid cb a es ks (2 * n) (by omega)]
    simp only [List.map_append, List.append_assoc]

theorem pushArgs_eq (cb : Bool) (a : Addr) (fn : String) (t : NExpr) (args : List NExpr)
    (hargs : ∀ x ∈ args, x.present = true) : ∀ (n : Nat) (stack : List StackRec), n ≤ args.length →
    pushArgs (.loc a) (t :: args) n stack =
      ((viewKids (.call fn) a 1 (args.take n)).map fun v => unvisited (recOf cb (.loc a) v)) ++ stack
  | 0, stack, h => by simp [pushArgs, viewKids]
  | n + 1, stack, h => by
    rw [pushArgs, pushArgs_eq cb a fn t args hargs n _ (by omega), List.take_add_one,
      List.getElem?_eq_getElem (show n < args.length by omega)]
    simp only [Option.toList_some]
    rw [viewKids_append, List.map_append, List.append_assoc, List.length_take,
      Nat.min_eq_left (show n ≤ args.length by omega), Nat.add_comm 1 n]
    congr 1
    have hp := hargs _ (List.getElem_mem (show n < args.length by omega))
    cases hk : args[n] with
    | absent => rw [hk] at hp; simp [Tree.present] at hp
    | node l cs =>
      simp [kidAt, edge, recOf, push, childRef, unvisited, view,
        List.getElem?_eq_getElem (show n < args.length by omega), hk]

theorem pushCallDeps_eq (cb : Bool) (a : Addr) (fn : String) (t : NExpr) (args : List NExpr)
    (hargs : ∀ x ∈ args, x.present = true) (stack : List StackRec) :
    pushCallDeps (.loc a) (t :: args) stack =
      ((viewKids (.call fn) a 0 (t :: args)).map fun v => unvisited (recOf cb (.loc a) v)) ++
        stack := by
  simp only [pushCallDeps, List.length_cons, Nat.add_sub_cancel]
  rw [pushArgs_eq cb a fn t args hargs args.length stack (Nat.le_refl _), List.take_length,
    viewKids_cons]
  cases t with
  | absent => simp [hasChild, Tree.present, kidAt, readsUnset]
  | node l ks =>
    simp [hasChild, Tree.present, kidAt, push, childRef, view, recOf, edge, unvisited]

theorem recOf_comp (cb : Bool) (a : Addr) (v v2 w : String) (ks : List NExpr) (n : Nat) (c : CArg)
    (h : n < ks.length) (he : edge (.comprehension v v2 w) n = .part c) :
    ((kidAt (.comprehension v v2 w) a n ((ks[n]?).getD .absent)).map fun v =>
      unvisited (recOf cb (.loc a) v)) = [⟨compRec cb (childRef (.loc a) ks n) (.loc a) c, false⟩] := by
  rw [List.getElem?_eq_getElem h]
  cases hk : ks[n] with
  | absent => simp [kidAt, readsUnset, he, recOf, unvisited, childRef, List.getElem?_eq_getElem h, hk]
  | node l cs =>
    simp [kidAt, readsUnset, he, recOf, unvisited, childRef, List.getElem?_eq_getElem h, hk, view]

theorem pushCompDeps_eq (cb : Bool) (a : Addr) (v v2 w : String) (ks : List NExpr)
    (h : ks.length = 5) (stack : List StackRec) :
    pushCompDeps cb (.loc a) ks stack =
      ((viewKids (.comprehension v v2 w) a 0 ks).map fun v => unvisited (recOf cb (.loc a) v)) ++
        stack := by
  have h5 : ks.take 5 = ks := List.take_of_length_le (by omega)
  rw [← h5, viewKids_take _ _ _ 4 (by omega), viewKids_take _ _ _ 3 (by omega),
    viewKids_take _ _ _ 2 (by omega), viewKids_take _ _ _ 1 (by omega),
    viewKids_take _ _ _ 0 (by omega)]
  simp only [List.take_zero, viewKids, List.nil_append, List.map_append, h5]
  rw [recOf_comp cb a v v2 w ks 0 .iterRange (by omega) rfl,
    recOf_comp cb a v v2 w ks 1 .accuInit (by omega) rfl,
    recOf_comp cb a v v2 w ks 2 .loopCondition (by omega) rfl,
    recOf_comp cb a v v2 w ks 3 .loopStep (by omega) rfl,
    recOf_comp cb a v v2 w ks 4 .result (by omega) rfl]
  simp [pushCompDeps, push]

theorem pushExprDeps_eq (cb : Bool) (a : Addr) (l : NNode) (ks : List NExpr)
    (hs : CShape l.kind ks) (stack : List StackRec) :
    pushExprDeps cb (.loc a) l ks stack =
      ((viewKids l.kind a 0 ks).map fun v => unvisited (recOf cb (.loc a) v)) ++ stack := by
  obtain ⟨id, k⟩ := l
  cases k with
  | unspecified => simp only [CShape] at hs; simp [hs, pushExprDeps, viewKids]
  | const c => simp only [CShape] at hs; simp [hs, pushExprDeps, viewKids]
  | ident n => simp only [CShape] at hs; simp [hs, pushExprDeps, viewKids]
  | select f b =>
    simp only [CShape] at hs
    match ks, hs with
    | [.absent], _ =>
      simp [pushExprDeps, pushSelectDeps, hasChild, Tree.present, viewKids, readsUnset]
    | [.node l cs], _ =>
      simp [pushExprDeps, pushSelectDeps, hasChild, Tree.present, viewKids, readsUnset, push,
        childRef, view, recOf, edge, unvisited]
  | call fn =>
    simp only [CShape] at hs
    obtain ⟨t, args, rfl, hargs⟩ := hs
    simp only [pushExprDeps]
    exact pushCallDeps_eq cb a fn t args hargs stack
  | list opt =>
    simp only [CShape] at hs
    simp only [pushExprDeps]
    rw [pushListDeps_eq cb a opt ks opt.length stack (by omega), ← hs, List.take_length]
  | struct name fs =>
    simp only [CShape] at hs
    simp only [pushExprDeps]
    rw [pushStructDeps_eq cb a name fs ks fs.length stack (by omega), ← hs, List.take_length]
  | map es =>
    simp only [CShape] at hs
    simp only [pushExprDeps]
    rw [pushMapDeps_eq cb a es ks es.length stack (by omega), ← hs, List.take_length]
  | comprehension v v2 w =>
    simp only [CShape] at hs
    simp only [pushExprDeps]
    exact pushCompDeps_eq cb a v v2 w ks hs stack

/-! ## Runs of the machine -/

/-- From the first stack the loop reaches the second, making these visitor calls. -/
inductive Run (cb : Bool) (t : NExpr) : List StackRec → List Ev → List StackRec → Prop where
  | refl (s : List StackRec) : Run cb t s [] s
  | step {s s1 s2 : List StackRec} {e1 e2 : List Ev} : s ≠ [] → turn cb t s = some (e1, s1) →
      Run cb t s1 e2 s2 → Run cb t s (e1 ++ e2) s2

theorem Run.trans {cb : Bool} {t : NExpr} {s1 s2 s3 : List StackRec} {e1 e2 : List Ev}
    (h1 : Run cb t s1 e1 s2) (h2 : Run cb t s2 e2 s3) : Run cb t s1 (e1 ++ e2) s3 := by
  induction h1 with
  | refl s => simpa using h2
  | step hne ht _ ih => rw [List.append_assoc]; exact .step hne ht (ih h2)

theorem Run.one {cb : Bool} {t : NExpr} {s s' : List StackRec} {e : List Ev} (hne : s ≠ [])
    (h : turn cb t s = some (e, s')) : Run cb t s e s' := by
  have := Run.step hne h (Run.refl s'); simpa using this

theorem run_dflt (cb : Bool) (t : NExpr) (rest : List StackRec) :
    Run cb t (⟨.expr .dflt, false⟩ :: rest) [.preExpr .dflt, .postExpr .dflt] rest := by
  have h1 : turn cb t (⟨.expr .dflt, false⟩ :: rest) =
      some ([.preExpr .dflt], ⟨.expr .dflt, true⟩ :: rest) := by
    simp [turn, preVisit, deref, NNode.dflt, preKind, pushDependencies, pushExprDeps]
  have h2 : turn cb t (⟨.expr .dflt, true⟩ :: rest) = some ([.postExpr .dflt], rest) := by
    simp [turn, postVisit, deref, NNode.dflt, postKind]
  exact (Run.one (by simp) h1).trans (Run.one (by simp) h2)

/-- Around a child: the record of the child, given the run of its expression record. -/
theorem run_wrap (cb : Bool) (t : NExpr) (p : Ref) (e : Edge) (r : Ref) (l : NNode)
    (kids : List VT) (rest : List StackRec) (evs : List Ev)
    (h : ∀ rest, Run cb t (⟨.expr r, false⟩ :: rest) evs rest) :
    Run cb t (unvisited (recOf cb p (.mk e r l kids)) :: rest)
      (before cb p e ++ (evs ++ after cb p e)) rest := by
  have harg : ∀ n : Int, Run cb t (⟨.arg r p n, false⟩ :: rest)
      (evs ++ (if n = kTarget then [.postTarget p] else [.postArg p n])) rest := by
    intro n
    have h1 : turn cb t (⟨.arg r p n, false⟩ :: rest) =
        some ([], ⟨.expr r, false⟩ :: ⟨.arg r p n, true⟩ :: rest) := by
      simp [turn, preVisit, pushDependencies, push]
    have h2 : turn cb t (⟨.arg r p n, true⟩ :: rest) =
        some (if n = kTarget then [.postTarget p] else [.postArg p n], rest) := by
      simp [turn, postVisit]
    have := (Run.one (by simp) h1).trans ((h _).trans (Run.one (by simp) h2))
    simpa using this
  have hexp : Run cb t (⟨.expr r, false⟩ :: rest) evs rest := h rest
  cases e with
  | target => have := harg kTarget; simpa [unvisited, recOf, before, after] using this
  | arg n =>
    have := harg n
    rw [if_neg (show ¬ (n : Int) = kTarget by unfold kTarget; omega)] at this
    simpa [unvisited, recOf, before, after] using this
  | part a =>
    cases cb with
    | false =>
      have := harg a.num
      rw [if_neg (show ¬ a.num = kTarget by unfold kTarget; cases a <;> simp [CArg.num])] at this
      simpa [unvisited, recOf, compRec, before, after] using this
    | true =>
      have h1 : turn true t (⟨.comp r p a, false⟩ :: rest) =
          some ([.preSub p a], ⟨.expr r, false⟩ :: ⟨.comp r p a, true⟩ :: rest) := by
        simp [turn, preVisit, pushDependencies, push]
      have h2 : turn true t (⟨.comp r p a, true⟩ :: rest) = some ([.postSub p a], rest) := by
        simp [turn, postVisit]
      have := (Run.one (by simp) h1).trans ((h _).trans (Run.one (by simp) h2))
      simpa [unvisited, recOf, compRec, before, after] using this
  | _ => simpa [unvisited, recOf, before, after] using hexp

theorem nodeAt_child {t : NExpr} {a : Addr} {l : NNode} {ks : List NExpr}
    (h : nodeAt a t = some (.node l ks)) {i : Nat} {l' : NNode} {cs : List NExpr}
    (hi : ks[i]? = some (.node l' cs)) : nodeAt (a ++ [i]) t = some (.node l' cs) := by
  rw [nodeAt_ext a t l ks h i []]
  simp [hi, nodeAt]

mutual
theorem run_expr (cb : Bool) (t : NExpr) : ∀ (n : NExpr) (a : Addr) (e : Edge)
    (rest : List StackRec), n.present = true → WFC n → nodeAt a t = some n →
    Run cb t (⟨.expr (.loc a), false⟩ :: rest) (trace cb (view e a n)) rest
  | .absent, _, _, _, h, _, _ => by simp [Tree.present] at h
  | .node l ks, a, e, rest, _, hw, hn => by
    simp only [WFC] at hw
    have hd : deref t (.loc a) = some (l, ks) := by simp [deref, hn]
    have h1 : turn cb t (⟨.expr (.loc a), false⟩ :: rest) =
        some (.preExpr (.loc a) :: preKind l.kind (.loc a),
          ((viewKids l.kind a 0 ks).map fun v => unvisited (recOf cb (.loc a) v)) ++
            ⟨.expr (.loc a), true⟩ :: rest) := by
      simp only [turn, preVisit, hd, pushDependencies, pushExprDeps_eq cb a l ks hw.1]
    have h2 : turn cb t (⟨.expr (.loc a), true⟩ :: rest) =
        some (postKind l.kind (.loc a) ++ [.postExpr (.loc a)], rest) := by
      simp only [turn, postVisit, hd]
    have hk := run_kids cb t ks l.kind a 0 (⟨.expr (.loc a), true⟩ :: rest) hw.2
      (fun j l' cs hj => by
        have hj' : ks[j]? = some (.node l' cs) := by simpa using hj
        rw [Nat.zero_add]; exact nodeAt_child hn hj')
    have := (Run.one (by simp) h1).trans (hk.trans (Run.one (by simp) h2))
    simpa [view, trace] using this
theorem run_kids (cb : Bool) (t : NExpr) : ∀ (cs : List NExpr) (k : NKind) (a : Addr) (i : Nat)
    (rest : List StackRec), WFCs cs →
    (∀ (j : Nat) l' cs', cs[j]? = some (.node l' cs') →
      nodeAt (a ++ [i + j]) t = some (.node l' cs')) →
    Run cb t (((viewKids k a i cs).map fun v => unvisited (recOf cb (.loc a) v)) ++ rest)
      (traces cb (.loc a) (viewKids k a i cs)) rest
  | [], _, _, _, rest, _, _ => by simp only [viewKids, traces, List.map_nil, List.nil_append]
                                  exact Run.refl _
  | c :: cs, k, a, i, rest, hw, hn => by
    simp only [WFCs] at hw
    have ih := run_kids cb t cs k a (i + 1) rest hw.2 (fun j l' cs' hj => by
      rw [show i + 1 + j = i + (j + 1) by omega]
      exact hn (j + 1) l' cs' (by simpa using hj))
    have hc := fun l' cs' (h : c = .node l' cs') e rest =>
      run_expr cb t c (a ++ [i]) e rest (by simp [h, Tree.present]) hw.1
        (by rw [h]; exact hn 0 l' cs' (by simp [h]))
    rw [viewKids_cons]
    cases hcc : c with
    | absent =>
      by_cases hu : readsUnset k = true
      · simp only [kidAt, hu, if_true, List.map_cons, List.cons_append, List.nil_append, traces]
        have := (run_wrap cb t (.loc a) (edge k i) .dflt NNode.dflt [] _ _
          (run_dflt cb t)).trans ih
        simpa [trace, traces, NNode.dflt, preKind, postKind] using this
      · simp only [kidAt, hu, if_false, Bool.false_eq_true, List.nil_append]
        exact ih
    | node l' cs' =>
      have hc' := hc l' cs' hcc (edge k i)
      rw [hcc] at hc'
      simp only [view] at hc'
      simp only [kidAt, view, List.map_cons, List.cons_append, List.nil_append, traces]
      have := (run_wrap cb t (.loc a) (edge k i) (.loc (a ++ [i])) l'
        (viewKids l'.kind (a ++ [i]) 0 cs') _ _ hc').trans ih
      simpa using this
end

/-! ## The loop and the stepper -/

theorem loop_of_run {cb : Bool} {t : NExpr} {s s' : List StackRec} {evs : List Ev}
    (h : Run cb t s evs s') (hs : s' = []) : ∃ N, ∀ fuel, N ≤ fuel → loop cb t fuel s = some evs := by
  induction h with
  | refl s => subst hs; exact ⟨1, fun fuel hf => by
      obtain ⟨f, rfl⟩ : ∃ f, fuel = f + 1 := ⟨fuel - 1, by omega⟩
      simp [loop]⟩
  | @step s s1 s2 e1 e2 hne ht _ ih =>
    obtain ⟨N, hN⟩ := ih hs
    refine ⟨N + 1, fun fuel hf => ?_⟩
    obtain ⟨f, rfl⟩ : ∃ f, fuel = f + 1 := ⟨fuel - 1, by omega⟩
    have : s.isEmpty = false := by cases s <;> simp_all
    simp [loop, this, ht, hN f (by omega)]

/-- The stepper, over a run that empties the stack: there is a number of steps `N` such that after
`n` calls the visitor has been told a prefix of the run, call `n` returned whether `n < N`, and
after `N` or more calls the traversal is done and the visitor has been told the whole run. -/
theorem steps_of_run {cb : Bool} {t : NExpr} {s s' : List StackRec} {evs : List Ev}
    (h : Run cb t s evs s') (hs : s' = []) : ∃ N, ∀ n, ∃ pre post stack, evs = pre ++ post ∧
      steps cb t n s = some (pre, (List.range n).map (fun i => decide (i + 1 < N)), stack) ∧
      (stack = [] ↔ N ≤ n) ∧ (N ≤ n → post = []) := by
  induction h with
  | refl s =>
    subst hs
    refine ⟨0, fun n => ?_⟩
    have : ∀ n, steps cb t n [] = some ([], (List.range n).map (fun i => decide (i + 1 < 0)), []) := by
      intro n
      induction n with
      | zero => simp [steps]
      | succ n ih => 
        rw [steps]
        simp only [stepOnce, List.isEmpty_nil, if_true, ih]
        simp [List.range_succ_eq_map]
    exact ⟨[], [], [], by simp, this n, by simp, by simp⟩
  | @step s s1 s2 e1 e2 hne ht hr ih =>
    obtain ⟨N, hN⟩ := ih hs
    refine ⟨N + 1, fun n => ?_⟩
    cases n with
    | zero => exact ⟨[], e1 ++ e2, s, by simp, by simp [steps], by simp [hne], by simp⟩
    | succ n =>
      obtain ⟨pre, post, stack, he, hst, hd, hp⟩ := hN n
      have hemp : s.isEmpty = false := by cases s <;> simp_all
      have hb : (!s1.isEmpty) = decide (0 + 1 < N + 1) := by
        obtain ⟨_, _, st0, _, h0, hd0, _⟩ := hN 0
        simp only [steps, Option.some.injEq, Prod.mk.injEq] at h0
        rw [← h0.2.2] at hd0
        cases s1 with
        | nil => simp at hd0; simp [hd0]
        | cons x xs => simp at hd0; simp; omega
      refine ⟨e1 ++ pre, post, stack, by rw [he, List.append_assoc], ?_, by rw [hd]; omega,
        fun h => hp (by omega)⟩
      rw [steps]
      simp only [stepOnce, hemp, Bool.false_eq_true, if_false, ht, hst, hb]
      simp [List.range_succ_eq_map]
end Cel.Walk
