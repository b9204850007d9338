import Verif.Eval.LogicProps
import Verif.Macro.ShortCircuit
import Mathlib.Data.Nat.Log

/-!
# C39: balancing of `&&` / `||` chains (`parser/parser.cc`)
-/

set_option linter.unusedSimpArgs false
set_option linter.unusedVariables false

namespace Cel.Parser
open Cel Cel.Eval Cel.Macro

/-! ## Model -/

/-- What the balancer builds over terms `α`: a term, a binary call (`NewCall(id, function, {l, r})`), or — with
`enable_variadic_logical_operators` — one call with all terms as arguments. -/
inductive Tree (α : Type) where
  | leaf (a : α)
  | node (id : Int) (l r : Tree α)
  | flat (id : Int) (args : List α)

variable {α : Type}

/-- `std::move(terms_[i])`: the term, leaving a moved-from slot; `none` if the slot was moved from before or is
out of range. -/
def takeTerm (ts : List (Option α)) (i : Nat) : Option (α × List (Option α)) :=
  match ts[i]? with
  | some (some a) => some (a, ts.set i none)
  | _ => none

/-- `ExpressionBalancer::BalancedTree` (`parser/parser.cc` lines 590-608).  `int` indexes are naturals here (chains
are shorter than 2^30 terms); a call with `hi < lo`, which would not terminate, is `none`. -/
def balancedTree (ops : List Int) (lo hi : Nat) (ts : List (Option α)) : Option (Tree α × List (Option α)) :=
  if h : hi < lo then none
  else
    let mid := (lo + hi + 1) / 2
    let left := if hm : mid = lo then (takeTerm ts mid).map (fun p => (Tree.leaf p.1, p.2))
      else balancedTree ops lo (mid - 1) ts
    match left with
    | none => none
    | some (l, ts1) =>
      let right := if hm : mid = hi then (takeTerm ts1 (mid + 1)).map (fun p => (Tree.leaf p.1, p.2))
        else balancedTree ops (mid + 1) hi ts1
      match right with
      | none => none
      | some (r, ts2) =>
        match ops[mid]? with
        | none => none
        | some id => some (.node id l r, ts2)
termination_by hi - lo
decreasing_by all_goals omega

/-- `ExpressionBalancer`: constructor, one `AddTerm(op, term)` per operator, then `Balance`
(`parser/parser.cc` lines 569-588), as `visitConditionalOr`/`visitConditionalAnd` use it (lines 914-958). -/
def balance (variadic : Bool) (first : α) (rest : List (Int × α)) : Option (Tree α) :=
  let terms := first :: rest.map (·.2)
  let ops := rest.map (·.1)
  if terms.length = 1 then some (.leaf first)
  else if variadic then
    match ops with
    | [] => none
    | id :: _ => some (.flat id terms)
  else (balancedTree ops 0 (ops.length - 1) (terms.map some)).map (·.1)

/-! ## Specification -/

/-- The terms of a tree, from left to right. -/
def Tree.leaves : Tree α → List α
  | .leaf a => [a]
  | .node _ l r => l.leaves ++ r.leaves
  | .flat _ args => args

/-- The operator identifiers of a tree, from left to right. -/
def Tree.ops : Tree α → List Int
  | .leaf _ => []
  | .node id l r => l.ops ++ id :: r.ops
  | .flat id _ => [id]

/-- Nesting depth of calls. -/
def Tree.depth : Tree α → Nat
  | .leaf _ => 0
  | .node _ l r => max l.depth r.depth + 1
  | .flat _ _ => 1

/-- The terms at positions `lo .. lo + n - 1` are all there. -/
def Has (ts : List (Option α)) (lo : Nat) (xs : List α) : Prop :=
  ∀ i, (h : i < xs.length) → ts[lo + i]? = some (some xs[i])

theorem Has.append {ts : List (Option α)} {lo : Nat} {xs ys : List α} :
    Has ts lo (xs ++ ys) ↔ Has ts lo xs ∧ Has ts (lo + xs.length) ys := by
  constructor
  · intro h
    constructor
    · intro i hi
      have := h i (by simp; omega)
      rw [List.getElem_append_left hi] at this
      exact this
    · intro i hi
      have := h (xs.length + i) (by simp; omega)
      rw [List.getElem_append_right (by omega)] at this
      simp only [Nat.add_sub_cancel_left] at this
      rw [Nat.add_assoc]
      exact this
  · rintro ⟨h1, h2⟩ i hi
    by_cases hx : i < xs.length
    · rw [List.getElem_append_left hx]; exact h1 i hx
    · rw [List.getElem_append_right (by omega)]
      have := h2 (i - xs.length) (by simp at hi; omega)
      rw [show lo + xs.length + (i - xs.length) = lo + i by omega] at this
      exact this

theorem clog_half {n m : Nat} (hm : 2 * m ≤ n + 1) (hm2 : 1 ≤ m) (hn : 2 ≤ n) : Nat.clog 2 m + 1 ≤ Nat.clog 2 n := by
  rw [Nat.clog_of_two_le (by norm_num) hn]
  have : Nat.clog 2 m ≤ Nat.clog 2 ((n + 2 - 1) / 2) := Nat.clog_mono_right 2 (by omega)
  omega

theorem balancedTree_spec (ops : List Int) (k : Nat) : ∀ (lo hi : Nat) (ts : List (Option α)) (xs : List α),
    hi - lo ≤ k → lo ≤ hi → hi < ops.length → xs.length = hi - lo + 2 → Has ts lo xs →
    ∃ T ts', balancedTree ops lo hi ts = some (T, ts') ∧ T.leaves = xs ∧ T.ops = (ops.drop lo).take (hi - lo + 1) ∧
      T.depth ≤ Nat.clog 2 xs.length ∧ (∀ i, i < lo ∨ hi + 1 < i → ts'[i]? = ts[i]?) := by
  induction k with
  | zero =>
    intro lo hi ts xs hk hlo hhi hlen hh
    have : hi = lo := by omega
    subst this
    rw [show hi - hi + 2 = 2 by omega] at hlen
    match xs, hlen with
    | [a, b], _ =>
      have h0 := hh 0 (by simp)
      have h1 := hh 1 (by simp)
      simp only [Nat.add_zero, List.getElem_cons_zero, List.getElem_cons_succ] at h0 h1
      have hmid : (hi + hi + 1) / 2 = hi := by omega
      obtain ⟨id, hid⟩ : ∃ id, ops[hi]? = some id := ⟨_, List.getElem?_eq_getElem hhi⟩
      refine ⟨.node id (.leaf a) (.leaf b), (ts.set hi none).set (hi + 1) none, ?_, rfl, ?_, ?_, ?_⟩
      · unfold balancedTree
        rw [dif_neg (by omega)]
        simp only [hmid, dite_true, takeTerm, h0, Option.map_some]
        rw [List.getElem?_set_ne (by omega), h1]
        simp only [Option.map_some, hid]
      · rw [show hi - hi + 1 = 1 by omega, List.take_one, List.head?_drop, hid]; rfl
      · show 1 ≤ Nat.clog 2 2
        decide
      · intro i hi'
        rw [List.getElem?_set_ne (by omega), List.getElem?_set_ne (by omega)]
  | succ k ih =>
    intro lo hi ts xs hk hlo hhi hlen hh
    have hk' : hi - lo ≤ k + 1 := hk
    set mid := (lo + hi + 1) / 2 with hmid
    have hmlo : lo ≤ mid := by omega
    have hmhi : mid ≤ hi := by omega
    obtain ⟨id, hid⟩ : ∃ id, ops[mid]? = some id := ⟨_, List.getElem?_eq_getElem (by omega)⟩
    -- split the terms
    set xl := xs.take (mid - lo + 1) with hxl
    set xr := xs.drop (mid - lo + 1) with hxr
    have hsplit : xs = xl ++ xr := (List.take_append_drop _ _).symm
    have hll : xl.length = mid - lo + 1 := by rw [hxl, List.length_take]; omega
    have hlr : xr.length = hi - mid + 1 := by rw [hxr, List.length_drop]; omega
    rw [hsplit, Has.append] at hh
    obtain ⟨hL, hR⟩ := hh
    have hR : Has ts (mid + 1) xr := by rw [show mid + 1 = lo + xl.length by omega]; exact hR
    -- left part
    have hleft : ∃ l ts1, (if hm : mid = lo then (takeTerm ts mid).map (fun p => (Tree.leaf p.1, p.2))
          else balancedTree ops lo (mid - 1) ts) = some (l, ts1) ∧ l.leaves = xl ∧
        l.ops = (ops.drop lo).take (mid - lo) ∧ l.depth ≤ Nat.clog 2 xl.length ∧
        (∀ i, i < lo ∨ mid < i → ts1[i]? = ts[i]?) := by
      by_cases hm : mid = lo
      · rw [dif_pos hm]
        have hone : xl.length = 1 := by omega
        obtain ⟨a, ha⟩ := List.length_eq_one_iff.1 hone
        have h0 := hL 0 (by omega)
        simp only [ha, List.getElem_cons_zero, Nat.add_zero] at h0
        refine ⟨.leaf a, ts.set mid none, ?_, ha.symm, ?_, by simp [Tree.depth], ?_⟩
        · simp only [takeTerm, hm, h0, Option.map_some]
        · rw [show mid - lo = 0 by omega]; rfl
        · intro i hi'; rw [List.getElem?_set_ne (by omega)]
      · rw [dif_neg hm]
        obtain ⟨T, ts', h1, h2, h3, h4, h5⟩ := ih lo (mid - 1) ts xl (by omega) (by omega) (by omega) (by omega) hL
        refine ⟨T, ts', h1, h2, ?_, h4, fun i hi' => h5 i (by omega)⟩
        rw [h3, show mid - 1 - lo + 1 = mid - lo by omega]
    obtain ⟨l, ts1, hl1, hl2, hl3, hl4, hl5⟩ := hleft
    have hR1 : Has ts1 (mid + 1) xr := fun i hi' => by rw [hl5 _ (by omega)]; exact hR i hi'
    have hright : ∃ r ts2, (if hm : mid = hi then (takeTerm ts1 (mid + 1)).map (fun p => (Tree.leaf p.1, p.2))
          else balancedTree ops (mid + 1) hi ts1) = some (r, ts2) ∧ r.leaves = xr ∧
        r.ops = (ops.drop (mid + 1)).take (hi - mid) ∧ r.depth ≤ Nat.clog 2 xr.length ∧
        (∀ i, i < mid + 1 ∨ hi + 1 < i → ts2[i]? = ts1[i]?) := by
      by_cases hm : mid = hi
      · rw [dif_pos hm]
        have hone : xr.length = 1 := by omega
        obtain ⟨a, ha⟩ := List.length_eq_one_iff.1 hone
        have h0 := hR1 0 (by omega)
        simp only [ha, List.getElem_cons_zero, Nat.add_zero] at h0
        refine ⟨.leaf a, ts1.set (mid + 1) none, ?_, ha.symm, ?_, by simp [Tree.depth], ?_⟩
        · simp only [takeTerm, h0, Option.map_some]
        · rw [show hi - mid = 0 by omega]; rfl
        · intro i hi'; rw [List.getElem?_set_ne (by omega)]
      · rw [dif_neg hm]
        obtain ⟨T, ts', h1, h2, h3, h4, h5⟩ := ih (mid + 1) hi ts1 xr (by omega) (by omega) (by omega) (by omega) hR1
        refine ⟨T, ts', h1, h2, ?_, h4, h5⟩
        rw [h3, show hi - (mid + 1) + 1 = hi - mid by omega]
    obtain ⟨r, ts2, hr1, hr2, hr3, hr4, hr5⟩ := hright
    refine ⟨.node id l r, ts2, ?_, ?_, ?_, ?_, ?_⟩
    · unfold balancedTree
      rw [dif_neg (by omega)]
      simp only [← hmid, hl1, hr1, hid]
    · simp only [Tree.leaves, hl2, hr2]; exact hsplit.symm
    · simp only [Tree.ops, hl3, hr3]
      have e1 : (ops.drop lo).take (hi - lo + 1) = (ops.drop lo).take (mid - lo) ++ ((ops.drop lo).drop (mid - lo)).take (hi - mid + 1) := by
        rw [← List.take_add, show mid - lo + (hi - mid + 1) = hi - lo + 1 by omega]
      rw [e1, List.drop_drop, show lo + (mid - lo) = mid by omega]
      congr 1
      rw [List.drop_eq_getElem_cons (by omega : mid < ops.length), List.take_succ_cons]
      congr 1
      have := List.getElem?_eq_getElem (show mid < ops.length by omega)
      rw [this] at hid
      exact (Option.some.inj hid).symm
    · simp only [Tree.depth]
      have hn : 2 ≤ xs.length := by omega
      have d1 : l.depth + 1 ≤ Nat.clog 2 xs.length :=
        le_trans (Nat.add_le_add_right hl4 1) (clog_half (by omega) (by omega) hn)
      have d2 : r.depth + 1 ≤ Nat.clog 2 xs.length :=
        le_trans (Nat.add_le_add_right hr4 1) (clog_half (by omega) (by omega) hn)
      omega
    · intro i hi'
      rw [hr5 i (by omega), hl5 i (by omega)]

/-- **C39 (structure).** Balancing never uses a term twice or one that does not exist; the tree's terms and
operators, read from left to right, are exactly those written, and calls nest at most ⌈log₂ n⌉ deep. -/
theorem C39_structure (first : α) (rest : List (Int × α)) :
    ∃ T, balance false first rest = some T ∧ T.leaves = first :: rest.map (·.2) ∧ T.ops = rest.map (·.1) ∧
      T.depth ≤ Nat.clog 2 (rest.length + 1) := by
  cases rest with
  | nil => exact ⟨.leaf first, rfl, rfl, rfl, by simp [Tree.depth]⟩
  | cons p rest =>
    obtain ⟨T, ts', h1, h2, h3, h4, -⟩ := balancedTree_spec ((p :: rest).map (·.1)) rest.length 0 rest.length
      ((first :: (p :: rest).map (·.2)).map some) (first :: (p :: rest).map (·.2)) (by omega) (by omega) (by simp)
      (by simp) (by intro i hi; rw [Nat.zero_add, List.getElem?_map, List.getElem?_eq_getElem hi]; rfl)
    refine ⟨T, ?_, h2, ?_, ?_⟩
    · unfold balance
      simp only []
      rw [if_neg (by simp), if_neg (by simp)]
      have : ((p :: rest).map (·.1)).length - 1 = rest.length := by simp
      rw [this, h1]
      rfl
    · rw [h3]; simp
    · simpa using h4

/-- **C39 (variadic).** With variadic operators there is one call with the terms in order. -/
theorem C39_variadic (first : α) (p : Int × α) (rest : List (Int × α)) :
    balance true first (p :: rest) = some (.flat p.1 (first :: p.2 :: rest.map (·.2))) := rfl

/-- Five terms: depth 3 = ⌈log₂ 5⌉, not 4 as a chain would be. -/
example : (balance false "a" [(1, "b"), (2, "c"), (3, "d"), (4, "e")]).map (fun T => (T.leaves, T.ops, T.depth))
    = some (["a", "b", "c", "d", "e"], [1, 2, 3, 4], 3) := by
  simp [balance, balancedTree, takeTerm, Tree.leaves, Tree.ops, Tree.depth]

/-! ## Meaning -/

/-- The value of a tree whose terms have the given values, as `&&`/`||` steps compute it bottom up; a variadic call
is evaluated as the chain of its arguments (`C39_variadic_code`). -/
def Tree.eval (isOr unk : Bool) (val : α → Value) : Tree α → Value
  | .leaf a => val a
  | .node _ l r => calcLogic isOr unk (l.eval isOr unk val) (r.eval isOr unk val)
  | .flat _ [] => .bool (!isOr)
  | .flat _ (a :: as) => as.foldl (fun v b => calcLogic isOr unk v (val b)) (val a)

/-- The chain as written: `((a op b) op c) op d`. -/
def chainEval (isOr unk : Bool) (v : Value) (vs : List Value) : Value := vs.foldl (calcLogic isOr unk) v

/-- The class of a chain: absorbing if some term is, else unknown if some term is, else an error if some term is
one (or not a boolean), else neutral. -/
def chainClass (cs : List OperandClass) : OperandClass :=
  if .absorbing ∈ cs then .absorbing
  else if .unknown ∈ cs then .unknown
  else if .bad ∈ cs then .bad else .neutral

theorem chainClass_single (c : OperandClass) : chainClass [c] = c := by cases c <;> decide

theorem chainClass_append (xs ys : List OperandClass) :
    chainClass (xs ++ ys) =
      if chainClass xs = .absorbing ∨ chainClass ys = .absorbing then .absorbing
      else if chainClass xs = .unknown ∨ chainClass ys = .unknown then .unknown
      else if chainClass xs = .bad ∨ chainClass ys = .bad then .bad else .neutral := by
  unfold chainClass
  simp only [List.mem_append]
  by_cases h1 : OperandClass.absorbing ∈ xs <;> by_cases h2 : OperandClass.absorbing ∈ ys <;>
  by_cases h3 : OperandClass.unknown ∈ xs <;> by_cases h4 : OperandClass.unknown ∈ ys <;>
  by_cases h5 : OperandClass.bad ∈ xs <;> by_cases h6 : OperandClass.bad ∈ ys <;> simp [h1, h2, h3, h4, h5, h6]

/-- The attributes and function results of a logic step's result, when it is not absorbed. -/
theorem logic_unknowns (isOr : Bool) (p q : Value) (hpq : classify isOr (calcLogic isOr true p q) ≠ .absorbing) :
    (∀ z, ValidAttr z → (z ∈ unknownAttrs (calcLogic isOr true p q) ↔ z ∈ unknownAttrs p ∨ z ∈ unknownAttrs q)) ∧
    (∀ f ∈ unknownFns (calcLogic isOr true p q), f ∈ unknownFns p ∨ f ∈ unknownFns q) ∧
    (∀ f, (f ∈ unknownFns p ∨ f ∈ unknownFns q) →
      ∃ g ∈ unknownFns (calcLogic isOr true p q), FnDesc.eq f.desc g.desc = true) := by
  by_cases hu : classify isOr (calcLogic isOr true p q) = .unknown
  · exact unknown_result_mem isOr p q hu
  · have hr := classify_result isOr p q
    have hp : classify isOr p ≠ .unknown := by
      intro h; rw [hr] at hu hpq
      by_cases h9 : classify isOr p = .absorbing ∨ classify isOr q = .absorbing
      · simp [h9] at hpq
      · rw [if_neg h9, if_pos (by simp [h])] at hu; exact hu rfl
    have hq : classify isOr q ≠ .unknown := by
      intro h; rw [hr] at hu hpq
      by_cases h9 : classify isOr p = .absorbing ∨ classify isOr q = .absorbing
      · simp [h9] at hpq
      · rw [if_neg h9, if_pos (by simp [h])] at hu; exact hu rfl
    have e1 : ∀ v, classify isOr v ≠ .unknown → unknownAttrs v = [] ∧ unknownFns v = [] := by
      intro v hv; cases v <;> simp [unknownAttrs, unknownFns, classify] at hv ⊢
    simp [e1 _ hu, e1 _ hp, e1 _ hq]

/-- What a grouping of the values `vs` is known to evaluate to. -/
def Groups (isOr : Bool) (vs : List Value) (v : Value) : Prop :=
  classify isOr v = chainClass (vs.map (classify isOr)) ∧
  (classify isOr v ≠ .absorbing →
    (∀ z, ValidAttr z → (z ∈ unknownAttrs v ↔ ∃ w ∈ vs, z ∈ unknownAttrs w)) ∧
    (∀ f ∈ unknownFns v, ∃ w ∈ vs, f ∈ unknownFns w) ∧
    (∀ w ∈ vs, ∀ f ∈ unknownFns w, ∃ g ∈ unknownFns v, FnDesc.eq f.desc g.desc = true))

theorem fnDescEq_refl (d : FnDesc) : FnDesc.eq d d = true := by unfold FnDesc.eq; simp

theorem Groups.single (isOr : Bool) (v : Value) : Groups isOr [v] v := by
  refine ⟨by simp [chainClass_single], fun _ => ⟨by simp, by simp, ?_⟩⟩
  intro w hw f hf
  simp only [List.mem_singleton] at hw
  subst hw
  exact ⟨f, hf, fnDescEq_refl _⟩

theorem Groups.join {isOr : Bool} {xs ys : List Value} {v w : Value} (hv : Groups isOr xs v) (hw : Groups isOr ys w) :
    Groups isOr (xs ++ ys) (calcLogic isOr true v w) := by
  have hcl : classify isOr (calcLogic isOr true v w) = chainClass ((xs ++ ys).map (classify isOr)) := by
    rw [classify_result, List.map_append, chainClass_append, hv.1, hw.1]
  refine ⟨hcl, fun hne => ?_⟩
  have hU := logic_unknowns isOr v w hne
  have hva : classify isOr v ≠ .absorbing := by
    intro h; rw [classify_result] at hne; simp [h] at hne
  have hwa : classify isOr w ≠ .absorbing := by
    intro h; rw [classify_result] at hne; simp [h] at hne
  obtain ⟨v1, v2, v3⟩ := hv.2 hva
  obtain ⟨w1, w2, w3⟩ := hw.2 hwa
  refine ⟨fun z hz => ?_, fun f hf => ?_, fun u hu f hf => ?_⟩
  · rw [hU.1 z hz, v1 z hz, w1 z hz]
    simp only [List.mem_append]
    constructor
    · rintro (⟨u, hu, h⟩ | ⟨u, hu, h⟩)
      · exact ⟨u, Or.inl hu, h⟩
      · exact ⟨u, Or.inr hu, h⟩
    · rintro ⟨u, hu | hu, h⟩
      · exact Or.inl ⟨u, hu, h⟩
      · exact Or.inr ⟨u, hu, h⟩
  · rcases hU.2.1 f hf with h | h
    · obtain ⟨u, hu, h⟩ := v2 f h; exact ⟨u, List.mem_append_left _ hu, h⟩
    · obtain ⟨u, hu, h⟩ := w2 f h; exact ⟨u, List.mem_append_right _ hu, h⟩
  · rcases List.mem_append.1 hu with hu | hu
    · obtain ⟨g, hg, he⟩ := v3 u hu f hf
      obtain ⟨g', hg', he'⟩ := hU.2.2 g (Or.inl hg)
      exact ⟨g', hg', fnDescEq_trans he he'⟩
    · obtain ⟨g, hg, he⟩ := w3 u hu f hf
      obtain ⟨g', hg', he'⟩ := hU.2.2 g (Or.inr hg)
      exact ⟨g', hg', fnDescEq_trans he he'⟩

theorem groups_chain (isOr : Bool) (vs : List Value) : ∀ (xs : List Value) (v : Value), Groups isOr xs v →
    Groups isOr (xs ++ vs) (chainEval isOr true v vs) := by
  induction vs with
  | nil => intro xs v h; simpa [chainEval] using h
  | cons w vs ih =>
    intro xs v h
    have := ih (xs ++ [w]) _ (h.join (Groups.single isOr w))
    simpa [chainEval] using this

theorem groups_tree (isOr : Bool) (val : α → Value) (T : Tree α) :
    Groups isOr (T.leaves.map val) (T.eval isOr true val) := by
  induction T with
  | leaf a => exact Groups.single isOr (val a)
  | node id l r ihl ihr =>
    simp only [Tree.leaves, List.map_append, Tree.eval]
    exact ihl.join ihr
  | flat id as =>
    cases as with
    | nil =>
      refine ⟨?_, fun _ => ⟨?_, ?_, ?_⟩⟩ <;> cases isOr <;> simp [Tree.leaves, Tree.eval, classify, chainClass, unknownAttrs, unknownFns]
    | cons a as =>
      have := groups_chain isOr (as.map val) [val a] (val a) (Groups.single isOr _)
      simpa [Tree.leaves, Tree.eval, chainEval, List.foldl_map] using this

/-- A chain of at least two terms. -/
theorem chain_is_logic (isOr : Bool) (v w : Value) (vs : List Value) :
    ∃ a b, chainEval isOr true v (w :: vs) = calcLogic isOr true a b := by
  induction vs using List.reverseRecOn generalizing v w with
  | nil => exact ⟨v, w, rfl⟩
  | append_singleton vs u _ => exact ⟨_, u, by simp only [chainEval, List.foldl_cons, List.foldl_append, List.foldl_nil]; rfl⟩

theorem groups_same {isOr : Bool} {vs : List Value} {a b c d : Value} (h1 : Groups isOr vs (calcLogic isOr true a b))
    (h2 : Groups isOr vs (calcLogic isOr true c d)) :
    SameUpToError (calcLogic isOr true a b) (calcLogic isOr true c d) := by
  have hcl := h1.1.trans h2.1.symm
  cases hc : classify isOr (calcLogic isOr true a b) with
  | absorbing =>
    rw [(classify_of_result isOr _).1 hc, (classify_of_result isOr (calcLogic isOr true c d)).1 (hcl ▸ hc)]
    exact Or.inr (Or.inr ⟨_, rfl, rfl⟩)
  | neutral =>
    rw [(classify_of_result isOr _).2.1 hc, (classify_of_result isOr (calcLogic isOr true c d)).2.1 (hcl ▸ hc)]
    exact Or.inr (Or.inr ⟨_, rfl, rfl⟩)
  | bad =>
    obtain ⟨e, he⟩ := classify_bad_error isOr _ _ hc
    obtain ⟨f, hf⟩ := classify_bad_error isOr _ _ (hcl ▸ hc)
    exact Or.inl ⟨e, f, he, hf⟩
  | unknown =>
    obtain ⟨x, hx⟩ := (classify_of_result isOr _).2.2 hc
    obtain ⟨y, hy⟩ := (classify_of_result isOr _).2.2 (hcl ▸ hc)
    obtain ⟨a1, a2, a3⟩ := h1.2 (by rw [hc]; simp)
    obtain ⟨b1, b2, b3⟩ := h2.2 (by rw [← hcl, hc]; simp)
    rw [hx] at a1 a2 a3
    rw [hy] at b1 b2 b3
    refine Or.inr (Or.inl ⟨x, y, hx, hy, fun z hz => (a1 z hz).trans (b1 z hz).symm, fun f hf => ?_, fun f hf => ?_⟩)
    · obtain ⟨w, hw, hf⟩ := a2 f hf; exact b3 w hw f hf
    · obtain ⟨w, hw, hf⟩ := b2 f hf; exact a3 w hw f hf

/-- **C39 (meaning).** The balanced tree of a chain of two or more terms evaluates to the same result as the chain
read from left to right: the same boolean, the same set of unknowns, or an error in both cases. -/
theorem C39_meaning (isOr : Bool) (val : α → Value) (first : α) (p : Int × α) (rest : List (Int × α)) (T : Tree α)
    (hT : balance false first (p :: rest) = some T) :
    SameUpToError (T.eval isOr true val) (chainEval isOr true (val first) ((p :: rest).map (fun q => val q.2))) := by
  obtain ⟨T', h1, h2, -, -⟩ := C39_structure first (p :: rest)
  rw [h1] at hT
  have hTT : T = T' := (Option.some.inj hT).symm
  subst hTT
  have hg := groups_tree isOr val T
  have hc := groups_chain isOr ((p :: rest).map (fun q => val q.2)) [val first] (val first) (Groups.single isOr _)
  have hl : T.leaves.map val = [val first] ++ (p :: rest).map (fun q => val q.2) := by rw [h2]; simp
  rw [hl] at hg
  obtain ⟨c, d, hcd⟩ := chain_is_logic isOr (val first) (val p.2) (rest.map (fun q => val q.2))
  rw [List.map_cons] at hc ⊢
  rw [hcd] at hc ⊢
  cases T with
  | leaf a => simp [Tree.leaves] at h2
  | node id l r => exact groups_same hg hc
  | flat id as =>
    unfold balance at h1
    simp only [] at h1
    rw [if_neg (by simp), if_neg (by simp)] at h1
    unfold balancedTree at h1
    simp only [List.map_cons, List.length_cons] at h1
    rw [dif_neg (by omega)] at h1
    exfalso
    revert h1
    simp only [Option.map_eq_some_iff, Prod.exists, exists_and_right, exists_eq_right]
    rintro ⟨ts, h1⟩
    split at h1
    · cases h1
    · split at h1
      · cases h1
      · split at h1 <;> simp at h1

/-- Booleans and errors: the operands a type-checked chain has when nothing is unknown. -/
def BoolOrError : Value → Prop
  | .bool _ => True
  | .error _ => True
  | _ => False

/-- The value of such a chain: the absorbing boolean if some term has it, else the first error, else neutral. -/
def chainValue (isOr : Bool) (vs : List Value) : Value :=
  if vs.any (fun v => match v with | .bool b => b == isOr | _ => false) then .bool isOr
  else match vs.find? (·.isError) with
    | some e => e
    | none => .bool (!isOr)

theorem chainValue_kind (isOr : Bool) (vs : List Value) (h : ∀ v ∈ vs, BoolOrError v) :
    (vs.any (fun v => match v with | .bool b => b == isOr | _ => false) = true ∧ chainValue isOr vs = .bool isOr) ∨
    (vs.any (fun v => match v with | .bool b => b == isOr | _ => false) = false ∧
      ((∃ e, vs.find? (·.isError) = some (.error e) ∧ chainValue isOr vs = .error e) ∨
       (vs.find? (·.isError) = none ∧ chainValue isOr vs = .bool (!isOr)))) := by
  unfold chainValue
  cases ha : vs.any (fun v => match v with | .bool b => b == isOr | _ => false) with
  | true => left; simp
  | false =>
    right
    refine ⟨rfl, ?_⟩
    cases hf : vs.find? (·.isError) with
    | none => right; simp
    | some w =>
      left
      have hw := List.find?_some hf
      cases w <;> simp [Value.isError] at hw
      exact ⟨_, rfl, by simp⟩

theorem chainValue_append (isOr unk : Bool) (xs ys : List Value) (hx : ∀ v ∈ xs, BoolOrError v)
    (hy : ∀ v ∈ ys, BoolOrError v) :
    calcLogic isOr unk (chainValue isOr xs) (chainValue isOr ys) = chainValue isOr (xs ++ ys) := by
  have key : ∀ b : Bool, (b == !b) = false := by decide
  rcases chainValue_kind isOr xs hx with ⟨h1, h2⟩ | ⟨h1, ⟨e, h2, h3⟩ | ⟨h2, h3⟩⟩ <;>
  rcases chainValue_kind isOr ys hy with ⟨g1, g2⟩ | ⟨g1, ⟨f, g2, g3⟩ | ⟨g2, g3⟩⟩ <;>
  (conv_rhs => unfold chainValue) <;>
  rw [List.any_append, h1, g1, List.find?_append] <;>
  simp only [h2, g2] <;> (try rw [h3]) <;> (try rw [g3]) <;>
  cases isOr <;> cases unk <;> rfl

theorem chainValue_single (isOr : Bool) (v : Value) (h : BoolOrError v) : chainValue isOr [v] = v := by
  cases v <;> simp [BoolOrError] at h <;> simp [chainValue, Value.isError]
  rename_i b; cases b <;> cases isOr <;> rfl

theorem tree_value (isOr unk : Bool) (val : α → Value) (T : Tree α) (h : ∀ a ∈ T.leaves, BoolOrError (val a)) :
    T.eval isOr unk val = chainValue isOr (T.leaves.map val) := by
  induction T with
  | leaf a => exact (chainValue_single isOr _ (h a (by simp [Tree.leaves]))).symm
  | node id l r ihl ihr =>
    simp only [Tree.leaves, List.mem_append] at h
    simp only [Tree.leaves, List.map_append, Tree.eval]
    rw [ihl fun a ha => h a (Or.inl ha), ihr fun a ha => h a (Or.inr ha), chainValue_append]
    · intro v hv; obtain ⟨a, ha, rfl⟩ := List.mem_map.1 hv; exact h a (Or.inl ha)
    · intro v hv; obtain ⟨a, ha, rfl⟩ := List.mem_map.1 hv; exact h a (Or.inr ha)
  | flat id as =>
    cases as with
    | nil => rfl
    | cons a as =>
      have gen : ∀ (bs pre : List α), (∀ b ∈ pre ++ bs, BoolOrError (val b)) →
          bs.foldl (fun v b => calcLogic isOr unk v (val b)) (chainValue isOr (pre.map val)) = chainValue isOr ((pre ++ bs).map val) := by
        intro bs
        induction bs with
        | nil => intro pre _; simp
        | cons b bs ih =>
          intro pre hb
          simp only [List.foldl_cons]
          have := ih (pre ++ [b]) (by simpa using hb)
          rw [show pre ++ b :: bs = pre ++ [b] ++ bs by simp, ← this]
          congr 1
          rw [List.map_append, ← chainValue_append isOr unk]
          · rw [List.map_singleton, chainValue_single isOr _ (hb b (by simp))]
          · intro v hv; obtain ⟨c, hc, rfl⟩ := List.mem_map.1 hv; exact hb c (by simp [hc])
          · intro v hv; obtain ⟨c, hc, rfl⟩ := List.mem_map.1 hv; exact hb c (by simp at hc; simp [hc])
      have := gen as [a] (by simpa [Tree.leaves] using h)
      rw [List.map_singleton, chainValue_single isOr _ (h a (by simp [Tree.leaves]))] at this
      exact this

/-- **C39 (meaning, exactly).** For booleans and errors, in either unknown mode, the balanced tree and the variadic
call give the absorbing boolean if a term has it, otherwise the first (leftmost) error, otherwise the neutral boolean. -/
theorem C39_value (isOr unk variadic : Bool) (val : α → Value) (first : α) (rest : List (Int × α)) (T : Tree α)
    (hT : balance variadic first rest = some T) (h : ∀ a ∈ first :: rest.map (·.2), BoolOrError (val a)) :
    T.eval isOr unk val = chainValue isOr ((first :: rest.map (·.2)).map val) := by
  have hl : T.leaves = first :: rest.map (·.2) := by
    cases variadic with
    | false =>
      obtain ⟨T', h1, h2, -, -⟩ := C39_structure first rest
      rw [h1] at hT
      cases hT
      exact h2
    | true =>
      cases rest with
      | nil => cases hT; rfl
      | cons p rest => rw [C39_variadic] at hT; cases hT; rfl
  rw [tree_value isOr unk val T (by rw [hl]; exact h), hl]

/-- `true && (1/0) && unset && false` is false; without the last term it is the first error. -/
example (T : Tree Value) (e f : Status)
    (hT : balance false (.bool true) [(1, .error e), (2, .error f), (3, .bool false)] = some T) :
    T.eval false true id = .bool false := by
  rw [C39_value false true false id _ _ T hT (by simp [BoolOrError])]; rfl
example (T : Tree Value) (e f : Status) (hT : balance false (.bool true) [(1, .error e), (2, .error f)] = some T) :
    T.eval false true id = .error e := by
  rw [C39_value false true false id _ _ T hT (by simp [BoolOrError])]; rfl

/-- The restriction to booleans and errors is needed for *which* error is reported: with a non-boolean term,
regrouping changes the message. -/
theorem C39_nonbool_observes :
    ∃ (T : Tree Value), balance false (.bool true) [(1, .bool true), (2, .int 1), (3, .error ⟨.notFound, "x"⟩)] = some T ∧
      T.eval false true id ≠ chainEval false true (.bool true) [.bool true, .int 1, .error ⟨.notFound, "x"⟩] := by
  refine ⟨.node 2 (.node 1 (.leaf (.bool true)) (.leaf (.bool true))) (.node 3 (.leaf (.int 1)) (.leaf (.error ⟨.notFound, "x"⟩))), ?_, ?_⟩
  · simp [balance, balancedTree, takeTerm]
  · show (Value.error ⟨.notFound, "x"⟩) ≠ Value.error (noOverload "_&&_")
    intro hh
    injection hh with hh
    injection hh with hh _
    cases hh

/-! ## Through the planner -/

variable {σ : Type}

/-- The expression a tree denotes: nested binary calls; a variadic call stands for the chain of its arguments. -/
def Tree.toExpr (isOr : Bool) : Tree (Expr σ) → Expr σ
  | .leaf e => e
  | .node _ l r => .logic isOr (l.toExpr isOr) (r.toExpr isOr)
  | .flat _ [] => .const (.bool (!isOr))
  | .flat _ (e :: es) => es.foldl (.logic isOr) e

/-- The value of a logic expression is that of the logic step, short-circuited or not. -/
theorem pden_logic (cfg : Cfg σ) (h : σ) (isOr : Bool) (a b : Expr σ) (ρ : PEnv) :
    (pden cfg h (.logic isOr a b) ρ).v = calcLogic isOr cfg.unknowns (pden cfg h a ρ).v (pden cfg h b ρ).v := by
  rw [pden.eq_def]
  simp only []
  split
  · rename_i y _ hy
    by_cases hh : y = isOr
    · subst hh; rw [if_pos rfl, hy, logic_absorbed_left]
    · rw [if_neg hh, hy]
  · rfl

theorem pden_foldl (cfg : Cfg σ) (h : σ) (isOr : Bool) (ρ : PEnv) (es : List (Expr σ)) : ∀ e,
    (pden cfg h (es.foldl (.logic isOr) e) ρ).v
      = es.foldl (fun v b => calcLogic isOr cfg.unknowns v (pden cfg h b ρ).v) (pden cfg h e ρ).v := by
  induction es with
  | nil => intro e; rfl
  | cons b es ih => intro e; rw [List.foldl_cons, ih, List.foldl_cons, pden_logic]

theorem pden_tree (cfg : Cfg σ) (h : σ) (isOr : Bool) (ρ : PEnv) (T : Tree (Expr σ)) :
    (pden cfg h (T.toExpr isOr) ρ).v = T.eval isOr cfg.unknowns (fun e => (pden cfg h e ρ).v) := by
  induction T with
  | leaf e => rfl
  | node id l r ihl ihr => simp only [Tree.toExpr, Tree.eval]; rw [pden_logic, ihl, ihr]
  | flat id as =>
    cases as with
    | nil => rfl
    | cons a as => exact pden_foldl cfg h isOr ρ as a

/-- `BinaryCondVisitor::PostVisitArg` (`eval/compiler/flat_expr_builder.cc` lines 2170-2211) for a call with any number
of arguments: after each argument but the first an and/or step, to whose end the preceding jump is bound; before
each argument but the first a jump (when short-circuiting). -/
def variadicLoop (cfg : Cfg σ) (Γ : Scope) (ini isOr : Bool) :
    List (Expr σ) → Nat → Nat → List (Instr σ) × List (List (Instr σ)) → List (Instr σ) × List (List (Instr σ))
  | [], _, _, r => r
  | e :: es, n, m, (code, subs) =>
    let re := compile cfg Γ ini n m e
    let jump := if cfg.shortCircuit then [Instr.condJump isOr true (re.1.length + 1)] else []
    variadicLoop cfg Γ ini isOr es (after ini n e) (m + re.2.length) (code ++ (jump ++ (re.1 ++ [.logic isOr])), subs ++ re.2)

/-- The code planned for a variadic call. -/
def compileVariadic (cfg : Cfg σ) (Γ : Scope) (ini isOr : Bool) (n m : Nat) (e : Expr σ) (es : List (Expr σ)) :
    List (Instr σ) × List (List (Instr σ)) :=
  let r := compile cfg Γ ini n m e
  variadicLoop cfg Γ ini isOr es (after ini n e) (m + r.2.length) r

/-- **C39 (variadic code).** A variadic call is planned to exactly the code of the left-to-right chain of binary calls. -/
theorem C39_variadic_code (cfg : Cfg σ) (Γ : Scope) (ini isOr : Bool) (n m : Nat) (e : Expr σ) (es : List (Expr σ)) :
    compileVariadic cfg Γ ini isOr n m e es = compile cfg Γ ini n m (es.foldl (.logic isOr) e) := by
  unfold compileVariadic
  simp only []
  induction es generalizing e with
  | nil => rfl
  | cons b es ih =>
    rw [List.foldl_cons, ← ih (.logic isOr e b)]
    simp only [variadicLoop]
    have h1 : after ini (after ini n e) b = after ini n (.logic isOr e b) := by
      unfold after; cases ini <;> simp; rw [width.eq_def (.logic isOr e b)]; simp only []; omega
    have h2 : compile cfg Γ ini n m (.logic isOr e b)
        = ((compile cfg Γ ini n m e).1 ++ ((if cfg.shortCircuit then [Instr.condJump isOr true
            ((compile cfg Γ ini (after ini n e) (m + (compile cfg Γ ini n m e).2.length) b).1.length + 1)] else []) ++
            ((compile cfg Γ ini (after ini n e) (m + (compile cfg Γ ini n m e).2.length) b).1 ++ [.logic isOr])),
          (compile cfg Γ ini n m e).2 ++ (compile cfg Γ ini (after ini n e) (m + (compile cfg Γ ini n m e).2.length) b).2) := by
      rw [compile.eq_def cfg Γ ini n m (.logic isOr e b)]
      simp only []
      cases cfg.shortCircuit <;> simp
    rw [h2, h1]
    simp only [List.length_append]
    rw [← Nat.add_assoc]

/-- **C39 (planned).** Without effects, the planned programs of the balanced tree, of the variadic call and of the
left-to-right chain stop with the same value when the terms are booleans or errors. -/
theorem C39_planned (cfg : Cfg σ) (h : σ) (isOr variadic : Bool) (first : Expr σ) (rest : List (Int × Expr σ))
    (T : Tree (Expr σ)) (hT : balance variadic first rest = some T) (hmax : cfg.maxIter = 0) (hg : PureGlobal h cfg)
    (ho : ∀ f k, HasOp f k (T.toExpr isOr) → PureOp h k f)
    (ho' : ∀ f k, HasOp f k ((rest.map (·.2)).foldl (.logic isOr) first) → PureOp h k f)
    (hc : NoClash cfg (T.toExpr isOr)) (hc' : NoClash cfg ((rest.map (·.2)).foldl (.logic isOr) first))
    (hb : ∀ e ∈ first :: rest.map (·.2), BoolOrError (pden cfg h e []).v) (r : Final σ) :
    Halts cfg (plan cfg (T.toExpr isOr)) (MS.start h) r ↔
    Halts cfg (plan cfg ((rest.map (·.2)).foldl (.logic isOr) first)) (MS.start h) r := by
  rw [plan_pure hmax hg _ ho hc, plan_pure hmax hg _ ho' hc', pden_tree,
    C39_value isOr cfg.unknowns variadic _ first rest T hT hb]
  have := tree_value isOr cfg.unknowns (fun e => (pden cfg h e []).v) (.flat 0 (first :: rest.map (fun q : Int × Expr σ => q.2))) hb
  rw [pden_foldl]
  simp only [Tree.eval, Tree.leaves] at this
  rw [this]

end Cel.Parser
