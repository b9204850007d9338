import Verif.Syntax.Compose

/-
Chains of `&&` and `||`: terms, balancing, and that the balanced tree has the
same terms.
-/

set_option linter.unusedVariables false
set_option linter.unusedSimpArgs false

namespace Cel.Syntax

theorem leaves_of_ne {o : Op} {e : Ex} (h : callFn e ≠ some (.op o)) : leaves o e = [e] := by
  cases e with
  | call fn args =>
    cases fn with
    | op o' =>
      rw [leaves, if_neg]
      rintro ⟨rfl, _⟩
      exact h rfl
    | name n => rw [leaves]
  | _ => rw [leaves]

mutual
theorem leaves_ne_nil (o : Op) : ∀ e : Ex, leaves o e ≠ []
  | .call (.op o') args => by
    rw [leaves]
    split
    · rename_i h
      have := leavesArgs_length o args
      intro e
      rw [e] at this
      simp at this
      omega
    · simp
  | .const c => by simp [leaves]
  | .ident n => by simp [leaves]
  | .select e f t => by simp [leaves]
  | .call (.name n) args => by simp [leaves]
  | .mcall e f args => by simp [leaves]
  | .list els => by simp [leaves]
  | .struct d n fs => by simp [leaves]
  | .map es => by simp [leaves]
  | .comp v v2 r a i c s res => by simp [leaves]
theorem leavesArgs_length (o : Op) : ∀ es : Exs, es.length ≤ (leavesArgs o es).length
  | .nil => by simp [leavesArgs, Exs.length]
  | .cons e r => by
    have h1 := leaves_ne_nil o e
    have h2 := leavesArgs_length o r
    have h3 : 1 ≤ (leaves o e).length := List.length_pos_iff.2 h1
    simp only [leavesArgs, Exs.length, List.length_append]
    omega
end

mutual
theorem leaves_leaf (o : Op) : ∀ (e : Ex), ∀ z ∈ leaves o e, leaves o z = [z]
  | .call (.op o') args => by
    rw [leaves]
    split
    · exact leavesArgs_leaf o args
    · rename_i h
      intro z hz
      simp only [List.mem_singleton] at hz
      subst hz
      rw [leaves, if_neg h]
  | .const c => by simp [leaves]
  | .ident n => by simp [leaves]
  | .select e f t => by simp [leaves]
  | .call (.name n) args => by simp [leaves]
  | .mcall e f args => by simp [leaves]
  | .list els => by simp [leaves]
  | .struct d n fs => by simp [leaves]
  | .map es => by simp [leaves]
  | .comp v v2 r a i c s res => by simp [leaves]
theorem leavesArgs_leaf (o : Op) : ∀ (es : Exs), ∀ z ∈ leavesArgs o es, leaves o z = [z]
  | .nil => by simp [leavesArgs]
  | .cons e r => by
    intro z hz
    simp only [leavesArgs, List.mem_append] at hz
    rcases hz with hz | hz
    · exact leaves_leaf o e z hz
    · exact leavesArgs_leaf o r z hz
end

theorem leavesArgs_ofList (o : Op) : ∀ (es : List Ex), (∀ z ∈ es, leaves o z = [z]) →
    leavesArgs o (Exs.ofList es) = es
  | [], _ => rfl
  | e :: r, h => by
    rw [Exs.ofList, leavesArgs, h e (by simp), leavesArgs_ofList o r fun z hz => h z (by simp [hz])]
    rfl

theorem length_ofList : ∀ es : List Ex, (Exs.ofList es).length = es.length
  | [] => rfl
  | e :: r => by rw [Exs.ofList, Exs.length, length_ofList r]; rfl

/-- No call with fewer than two arguments inside the balancer's tree. -/
def wide : Parser.Tree Ex → Prop
  | .leaf _ => True
  | .node _ l r => wide l ∧ wide r
  | .flat _ es => 2 ≤ es.length

theorem leaves_tree (o : Op) : ∀ (t : Parser.Tree Ex), wide t → (∀ z ∈ t.leaves, leaves o z = [z]) →
    leaves o (treeEx o t) = t.leaves
  | .leaf a, _, h => h a (by simp [Parser.Tree.leaves])
  | .node _ l r, w, h => by
    have h1 := leaves_tree o l w.1 fun z hz => h z (by simp [Parser.Tree.leaves, hz])
    have h2 := leaves_tree o r w.2 fun z hz => h z (by simp [Parser.Tree.leaves, hz])
    rw [treeEx, Ex.op2, leaves, if_pos ⟨rfl, by simp [Exs.length]⟩, leavesArgs, leavesArgs, leavesArgs,
      h1, h2, List.append_nil, Parser.Tree.leaves]
  | .flat _ es, w, h => by
    rw [treeEx, leaves, if_pos ⟨rfl, by rw [length_ofList]; exact w⟩,
      leavesArgs_ofList o es (by simpa [Parser.Tree.leaves] using h), Parser.Tree.leaves]

theorem wide_balancedTree (ops : List Int) (k : Nat) : ∀ (lo hi : Nat) (ts : List (Option Ex)),
    hi - lo ≤ k → ∀ T ts', Parser.balancedTree ops lo hi ts = some (T, ts') → wide T := by
  induction k using Nat.strongRecOn with
  | _ k ih =>
    intro lo hi ts hk T ts' h
    rw [Parser.balancedTree] at h
    split at h
    · cases h
    · rename_i hlo
      simp only at h
      split at h
      · cases h
      · rename_i l ts1 hl
        split at h
        · cases h
        · rename_i r ts2 hr
          split at h
          · cases h
          · cases h
            refine ⟨?_, ?_⟩
            · split at hl
              · simp only [Option.map_eq_some_iff] at hl
                obtain ⟨p, _, hp⟩ := hl
                cases hp
                trivial
              · exact ih ((lo + hi + 1) / 2 - 1 - lo) (by omega) _ _ _ (Nat.le_refl _) _ _ hl
            · split at hr
              · simp only [Option.map_eq_some_iff] at hr
                obtain ⟨p, _, hp⟩ := hr
                cases hp
                trivial
              · exact ih (hi - ((lo + hi + 1) / 2 + 1)) (by omega) _ _ _ (Nat.le_refl _) _ _ hr

/-- The parser's tree of a chain: it exists, and its terms are those given. -/
theorem logicTree_spec (v : Bool) (o : Op) (l : List Ex) (hl : 2 ≤ l.length)
    (h : ∀ z ∈ l, leaves o z = [z]) :
    ∃ x, logicTree v o l = some x ∧ leaves o x = l ∧ callFn x = some (.op o) := by
  match l, hl with
  | t :: t' :: ts, _ =>
    have hlen : (t :: List.map (·.2) (((t' :: ts).map fun e => ((0 : Int), e)))).length ≠ 1 := by simp
    have hterms : t :: List.map (·.2) (((t' :: ts).map fun e => ((0 : Int), e))) = t :: t' :: ts := by
      simp [Function.comp_def]
    cases v with
    | true =>
      refine ⟨.call (.op o) (Exs.ofList (t :: t' :: ts)), ?_, ?_, rfl⟩
      · simp [logicTree, Parser.balance, treeEx, Function.comp_def]
      · rw [leaves, if_pos ⟨rfl, by rw [length_ofList]; simp⟩, leavesArgs_ofList o _ h]
    | false =>
      obtain ⟨T, hT, hlv, _, hd⟩ := Parser.C39_structure t ((t' :: ts).map fun e => ((0 : Int), e))
      have hw : wide T := by
        rw [Parser.balance] at hT
        simp only [hlen, if_false, Bool.false_eq_true, Option.map_eq_some_iff] at hT
        obtain ⟨p, hp, rfl⟩ := hT
        exact wide_balancedTree _ _ _ _ _ (Nat.le_refl _) _ p.2 hp
      rw [hterms] at hlv
      refine ⟨treeEx o T, ?_, ?_, ?_⟩
      · rw [logicTree, hT]; rfl
      · rw [leaves_tree o T hw (by rw [hlv]; exact h), hlv]
      · cases T with
        | leaf a => simp [Parser.Tree.leaves] at hlv
        | node => rfl
        | flat => rfl

theorem chain_spec (cfg : Cfg) (o : Op) (args : Exs) (h : 2 ≤ args.length) :
    logicTree cfg.variadic o (leavesArgs o args) = some (chain cfg o args) ∧
    leaves o (chain cfg o args) = leavesArgs o args ∧ callFn (chain cfg o args) = some (.op o) := by
  obtain ⟨x, h1, h2, h3⟩ := logicTree_spec cfg.variadic o (leavesArgs o args)
    (Nat.le_trans h (leavesArgs_length o args)) (leavesArgs_leaf o args)
  have e : chain cfg o args = x := by rw [chain, h1]
  rw [e]
  exact ⟨h1, h2, h3⟩

end Cel.Syntax
