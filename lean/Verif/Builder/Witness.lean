import Verif.Builder.Theorem
/-!
# Concrete builders: the hypotheses are met, and what the interface does not promise
-/
set_option linter.unusedSimpArgs false

namespace Verif.Builder

/-- A script in the shape of a ternary `c ? a : b` planned with jumps: node 0 holds
the children 1 (condition), 2 and 4 (branches) and its own steps 10 and 11; node 2
is a transparent wrapper of node 3, which is replaced by a recursive program. -/
def demo : Plan Nat Nat :=
  .node 0 (.sub (.node 1 (.step 100 .nil) none)
    (.step 10
      (.sub (.node 2 (.sub (.node 3 (.step 300 (.step 301 .nil)) (some (7, 1))) .nil) none)
        (.step 11
          (.sub (.node 4 (.step 400 (.step 401 .nil)) none) .nil))))) none

theorem demo_entered : demo.entered.Nodup := by decide

/-- The recursive program of node 3 is attributed to node 2. -/
theorem demo_steps : demo.steps =
    [.step 100, .step 10, .wrapped 7 2, .step 11, .step 400, .step 401] := by decide

/-- The builder after the script. -/
theorem demo_runs : ∃ b, demo.run Builder.init = some b ∧ Reach b ∧ b.root = some 0 ∧
    b.current = none ∧ Program b.map 0 demo.steps :=
  plan_in_order demo demo_entered

/-! A builder state built call by call: the script above without node 3 and with the
root still open. -/

def H0 : Heap Nat Nat := fun _ => none
def H1 : Heap Nat Nat := set H0 0 ⟨.tree [], none⟩
theorem B1_reach : Reach (σ := Nat) (δ := Nat) ⟨H1, some 0, some 0, []⟩ := Reach.enter (e := 0) (f := true) Reach.init rfl
def H2 : Heap Nat Nat := set (set H1 1 ⟨.tree [], some 0⟩) 0 ⟨.tree [.sub 1], none⟩
theorem B2_reach : Reach (σ := Nat) (δ := Nat) ⟨H2, some 0, some 1, []⟩ := Reach.enter (e := 1) (f := true) B1_reach rfl
def H3 : Heap Nat Nat := set H2 1 ⟨.tree [.step 100], some 0⟩
theorem B3_reach : Reach (σ := Nat) (δ := Nat) ⟨H3, some 0, some 1, []⟩ := Reach.addStep (s := 100) (f := true) B2_reach rfl
def H4 : Heap Nat Nat := H3
theorem B4_reach : Reach (σ := Nat) (δ := Nat) ⟨H4, some 0, some 0, []⟩ := Reach.exit (e := 1) B3_reach rfl
def H5 : Heap Nat Nat := set H4 0 ⟨.tree [.sub 1, .step 10], none⟩
theorem B5_reach : Reach (σ := Nat) (δ := Nat) ⟨H5, some 0, some 0, []⟩ := Reach.addStep (s := 10) (f := true) B4_reach rfl
def H6 : Heap Nat Nat := set (set H5 2 ⟨.tree [], some 0⟩) 0 ⟨.tree [.sub 1, .step 10, .sub 2], none⟩
theorem B6_reach : Reach (σ := Nat) (δ := Nat) ⟨H6, some 0, some 2, []⟩ := Reach.enter (e := 2) (f := true) B5_reach rfl
def H7 : Heap Nat Nat := set H6 2 ⟨.recur 7 1, some 0⟩
theorem B7_reach : Reach (σ := Nat) (δ := Nat) ⟨H7, some 0, some 2, []⟩ := Reach.replaceRecursive (e := 2) (d := 7) (k := 1) B6_reach
def H8 : Heap Nat Nat := H7
theorem B8_reach : Reach (σ := Nat) (δ := Nat) ⟨H8, some 0, some 0, []⟩ := Reach.exit (e := 2) B7_reach rfl
def H9 : Heap Nat Nat := set H8 0 ⟨.tree [.sub 1, .step 10, .sub 2, .step 11], none⟩
theorem B9_reach : Reach (σ := Nat) (δ := Nat) ⟨H9, some 0, some 0, []⟩ := Reach.addStep (s := 11) (f := true) B8_reach rfl
def H10 : Heap Nat Nat := set (set H9 4 ⟨.tree [], some 0⟩) 0 ⟨.tree [.sub 1, .step 10, .sub 2, .step 11, .sub 4], none⟩
theorem B10_reach : Reach (σ := Nat) (δ := Nat) ⟨H10, some 0, some 4, []⟩ := Reach.enter (e := 4) (f := true) B9_reach rfl
def H11 : Heap Nat Nat := set H10 4 ⟨.tree [.step 400], some 0⟩
theorem B11_reach : Reach (σ := Nat) (δ := Nat) ⟨H11, some 0, some 4, []⟩ := Reach.addStep (s := 400) (f := true) B10_reach rfl
def H12 : Heap Nat Nat := set H11 4 ⟨.tree [.step 400, .step 401], some 0⟩
theorem B12_reach : Reach (σ := Nat) (δ := Nat) ⟨H12, some 0, some 4, []⟩ := Reach.addStep (s := 401) (f := true) B11_reach rfl
def H13 : Heap Nat Nat := H12
theorem B13_reach : Reach (σ := Nat) (δ := Nat) ⟨H13, some 0, some 0, []⟩ := Reach.exit (e := 4) B12_reach rfl

/-- The state after these calls. -/
def demoB : Builder Nat Nat := ⟨H13, some 0, some 0, []⟩

theorem demoB_reach : Reach demoB := B13_reach

theorem demoB_map0 : demoB.map 0 =
    some ⟨.tree [.sub 1, .step 10, .sub 2, .step 11, .sub 4], none⟩ := rfl

theorem demoB_map4 : demoB.map 4 = some ⟨.tree [.step 400, .step 401], some 0⟩ := rfl

/-- The jump of step 10 (element 1) to the else branch (element 4) skips the then
branch and step 11. -/
theorem demo_offset : calculateOffset 20 demoB.map 0 1 4 = some 2 := rfl

/-- A backward jump. -/
theorem demo_offset_back : calculateOffset 20 demoB.map 0 3 0 = some (-4) := rfl

/-- Jump offsets are plain numbers: a subplan replaced after the jump across it was
computed makes the jump land elsewhere, and nothing in the interface notices. -/
theorem offset_is_stale_after_replacement :
    ∃ (b b' : Builder Nat Nat), Reach b ∧ Reach b' ∧
      calculateOffset 20 b.map 0 1 4 = some 2 ∧
      replaceSubplan 20 b 2 [.step 1, .step 2, .step 3] = some (true, b') ∧
      calculateOffset 20 b'.map 0 1 4 = some 4 := by
  refine ⟨demoB, ((replaceSubplan 20 demoB 2 [.step 1, .step 2, .step 3]).getD (false, .init)).2,
    demoB_reach, ?_, rfl, rfl, rfl⟩
  · refine Reach.replaceSubplan (n := 20) (e := 2) (path := [.step 1, .step 2, .step 3])
      (f := true) demoB_reach ?_
    rfl

/-- Extracting a child of a node that holds a recursive program is undefined: only
flattened parents are excluded. -/
theorem extract_from_recursive_parent_faults :
    ∃ b : Builder Nat Nat, Reach b ∧ (∃ e, (b.map e).isSome = true ∧
      extractSubexpression b e = none) := by
  refine ⟨(replaceRecursive demoB 0 9 1).2, Reach.replaceRecursive demoB_reach, 4, rfl, rfl⟩

/-- Asking for the recursive programs of children that are not all recursive gives
nothing, but destroys the programs met before the first that is not. -/
theorem failed_dependency_extraction_loses_steps :
    ∃ (b : Builder Nat Nat) (i : Id) (c c' : List (Out Nat Nat)), Reach b ∧
      Program b.map i c ∧ (extractRecursiveDependencies b i).1 = [] ∧
      Program (extractRecursiveDependencies b i).2.map i c' ∧ c'.length < c.length := by
  have r1 : Reach (σ := Nat) (δ := Nat) ⟨set (fun _ => none) 0 ⟨.tree [], none⟩, some 0, some 0, []⟩ :=
    Reach.enter (e := 0) (f := true) Reach.init rfl
  have r2 : Reach (σ := Nat) (δ := Nat) ⟨set (set (set (fun _ => none) 0 ⟨.tree [], none⟩) 1
      ⟨.tree [], some 0⟩) 0 ⟨.tree [.sub 1], none⟩, some 0, some 1, []⟩ :=
    Reach.enter (e := 1) (f := true) r1 rfl
  have r3 : Reach (σ := Nat) (δ := Nat) ⟨set (set (set (set (fun _ => none) 0 ⟨.tree [], none⟩) 1
      ⟨.tree [], some 0⟩) 0 ⟨.tree [.sub 1], none⟩) 1 ⟨.recur 5 1, some 0⟩, some 0, some 1, []⟩ :=
    Reach.replaceRecursive (e := 1) (d := 5) (k := 1) r2
  have r4 := Reach.addSubplanStep (e := 0) (s := 8) (f := true) (b' := ⟨set (set (set (set (set
      (fun _ => none) 0 ⟨.tree [], none⟩) 1 ⟨.tree [], some 0⟩) 0 ⟨.tree [.sub 1], none⟩) 1
      ⟨.recur 5 1, some 0⟩) 0 ⟨.tree [.sub 1, .step 8], none⟩, some 0, some 1, []⟩) r3 rfl
  have r5 := Reach.extractRecursiveDependencies (e := 0) r4
  refine ⟨_, 0, [.wrapped 5 1] ++ [.step 8], [] ++ [.step 8], r4, ?_, rfl, ?_, by decide⟩
  · rw [program_is_code r4 (es := [.sub 1, .step 8]) (q := none) rfl]
    refine .sub ?_ (.step .nil)
    exact program_of_rep (t := .recur 1 5 1) rfl (by simp [T.ids])
  · rw [program_is_code r5 (es := [.sub 1, .step 8]) (q := none) rfl]
    refine .sub ?_ (.step .nil)
    rw [program_is_code r5 (es := []) (q := some 0) rfl]
    exact .nil

/-- A step offered to a node that holds a recursive program is dropped although
`AddSubplanStep` reports success. -/
theorem addSubplanStep_drops_step :
    ∃ (b : Builder Nat Nat) (e : Id), Reach b ∧ addSubplanStep b e 99 = some (true, b) := by
  refine ⟨demoB, 2, demoB_reach, ?_⟩
  obtain ⟨c, b', _, h1, _, h2, _⟩ :=
    addSubplanStep_appends demoB_reach (e := 2) rfl 99
  have : b' = demoB := h2 ⟨7, 1, some 0, rfl⟩
  rw [h1, this]

/-- Replacing the subplan of node 4 in the demonstration: the hypotheses of
`replaceSubplan_exact` are met at a node that is part of the program. -/
theorem demo_replace : ∃ b', (∃ N, ∀ n, N ≤ n → replaceSubplan n demoB 4 [.step 1] = some (true, b')) ∧
    Program b'.map 0 [.step 100, .step 10, .wrapped 7 2, .step 11, .step 1] := by
  obtain ⟨c, b', hp, hN, hr, _⟩ := replaceSubplan_exact demoB_reach (e := 4) rfl [.step 1]
  refine ⟨b', hN, ?_⟩
  have p : ∀ i es q, demoB.map i = some ⟨.tree es, q⟩ → ∀ x, Codes demoB.map es x →
      Program demoB.map i x := fun i es q h x hx => (program_is_code demoB_reach h x).2 hx
  have p1 : Program demoB.map 1 [.step 100] :=
    p 1 [.step 100] (some 0) rfl _ (.step .nil)
  have p2 : Program demoB.map 2 [.wrapped 7 2] :=
    program_of_rep (t := .recur 2 7 1) rfl (by simp [T.ids])
  have pre : Codes demoB.map [.sub 1, .step 10, .sub 2, .step 11]
      ([.step 100] ++ .step 10 :: ([.wrapped 7 2] ++ .step 11 :: [])) :=
    .sub p1 (.step (.sub p2 (.step .nil)))
  have sg : Seg demoB.map 0 4 (([.step 100] ++ .step 10 :: ([.wrapped 7 2] ++ .step 11 :: [])) ++ [])
      ([] ++ []) :=
    .child (l := [.sub 1, .step 10, .sub 2, .step 11]) (m := []) demoB_map0 pre .nil .here
  have := (hr 0 (Or.inl rfl)).1 _ _ sg
  exact this.2

end Verif.Builder
