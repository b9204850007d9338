import Verif.Builder.Tree
/-!
# The two explicit-stack loops compute what the tree says
-/
set_option linter.unusedSimpArgs false
set_option linter.unusedVariables false

namespace Verif.Builder
section
variable {σ δ : Type}

/-- What flattening leaves of a node whose steps have been moved out. -/
def emptied : Prog σ δ → Prog σ δ
  | .flat _ => .flat []
  | _ => .tree []

/-- The heap after the nodes of `l` have been emptied. -/
def wipe (h : Heap σ δ) (l : List Id) : Heap σ δ :=
  fun i => if i ∈ l then (h i).map (fun n => ⟨emptied n.prog, n.parent⟩) else h i

theorem wipe_not_mem {h : Heap σ δ} {l : List Id} {i : Id} (e : i ∉ l) : wipe h l i = h i := by
  rw [wipe, if_neg e]

theorem wipe_nil (h : Heap σ δ) : wipe h [] = h := by
  funext i; rw [wipe_not_mem]; exact nofun

theorem emptied_emptied (p : Prog σ δ) : emptied (emptied p) = emptied p := by
  cases p <;> rfl

theorem wipe_append (h : Heap σ δ) (l m : List Id) : wipe (wipe h l) m = wipe h (l ++ m) := by
  funext i
  simp only [wipe, List.mem_append]
  by_cases a : i ∈ l <;> by_cases b : i ∈ m <;> simp [a, b]
  all_goals
    cases h i with
    | none => rfl
    | some n => simp [emptied_emptied]

/-- Finitely many iterations of the loop of `Flatten` lead from one state to another. -/
def Runs (s s' : FlatSt σ δ) : Prop := ∃ k, ∀ n, flatLoop (n + k) s = flatLoop n s'

theorem Runs.refl (s : FlatSt σ δ) : Runs s s := ⟨0, fun n => rfl⟩

theorem Runs.trans {a b c : FlatSt σ δ} (x : Runs a b) (y : Runs b c) : Runs a c := by
  obtain ⟨k, hk⟩ := x
  obtain ⟨m, hm⟩ := y
  refine ⟨m + k, fun n => ?_⟩
  rw [← Nat.add_assoc, hk, hm]

theorem Runs.iter {s s' : FlatSt σ δ} {top : Record} {st : List Record}
    (hs : s.stack = top :: st) (e : flatIter s top st = some s') : Runs s s' := by
  refine ⟨1, fun n => ?_⟩
  rw [flatLoop, hs]
  simp only [e]

/-- The iteration for a record whose next element is a step. -/
theorem flatIter_step {h : Heap σ δ} {p : Id} {off : Nat} {st : List Record}
    {out : List (Out σ δ)} {es : List (Elem σ)} {q : Option Id} {s : σ} {r : List (Elem σ)}
    (hp : h p = some ⟨.tree es, q⟩) (hd : es.drop off = .step s :: r) :
    flatIter ⟨h, ⟨p, off⟩ :: st, out⟩ ⟨p, off⟩ st =
      flatIter ⟨h, ⟨p, off + 1⟩ :: st, out ++ [.step s]⟩ ⟨p, off + 1⟩ st := by
  have hr : es.drop (off + 1) = r := by
    have := congrArg (List.drop 1) hd
    simpa [List.drop_drop, Nat.add_comm] using this
  simp only [flatIter, hp, hd, hr, scan]

theorem Runs.step {h : Heap σ δ} {p : Id} {off : Nat} {st : List Record}
    {out : List (Out σ δ)} {es : List (Elem σ)} {q : Option Id} {s : σ} {r : List (Elem σ)}
    {s' : FlatSt σ δ}
    (hp : h p = some ⟨.tree es, q⟩) (hd : es.drop off = .step s :: r)
    (e : Runs ⟨h, ⟨p, off + 1⟩ :: st, out ++ [.step s]⟩ s')
    (hne : s'.stack.length ≤ st.length) :
    Runs ⟨h, ⟨p, off⟩ :: st, out⟩ s' := by
  obtain ⟨k, hk⟩ := e
  refine ⟨k, fun n => ?_⟩
  rw [← hk n]
  rw [flatLoop.eq_def, flatLoop.eq_def (n + k)]
  simp only
  cases n + k with
  | zero => rfl
  | succ m => simp only [flatIter_step hp hd]

mutual
/-- Flattening one subexpression: its steps are appended, its nodes emptied. -/
theorem runs_T {st : List Record} : ∀ (t : T σ δ) (h : Heap σ δ) (out : List (Out σ δ)),
    Rep h t → t.ids.Nodup →
    Runs ⟨h, ⟨t.id, 0⟩ :: st, out⟩ ⟨wipe h t.ids, st, out ++ t.code⟩
  | .flat i l, h, out, hr, _ => by
    rw [Rep] at hr
    obtain ⟨q, e⟩ := progOf_some hr
    refine Runs.iter (top := ⟨i, 0⟩) (st := st) rfl ?_
    simp only [flatIter, e, T.id, T.ids, T.code, Option.some.injEq, FlatSt.mk.injEq, and_true]
    funext j
    by_cases hj : j = i <;> simp [set, wipe, hj, e, emptied]
  | .recur i d k, h, out, hr, _ => by
    rw [Rep] at hr
    obtain ⟨q, e⟩ := progOf_some hr
    refine Runs.iter (top := ⟨i, 0⟩) (st := st) rfl ?_
    simp only [flatIter, e, T.id, T.ids, T.code, Option.some.injEq, FlatSt.mk.injEq, and_true]
    funext j
    by_cases hj : j = i <;> simp [set, wipe, hj, e, emptied]
  | .tree i es, h, out, hr, hn => by
    rw [Rep] at hr
    rw [T.ids, List.nodup_cons] at hn
    rw [T.id, T.ids, T.code]
    have := runs_Es (st := st) i es.shape 0 es h out hr.1 (by rfl) hr.2 hn.1 hn.2
    refine this.trans ?_
    have he : wipe h (es.ids ++ [i]) = wipe h (i :: es.ids) := by
      funext j; simp only [wipe, List.mem_append, List.mem_cons, List.mem_singleton, or_comm]
      simp
    rw [he]; exact Runs.refl _
theorem runs_Es {st : List Record} (p : Id) (all : List (Elem σ)) :
    ∀ (off : Nat) (es : Es σ δ) (h : Heap σ δ) (out : List (Out σ δ)),
    progOf h p = some (.tree all) → all.drop off = es.shape → RepEs h p es →
    p ∉ es.ids → es.ids.Nodup →
    Runs ⟨h, ⟨p, off⟩ :: st, out⟩ ⟨wipe h (es.ids ++ [p]), st, out ++ es.code⟩
  | off, .nil, h, out, hp, hd, _, _, _ => by
    obtain ⟨q, e⟩ := progOf_some hp
    refine Runs.iter (top := ⟨p, off⟩) (st := st) rfl ?_
    rw [Es.shape] at hd
    simp only [flatIter, e, hd, scan, Es.ids, Es.code, List.append_nil, List.nil_append,
      Option.some.injEq, FlatSt.mk.injEq, and_true]
    funext j
    by_cases hj : j = p <;> simp [set, wipe, hj, e, emptied]
  | off, .step s r, h, out, hp, hd, hr, hm, hn => by
    obtain ⟨q, e⟩ := progOf_some hp
    rw [RepEs] at hr
    rw [Es.ids] at hm hn ⊢
    rw [Es.shape] at hd
    have hd' : all.drop (off + 1) = r.shape := by
      have := congrArg (List.drop 1) hd
      simpa [List.drop_drop, Nat.add_comm] using this
    have ih := runs_Es (st := st) p all (off + 1) r h (out ++ [.step s]) hp hd' hr hm hn
    rw [Es.code]
    have := Runs.step e hd ih (by simp)
    rw [List.append_assoc] at this
    exact this
  | off, .sub t r, h, out, hp, hd, hr, hm, hn => by
    obtain ⟨q, e⟩ := progOf_some hp
    rw [RepEs] at hr
    rw [Es.ids] at hm hn ⊢
    rw [List.mem_append, not_or] at hm
    rw [List.nodup_append] at hn
    rw [Es.shape] at hd
    have hd' : all.drop (off + 1) = r.shape := by
      have := congrArg (List.drop 1) hd
      simpa [List.drop_drop, Nat.add_comm] using this
    have h1 : Runs ⟨h, ⟨p, off⟩ :: st, out⟩ ⟨h, ⟨t.id, 0⟩ :: ⟨p, off + 1⟩ :: st, out⟩ := by
      refine Runs.iter (top := ⟨p, off⟩) (st := st) rfl ?_
      simp only [flatIter, e, hd, scan]
    have h2 := runs_T (st := ⟨p, off + 1⟩ :: st) t h out hr.1 hn.1
    have hsame : ∀ j ∈ r.ids, wipe h t.ids j = h j := by
      intro j hj
      exact wipe_not_mem (fun hj' => hn.2.2 j hj' j hj rfl)
    have hp' : progOf (wipe h t.ids) p = some (.tree all) := by
      rw [progOf, wipe_not_mem hm.1]; exact hp
    have h3 := runs_Es (st := st) p all (off + 1) r (wipe h t.ids) (out ++ t.code) hp' hd'
      (RepEs.congr r hsame hr.2.2) hm.2 hn.2.1
    have := h1.trans (h2.trans h3)
    rw [wipe_append, ← List.append_assoc, List.append_assoc out] at this
    rw [Es.code]
    exact this
end

/-- The heap after `Flatten` of a tree. -/
def flattened (h : Heap σ δ) (t : T σ δ) : Heap σ δ :=
  fun i =>
    if i = t.id then (h i).map (fun n => ⟨.flat t.code, n.parent⟩)
    else wipe h t.ids i

/-- `Flatten` terminates, whatever the tree, and leaves its code. -/
theorem flatten_spec {h : Heap σ δ} {t : T σ δ} (hr : Rep h t) (hn : t.ids.Nodup) :
    ∃ N, ∀ n, N ≤ n → flatten n h t.id = some (flattened h t) := by
  obtain ⟨q, e⟩ := progOf_some hr.prog
  have run := runs_T (st := []) t h [] hr hn
  obtain ⟨k, hk⟩ := run
  refine ⟨k, fun n hkn => ?_⟩
  obtain ⟨m, rfl⟩ : ∃ m, n = m + k := ⟨n - k, by omega⟩
  have hend : flatLoop (m + k) ⟨h, [⟨t.id, 0⟩], []⟩ = some ⟨wipe h t.ids, [], t.code⟩ := by
    rw [hk m, flatLoop.eq_def]; simp
  have hw : wipe h t.ids t.id = some ⟨emptied t.prog, q⟩ := by
    rw [wipe, if_pos t.id_mem, e]; rfl
  cases t with
  | flat i l =>
    simp only [T.id, T.prog] at e ⊢
    simp only [flatten, e, Option.some.injEq]
    funext j
    by_cases hj : j = i <;> simp [flattened, T.id, T.code, T.ids, wipe, hj, e]
  | recur i d k' =>
    simp only [T.id, T.prog] at e hw hend ⊢
    simp only [flatten, e, hend, hw, Option.some.injEq]
    funext j
    by_cases hj : j = i <;> simp [flattened, set, T.id, T.code, hj, e]
  | tree i es =>
    simp only [T.id, T.prog] at e hw hend ⊢
    simp only [flatten, e, hend, hw, Option.some.injEq]
    funext j
    by_cases hj : j = i <;> simp [flattened, set, T.id, T.code, hj, e]

theorem flattened_outside {h : Heap σ δ} {t : T σ δ} {i : Id} (hi : i ∉ t.ids) :
    flattened h t i = h i := by
  have hne : i ≠ t.id := fun e => hi (e ▸ t.id_mem)
  rw [flattened, if_neg hne, wipe_not_mem hi]

theorem flattened_parent {h : Heap σ δ} {t : T σ δ} (i : Id) :
    parentOf (flattened h t) i = parentOf h i := by
  rw [parentOf, parentOf, flattened]
  split
  · cases h i <;> rfl
  · simp only [wipe]; split
    · cases h i <;> rfl
    · rfl

theorem flattened_self {h : Heap σ δ} {t : T σ δ} (hr : Rep h t) :
    progOf (flattened h t) t.id = some (.flat t.code) := by
  obtain ⟨q, e⟩ := progOf_some hr.prog
  rw [progOf, flattened, if_pos rfl, e]; rfl

mutual
/-- What is left of the descendants of a flattened node: one empty tree for each. -/
def T.husks : T σ δ → List (T σ δ)
  | .tree i es => .tree i .nil :: es.husks
  | .flat i _ => [.flat i []]
  | .recur i _ _ => [.tree i .nil]
def Es.husks : Es σ δ → List (T σ δ)
  | .nil => []
  | .step _ r => r.husks
  | .sub t r => t.husks ++ r.husks
end

mutual
theorem T.husks_ids : ∀ t : T σ δ, t.husks.flatMap T.ids = t.ids
  | .tree i es => by
    simp only [T.husks, List.flatMap_cons, T.ids, Es.ids, Es.husks_ids es]; rfl
  | .flat i l => by simp [T.husks, T.ids]
  | .recur i d k => by simp [T.husks, T.ids, Es.ids]
theorem Es.husks_ids : ∀ es : Es σ δ, es.husks.flatMap T.ids = es.ids
  | .nil => by simp [Es.husks, Es.ids]
  | .step s r => by simp only [Es.husks, Es.ids, Es.husks_ids r]
  | .sub t r => by
    simp only [Es.husks, Es.ids, List.flatMap_append, T.husks_ids t, Es.husks_ids r]
end

mutual
theorem T.husks_rep {h h' : Heap σ δ} : ∀ t : T σ δ, Rep h t →
    (∀ i ∈ t.ids, h' i = wipe h t.ids i) → ∀ u ∈ t.husks, Rep h' u
  | .tree i es, hr, he => by
    rw [Rep] at hr
    obtain ⟨q, e⟩ := progOf_some hr.1
    intro u hu
    rw [T.husks, List.mem_cons] at hu
    rcases hu with rfl | hu
    · rw [Rep, RepEs, progOf, he i (by simp [T.ids]), wipe, if_pos (by simp [T.ids]), e]
      exact ⟨rfl, trivial⟩
    · refine Es.husks_rep es hr.2 (fun j hj => ?_) u hu
      rw [he j (by simp [T.ids, hj]), wipe, wipe, if_pos (by simp [T.ids, hj]), if_pos hj]
  | .flat i l, hr, he => by
    rw [Rep] at hr
    obtain ⟨q, e⟩ := progOf_some hr
    intro u hu
    rw [T.husks, List.mem_singleton] at hu; subst hu
    rw [Rep, progOf, he i (by simp [T.ids]), wipe, if_pos (by simp [T.ids]), e]; rfl
  | .recur i d k, hr, he => by
    rw [Rep] at hr
    obtain ⟨q, e⟩ := progOf_some hr
    intro u hu
    rw [T.husks, List.mem_singleton] at hu; subst hu
    rw [Rep, RepEs, progOf, he i (by simp [T.ids]), wipe, if_pos (by simp [T.ids]), e]
    exact ⟨rfl, trivial⟩
theorem Es.husks_rep {h h' : Heap σ δ} {p : Id} : ∀ es : Es σ δ, RepEs h p es →
    (∀ i ∈ es.ids, h' i = wipe h es.ids i) → ∀ u ∈ es.husks, Rep h' u
  | .nil, _, _ => by intro u hu; rw [Es.husks] at hu; exact nomatch hu
  | .step s r, hr, he => by
    rw [RepEs] at hr; rw [Es.husks]; rw [Es.ids] at he
    exact Es.husks_rep r hr he
  | .sub t r, hr, he => by
    rw [RepEs] at hr
    intro u hu
    rw [Es.husks, List.mem_append] at hu
    rcases hu with hu | hu
    · refine T.husks_rep t hr.1 (fun j hj => ?_) u hu
      rw [he j (by simp [Es.ids, hj]), wipe, wipe, if_pos (by simp [Es.ids, hj]), if_pos hj]
    · refine Es.husks_rep r hr.2.2 (fun j hj => ?_) u hu
      rw [he j (by simp [Es.ids, hj]), wipe, wipe, if_pos (by simp [Es.ids, hj]), if_pos hj]
end

/-- The descendants that flattening a node leaves behind. -/
def T.debris : T σ δ → List (T σ δ)
  | .tree _ es => es.husks
  | _ => []

theorem T.debris_ids (t : T σ δ) : t.ids = t.id :: t.debris.flatMap T.ids := by
  cases t with
  | tree i es => simp [T.ids, T.id, T.debris, Es.husks_ids]
  | flat i l => simp [T.ids, T.id, T.debris]
  | recur i d k => simp [T.ids, T.id, T.debris]

theorem T.debris_rep {h : Heap σ δ} {t : T σ δ} (hr : Rep h t) (hn : t.ids.Nodup) :
    ∀ u ∈ t.debris, Rep (flattened h t) u := by
  cases t with
  | tree i es =>
    rw [Rep] at hr
    rw [T.ids, List.nodup_cons] at hn
    refine Es.husks_rep es hr.2 (fun j hj => ?_)
    have hne : j ≠ i := fun e => hn.1 (e ▸ hj)
    simp only [flattened, T.id, if_neg hne, wipe, T.ids, List.mem_cons, hj, or_true, if_true]
  | flat i l => exact nofun
  | recur i d k => exact nofun

/-! ## `ComputeSize` -/

/-- Identities of the direct children. -/
def Es.children : Es σ δ → List Id
  | .nil => []
  | .step _ r => r.children
  | .sub t r => t.id :: r.children

/-- Number of direct steps. -/
def Es.steps : Es σ δ → Nat
  | .nil => 0
  | .step _ r => r.steps + 1
  | .sub _ r => r.steps

theorem sizeScan_shape : ∀ (es : Es σ δ) (st : List Id) (sz : Nat),
    sizeScan es.shape st sz = (es.children.reverse ++ st, sz + es.steps)
  | .nil, st, sz => by simp [Es.shape, sizeScan, Es.children, Es.steps]
  | .step s r, st, sz => by
    rw [Es.shape, sizeScan, sizeScan_shape r, Es.children, Es.steps]
    simp; omega
  | .sub t r, st, sz => by
    rw [Es.shape, sizeScan, sizeScan_shape r, Es.children, Es.steps]
    simp

/-- Sum of the code lengths of the children. -/
def Es.rest : Es σ δ → Nat
  | .nil => 0
  | .step _ r => r.rest
  | .sub t r => t.code.length + r.rest

theorem Es.code_length : ∀ es : Es σ δ, es.code.length = es.steps + es.rest
  | .nil => rfl
  | .step s r => by
    rw [Es.code, List.length_cons, Es.code_length r, Es.steps, Es.rest]; omega
  | .sub t r => by
    rw [Es.code, List.length_append, Es.code_length r, Es.steps, Es.rest]; omega

mutual
theorem size_T {h : Heap σ δ} : ∀ (t : T σ δ), Rep h t → ∃ k, ∀ n st sz,
    sizeLoop h (n + k) (t.id :: st) sz = sizeLoop h n st (sz + t.code.length)
  | .flat i l, hr => by
    rw [Rep] at hr
    obtain ⟨q, e⟩ := progOf_some hr
    exact ⟨1, fun n st sz => by simp only [sizeLoop, T.id, e, T.code]⟩
  | .recur i d k, hr => by
    rw [Rep] at hr
    obtain ⟨q, e⟩ := progOf_some hr
    exact ⟨1, fun n st sz => by simp [sizeLoop, T.id, e, T.code]⟩
  | .tree i es, hr => by
    rw [Rep] at hr
    obtain ⟨q, e⟩ := progOf_some hr.1
    obtain ⟨k, hk⟩ := size_Es es hr.2
    refine ⟨k + 1, fun n st sz => ?_⟩
    rw [← Nat.add_assoc]
    simp only [sizeLoop, T.id, e, T.code, sizeScan_shape]
    rw [hk, Es.code_length, Nat.add_assoc]
theorem size_Es {h : Heap σ δ} {p : Id} : ∀ (es : Es σ δ), RepEs h p es → ∃ k, ∀ n st sz,
    sizeLoop h (n + k) (es.children.reverse ++ st) sz = sizeLoop h n st (sz + es.rest)
  | .nil, _ => ⟨0, fun n st sz => by simp [Es.children, Es.rest]⟩
  | .step s r, hr => by
    rw [RepEs] at hr
    rw [Es.children, Es.rest]
    exact size_Es r hr
  | .sub t r, hr => by
    rw [RepEs] at hr
    obtain ⟨k, hk⟩ := size_Es r hr.2.2
    obtain ⟨m, hm⟩ := size_T t hr.1
    refine ⟨m + k, fun n st sz => ?_⟩
    rw [Es.children, Es.rest, List.reverse_cons, List.append_assoc, ← Nat.add_assoc, hk]
    rw [List.singleton_append, hm]
    congr 1; omega
end

theorem sizeLoop_nil (h : Heap σ δ) (n sz : Nat) : sizeLoop h n [] sz = some sz := by
  cases n <;> rfl

/-- `ComputeSize` terminates and counts the steps flattening will produce. -/
theorem computeSize_spec {h : Heap σ δ} {t : T σ δ} (hr : Rep h t) :
    ∃ N, ∀ n, N ≤ n → computeSize n h t.id = some t.code.length := by
  obtain ⟨k, hk⟩ := size_T t hr
  refine ⟨k, fun n hkn => ?_⟩
  obtain ⟨m, rfl⟩ : ∃ m, n = m + k := ⟨n - k, by omega⟩
  have hz := hk m [] 0
  rw [sizeLoop_nil] at hz
  obtain ⟨q, e⟩ := progOf_some hr.prog
  cases t with
  | flat i l => simp only [T.id, T.prog] at e; simp only [computeSize, T.id, e, T.code]
  | recur i d k => simp only [T.id, T.prog] at e; simp [computeSize, T.id, e, T.code]
  | tree i es =>
    simp only [T.id, T.prog] at e hz
    simp only [computeSize, T.id, e]
    rw [hz]; simp

end
end Verif.Builder
