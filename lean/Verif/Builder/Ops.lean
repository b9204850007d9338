import Verif.Builder.Effect
/-!
# Every operation keeps the forest
-/
set_option linter.unusedSimpArgs false
set_option linter.unusedVariables false

namespace Verif.Builder
section
variable {σ δ : Type}

theorem flatLoop_mono : ∀ (n k : Nat) (s x : FlatSt σ δ), flatLoop n s = some x →
    flatLoop (n + k) s = some x
  | n, k, s, x, h => by
    rw [flatLoop.eq_def] at h ⊢
    cases hs : s.stack with
    | nil => simp only [hs] at h ⊢; exact h
    | cons top st =>
      simp only [hs] at h ⊢
      cases n with
      | zero => exact nomatch h
      | succ n =>
        rw [Nat.add_right_comm]
        simp only at h ⊢
        cases hi : flatIter s top st with
        | none => rw [hi] at h; exact nomatch h
        | some s' =>
          rw [hi] at h
          exact flatLoop_mono n k s' x h

theorem flatten_mono {n k : Nat} {h x : Heap σ δ} {i : Id} (e : flatten n h i = some x) :
    flatten (n + k) h i = some x := by
  rw [flatten] at e ⊢
  cases hi : h i with
  | none => rw [hi] at e; exact nomatch e
  | some nd =>
    rw [hi] at e
    simp only at e ⊢
    cases hp : nd.prog with
    | flat l => rw [hp] at e; exact e
    | recur d j =>
      rw [hp] at e
      simp only at e ⊢
      cases hl : flatLoop n ⟨h, [⟨i, 0⟩], []⟩ with
      | none => rw [hl] at e; exact nomatch e
      | some s => rw [hl] at e; rw [flatLoop_mono n k _ _ hl]; exact e
    | tree es =>
      rw [hp] at e
      simp only at e ⊢
      cases hl : flatLoop n ⟨h, [⟨i, 0⟩], []⟩ with
      | none => rw [hl] at e; exact nomatch e
      | some s => rw [hl] at e; rw [flatLoop_mono n k _ _ hl]; exact e

/-- With any fuel, `Flatten` either runs out or gives the one result. -/
theorem flatten_eq {h x : Heap σ δ} {t : T σ δ} {n : Nat} (hr : Rep h t) (hn : t.ids.Nodup)
    (e : flatten n h t.id = some x) : x = flattened h t := by
  obtain ⟨N, hN⟩ := flatten_spec hr hn
  have h1 := flatten_mono (k := N) e
  rw [hN (n + N) (by omega)] at h1
  simp only [Option.some.injEq] at h1
  exact h1.symm

theorem flattenSub_eq {h x : Heap σ δ} {t : T σ δ} {n : Nat} {l : List (Out σ δ)} (hr : Rep h t)
    (hn : t.ids.Nodup) (e : flattenSubexpression n h t.id = some (l, x)) :
    l = t.code ∧ x = drained h t := by
  obtain ⟨N, hN⟩ := flattenSub_spec hr hn
  rw [flattenSubexpression] at e
  cases hf : flatten n h t.id with
  | none => rw [hf] at e; exact nomatch e
  | some y =>
    have h1 := hN (n + N) (by omega)
    rw [flattenSubexpression, flatten_mono (k := N) hf] at h1
    rw [hf] at e
    simp only at e h1
    rw [e] at h1
    simp only [Option.some.injEq, Prod.mk.injEq] at h1
    exact h1

theorem Rep.parent {h : Heap σ δ} {s : T σ δ} (hr : Rep h s) : ∃ q, h s.id = some ⟨s.prog, q⟩ ∧
    parentOf h s.id = some q := by
  obtain ⟨q, e⟩ := progOf_some hr.prog
  exact ⟨q, e, by rw [parentOf, e]; rfl⟩

theorem flattened_at {h : Heap σ δ} {s : T σ δ} {q : Option Id} (e : h s.id = some ⟨s.prog, q⟩) :
    flattened h s s.id = some ⟨.flat s.code, q⟩ := by
  rw [flattened, if_pos rfl, e]; rfl

theorem drained_eq {h : Heap σ δ} {s : T σ δ} {q : Option Id} (e : h s.id = some ⟨s.prog, q⟩) :
    drained h s = set (flattened h s) s.id ⟨(T.tree s.id .nil : T σ δ).prog, q⟩ := by
  funext j
  by_cases hj : j = s.id
  · subst hj; simp [drained, set, e, T.prog, Es.shape]
  · simp [drained, set, hj]

theorem loc_drain {h : Heap σ δ} {s : T σ δ} (hr : Rep h s) (hn : s.ids.Nodup) :
    Loc h (drained h s) s (.tree s.id .nil) s.debris [] := by
  obtain ⟨q, e, hq⟩ := hr.parent
  rw [drained_eq e]
  exact loc_leaf hr hn (by rw [flattened_parent]; exact hq) rfl rfl
    (fun h' hp => by rw [Rep, RepEs]; exact ⟨hp, trivial⟩)

/-! ### One lemma for each operation -/

theorem getSubplan_op {b : Builder σ δ} {F : List (T σ δ)} (I : Inv b F) {e : Id}
    (he : (b.map e).isSome = true) :
    ∃ c b' F', Program b.map e c ∧ Inv b' F' ∧ Replaces b b' e c c ∧
      (b'.root = b.root ∧ b'.extracted = b.extracted ∧ b'.current = b.current) ∧
      (∃ N, ∀ n, N ≤ n → getSubplan n b e = some (c, b')) ∧
      (∀ n x, getSubplan n b e = some x → x = (c, b')) := by
  obtain ⟨L, C, s, R, rfl, rfl⟩ := I.focus he
  obtain ⟨hr, hn⟩ := I.focus_rep
  obtain ⟨q, e, hq⟩ := hr.parent
  have I' := I.update (loc_flatten hr hn) List.nodup_nil (by simp)
  refine ⟨s.code, _, _, program_of_rep hr hn, I', replaces_of_update (s' := .flat s.id s.code) I I' rfl, ⟨rfl, rfl, rfl⟩, ?_, ?_⟩
  · obtain ⟨N, hN⟩ := flatten_spec hr hn
    exact ⟨N, fun n hle => by simp only [getSubplan, e, hN n hle, flattened_at e]⟩
  · intro n x hx
    simp only [getSubplan, e] at hx
    cases hf : flatten n b.map s.id with
    | none => rw [hf] at hx; exact nomatch hx
    | some y =>
      have := flatten_eq hr hn hf
      subst this
      simp only [hf, flattened_at e, Option.some.injEq] at hx
      exact hx.symm

theorem extractSubplan_op {b : Builder σ δ} {F : List (T σ δ)} (I : Inv b F) {e : Id}
    (he : (b.map e).isSome = true) :
    ∃ c b' F', Program b.map e c ∧ Inv b' F' ∧ Replaces b b' e c [] ∧
      (b'.root = b.root ∧ b'.extracted = b.extracted ∧ b'.current = b.current) ∧
      (∃ N, ∀ n, N ≤ n → extractSubplan n b e = some (some c, b')) ∧
      (∀ n x, extractSubplan n b e = some x → x = (some c, b')) := by
  obtain ⟨L, C, s, R, rfl, rfl⟩ := I.focus he
  obtain ⟨hr, hn⟩ := I.focus_rep
  obtain ⟨q, e, hq⟩ := hr.parent
  have I' := I.update (loc_drain hr hn) List.nodup_nil (by simp)
  refine ⟨s.code, _, _, program_of_rep hr hn, I', replaces_of_update I I' rfl, ⟨rfl, rfl, rfl⟩, ?_, ?_⟩
  · obtain ⟨N, hN⟩ := flattenSub_spec hr hn
    exact ⟨N, fun n hle => by simp only [extractSubplan, e, hN n hle]⟩
  · intro n x hx
    simp only [extractSubplan, e] at hx
    cases hf : flattenSubexpression n b.map s.id with
    | none => rw [hf] at hx; exact nomatch hx
    | some y =>
      obtain ⟨l, y⟩ := y
      obtain ⟨h1, h2⟩ := flattenSub_eq hr hn hf
      subst h1; subst h2
      simp only [hf, Option.some.injEq] at hx
      exact hx.symm

theorem replaceSubplan_op {b : Builder σ δ} {F : List (T σ δ)} (I : Inv b F) {e : Id}
    (he : (b.map e).isSome = true) (path : List (Out σ δ)) :
    ∃ c b' F', Program b.map e c ∧ Inv b' F' ∧ Replaces b b' e c path ∧
      (b'.root = b.root ∧ b'.extracted = b.extracted ∧ b'.current = b.current) ∧
      (∃ N, ∀ n, N ≤ n → replaceSubplan n b e path = some (true, b')) ∧
      (∀ n x, replaceSubplan n b e path = some x → x = (true, b')) := by
  obtain ⟨L, C, s, R, rfl, rfl⟩ := I.focus he
  obtain ⟨hr, hn⟩ := I.focus_rep
  obtain ⟨q, e, hq⟩ := hr.parent
  have I' := I.update (loc_leaf (s' := .flat s.id path) hr hn
    (by rw [flattened_parent]; exact hq) rfl rfl (fun h' hp => by rw [Rep]; exact hp))
    List.nodup_nil (by simp)
  refine ⟨s.code, _, _, program_of_rep hr hn, I', replaces_of_update I I' rfl, ⟨rfl, rfl, rfl⟩, ?_, ?_⟩
  · obtain ⟨N, hN⟩ := flatten_spec hr hn
    exact ⟨N, fun n hle => by simp only [replaceSubplan, e, hN n hle, flattened_at e, T.prog]⟩
  · intro n x hx
    simp only [replaceSubplan, e] at hx
    cases hf : flatten n b.map s.id with
    | none => rw [hf] at hx; exact nomatch hx
    | some y =>
      have := flatten_eq hr hn hf
      subst this
      simp only [hf, flattened_at e, Option.some.injEq] at hx
      exact hx.symm

theorem replaceRecursive_op {b : Builder σ δ} {F : List (T σ δ)} (I : Inv b F) {e : Id}
    (he : (b.map e).isSome = true) (d : δ) (k : Int) :
    ∃ c b' F', Program b.map e c ∧ Inv b' F' ∧ Replaces b b' e c [.wrapped d e] ∧
      (b'.root = b.root ∧ b'.extracted = b.extracted ∧ b'.current = b.current) ∧
      replaceRecursive b e d k = (true, b') := by
  obtain ⟨L, C, s, R, rfl, rfl⟩ := I.focus he
  obtain ⟨hr, hn⟩ := I.focus_rep
  obtain ⟨q, e, hq⟩ := hr.parent
  have I' := I.update (loc_recur hr hn hq d k) List.nodup_nil (by simp)
  refine ⟨s.code, _, _, program_of_rep hr hn, I', replaces_of_update I I' rfl, ⟨rfl, rfl, rfl⟩, ?_⟩
  simp only [replaceRecursive, e]

/-- A node that does not hold a recursive program accepts a step at its end. -/
theorem subAddStep_op {b : Builder σ δ} {F : List (T σ δ)} (I : Inv b F) {e : Id}
    (he : (b.map e).isSome = true) (st : σ) :
    ∃ c h' F' f, Program b.map e c ∧ subAddStep b.map e st = some (f, h') ∧
      Inv { b with map := h' } F' ∧
      (f = true → Replaces b { b with map := h' } e c (c ++ [.step st])) ∧
      (f = false ↔ ∃ d k q, b.map e = some ⟨.recur d k, q⟩) ∧
      (f = false → h' = b.map) := by
  obtain ⟨L, C, s, R, rfl, rfl⟩ := I.focus he
  obtain ⟨hr, hn⟩ := I.focus_rep
  obtain ⟨q, e, hq⟩ := hr.parent
  cases s with
  | recur i d k =>
    simp only [T.id, T.prog] at e ⊢
    refine ⟨[.wrapped d i], b.map, _, false, program_of_rep hr hn, ?_, I, nofun, ?_, fun _ => rfl⟩
    · simp only [subAddStep, e]
    · exact ⟨fun _ => ⟨d, k, q, e⟩, fun _ => rfl⟩
  | flat i l =>
    simp only [T.id, T.prog] at e hq ⊢
    have U : Loc b.map (set b.map i ⟨.flat (l ++ [.step st]), q⟩) (.flat i l)
        (.flat i (l ++ [.step st])) [] [] := by
      refine ⟨fun j hj _ => ?_, ?_, ?_, nofun, rfl, by simp [T.ids, idsF]⟩
      · simp only [T.ids, List.mem_singleton] at hj
        exact set_ne hj
      · show parentOf _ i = parentOf _ i
        rw [hq, parentOf, set_self]; rfl
      · rw [Rep, progOf, set_self]; rfl
    have I' := I.update U List.nodup_nil (by simp)
    refine ⟨l, _, _, true, program_of_rep hr hn, by simp only [subAddStep, e], I',
      fun _ => replaces_of_update I I' rfl, ⟨nofun, ?_⟩, nofun⟩
    rintro ⟨d, k, q', h⟩
    rw [e] at h; simp at h
  | tree i es =>
    simp only [T.id, T.prog] at e hq ⊢
    have U := loc_elems (es' := es.app (.step st .nil)) (G := []) hr hn hq
      (by simp [Es.app_ids, Es.ids, idsF])
      (fun h' hh => by rw [Es.app_rep]; exact ⟨hh, by rw [RepEs, RepEs]; trivial⟩)
      (fun h' hh => nofun)
    have I' := I.update U List.nodup_nil (by simp)
    have hrp := replaces_of_update I I' rfl
    have hc : (T.tree i (es.app (.step st .nil))).code = (T.tree i es).code ++ [.step st] := by
      simp [T.code, Es.app_code, Es.code]
    rw [hc] at hrp
    refine ⟨es.code, _, _, true, program_of_rep hr hn, ?_, I', fun _ => hrp, ⟨nofun, ?_⟩, nofun⟩
    · simp only [subAddStep, e, Es.app_shape, Es.shape]
    · rintro ⟨d, k, q', h⟩
      rw [e] at h; simp at h

/-- Entering adds an empty subexpression. -/
theorem enter_op {b : Builder σ δ} {F : List (T σ δ)} (I : Inv b F) {e : Id} {f : Bool}
    {b' : Builder σ δ} (h : enter b e = some (f, b')) :
    ∃ F', Inv b' F' ∧ SamePrograms b b' ∧ (f = false → b' = b ∧ (b.map e).isSome = true) ∧
      (f = true → b.map e = none ∧ b'.current = some e ∧ b'.extracted = b.extracted ∧
        b'.root = (match b.current with | none => some e | some _ => b.root)) := by
  rw [enter] at h
  cases he : b.map e with
  | some n =>
    rw [he] at h
    simp only [Option.some.injEq, Prod.mk.injEq] at h
    obtain ⟨rfl, rfl⟩ := h
    exact ⟨F, I, fun _ _ _ => Iff.rfl, fun _ => ⟨rfl, rfl⟩, nofun⟩
  | none =>
    rw [he] at h
    simp only at h
    cases hc : b.current with
    | none =>
      rw [hc] at h
      simp only [Option.some.injEq, Prod.mk.injEq] at h
      obtain ⟨rfl, rfl⟩ := h
      have hnm : e ∉ idsF F := by
        intro hm
        obtain ⟨t, ht, hi⟩ := mem_idsF.1 hm
        have := Rep.dom t (I.rep t ht) e hi
        rw [he] at this; exact nomatch this
      have key : Inv { b with map := set b.map e ⟨.tree [], none⟩, root := some e,
                              current := some e } (.tree e .nil :: F) := by
        refine ⟨?_, ?_, ?_, ?_, ?_, ?_, I.extnd, ?_⟩
        · rw [idsF_cons, T.ids, Es.ids, List.singleton_append, List.nodup_cons]
          exact ⟨hnm, I.nodup⟩
        · intro t ht
          rw [List.mem_cons] at ht
          rcases ht with rfl | ht
          · rw [Rep, RepEs, progOf]
            exact ⟨by show Option.map _ (set b.map e _ e) = _; rw [set_self]; rfl, trivial⟩
          · refine Rep.congr t (fun i hi => ?_) (I.rep t ht)
            exact set_ne (fun e' => hnm (mem_idsF.2 ⟨t, ht, e' ▸ hi⟩))
        · intro i hi
          rw [idsF_cons, T.ids, Es.ids, List.singleton_append, List.mem_cons]
          by_cases hie : i = e
          · exact Or.inl hie
          · refine Or.inr (I.dom i ?_)
            have hi' : (set b.map e ⟨.tree [], none⟩ i).isSome = true := hi
            rwa [set_ne hie] at hi'
        · intro r hr
          simp only [Option.some.injEq] at hr
          subst hr
          exact ⟨_, List.mem_cons_self .., rfl⟩
        · intro i hi
          obtain ⟨t, ht, h⟩ := I.ext i hi
          exact ⟨t, List.mem_cons_of_mem _ ht, h⟩
        · intro c hc'
          simp only [Option.some.injEq] at hc'
          subst hc'
          show (set b.map e _ e).isSome = true
          rw [set_self]; rfl
        · intro r hr hm
          simp only [Option.some.injEq] at hr
          subst hr
          obtain ⟨t, ht, h⟩ := I.ext e hm
          exact hnm (mem_idsF.2 ⟨t, ht, h ▸ t.id_mem⟩)
      refine ⟨.tree e .nil :: F, key, ?_, nofun, fun _ => ⟨rfl, rfl, rfl, rfl⟩⟩
      intro r hr x
      obtain ⟨t, ht, rfl⟩ := I.top hr
      have p1 := I.program ht
      have p2 := key.program (t := t) (List.mem_cons_of_mem _ ht)
      exact ⟨fun h => by rw [h.unique p1]; exact p2, fun h => by rw [h.unique p2]; exact p1⟩
    | some c =>
      rw [hc] at h
      simp only at h
      obtain ⟨L, C, s, R, rfl, rfl⟩ := I.focus (I.cur c hc)
      obtain ⟨hr, hn⟩ := I.focus_rep
      obtain ⟨q, ec, hq⟩ := hr.parent
      cases s with
      | flat i l => simp only [T.id, T.prog] at ec; simp [T.id, ec] at h
      | recur i d k => simp only [T.id, T.prog] at ec; simp [T.id, ec] at h
      | tree i es =>
        simp only [T.id, T.prog] at ec hq hc h
        simp only [ec, Option.some.injEq, Prod.mk.injEq] at h
        obtain ⟨rfl, rfl⟩ := h
        have U := loc_enter hr hn hq he
        have I' := I.update U (by simp) (by simpa using he)
        have same : SamePrograms b { b with
            map := set (set b.map e ⟨.tree [], some i⟩) i ⟨.tree (es.shape ++ [.sub e]), q⟩,
            current := some e } := by
          have := replaces_of_update (s' := .tree i (es.app (.sub (.tree e .nil) .nil))) I I' rfl
          have hcode : (T.tree i (es.app (.sub (.tree e .nil) .nil))).code = (T.tree i es).code := by
            simp [T.code, Es.app_code, Es.code]
          rw [hcode] at this
          exact same_of_replaces I this
        refine ⟨_, ⟨I'.nodup, I'.rep, I'.dom, I'.root, I'.ext, ?_, I'.extnd, I'.rootext⟩, same, nofun,
          fun _ => ⟨rfl, rfl, rfl, rfl⟩⟩
        intro c' hc'
        simp only [Option.some.injEq] at hc'
        subst hc'
        refine Rep.dom _ (I'.rep _ (List.mem_append_right _ (List.mem_cons_self ..))) e ?_
        rw [(Ctx.plug_ids _ C).mem_iff]
        simp [T.ids, Es.app_ids, Es.ids]

/-- Moving the recursive programs out of the children keeps the forest. -/
theorem depsLoop_inv {b : Builder σ δ} : ∀ (l : List (Elem σ)) (h : Heap σ δ) (acc : List δ)
    (F : List (T σ δ)), Inv { b with map := h } F →
    ∃ F', Inv { b with map := (depsLoop h l acc).2 } F'
  | [], h, acc, F, I => ⟨F, I⟩
  | .step _ :: _, h, acc, F, I => ⟨F, I⟩
  | .sub c :: r, h, acc, F, I => by
    rw [depsLoop]
    cases hc : h c with
    | none => exact ⟨F, I⟩
    | some nd =>
      obtain ⟨pr, q⟩ := nd
      cases pr with
      | tree es => exact ⟨F, I⟩
      | flat l => exact ⟨F, I⟩
      | recur d k =>
        simp only
        obtain ⟨L, C, s, R, rfl, hs⟩ := I.focus (i := c) (by show (h c).isSome = true; rw [hc]; rfl)
        obtain ⟨hr, hn⟩ := I.focus_rep
        obtain ⟨q', e, hq⟩ := hr.parent
        rw [hs] at e hq
        have e' : h c = some ⟨s.prog, q'⟩ := e
        rw [hc] at e'
        simp only [Option.some.injEq, Node.mk.injEq] at e'
        cases s with
        | tree i es => simp [T.prog] at e'
        | flat i l => simp [T.prog] at e'
        | recur i d' k' =>
          simp only [T.id] at hs
          subst hs
          have U : Loc h (set h i ⟨.tree [], q⟩) (.recur i d' k') (.tree i .nil) [] [] := by
            refine ⟨fun j hj _ => ?_, ?_, ?_, nofun, rfl, by simp [T.ids, Es.ids, idsF]⟩
            · simp only [T.ids, List.mem_singleton] at hj
              exact set_ne hj
            · show parentOf _ i = parentOf h i
              rw [parentOf, parentOf, set_self, hc]; rfl
            · rw [Rep, RepEs, progOf, set_self]; exact ⟨rfl, trivial⟩
          have I' := I.update U List.nodup_nil (by simp)
          exact depsLoop_inv r _ _ _ I'

/-- What `MaybeReassignChildRecursiveProgram` does: nothing, or a local update. -/
theorem reassign_op {b : Builder σ δ} {F : List (T σ δ)} (I : Inv b F) {c : Id}
    (hc : (b.map c).isSome = true) :
    ∃ F', Inv { b with map := maybeReassign b.map c } F' ∧
      (maybeReassign b.map c = b.map ∨
        ∃ x d, Replaces b { b with map := maybeReassign b.map c } c
          [.wrapped d x] [.wrapped d c]) := by
  obtain ⟨L, C, s, R, rfl, rfl⟩ := I.focus hc
  obtain ⟨hr, hn⟩ := I.focus_rep
  obtain ⟨q, e, hq⟩ := hr.parent
  by_cases hs : ∃ p x d k, s = .tree p (.sub (.recur x d k) .nil)
  · obtain ⟨p, x, d, k, rfl⟩ := hs
    simp only [T.id, T.prog, Es.shape] at e hq ⊢
    have hx : ∃ qx, b.map x = some ⟨.recur d k, qx⟩ := by
      rw [Rep, RepEs, Rep] at hr
      exact progOf_some hr.2.1
    obtain ⟨qx, ex⟩ := hx
    have U := loc_reassign (qc := qx) hr hn hq
    have hm : maybeReassign b.map p = set (set b.map x ⟨.tree [], qx⟩) p ⟨.recur d k, q⟩ := by
      simp only [maybeReassign, e, ex]
    rw [hm]
    have I' := I.update U List.nodup_nil (by simp)
    refine ⟨_, I', Or.inr ⟨x, d, ?_⟩⟩
    have := replaces_of_update I I' rfl
    simpa [T.id, T.code, Es.code] using this
  · have hm : maybeReassign b.map s.id = b.map := by
      rw [maybeReassign, e]
      cases s with
      | flat i l => rfl
      | recur i d k => rfl
      | tree i es =>
        cases es with
        | nil => rfl
        | step y r => rfl
        | sub u r =>
          cases r with
          | step y r => rfl
          | sub u' r => rfl
          | nil =>
            simp only [T.prog, Es.shape]
            rw [Rep, RepEs] at hr
            obtain ⟨qu, eu⟩ := progOf_some hr.2.1.prog
            rw [eu]
            cases u with
            | flat j l => rfl
            | tree j l => rfl
            | recur j d k => exact absurd ⟨i, j, d, k, rfl⟩ hs
    rw [hm]
    exact ⟨_, I, Or.inl rfl⟩

theorem set_dom {h : Heap σ δ} {i x : Id} {n : Node σ δ} (e : (h x).isSome = true) :
    (set h i n x).isSome = true := by
  rw [set]; split
  · rfl
  · exact e

theorem reassign_dom {h : Heap σ δ} {c x : Id} (e : (h x).isSome = true) :
    (maybeReassign h c x).isSome = true := by
  generalize hg : maybeReassign h c = g
  unfold maybeReassign at hg
  split at hg
  · split at hg
    · subst hg; exact set_dom (set_dom e)
    · subst hg; exact e
  · subst hg; exact e

theorem exit_op {b : Builder σ δ} {F : List (T σ δ)} (I : Inv b F) {e : Id} {b' : Builder σ δ}
    (h : exit b e = some b') :
    ∃ F', Inv b' F' ∧ b.current = some e ∧ b'.map = maybeReassign b.map e ∧
      b'.root = b.root ∧ b'.extracted = b.extracted := by
  rw [exit] at h
  cases hc : b.current with
  | none => rw [hc] at h; exact nomatch h
  | some c =>
    rw [hc] at h
    simp only at h
    by_cases hce : c = e
    · subst hce
      rw [if_neg (by simp)] at h
      have hd := I.cur c hc
      cases hn : b.map c with
      | none => rw [hn] at hd; exact nomatch hd
      | some nd =>
        rw [hn] at h
        simp only [Option.some.injEq] at h
        subst h
        obtain ⟨F', I', _⟩ := reassign_op I hd
        refine ⟨F', ⟨I'.nodup, I'.rep, I'.dom, I'.root, I'.ext, ?_, I'.extnd, I'.rootext⟩, rfl, rfl, rfl, rfl⟩
        intro x hx
        have hx' : indexed b.map nd.parent = some x := hx
        have hb : (b.map x).isSome = true := by
          cases hp : nd.parent with
          | none => rw [hp] at hx'; exact nomatch hx'
          | some y =>
            rw [hp, indexed] at hx'
            cases hy : b.map y with
            | none => rw [hy] at hx'; exact nomatch hx'
            | some z =>
              rw [hy] at hx'
              simp only [Option.map_some, Option.some.injEq] at hx'
              subst hx'
              rw [hy]; rfl
        exact reassign_dom hb
    · rw [if_pos hce] at h; exact nomatch h

theorem top_not_inside {C : Ctx σ δ} {i x : Id} {es : Es σ δ}
    (hn : (C.plug (.tree i es)).ids.Nodup) (hx : x ∈ es.ids) : (C.plug (.tree i es)).id ≠ x := by
  intro h
  cases C with
  | hole =>
    simp only [Ctx.plug, T.id] at h
    simp only [Ctx.plug, T.ids, List.nodup_cons] at hn
    exact hn.1 (h ▸ hx)
  | inn p pre c post =>
    simp only [Ctx.plug, T.id] at h
    simp only [Ctx.plug, T.ids, List.nodup_cons] at hn
    apply hn.1
    rw [Es.app_ids, Es.ids, h, List.mem_append, List.mem_append]
    refine Or.inr (Or.inl ?_)
    rw [(Ctx.plug_ids _ c).mem_iff]
    simp [T.ids, hx]

/-- `ExtractSubexpression`: nothing, or the segment moves to a new subprogram. -/
theorem extract_op {b : Builder σ δ} {F : List (T σ δ)} (I : Inv b F) {e : Id} {k : Option Nat}
    {b' : Builder σ δ} (h : extractSubexpression b e = some (k, b')) :
    ∃ F', Inv b' F' ∧ (k = none → b' = b) ∧
      (∀ j, k = some j → j = b.extracted.length ∧ b'.extracted = b.extracted ++ [e] ∧
        b'.root = b.root ∧ b'.current = b.current ∧
        ∃ c, Program b.map e c ∧ Program b'.map e c ∧ Replaces b b' e c []) := by
  rw [extractSubexpression] at h
  cases he : b.map e with
  | none =>
    rw [he] at h
    simp only [Option.some.injEq, Prod.mk.injEq] at h
    obtain ⟨rfl, rfl⟩ := h
    exact ⟨F, I, fun _ => rfl, nofun⟩
  | some nd =>
    rw [he] at h
    simp only at h
    cases hi : indexed b.map nd.parent with
    | none =>
      rw [hi] at h
      simp only [Option.some.injEq, Prod.mk.injEq] at h
      obtain ⟨rfl, rfl⟩ := h
      exact ⟨F, I, fun _ => rfl, nofun⟩
    | some p =>
      rw [hi] at h
      simp only at h
      cases hp : b.map p with
      | none => rw [hp] at h; exact nomatch h
      | some pn =>
        rw [hp] at h
        simp only at h
        cases hpp : pn.prog with
        | flat l =>
          rw [hpp] at h
          simp only [Option.some.injEq, Prod.mk.injEq] at h
          obtain ⟨rfl, rfl⟩ := h
          exact ⟨F, I, fun _ => rfl, nofun⟩
        | recur d j => rw [hpp] at h; exact nomatch h
        | tree es =>
          rw [hpp] at h
          simp only at h
          cases hx : eraseChild e es with
          | none =>
            rw [hx] at h
            simp only [Option.some.injEq, Prod.mk.injEq] at h
            obtain ⟨rfl, rfl⟩ := h
            exact ⟨F, I, fun _ => rfl, nofun⟩
          | some es' =>
            rw [hx] at h
            simp only [Option.some.injEq, Prod.mk.injEq] at h
            obtain ⟨rfl, rfl⟩ := h
            obtain ⟨L, C, s, R, rfl, rfl⟩ := I.focus (i := p) (by rw [hp]; rfl)
            obtain ⟨hr, hn⟩ := I.focus_rep
            obtain ⟨q, ep, hq⟩ := hr.parent
            rw [hp] at ep
            simp only [Option.some.injEq] at ep
            subst ep
            simp only at hpp
            cases s with
            | flat i l => simp [T.prog] at hpp
            | recur i d k => simp [T.prog] at hpp
            | tree i els =>
              simp only [T.prog, Prog.tree.injEq] at hpp
              subst hpp
              obtain ⟨pre, u, post, h1, h2, h3⟩ := eraseChild_spec els es' hx
              subst h1; subst h2; subst h3
              have U := loc_extract hr hn hq
              have I' := I.update U List.nodup_nil (by simp)
              have hru : Rep b.map u := by
                rw [Rep, Es.app_rep, RepEs] at hr; exact hr.2.2.1
              have hnu : u.ids.Nodup := by
                rw [T.ids, Es.app_ids, Es.ids, List.nodup_cons, List.nodup_append,
                  List.nodup_append] at hn
                exact hn.2.2.1.1
              -- the position of the extracted node
              have hF : L ++ Ctx.plug C (.tree i (pre.app (.sub u post))) :: R =
                  L ++ Ctx.plug C (Ctx.plug (.inn i pre .hole post) u) :: R := rfl
              have hrepl : ∀ r, Owner b r →
                  (∀ a z, Seg b.map r u.id a z →
                    Program b.map r (a ++ u.code ++ z) ∧
                    Program (set b.map i ⟨.tree (pre.app post).shape, q⟩) r (a ++ [] ++ z)) ∧
                  ((∀ a z, ¬ Seg b.map r u.id a z) →
                    ∀ c, Program b.map r c →
                      Program (set b.map i ⟨.tree (pre.app post).shape, q⟩) r c) := by
                intro r hrO
                obtain ⟨t, ht, hid⟩ := I.top hrO
                have hnt := idsF_nodup_mem I.nodup ht
                have hrt := I.rep t ht
                have eff := update_effect I I' rfl (I.top hrO)
                constructor
                · intro a z sg
                  obtain ⟨C', u', e1, e2, e3, e4⟩ := ctx_of_seg sg t hrt hnt hid
                  have hui : u.id ∈ (Ctx.plug C (.tree i (pre.app (.sub u post)))).ids := by
                    rw [(Ctx.plug_ids _ C).mem_iff]
                    simp [T.ids, Es.app_ids, Es.ids, T.id_mem]
                  have heq : t = C.plug (.tree i (pre.app (.sub u post))) :=
                    forest_unique I.nodup ht (by simp) (by rw [← e2, e1]; exact mem_plug) hui
                  have hpt := I.program ht
                  have sgp := seg_of_ctx C (heq ▸ hrt) (heq ▸ hnt)
                  rw [← heq, hid] at sgp
                  obtain ⟨p1, p2⟩ := eff.1 _ _ sgp
                  -- the composite context
                  have hcomp : ∀ (D : Ctx σ δ), ∃ E : Ctx σ δ, (∀ w, E.plug w =
                      D.plug (.tree i (pre.app (.sub w post)))) ∧
                      E.pre = D.pre ++ pre.code ∧ E.post = post.code ++ D.post := by
                    intro D
                    induction D with
                    | hole =>
                      exact ⟨.inn i pre .hole post, fun w => rfl, by simp [Ctx.pre],
                        by simp [Ctx.post]⟩
                    | inn x y D z ih =>
                      obtain ⟨E, g1, g2, g3⟩ := ih
                      refine ⟨.inn x y E z, fun w => by rw [Ctx.plug, Ctx.plug, g1 w], ?_, ?_⟩
                      · simp [Ctx.pre, g2]
                      · simp [Ctx.post, g3]
                  obtain ⟨E, g1, g2, g3⟩ := hcomp C
                  have hE : E.plug u = C'.plug u' := by rw [g1, ← heq, e1]
                  obtain ⟨g4, g5⟩ := plug_inj e2 E C' (by rw [g1, ← heq]; exact hnt) hE
                  subst g4; subst g5
                  rw [← e3, ← e4, g2, g3]
                  constructor
                  · have : (T.tree i (pre.app (.sub u post))).code =
                        pre.code ++ u.code ++ post.code := by
                      simp [T.code, Es.app_code, Es.code]
                    rw [this] at p1
                    simpa [List.append_assoc] using p1
                  · have : (T.tree i (pre.app post)).code = pre.code ++ post.code := by
                      simp [T.code, Es.app_code]
                    rw [this] at p2
                    simpa [List.append_assoc] using p2
                · intro hno c hpc
                  refine eff.2 ?_ c hpc
                  intro a z sg
                  refine hno (a ++ (pre.code ++ [])) (([] ++ post.code) ++ z) ?_
                  -- extend the position of the parent to the child
                  have ext : ∀ {r x a z}, Seg b.map r x a z → x = i →
                      Seg b.map r u.id (a ++ (pre.code ++ [])) (([] ++ post.code) ++ z) := by
                    intro r x a z sg
                    induction sg with
                    | here =>
                      rintro rfl
                      have hr' := hr
                      rw [Rep, Es.app_rep, RepEs, Es.app_shape, Es.shape] at hr'
                      obtain ⟨qq, ee⟩ := progOf_some hr'.1
                      have hn' := hn
                      rw [T.ids, Es.app_ids, Es.ids, List.nodup_cons, List.nodup_append,
                        List.nodup_append] at hn'
                      have := Seg.child (i := u.id) (pre := []) (post := []) ee
                        (codes_of_rep pre hr'.2.1 hn'.2.1)
                        (codes_of_rep post hr'.2.2.2.2 hn'.2.2.1.2.1) .here
                      simpa using this
                    | child he hl hm _ ih =>
                      intro hxi
                      have := Seg.child he hl hm (ih hxi)
                      simpa [List.append_assoc] using this
                  exact ext sg rfl
              have hgu : u ∈ L ++ Ctx.plug C (.tree i (pre.app post)) :: (R ++ [u]) := by simp
              have hnt : ∀ j, Top (L ++ Ctx.plug C (.tree i (pre.app (.sub u post))) :: R) j →
                  j ≠ u.id := by
                rintro j ⟨t, ht, rfl⟩ hj
                have hui : u.id ∈ (pre.app (.sub u post)).ids := by
                  simp [Es.app_ids, Es.ids, T.id_mem]
                have hui2 : u.id ∈ (Ctx.plug C (.tree i (pre.app (.sub u post)))).ids := by
                  rw [(Ctx.plug_ids _ C).mem_iff]; simp [T.ids, hui]
                have heq : t = C.plug (.tree i (pre.app (.sub u post))) :=
                  forest_unique I.nodup ht (by simp) (hj ▸ t.id_mem) hui2
                have hnn := idsF_nodup_mem I.nodup ht
                rw [heq] at hj hnn
                exact top_not_inside hnn hui hj
              refine ⟨_, ⟨I'.nodup, I'.rep, I'.dom, I'.root, ?_, I'.cur, ?_, ?_⟩, nofun, ?_⟩
              · intro j hj
                rcases List.mem_append.1 hj with hj | hj
                · exact I'.ext j hj
                · rw [List.mem_singleton] at hj; subst hj
                  exact ⟨u, hgu, rfl⟩
              · refine List.nodup_append.2 ⟨I.extnd, by simp, ?_⟩
                intro a ha c hc
                rw [List.mem_singleton] at hc; subst hc
                exact hnt a (I.ext a ha)
              · intro r hr hm
                rcases List.mem_append.1 hm with hm | hm
                · exact I.rootext r hr hm
                · rw [List.mem_singleton] at hm
                  exact hnt r (I.root r hr) hm
              · intro j hj
                simp only [Option.some.injEq] at hj
                refine ⟨hj.symm, rfl, rfl, rfl, u.code, program_of_rep hru hnu, ?_, hrepl⟩
                exact I'.program hgu

end
end Verif.Builder
