import Verif.Builder.Script
/-!
# C82: the program that is handed out

For every history of calls on the builder (`Reach`).
-/
set_option linter.unusedSimpArgs false
set_option linter.unusedVariables false

namespace Verif.Builder
section
variable {σ δ : Type}

/-- Flattening terminates for every subexpression in every reachable state, and
its result is unique. -/
theorem program_exists {b : Builder σ δ} (h : Reach b) {e : Id} (he : (b.map e).isSome = true) :
    ∃ c, Program b.map e c ∧ ∀ c', Program b.map e c' → c' = c := by
  obtain ⟨F, I⟩ := reach_inv h
  obtain ⟨L, C, s, R, rfl, rfl⟩ := I.focus he
  obtain ⟨hr, hn⟩ := I.focus_rep
  exact ⟨s.code, program_of_rep hr hn, fun c' h' => h'.unique (program_of_rep hr hn)⟩

/-- The program of a tree plan is the code of its elements, in order: each step
once, each child's program in its place. -/
theorem program_is_code {b : Builder σ δ} (h : Reach b) {e : Id} {es : List (Elem σ)}
    {q : Option Id} (he : b.map e = some ⟨.tree es, q⟩) (c : List (Out σ δ)) :
    Program b.map e c ↔ Codes b.map es c := by
  obtain ⟨F, I⟩ := reach_inv h
  obtain ⟨L, C, s, R, rfl, rfl⟩ := I.focus (i := e) (by rw [he]; rfl)
  obtain ⟨hr, hn⟩ := I.focus_rep
  obtain ⟨q', e', _⟩ := hr.parent
  rw [he] at e'
  simp only [Option.some.injEq, Node.mk.injEq] at e'
  cases s with
  | flat i l => simp [T.prog] at e'
  | recur i d k => simp [T.prog] at e'
  | tree i els =>
    simp only [T.prog, Prog.tree.injEq] at e'
    have hp := program_of_rep hr hn
    rw [Rep] at hr
    rw [T.ids, List.nodup_cons] at hn
    have hc := codes_of_rep els hr.2 hn.2
    rw [e'.1]
    constructor
    · intro h'; rw [h'.unique hp]; exact hc
    · intro h'; rw [h'.unique hc]; exact hp

/-- `FlattenMain` hands out the program of the root, and leaves the extracted
subprograms alone. -/
theorem main_program {b : Builder σ δ} (h : Reach b) {r : Id} (hr : b.root = some r) :
    ∃ c b', Program b.map r c ∧ (∃ N, ∀ n, N ≤ n → flattenMain n b = some (c, b')) ∧
      b'.root = none ∧ b'.extracted = b.extracted ∧
      ∀ i ∈ b.extracted, ∀ x, Program b.map i x ↔ Program b'.map i x := by
  obtain ⟨F, I⟩ := reach_inv h
  obtain ⟨c, h', F', hp, I', ⟨N, hN⟩, _, _, hs⟩ := drain_op I (I.root r hr)
  refine ⟨c, { b with map := h', root := none }, hp, ⟨N, fun n hle => ?_⟩, rfl, rfl, ?_⟩
  · simp only [flattenMain, hr, hN n hle]
  · intro i hi x
    exact hs i (I.ext i hi) (fun e => I.rootext r hr (e ▸ hi)) x

/-- `FlattenSubexpressions` hands out the program of each extracted subexpression,
in the order of their indices, and leaves the main program alone. -/
theorem extracted_programs {b : Builder σ δ} (h : Reach b) :
    ∃ ls b', Programs b.map b.extracted ls ∧
      (∃ N, ∀ n, N ≤ n → flattenSubexpressions n b = some (ls, b')) ∧
      b'.extracted = [] ∧ b'.root = b.root ∧
      ∀ r, b.root = some r → ∀ x, Program b.map r x ↔ Program b'.map r x := by
  obtain ⟨F, I⟩ := reach_inv h
  obtain ⟨ls, h', F', I', hp, ⟨N, hN⟩, _, hs⟩ :=
    flattenAll_op (b := b) b.extracted b.map F I I.extnd I.ext
  refine ⟨ls, { b with map := h', extracted := [] }, hp, ⟨N, fun n hle => ?_⟩, rfl, rfl, ?_⟩
  · simp only [flattenSubexpressions, hN n hle]
  · exact fun r hr x => hs r (I.root r hr) (I.rootext r hr) x

/-- A planning script on an empty builder yields the steps in the order in which
they were added. -/
theorem plan_in_order (p : Plan σ δ) (hn : p.entered.Nodup) :
    ∃ b, p.run Builder.init = some b ∧ Reach b ∧ b.root = some p.id ∧ b.current = none ∧
      Program b.map p.id p.steps := by
  obtain ⟨e, items, fin⟩ := p
  rw [Plan.entered, List.nodup_cons] at hn
  have I0 : Inv (Builder.init : Builder σ δ) [] :=
    ⟨by simp [idsF], nofun, nofun, nofun, nofun, nofun, List.nodup_nil, nofun⟩
  have r1 : enter (Builder.init : Builder σ δ) e = some (true,
      ⟨set (fun _ => none) e ⟨.tree [], none⟩, some e, some e, []⟩) := rfl
  have q1 : Reach (⟨set (fun _ => none) e ⟨.tree [], none⟩, some e, some e, []⟩ : Builder σ δ) :=
    Reach.enter Reach.init r1
  have I1 : Inv (⟨set (fun _ => none) e ⟨.tree [], none⟩, some e, some e, []⟩ : Builder σ δ)
      ([] ++ Ctx.plug .hole (.tree e .nil) :: []) := by
    refine ⟨by simp [idsF, Ctx.plug, T.ids, Es.ids], ?_, ?_, ?_, nofun, ?_, List.nodup_nil,
      fun _ _ => nofun⟩
    · intro t ht
      simp only [Ctx.plug, List.nil_append, List.mem_singleton] at ht
      subst ht
      rw [Rep, RepEs, progOf]
      exact ⟨by simp [set, Es.shape], trivial⟩
    · intro i hi
      by_cases h : i = e
      · simp [idsF, Ctx.plug, T.ids, Es.ids, h]
      · simp only [set, if_neg h] at hi; exact nomatch hi
    · intro r hr
      simp only [Option.some.injEq] at hr
      exact ⟨.tree e .nil, by simp [Ctx.plug], hr⟩
    · intro c hc
      simp only [Option.some.injEq] at hc
      subst hc
      simp [set]
  obtain ⟨b2, R2, r2, I2, c2, o2, x2, d2⟩ :=
    Items.sim items _ [] .hole e .nil [] I1 rfl hn.2 (fun i hi => by
      have hie : i ≠ e := fun h => hn.1 (h ▸ hi)
      simp [set, hie])
  rw [show (Es.nil : Es σ δ).app items.built = items.built from rfl] at I2
  -- the script only makes calls of the interface
  have reach : ∀ (it : Items σ δ) (b b' : Builder σ δ), Reach b → it.run b = some b' → Reach b' := by
    intro it
    refine Items.rec (motive_1 := fun p => ∀ b b' : Builder σ δ, Reach b → p.run b = some b' → Reach b')
      (motive_2 := fun it => ∀ b b' : Builder σ δ, Reach b → it.run b = some b' → Reach b')
      ?_ ?_ ?_ ?_ it
    · intro e it fin ih b b' hb h
      rw [Plan.run] at h
      cases h1 : enter b e with
      | none => rw [h1] at h; exact nomatch h
      | some y =>
        obtain ⟨f, b1⟩ := y
        rw [h1] at h
        cases f with
        | false => exact nomatch h
        | true =>
          simp only at h
          cases h2 : it.run b1 with
          | none => rw [h2] at h; exact nomatch h
          | some b2 =>
            rw [h2] at h
            have q2 := ih b1 b2 (Reach.enter hb h1) h2
            cases fin with
            | none => exact Reach.exit q2 h
            | some dk => exact Reach.exit (Reach.replaceRecursive (d := dk.1) (k := dk.2) q2) h
    · intro b b' hb h
      simp only [Items.run, Option.some.injEq] at h
      subst h; exact hb
    · intro s r ih b b' hb h
      rw [Items.run] at h
      cases h1 : addStep b s with
      | none => rw [h1] at h; exact nomatch h
      | some y =>
        obtain ⟨f, b1⟩ := y
        rw [h1] at h
        cases f with
        | false => exact nomatch h
        | true => exact ih b1 b' (Reach.addStep hb h1) h
    · intro p r ihp ih b b' hb h
      rw [Items.run] at h
      cases h1 : p.run b with
      | none => rw [h1] at h; exact nomatch h
      | some b1 =>
        rw [h1] at h
        exact ih b1 b' (ihp b b1 hb h1) h
  have q2 := reach items _ b2 q1 r2
  have hrootpar : parentOf b2.map e = some none → indexed b2.map none = none := fun _ => rfl
  -- the parent of the root stays null: exiting leads to no current subexpression
  have hpar : ∀ (it : Items σ δ) (b b' : Builder σ δ), it.run b = some b' →
      ∀ x, (b.map x).isSome = true → parentOf b'.map x = parentOf b.map x := by
    intro it
    have hset : ∀ (h : Heap σ δ) (i : Id) (pr : Prog σ δ) (q : Option Id) (x : Id),
        parentOf h i = some q → parentOf (set h i ⟨pr, q⟩) x = parentOf h x := by
      intro h i pr q x hq
      by_cases hx : x = i
      · subst hx; rw [hq, parentOf, set_self]; rfl
      · rw [parentOf, parentOf, set_ne hx]
    have hre : ∀ (h : Heap σ δ) (i x : Id), parentOf (maybeReassign h i) x = parentOf h x := by
      intro h i x
      generalize hg : maybeReassign h i = g
      unfold maybeReassign at hg
      split at hg
      · rename_i c pp he
        split at hg
        · rename_i d k cp hc
          subst hg
          have h1 := hset h c (.tree [] : Prog σ δ) cp x (by rw [parentOf, hc]; rfl)
          have h2 := hset (set h c ⟨.tree [], cp⟩) i (.recur d k) pp x (by
            rw [hset h c (.tree [] : Prog σ δ) cp i (by rw [parentOf, hc]; rfl), parentOf, he]; rfl)
          rw [h2, h1]
        · subst hg; rfl
      · subst hg; rfl
    have hex : ∀ (b b' : Builder σ δ) (e x : Id), exit b e = some b' →
        parentOf b'.map x = parentOf b.map x := by
      intro b b' e x h
      rw [exit] at h
      split at h
      · exact nomatch h
      · split at h
        · exact nomatch h
        · split at h
          · exact nomatch h
          · simp only [Option.some.injEq] at h
            rw [← h]; exact hre _ _ _
    have hrr : ∀ (b : Builder σ δ) (e x : Id) (d : δ) (k : Int),
        parentOf (replaceRecursive b e d k).2.map x = parentOf b.map x := by
      intro b e x d k
      rw [replaceRecursive]
      cases h : b.map e with
      | none => rfl
      | some nd => exact hset b.map e _ _ x (by rw [parentOf, h]; rfl)
    refine Items.rec
      (motive_1 := fun p => ∀ b b' : Builder σ δ, p.run b = some b' →
        ∀ x, (b.map x).isSome = true → parentOf b'.map x = parentOf b.map x)
      (motive_2 := fun it => ∀ b b' : Builder σ δ, it.run b = some b' →
        ∀ x, (b.map x).isSome = true → parentOf b'.map x = parentOf b.map x)
      ?_ ?_ ?_ ?_ it
    · intro e it fin ih b b' h x hx
      rw [Plan.run] at h
      cases h1 : enter b e with
      | none => rw [h1] at h; exact nomatch h
      | some y =>
        obtain ⟨f, b1⟩ := y
        rw [h1] at h
        cases f with
        | false => exact nomatch h
        | true =>
          simp only at h
          have p1 : parentOf b1.map x = parentOf b.map x ∧ (b1.map x).isSome = true := by
            rw [enter] at h1
            cases he : b.map e with
            | some n => rw [he] at h1; simp at h1
            | none =>
              have hxe : x ≠ e := by rintro rfl; rw [he] at hx; exact nomatch hx
              rw [he] at h1
              simp only at h1
              cases hc : b.current with
              | none =>
                rw [hc] at h1
                simp only [Option.some.injEq, Prod.mk.injEq, true_and] at h1
                rw [← h1]
                exact ⟨by show parentOf (set b.map e _) x = _; rw [parentOf, set_ne hxe]; rfl,
                  set_dom hx⟩
              | some c =>
                rw [hc] at h1
                simp only at h1
                split at h1
                · rename_i es q hcc
                  simp only [Option.some.injEq, Prod.mk.injEq, true_and] at h1
                  rw [← h1]
                  have hce : c ≠ e := by rintro rfl; rw [he] at hcc; exact nomatch hcc
                  refine ⟨?_, set_dom (set_dom hx)⟩
                  show parentOf (set (set b.map e _) c _) x = _
                  rw [hset _ c _ q x (by rw [parentOf, set_ne hce, hcc]; rfl), parentOf, set_ne hxe]
                  rfl
                · exact nomatch h1
          cases h2 : it.run b1 with
          | none => rw [h2] at h; exact nomatch h
          | some b2 =>
            rw [h2] at h
            have p2 := ih b1 b2 h2 x p1.2
            cases fin with
            | none => rw [hex _ _ _ _ h, p2, p1.1]
            | some dk => rw [hex _ _ _ _ h, hrr, p2, p1.1]
    · intro b b' h x hx
      simp only [Items.run, Option.some.injEq] at h
      subst h; rfl
    · intro s r ih b b' h x hx
      rw [Items.run] at h
      cases h1 : addStep b s with
      | none => rw [h1] at h; exact nomatch h
      | some y =>
        obtain ⟨f, b1⟩ := y
        rw [h1] at h
        cases f with
        | false => exact nomatch h
        | true =>
          have p1 : parentOf b1.map x = parentOf b.map x ∧ (b1.map x).isSome = true := by
            rw [addStep] at h1
            cases hc : b.current with
            | none => rw [hc] at h1; simp at h1
            | some c =>
              rw [hc] at h1
              simp only [subAddStep] at h1
              cases hm : b.map c with
              | none => rw [hm] at h1; exact nomatch h1
              | some nd =>
                obtain ⟨pr, q⟩ := nd
                rw [hm] at h1
                cases pr with
                | recur d k => simp at h1
                | flat l =>
                  simp only [Option.some.injEq, Prod.mk.injEq, true_and] at h1
                  rw [← h1]
                  exact ⟨hset b.map c _ q x (by rw [parentOf, hm]; rfl), set_dom hx⟩
                | tree es =>
                  simp only [Option.some.injEq, Prod.mk.injEq, true_and] at h1
                  rw [← h1]
                  exact ⟨hset b.map c _ q x (by rw [parentOf, hm]; rfl), set_dom hx⟩
          rw [ih b1 b' h x p1.2, p1.1]
    · intro p r ihp ih b b' h x hx
      rw [Items.run] at h
      cases h1 : p.run b with
      | none => rw [h1] at h; exact nomatch h
      | some b1 =>
        rw [h1] at h
        have p1 := ihp b b1 h1 x hx
        have hx1 : (b1.map x).isSome = true := by
          rw [parentOf, parentOf] at p1
          cases hb : b1.map x with
          | some n => rfl
          | none =>
            rw [hb] at p1
            cases hb' : b.map x with
            | none => rw [hb'] at hx; exact nomatch hx
            | some n => rw [hb'] at p1; exact nomatch p1
        rw [ih b1 b' h x hx1, p1]
  have hpe : parentOf b2.map e = some none := by
    rw [hpar items _ b2 r2 e (by simp [set])]
    simp [parentOf, set]
  cases fin with
  | none =>
    obtain ⟨R3, b3, q, hq, r3, I3, c3, o3, x3, d3⟩ := exit_at (e := e) I2 rfl c2 (Or.inl ⟨_, rfl⟩)
    rw [hpe] at hq
    simp only [Option.some.injEq] at hq
    subst hq
    rw [lift_built] at I3
    refine ⟨b3, by simp only [Plan.run, r1, r2, r3], Reach.exit q2 r3, by rw [o3, o2]; rfl, c3, ?_⟩
    have := I3.program (t := (Plan.node e items none).built) (by simp [Ctx.plug])
    rw [Plan.built_id, Plan.built_code] at this
    exact this
  | some dk =>
    obtain ⟨d, k⟩ := dk
    obtain ⟨hr2, hn2⟩ := I2.focus_rep
    obtain ⟨qq, e2, hq2⟩ := hr2.parent
    have I2' := I2.update (loc_recur hr2 hn2 hq2 d k) List.nodup_nil (by simp)
    simp only [T.id] at I2' e2 hq2
    have hrr : replaceRecursive b2 e d k =
        (true, { b2 with map := set b2.map e ⟨.recur d k, qq⟩ }) := by
      simp only [replaceRecursive, e2]
    obtain ⟨R3, b3, q, hq, r3, I3, c3, o3, x3, d3⟩ :=
      exit_at (e := e) (s := .recur e d k) I2' rfl c2 (Or.inr ⟨_, _, rfl⟩)
    have hqe : q = none := by
      have h1 : parentOf (set b2.map e ⟨.recur d k, qq⟩) e = some q := hq
      rw [parentOf, set_self] at h1
      simp only [Option.map_some, Option.some.injEq] at h1
      rw [hpe] at hq2
      simp only [Option.some.injEq] at hq2
      rw [← h1, hq2]
    subst hqe
    have hr3 : exit (replaceRecursive b2 e d k).2 e = some b3 := by rw [hrr]; exact r3
    refine ⟨b3, by simp only [Plan.run, r1, r2, hr3],
      Reach.exit (Reach.replaceRecursive (d := d) (k := k) q2) hr3, by rw [o3]; exact o2, c3, ?_⟩
    have := I3.program (t := .recur e d k) (by simp [Ctx.plug, lift])
    exact this

/-! ## Operations in the middle of planning -/

/-- Looking at a subplan shows exactly the code that node will contribute, and
changes no program. -/
theorem getSubplan_shows_segment {b : Builder σ δ} (h : Reach b) {e : Id}
    (he : (b.map e).isSome = true) :
    ∃ c b', Program b.map e c ∧ (∃ N, ∀ n, N ≤ n → getSubplan n b e = some (c, b')) ∧
      SamePrograms b b' ∧ b'.root = b.root ∧ b'.extracted = b.extracted := by
  obtain ⟨F, I⟩ := reach_inv h
  obtain ⟨c, b', F', hp, I', hr, ho, hN, _⟩ := getSubplan_op I he
  exact ⟨c, b', hp, hN, same_of_replaces I hr, ho.1, ho.2.1⟩

/-- Replacing a subplan replaces that segment and nothing else. -/
theorem replaceSubplan_exact {b : Builder σ δ} (h : Reach b) {e : Id}
    (he : (b.map e).isSome = true) (path : List (Out σ δ)) :
    ∃ c b', Program b.map e c ∧ (∃ N, ∀ n, N ≤ n → replaceSubplan n b e path = some (true, b')) ∧
      Replaces b b' e c path ∧ b'.root = b.root ∧ b'.extracted = b.extracted := by
  obtain ⟨F, I⟩ := reach_inv h
  obtain ⟨c, b', F', hp, I', hr, ho, hN, _⟩ := replaceSubplan_op I he path
  exact ⟨c, b', hp, hN, hr, ho.1, ho.2.1⟩

/-- The same with a recursive program, which becomes one step. -/
theorem replaceRecursive_exact {b : Builder σ δ} (h : Reach b) {e : Id}
    (he : (b.map e).isSome = true) (d : δ) (k : Int) :
    ∃ c b', Program b.map e c ∧ replaceRecursive b e d k = (true, b') ∧
      Replaces b b' e c [.wrapped d e] ∧ b'.root = b.root ∧ b'.extracted = b.extracted := by
  obtain ⟨F, I⟩ := reach_inv h
  obtain ⟨c, b', F', hp, I', hr, ho, hN⟩ := replaceRecursive_op I he d k
  exact ⟨c, b', hp, hN, hr, ho.1, ho.2.1⟩

/-- Extracting a subplan hands out that segment and removes it, and nothing else. -/
theorem extractSubplan_exact {b : Builder σ δ} (h : Reach b) {e : Id}
    (he : (b.map e).isSome = true) :
    ∃ c b', Program b.map e c ∧ (∃ N, ∀ n, N ≤ n → extractSubplan n b e = some (some c, b')) ∧
      Replaces b b' e c [] ∧ b'.root = b.root ∧ b'.extracted = b.extracted := by
  obtain ⟨F, I⟩ := reach_inv h
  obtain ⟨c, b', F', hp, I', hr, ho, hN, _⟩ := extractSubplan_op I he
  exact ⟨c, b', hp, hN, hr, ho.1, ho.2.1⟩

/-- A step is appended to the segment of its node, unless the node holds a
recursive program, and then `AddStep` says so. -/
theorem addStep_appends {b : Builder σ δ} (h : Reach b) {e : Id} (hc : b.current = some e) (s : σ) :
    ∃ c f b', Program b.map e c ∧ addStep b s = some (f, b') ∧
      (f = true → Replaces b b' e c (c ++ [.step s])) ∧
      (f = false ↔ ∃ d k q, b.map e = some ⟨.recur d k, q⟩) ∧
      (f = false → b' = b) ∧ b'.root = b.root ∧ b'.extracted = b.extracted := by
  obtain ⟨F, I⟩ := reach_inv h
  obtain ⟨c, h', F', f, hp, he, I', hr, hf, hs⟩ := subAddStep_op I (I.cur e hc) s
  refine ⟨c, f, { b with map := h' }, hp, by simp only [addStep, hc, he], hr, hf, fun hh => ?_,
    rfl, rfl⟩
  rw [hs hh]

/-- The same through `AddSubplanStep`, which reports success in either case. -/
theorem addSubplanStep_appends {b : Builder σ δ} (h : Reach b) {e : Id}
    (he : (b.map e).isSome = true) (s : σ) :
    ∃ c b', Program b.map e c ∧ addSubplanStep b e s = some (true, b') ∧
      ((∀ d k q, b.map e ≠ some ⟨.recur d k, q⟩) → Replaces b b' e c (c ++ [.step s])) ∧
      ((∃ d k q, b.map e = some ⟨.recur d k, q⟩) → b' = b) ∧
      b'.root = b.root ∧ b'.extracted = b.extracted := by
  obtain ⟨F, I⟩ := reach_inv h
  obtain ⟨c, h', F', f, hp, e', I', hr, hf, hs⟩ := subAddStep_op I he s
  cases hm : b.map e with
  | none => rw [hm] at he; exact nomatch he
  | some nd =>
    rw [hm] at hf
    refine ⟨c, { b with map := h' }, hp, by simp only [addSubplanStep, hm, e'], fun hno => ?_,
      fun hex => ?_, rfl, rfl⟩
    · refine hr ?_
      cases f with
      | true => rfl
      | false =>
        obtain ⟨d, k, q, h1⟩ := hf.1 rfl
        exact absurd h1 (hno d k q)
    · rw [hs (hf.2 hex)]

/-- Entering a node changes no program; a node that is already indexed is refused
and nothing happens. -/
theorem enter_changes_no_program {b b' : Builder σ δ} (h : Reach b) {e : Id} {f : Bool}
    (he : enter b e = some (f, b')) :
    SamePrograms b b' ∧ (f = false ↔ (b.map e).isSome = true) ∧ (f = false → b' = b) ∧
      b'.extracted = b.extracted := by
  obtain ⟨F, I⟩ := reach_inv h
  obtain ⟨F', I', hs, h1, h2⟩ := enter_op I he
  cases f with
  | false =>
    obtain ⟨ha, hb⟩ := h1 rfl
    exact ⟨hs, ⟨fun _ => hb, fun _ => rfl⟩, fun _ => ha, by rw [ha]⟩
  | true =>
    obtain ⟨ha, hb, hc, hd⟩ := h2 rfl
    exact ⟨hs, ⟨nofun, fun hh => by rw [ha] at hh; exact nomatch hh⟩, nofun, hc⟩

/-- Exiting a node changes no program, except that a recursive program whose node
is the only element of the exited one is from then on attributed to the latter. -/
theorem exit_changes_attribution_only {b b' : Builder σ δ} (h : Reach b) {e : Id}
    (he : exit b e = some b') :
    b'.root = b.root ∧ b'.extracted = b.extracted ∧
    (b'.map = b.map ∨ ∃ x d, Replaces b b' e [.wrapped d x] [.wrapped d e]) := by
  obtain ⟨F, I⟩ := reach_inv h
  obtain ⟨F', I', hc, hm, hr, hx⟩ := exit_op I he
  obtain ⟨F2, I2, h2⟩ := reassign_op I (I.cur e hc)
  refine ⟨hr, hx, ?_⟩
  rcases h2 with h2 | ⟨x, d, h2⟩
  · exact Or.inl (hm.trans h2)
  · refine Or.inr ⟨x, d, ?_⟩
    intro r hr
    rw [hm]; exact h2 r hr

/-- A successful `ExtractSubexpression` moves the segment, whole, from the program
it was part of to a subprogram with the next free index; an unsuccessful one does
nothing. -/
theorem extractSubexpression_moves {b b' : Builder σ δ} (h : Reach b) {e : Id} {k : Option Nat}
    (he : extractSubexpression b e = some (k, b')) :
    (k = none → b' = b) ∧
    (∀ j, k = some j → j = b.extracted.length ∧ b'.extracted = b.extracted ++ [e] ∧
      b'.root = b.root ∧
      ∃ c, Program b.map e c ∧ Program b'.map e c ∧ Replaces b b' e c []) := by
  obtain ⟨F, I⟩ := reach_inv h
  obtain ⟨F', I', h1, h2⟩ := extract_op I he
  refine ⟨h1, fun j hj => ?_⟩
  obtain ⟨a, b, c, _, d⟩ := h2 j hj
  exact ⟨a, b, c, d⟩

/-- It succeeds for every child of a tree plan. -/
theorem extractSubexpression_finds {b : Builder σ δ} (h : Reach b) {p e : Id} {q : Option Id}
    {es : List (Elem σ)} (hp : b.map p = some ⟨.tree es, q⟩) (he : Elem.sub e ∈ es) :
    ∃ b', extractSubexpression b e = some (some b.extracted.length, b') := by
  obtain ⟨F, I⟩ := reach_inv h
  obtain ⟨L, C, s, R, rfl, rfl⟩ := I.focus (i := p) (by rw [hp]; rfl)
  obtain ⟨hr, hn⟩ := I.focus_rep
  obtain ⟨q', e', _⟩ := hr.parent
  rw [hp] at e'
  simp only [Option.some.injEq, Node.mk.injEq] at e'
  cases s with
  | flat i l => simp [T.prog] at e'
  | recur i d k => simp [T.prog] at e'
  | tree i els =>
    simp only [T.prog, Prog.tree.injEq] at e'
    obtain ⟨l, m, hlm⟩ := List.append_of_mem he
    obtain ⟨p1, u, p2, g1, g2, g3, g4⟩ := shape_split els l m e (e'.1.symm.trans hlm)
    rw [Rep, g1, Es.app_rep, RepEs] at hr
    have hpu := hr.2.2.2.1
    rw [g4, parentOf] at hpu
    simp only [T.id] at hp
    cases hm : b.map e with
    | none => rw [hm] at hpu; exact nomatch hpu
    | some nd =>
      rw [hm] at hpu
      simp only [Option.map_some, Option.some.injEq] at hpu
      obtain ⟨es', hx⟩ := eraseChild_mem es he
      exact ⟨_, by simp only [extractSubexpression, hm, hpu, indexed, hp, Option.map_some, hx]; rfl⟩

/-! ## Sizes and jump offsets -/

/-- `ComputeSize` is the number of steps flattening will produce. -/
theorem size_is_program_length {b : Builder σ δ} (h : Reach b) {e : Id}
    (he : (b.map e).isSome = true) :
    ∃ c, Program b.map e c ∧ ∃ N, ∀ n, N ≤ n → computeSize n b.map e = some c.length := by
  obtain ⟨F, I⟩ := reach_inv h
  obtain ⟨L, C, s, R, rfl, rfl⟩ := I.focus he
  obtain ⟨hr, hn⟩ := I.focus_rep
  exact ⟨s.code, program_of_rep hr hn, computeSize_spec hr⟩

theorem Codes.split {h : Heap σ δ} : ∀ {l m : List (Elem σ)} {c : List (Out σ δ)},
    Codes h (l ++ m) c → ∃ a b, Codes h l a ∧ Codes h m b ∧ c = a ++ b
  | [], m, c, hc => ⟨[], c, .nil, hc, rfl⟩
  | .step s :: l, m, _, .step hc => by
    obtain ⟨a, b, h1, h2, h3⟩ := Codes.split hc
    exact ⟨_, b, .step h1, h2, by rw [h3]; rfl⟩
  | .sub i :: l, m, _, .sub hi hc => by
    obtain ⟨a, b, h1, h2, h3⟩ := Codes.split hc
    exact ⟨_, b, .sub hi h1, h2, by rw [h3, List.append_assoc]⟩

theorem Codes.join {h : Heap σ δ} : ∀ {l m : List (Elem σ)} {a b : List (Out σ δ)},
    Codes h l a → Codes h m b → Codes h (l ++ m) (a ++ b)
  | _, m, _, b, .nil, hb => hb
  | _, m, _, b, .step ha, hb => .step (Codes.join ha hb)
  | _, m, _, b, .sub hi ha, hb => by
    rw [List.append_assoc]; exact .sub hi (Codes.join ha hb)

theorem sumSizes_spec {b : Builder σ δ} (h : Reach b) : ∀ {l : List (Elem σ)} {c : List (Out σ δ)},
    Codes b.map l c → ∃ N, ∀ n, N ≤ n → sumSizes n b.map l = some c.length
  | _, _, .nil => ⟨0, fun n _ => rfl⟩
  | _, _, .step hc => by
    obtain ⟨N, hN⟩ := sumSizes_spec h hc
    exact ⟨N, fun n hn => by simp only [sumSizes, elemSize, hN n hn, List.length_cons]; congr 1; omega⟩
  | .sub i :: _, _, .sub hi hc => by
    obtain ⟨N, hN⟩ := sumSizes_spec h hc
    have hs : (b.map i).isSome = true := by
      obtain ⟨M, hM⟩ := hi
      obtain ⟨h', e⟩ := hM M (Nat.le_refl _)
      cases hb : b.map i with
      | some n => rfl
      | none => simp [flattenSubexpression, flatten, hb] at e
    obtain ⟨c', hp, M, hM⟩ := size_is_program_length h hs
    rw [hp.unique hi] at hM
    refine ⟨N + M, fun n hn => ?_⟩
    simp only [sumSizes, elemSize, hN n (by omega), hM n (by omega), List.length_append]

/-- The offset from the element `base`, a step, to the element `target` of the same
subexpression is the difference of their places in the program, counted from after
the base step: adding it to the program counter after the jump step leads to the
first step of the target — or of what follows, if the target is empty. -/
theorem offset_lands_on_target {b : Builder σ δ} (h : Reach b) {i : Id} {es : List (Elem σ)}
    {q : Option Id} (hi : b.map i = some ⟨.tree es, q⟩) {base target : Nat} {s : σ}
    (hb : es[base]? = some (.step s)) (ht : target ≤ es.length) :
    ∃ before rest upto onward : List (Out σ δ),
      Codes b.map (es.take base) before ∧ Codes b.map (es.take target) upto ∧
      Codes b.map (es.drop target) onward ∧
      Program b.map i (before ++ .step s :: rest) ∧ Program b.map i (upto ++ onward) ∧
      ∃ N, ∀ n, N ≤ n →
        ∃ off, calculateOffset n b.map i base target = some off ∧
          (before.length : Int) + 1 + off = upto.length := by
  obtain ⟨c, hc, _⟩ := program_exists h (e := i) (by rw [hi]; rfl)
  have hcc := (program_is_code h hi c).1 hc
  have hlt : base < es.length := by
    rw [List.getElem?_eq_some_iff] at hb; exact hb.1
  have hsplit : es = es.take base ++ (.step s :: es.drop (base + 1)) := by
    have h1 : es.drop base = .step s :: es.drop (base + 1) := by
      rw [List.getElem?_eq_some_iff] at hb
      obtain ⟨hl, he⟩ := hb
      rw [List.drop_eq_getElem_cons hl, he]
    rw [← h1, List.take_append_drop]
  have hc1 : Codes b.map (es.take base ++ (.step s :: es.drop (base + 1))) c := hsplit ▸ hcc
  obtain ⟨before, r1, k1, k2, k3⟩ := Codes.split hc1
  cases k2 with
  | @step _ _ rest k2 =>
  have hc2 : Codes b.map (es.take target ++ es.drop target) c := by
    rw [List.take_append_drop]; exact hcc
  obtain ⟨upto, onward, t1, t2, t3⟩ := Codes.split hc2
  have hbase1 : Codes b.map (es.take (base + 1)) (before ++ [.step s]) := by
    have : es.take (base + 1) = es.take base ++ [.step s] := by
      rw [List.take_add_one, hb]; rfl
    rw [this]; exact Codes.join k1 (.step .nil)
  refine ⟨before, rest, upto, onward, k1, t1, t2, k3 ▸ hc, t3 ▸ hc, ?_⟩
  by_cases hle : target ≤ base + 1
  · -- backward
    have hsl : es.take (base + 1) = es.take target ++ (es.drop target).take (base + 1 - target) := by
      rw [← List.take_add]; congr 1; omega
    have := hbase1
    rw [hsl] at this
    obtain ⟨a, m, m1, m2, m3⟩ := Codes.split this
    have ha := m1.unique t1
    subst ha
    obtain ⟨N, hN⟩ := sumSizes_spec h m2
    refine ⟨N, fun n hn => ⟨-(m.length : Int), ?_, ?_⟩⟩
    · have hno : ¬ (es.length < target ∨ es.length < base + 1) := by omega
      simp only [calculateOffset, hi, hle, decide_true, if_true, hno, if_false, hN n hn]
    · have := congrArg List.length m3
      simp only [List.length_append, List.length_cons, List.length_nil] at this
      omega
  · have hsl : es.take target = es.take (base + 1) ++ (es.drop (base + 1)).take (target - (base + 1)) := by
      rw [← List.take_add]; congr 1; omega
    have := t1
    rw [hsl] at this
    obtain ⟨a, m, m1, m2, m3⟩ := Codes.split this
    have ha := m1.unique hbase1
    subst ha
    obtain ⟨N, hN⟩ := sumSizes_spec h m2
    refine ⟨N, fun n hn => ⟨(m.length : Int), ?_, ?_⟩⟩
    · have hno : ¬ (es.length < base + 1 ∨ es.length < target) := by omega
      simp [calculateOffset, hi, hle, hno, hN n hn]
    · have := congrArg List.length m3
      simp only [List.length_append, List.length_cons, List.length_nil] at this
      omega

/-! ## Recursive programs of the children -/

theorem depthLoop_all {h : Heap σ δ} : ∀ (l : List (Elem σ)) (k j : Int),
    depthLoop h l k = some j →
    ∃ ds, AllRecursive h l ds ∧ j = ds.foldl (fun m d => max m d.2) k
  | [], k, j, e => by
    simp only [depthLoop, Option.some.injEq] at e
    exact ⟨[], .nil, e.symm⟩
  | .step _ :: _, k, j, e => nomatch e
  | .sub c :: r, k, j, e => by
    rw [depthLoop] at e
    split at e
    · rename_i d x q hc
      obtain ⟨ds, h1, h2⟩ := depthLoop_all r _ j e
      exact ⟨(d, x) :: ds, .cons hc h1, h2⟩
    · exact nomatch e

theorem all_depthLoop {h : Heap σ δ} {l : List (Elem σ)} {ds : List (δ × Int)}
    (a : AllRecursive h l ds) : ∀ k, depthLoop h l k = some (ds.foldl (fun m d => max m d.2) k) := by
  induction a with
  | nil => exact fun k => rfl
  | cons hc _ ih => intro k; simp only [depthLoop, hc, ih, List.foldl_cons]

/-- The depth is known exactly if every element is a child with a recursive
program, and it is then the largest of theirs. -/
theorem depth_is_maximum {b : Builder σ δ} {i : Id} {es : List (Elem σ)} {q : Option Id}
    (hi : b.map i = some ⟨.tree es, q⟩) :
    (∀ ds, AllRecursive b.map es ds →
      recursiveDependencyDepth b.map i = some (ds.foldl (fun m d => max m d.2) 0)) ∧
    (∀ k, recursiveDependencyDepth b.map i = some k → ∃ ds, AllRecursive b.map es ds) := by
  constructor
  · intro ds a
    simp only [recursiveDependencyDepth, hi]
    exact all_depthLoop a 0
  · intro k hk
    simp only [recursiveDependencyDepth, hi] at hk
    obtain ⟨ds, a, _⟩ := depthLoop_all es 0 k hk
    exact ⟨ds, a⟩

theorem depsLoop_all : ∀ (es : Es σ δ) (h : Heap σ δ) (acc : List δ) (ds : List (δ × Int)),
    es.ids.Nodup → AllRecursive h es.shape ds →
    (depsLoop h es.shape acc).1 = acc ++ ds.map Prod.fst
  | .nil, h, acc, _, _, .nil => by simp [Es.shape, depsLoop]
  | .step s r, h, acc, _, _, a => by rw [Es.shape] at a; cases a
  | .sub t r, h, acc, _, hn, a => by
    rw [Es.shape] at a ⊢
    rw [Es.ids, List.nodup_append] at hn
    cases a with
    | @cons c r' d k q ds hc a =>
      simp only [depsLoop, hc]
      have hne : t.id ∉ r.ids := fun hm => hn.2.2 t.id t.id_mem t.id hm rfl
      have a' : AllRecursive (set h t.id ⟨.tree [], q⟩) r.shape ds := by
        have key : ∀ (r : Es σ δ) (ds : List (δ × Int)), t.id ∉ r.ids → AllRecursive h r.shape ds →
            AllRecursive (set h t.id ⟨.tree [], q⟩) r.shape ds := by
          intro r
          refine Es.rec (motive_1 := fun _ => True) (motive_2 := fun r => ∀ ds, t.id ∉ r.ids →
            AllRecursive h r.shape ds → AllRecursive (set h t.id ⟨.tree [], q⟩) r.shape ds)
            (fun _ _ _ => trivial) (fun _ _ => trivial) (fun _ _ _ => trivial) ?_ ?_ ?_ r
          · intro ds _ a; rw [Es.shape] at a ⊢; cases a; exact .nil
          · intro s r _ ds _ a; rw [Es.shape] at a; cases a
          · intro u r _ ih ds hm a
            rw [Es.shape] at a ⊢
            rw [Es.ids, List.mem_append, not_or] at hm
            cases a with
            | cons hc a =>
              have hut : u.id ≠ t.id := fun e => hm.1 (e ▸ u.id_mem)
              exact .cons ((set_ne hut).trans hc) (ih _ hm.2 a)
        exact key r ds hne a
      rw [depsLoop_all r _ (acc ++ [d]) ds hn.2.1 a']
      simp

/-- The recursive programs of the children are handed over all and in order. -/
theorem dependencies_in_order {b : Builder σ δ} (h : Reach b) {i : Id} {es : List (Elem σ)}
    {q : Option Id} (hi : b.map i = some ⟨.tree es, q⟩) {ds : List (δ × Int)}
    (a : AllRecursive b.map es ds) :
    (extractRecursiveDependencies b i).1 = ds.map Prod.fst := by
  obtain ⟨F, I⟩ := reach_inv h
  obtain ⟨L, C, s, R, rfl, rfl⟩ := I.focus (i := i) (by rw [hi]; rfl)
  obtain ⟨hr, hn⟩ := I.focus_rep
  obtain ⟨q', e', _⟩ := hr.parent
  simp only [extractRecursiveDependencies, hi]
  rw [hi] at e'
  simp only [Option.some.injEq, Node.mk.injEq] at e'
  cases s with
  | flat i l => simp [T.prog] at e'
  | recur i d k => simp [T.prog] at e'
  | tree i els =>
    simp only [T.prog, Prog.tree.injEq] at e'
    rw [T.ids, List.nodup_cons] at hn
    rw [e'.1] at a ⊢
    have := depsLoop_all els b.map [] ds hn.2 a
    simpa using this

end
end Verif.Builder
