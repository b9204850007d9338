import Verif.Builder.Main
/-!
# Planning scripts build the expected tree
-/
set_option linter.unusedSimpArgs false
set_option linter.unusedVariables false

namespace Verif.Builder
section
variable {σ δ : Type}

def Ctx.comp : Ctx σ δ → Ctx σ δ → Ctx σ δ
  | .hole, D => D
  | .inn p pre c post, D => .inn p pre (c.comp D) post

theorem Ctx.comp_plug (D : Ctx σ δ) (s : T σ δ) : ∀ C : Ctx σ δ,
    (C.comp D).plug s = C.plug (D.plug s)
  | .hole => rfl
  | .inn p pre c post => by simp only [Ctx.comp, Ctx.plug, Ctx.comp_plug D s c]

mutual
/-- The tree a script builds. -/
def Plan.built : Plan σ δ → T σ δ
  | .node e items fin =>
    match (Plan.node e items fin).direct with
    | some (d, k) => .recur e d k
    | none => .tree e items.built
def Items.built : Items σ δ → Es σ δ
  | .nil => .nil
  | .step s r => .step s r.built
  | .sub p r => .sub p.built r.built
end

theorem Plan.built_id (p : Plan σ δ) : p.built.id = p.id := by
  cases p with
  | node e items fin =>
    rw [Plan.built]
    cases (Plan.node e items fin).direct with
    | none => rfl
    | some x => obtain ⟨d, k⟩ := x; rfl

mutual
theorem Plan.built_code : ∀ p : Plan σ δ, p.built.code = p.steps
  | .node e items fin => by
    rw [Plan.built, Plan.steps]
    cases (Plan.node e items fin).direct with
    | none => simp only [T.code]; exact Items.built_code items
    | some x => obtain ⟨d, k⟩ := x; rfl
theorem Items.built_code : ∀ it : Items σ δ, it.built.code = it.steps
  | .nil => rfl
  | .step s r => by rw [Items.built, Items.steps, Es.code, Items.built_code r]
  | .sub p r => by rw [Items.built, Items.steps, Es.code, Items.built_code r, Plan.built_code p]
end

/-- The effect of `MaybeReassignChildRecursiveProgram` on a tree. -/
def lift : T σ δ → T σ δ
  | .tree p (.sub (.recur _ d k) .nil) => .recur p d k
  | t => t

theorem lift_built (e : Id) (items : Items σ δ) :
    lift (.tree e items.built) = (Plan.node e items none).built := by
  rw [Plan.built, Plan.direct]
  cases items with
  | nil => rfl
  | step s r => rfl
  | sub p r =>
    cases r with
    | step s r =>
      simp only [Items.built, Items.direct]
      generalize p.built = t
      cases t <;> rfl
    | sub q r =>
      simp only [Items.built, Items.direct]
      generalize p.built = t
      cases t <;> rfl
    | nil =>
      simp only [Items.built, Items.direct]
      cases p with
      | node e' it f =>
        rw [Plan.built]
        cases hd : (Plan.node e' it f).direct with
        | none => rfl
        | some x => obtain ⟨d, k⟩ := x; rfl

theorem maybeReassign_eq {h : Heap σ δ} {i : Id} {es : Es σ δ} (hr : Rep h (.tree i es))
    (hs : lift (.tree i es) = .tree i es) : maybeReassign h i = h := by
  have hr0 := hr
  rw [Rep] at hr
  obtain ⟨q, e⟩ := progOf_some hr.1
  rw [maybeReassign, e]
  cases es with
  | nil => rfl
  | step y r => rfl
  | sub u r =>
    cases r with
    | step y r => rfl
    | sub u' r => rfl
    | nil =>
      simp only [Es.shape]
      rw [RepEs] at hr
      obtain ⟨qu, eu⟩ := progOf_some hr.2.1.prog
      rw [eu]
      cases u with
      | flat j l => rfl
      | tree j l => rfl
      | recur j d k => simp [lift] at hs

theorem reassign_at {b : Builder σ δ} {L : List (T σ δ)} {C : Ctx σ δ} {e : Id} {es : Es σ δ}
    {R : List (T σ δ)} (I : Inv b (L ++ Ctx.plug C (.tree e es) :: R)) :
    ∃ R', Inv { b with map := maybeReassign b.map e }
      (L ++ Ctx.plug C (lift (.tree e es)) :: R') := by
  obtain ⟨hr, hn⟩ := I.focus_rep
  by_cases hs : lift (.tree e es) = .tree e es
  · rw [maybeReassign_eq hr hs, hs]; exact ⟨R, I⟩
  · have : ∃ x d k, es = .sub (.recur x d k) .nil := by
      cases es with
      | nil => exact absurd rfl hs
      | step y r => exact absurd rfl hs
      | sub u r =>
        cases r with
        | step y r => exact absurd (by cases u <;> rfl) hs
        | sub u' r => exact absurd (by cases u <;> rfl) hs
        | nil =>
          cases u with
          | flat j l => exact absurd rfl hs
          | tree j l => exact absurd rfl hs
          | recur j d k => exact ⟨j, d, k, rfl⟩
    obtain ⟨x, d, k, rfl⟩ := this
    obtain ⟨q, ee, hq⟩ := hr.parent
    simp only [T.id, T.prog, Es.shape] at ee hq
    have hx : ∃ qx, b.map x = some ⟨.recur d k, qx⟩ := by
      rw [Rep, RepEs, Rep] at hr
      exact progOf_some hr.2.1
    obtain ⟨qx, ex⟩ := hx
    have U := loc_reassign (qc := qx) hr hn hq
    have hm : maybeReassign b.map e = set (set b.map x ⟨.tree [], qx⟩) e ⟨.recur d k, q⟩ := by
      simp only [maybeReassign, ee, ex]
    rw [hm]
    exact ⟨_, I.update U List.nodup_nil (by simp)⟩

theorem reassign_none {h : Heap σ δ} {c x : Id} (e : h x = none) (hc : (h c).isSome = true)
    (hd : ∀ p q es, h p = some ⟨.tree es, q⟩ → ∀ y, Elem.sub y ∈ es → (h y).isSome = true) :
    maybeReassign h c x = none := by
  have hxc : x ≠ c := by rintro rfl; rw [e] at hc; exact nomatch hc
  generalize hg : maybeReassign h c = g
  unfold maybeReassign at hg
  split at hg
  · rename_i c' pp he
    split at hg
    · rename_i d k cp hc'
      subst hg
      have hx' : x ≠ c' := by rintro rfl; rw [e] at hc'; exact nomatch hc'
      rw [set_ne hxc, set_ne hx', e]
    · subst hg; exact e
  · subst hg; exact e

/-- Exiting a node that holds a tree or a recursive program. -/
theorem exit_at {b : Builder σ δ} {L : List (T σ δ)} {C : Ctx σ δ} {e : Id} {s : T σ δ}
    {R : List (T σ δ)} (I : Inv b (L ++ Ctx.plug C s :: R)) (hs : s.id = e)
    (hc : b.current = some e) (hshape : (∃ es, s = .tree e es) ∨ ∃ d k, s = .recur e d k) :
    ∃ R' b' q, parentOf b.map e = some q ∧ exit b e = some b' ∧
      Inv b' (L ++ Ctx.plug C (lift s) :: R') ∧ b'.current = indexed b.map q ∧
      b'.root = b.root ∧ b'.extracted = b.extracted ∧
      (∀ x, b.map x = none → b'.map x = none) := by
  obtain ⟨hr, hn⟩ := I.focus_rep
  obtain ⟨q, ee, hq⟩ := hr.parent
  rw [hs] at ee hq
  have hex : exit b e = some { b with map := maybeReassign b.map e, current := indexed b.map q } := by
    simp [exit, hc, ee]
  have hIdx : ∀ c, indexed b.map q = some c → (b.map c).isSome = true := by
    intro x hx
    cases q with
    | none => exact nomatch hx
    | some y =>
      rw [indexed] at hx
      cases hy : b.map y with
      | none => rw [hy] at hx; exact nomatch hx
      | some z =>
        rw [hy] at hx
        simp only [Option.map_some, Option.some.injEq] at hx
        subst hx
        rw [hy]; rfl
  have hsome : (b.map e).isSome = true := by rw [ee]; rfl
  have hI : ∃ R', Inv { b with map := maybeReassign b.map e } (L ++ Ctx.plug C (lift s) :: R') := by
    rcases hshape with ⟨es, rfl⟩ | ⟨d, k, rfl⟩
    · exact reassign_at I
    · have : maybeReassign b.map e = b.map := by
        simp only [T.prog] at ee
        simp only [maybeReassign, ee]
      rw [this]; exact ⟨R, I⟩
  obtain ⟨R', I'⟩ := hI
  refine ⟨R', _, q, hq, hex, ⟨I'.nodup, I'.rep, I'.dom, I'.root, I'.ext, ?_, I'.extnd, I'.rootext⟩,
    rfl, rfl, rfl, ?_⟩
  · intro c hc'
    exact reassign_dom (hIdx c hc')
  · intro x hx
    refine reassign_none hx hsome ?_
    intro p q' es hp y hy
    have hpd : (b.map p).isSome = true := by rw [hp]; rfl
    obtain ⟨L1, C1, s1, R1, hF, h1⟩ := I.focus hpd
    rw [hF] at I
    obtain ⟨hr1, _⟩ := I.focus_rep
    obtain ⟨q1, e1, _⟩ := hr1.parent
    rw [h1, hp] at e1
    simp only [Option.some.injEq, Node.mk.injEq] at e1
    have hdom := Rep.dom s1 hr1
    cases s1 with
    | flat i l => simp [T.prog] at e1
    | recur i d k => simp [T.prog] at e1
    | tree i es1 =>
      simp only [T.prog, Prog.tree.injEq] at e1
      rw [e1.1] at hy
      obtain ⟨l, m, hlm⟩ := List.append_of_mem hy
      obtain ⟨p1, u, p2, g1, g2, g3, g4⟩ := shape_split es1 l m y hlm
      refine hdom y ?_
      rw [T.ids, g1, Es.app_ids, Es.ids, ← g4]; simp [T.id_mem]

theorem addStep_at {b : Builder σ δ} {L : List (T σ δ)} {C : Ctx σ δ} {c : Id} {es : Es σ δ}
    {R : List (T σ δ)} (I : Inv b (L ++ Ctx.plug C (.tree c es) :: R)) (hc : b.current = some c)
    (s : σ) :
    ∃ R' b', addStep b s = some (true, b') ∧
      Inv b' (L ++ Ctx.plug C (.tree c (es.app (.step s .nil))) :: R') ∧
      b'.current = some c ∧ b'.root = b.root ∧ b'.extracted = b.extracted ∧
      (∀ x, b.map x = none → b'.map x = none) := by
  obtain ⟨hr, hn⟩ := I.focus_rep
  obtain ⟨q, e, hq⟩ := hr.parent
  simp only [T.id, T.prog] at e hq
  have U := loc_elems (es' := es.app (.step s .nil)) (G := []) hr hn hq
    (by simp [Es.app_ids, Es.ids, idsF])
    (fun h' hh => by rw [Es.app_rep]; exact ⟨hh, by rw [RepEs, RepEs]; trivial⟩)
    (fun h' hh => nofun)
  have I' := I.update U List.nodup_nil (by simp)
  refine ⟨_, _, ?_, I', hc, rfl, rfl, ?_⟩
  · simp only [addStep, hc, subAddStep, e, Es.app_shape, Es.shape]
  · intro x hx
    have : x ≠ c := by rintro rfl; rw [e] at hx; exact nomatch hx
    show set b.map c _ x = none
    rw [set_ne this, hx]

theorem enter_at {b : Builder σ δ} {L : List (T σ δ)} {C : Ctx σ δ} {c e : Id} {es : Es σ δ}
    {R : List (T σ δ)} (I : Inv b (L ++ Ctx.plug C (.tree c es) :: R)) (hc : b.current = some c)
    (he : b.map e = none) :
    ∃ R' b', enter b e = some (true, b') ∧
      Inv b' (L ++ Ctx.plug (C.comp (.inn c es .hole .nil)) (.tree e .nil) :: R') ∧
      b'.current = some e ∧ b'.root = b.root ∧ b'.extracted = b.extracted ∧
      (∀ x, b.map x = none → x ≠ e → b'.map x = none) := by
  obtain ⟨hr, hn⟩ := I.focus_rep
  obtain ⟨q, ec, hq⟩ := hr.parent
  simp only [T.id, T.prog] at ec hq
  have U := loc_enter hr hn hq he
  have I' := I.update U (by simp) (by simpa using he)
  rw [show Ctx.plug C (.tree c (es.app (.sub (.tree e .nil) .nil))) =
    Ctx.plug (C.comp (.inn c es .hole .nil)) (.tree e .nil) from by
      rw [Ctx.comp_plug]; rfl] at I'
  refine ⟨_, { b with
      map := set (set b.map e ⟨.tree [], some c⟩) c ⟨.tree (es.shape ++ [.sub e]), q⟩,
      current := some e }, by simp only [enter, he, hc, ec],
    ⟨I'.nodup, I'.rep, I'.dom, I'.root, I'.ext, ?_, I'.extnd, I'.rootext⟩, rfl, rfl, rfl, ?_⟩
  · intro c' hc'
    simp only [Option.some.injEq] at hc'
    subst hc'
    obtain ⟨hr', _⟩ := I'.focus_rep
    exact Rep.dom _ hr' _ (by simp [T.ids])
  · intro x hx hxe
    have : x ≠ c := by rintro rfl; rw [ec] at hx; exact nomatch hx
    show set (set b.map e _) c _ x = none
    rw [set_ne this, set_ne hxe, hx]

theorem Items.built_app (es : Es σ δ) (s : σ) (r : Es σ δ) :
    (es.app (.step s .nil)).app r = es.app (.step s r) := by
  induction es using Es.rec (motive_1 := fun _ => True) with
  | nil => rfl
  | step x y ih => simp only [Es.app, ih]
  | sub t y _ ih => simp only [Es.app, ih]
  | tree => trivial
  | flat => trivial
  | recur => trivial

theorem Items.built_app' (es : Es σ δ) (t : T σ δ) (r : Es σ δ) :
    (es.app (.sub t .nil)).app r = es.app (.sub t r) := by
  induction es using Es.rec (motive_1 := fun _ => True) with
  | nil => rfl
  | step x y ih => simp only [Es.app, ih]
  | sub t y _ ih => simp only [Es.app, ih]
  | tree => trivial
  | flat => trivial
  | recur => trivial

theorem Es.app_nil : ∀ es : Es σ δ, es.app .nil = es
  | .nil => rfl
  | .step s r => by rw [Es.app, Es.app_nil r]
  | .sub t r => by rw [Es.app, Es.app_nil r]

mutual
theorem Plan.sim : ∀ (p : Plan σ δ) (b : Builder σ δ) (L : List (T σ δ)) (C : Ctx σ δ) (c : Id)
    (es : Es σ δ) (R : List (T σ δ)), Inv b (L ++ Ctx.plug C (.tree c es) :: R) →
    b.current = some c → p.entered.Nodup → (∀ i ∈ p.entered, b.map i = none) →
    ∃ b' R', p.run b = some b' ∧ Inv b' (L ++ Ctx.plug C (.tree c (es.app (.sub p.built .nil))) :: R') ∧
      b'.current = some c ∧ b'.root = b.root ∧ b'.extracted = b.extracted ∧
      (∀ x, b.map x = none → x ∉ p.entered → b'.map x = none)
  | .node e items fin, b, L, C, c, es, R, I, hc, hn, hf => by
    rw [Plan.entered, List.nodup_cons] at hn
    rw [Plan.entered] at hf
    obtain ⟨R1, b1, r1, I1, c1, o1, x1, d1⟩ := enter_at I hc (hf e (by simp))
    have hf1 : ∀ i ∈ items.entered, b1.map i = none := fun i hi =>
      d1 i (hf i (by simp [hi])) (fun h => hn.1 (h ▸ hi))
    obtain ⟨b2, R2, r2, I2, c2, o2, x2, d2⟩ :=
      Items.sim items b1 L (C.comp (.inn c es .hole .nil)) e .nil R1 I1 c1 hn.2 hf1
    rw [show (Es.nil : Es σ δ).app items.built = items.built from rfl] at I2
    -- the parent of the node is `c`, which is indexed
    have hpar : parentOf b2.map e = some (some c) ∧ (b2.map c).isSome = true := by
      have := I2.rep _ (List.mem_append_right _ (List.mem_cons_self ..))
      rw [Ctx.comp_plug, Ctx.plug_rep, Ctx.plug, Rep, Es.app_rep, RepEs] at this
      obtain ⟨qq, ee⟩ := progOf_some this.2.1
      exact ⟨this.2.2.2.2.1, by rw [ee]; rfl⟩
    have hidx : indexed b2.map (some c) = some c := by
      rw [indexed]
      cases h : b2.map c with
      | none => rw [h] at hpar; exact nomatch hpar.2
      | some n => rfl
    have hkeep : ∀ x, b.map x = none → x ∉ e :: items.entered → b2.map x = none := by
      intro x hx hm
      rw [List.mem_cons, not_or] at hm
      exact d2 x (d1 x hx hm.1) hm.2
    cases fin with
    | none =>
      obtain ⟨R3, b3, q, hq, r3, I3, c3, o3, x3, d3⟩ := exit_at (e := e) I2 rfl c2 (Or.inl ⟨_, rfl⟩)
      rw [hpar.1] at hq
      simp only [Option.some.injEq] at hq
      subst hq
      rw [hidx] at c3
      rw [lift_built, Ctx.comp_plug] at I3
      refine ⟨b3, R3, ?_, I3, c3, by rw [o3, o2, o1], by rw [x3, x2, x1], ?_⟩
      · simp only [Plan.run, r1, r2, r3]
      · intro x hx hm
        rw [Plan.entered] at hm
        exact d3 x (hkeep x hx hm)
    | some dk =>
      obtain ⟨d, k⟩ := dk
      obtain ⟨hr2, hn2⟩ := I2.focus_rep
      obtain ⟨q2, e2, hq2⟩ := hr2.parent
      have I2' := I2.update (loc_recur hr2 hn2 hq2 d k) List.nodup_nil (by simp)
      simp only [T.id] at I2' e2 hq2
      have hrr : replaceRecursive b2 e d k =
          (true, { b2 with map := set b2.map e ⟨.recur d k, q2⟩ }) := by
        simp only [replaceRecursive, e2]
      obtain ⟨R3, b3, q, hq, r3, I3, c3, o3, x3, d3⟩ :=
        exit_at (e := e) (s := .recur e d k) I2' rfl c2 (Or.inr ⟨_, _, rfl⟩)
      have hqe : q = some c := by
        have h1 : parentOf (set b2.map e ⟨.recur d k, q2⟩) e = some q := hq
        rw [parentOf, set_self] at h1
        simp only [Option.map_some, Option.some.injEq] at h1
        rw [hpar.1] at hq2
        simp only [Option.some.injEq] at hq2
        rw [← h1, hq2]
      subst hqe
      have hidx' : indexed (set b2.map e ⟨.recur d k, q2⟩) (some c) = some c := by
        have hs : (set b2.map e ⟨.recur d k, q2⟩ c).isSome = true := set_dom hpar.2
        rw [indexed]
        cases h : set b2.map e ⟨.recur d k, q2⟩ c with
        | none => rw [h] at hs; exact nomatch hs
        | some n => rfl
      have c3' : b3.current = some c := c3.trans hidx'
      rw [Ctx.comp_plug] at I3
      refine ⟨b3, R3, ?_, I3, c3', by rw [o3]; exact o2.trans o1, by rw [x3]; exact x2.trans x1, ?_⟩
      · simp only [Plan.run, r1, r2, hrr, r3]
      · intro x hx hm
        rw [Plan.entered] at hm
        refine d3 x ?_
        have hxe : x ≠ e := fun h => hm (by simp [h])
        show set b2.map e _ x = none
        rw [set_ne hxe]; exact hkeep x hx hm
theorem Items.sim : ∀ (it : Items σ δ) (b : Builder σ δ) (L : List (T σ δ)) (C : Ctx σ δ) (c : Id)
    (es : Es σ δ) (R : List (T σ δ)), Inv b (L ++ Ctx.plug C (.tree c es) :: R) →
    b.current = some c → it.entered.Nodup → (∀ i ∈ it.entered, b.map i = none) →
    ∃ b' R', it.run b = some b' ∧ Inv b' (L ++ Ctx.plug C (.tree c (es.app it.built)) :: R') ∧
      b'.current = some c ∧ b'.root = b.root ∧ b'.extracted = b.extracted ∧
      (∀ x, b.map x = none → x ∉ it.entered → b'.map x = none)
  | .nil, b, L, C, c, es, R, I, hc, _, _ => by
    refine ⟨b, R, rfl, ?_, hc, rfl, rfl, fun x hx _ => hx⟩
    rw [Items.built, Es.app_nil]; exact I
  | .step s r, b, L, C, c, es, R, I, hc, hn, hf => by
    rw [Items.entered] at hn hf
    obtain ⟨R1, b1, r1, I1, c1, o1, x1, d1⟩ := addStep_at I hc s
    obtain ⟨b2, R2, r2, I2, c2, o2, x2, d2⟩ :=
      Items.sim r b1 L C c _ R1 I1 c1 hn (fun i hi => d1 i (hf i hi))
    rw [Items.built_app] at I2
    refine ⟨b2, R2, by simp only [Items.run, r1, r2], I2, c2, o2.trans o1, x2.trans x1, ?_⟩
    intro x hx hm
    rw [Items.entered] at hm
    exact d2 x (d1 x hx) hm
  | .sub p r, b, L, C, c, es, R, I, hc, hn, hf => by
    rw [Items.entered] at hf
    rw [Items.entered, List.nodup_append] at hn
    obtain ⟨b1, R1, r1, I1, c1, o1, x1, d1⟩ := Plan.sim p b L C c es R I hc hn.1
      (fun i hi => hf i (by simp [hi]))
    obtain ⟨b2, R2, r2, I2, c2, o2, x2, d2⟩ :=
      Items.sim r b1 L C c _ R1 I1 c1 hn.2.1
        (fun i hi => d1 i (hf i (by simp [hi])) (fun h => hn.2.2 i h i hi rfl))
    rw [Items.built_app'] at I2
    refine ⟨b2, R2, by simp only [Items.run, r1, r2], I2, c2, o2.trans o1, x2.trans x1, ?_⟩
    intro x hx hm
    rw [Items.entered, List.mem_append, not_or] at hm
    exact d2 x (d1 x hx hm.1) hm.2
end

end
end Verif.Builder
