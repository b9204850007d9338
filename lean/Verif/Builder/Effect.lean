import Verif.Builder.Forest
import Verif.Builder.Spec
/-!
# What a local update does to the programs
-/
set_option linter.unusedSimpArgs false
set_option linter.unusedVariables false

namespace Verif.Builder
section
variable {σ δ : Type}

theorem Program.unique {h : Heap σ δ} {r : Id} {c c' : List (Out σ δ)}
    (a : Program h r c) (b : Program h r c') : c = c' := by
  obtain ⟨N, hN⟩ := a
  obtain ⟨M, hM⟩ := b
  obtain ⟨h1, e1⟩ := hN (N + M) (by omega)
  obtain ⟨h2, e2⟩ := hM (N + M) (by omega)
  rw [e1] at e2
  simp only [Option.some.injEq, Prod.mk.injEq] at e2
  exact e2.1

/-- The heap after flattening a tree and moving its steps out. -/
def drained (h : Heap σ δ) (t : T σ δ) : Heap σ δ :=
  fun i => if i = t.id then (h i).map (fun n => ⟨.tree [], n.parent⟩) else flattened h t i

theorem flattenSub_spec {h : Heap σ δ} {t : T σ δ} (hr : Rep h t) (hn : t.ids.Nodup) :
    ∃ N, ∀ n, N ≤ n → flattenSubexpression n h t.id = some (t.code, drained h t) := by
  obtain ⟨N, hN⟩ := flatten_spec hr hn
  refine ⟨N, fun n hle => ?_⟩
  obtain ⟨q, e⟩ := progOf_some hr.prog
  have hs : flattened h t t.id = some ⟨.flat t.code, q⟩ := by
    rw [flattened, if_pos rfl, e]; rfl
  rw [flattenSubexpression, hN n hle]
  simp only [extractTo, hs, Option.some.injEq, Prod.mk.injEq, true_and]
  funext j
  by_cases hj : j = t.id
  · subst hj; simp [set, drained, e]
  · simp [set, drained, hj]

theorem program_of_rep {h : Heap σ δ} {t : T σ δ} (hr : Rep h t) (hn : t.ids.Nodup) :
    Program h t.id t.code := by
  obtain ⟨N, hN⟩ := flattenSub_spec hr hn
  exact ⟨N, fun n hle => ⟨_, hN n hle⟩⟩

theorem codes_of_rep {h : Heap σ δ} {p : Id} : ∀ es : Es σ δ, RepEs h p es → es.ids.Nodup →
    Codes h es.shape es.code
  | .nil, _, _ => .nil
  | .step s r, hr, hn => by
    rw [RepEs] at hr; rw [Es.ids] at hn
    exact .step (codes_of_rep r hr hn)
  | .sub t r, hr, hn => by
    rw [RepEs] at hr
    rw [Es.ids, List.nodup_append] at hn
    exact .sub (program_of_rep hr.1 hn.1) (codes_of_rep r hr.2.2 hn.2.1)

theorem Codes.unique {h : Heap σ δ} : ∀ {l : List (Elem σ)} {c c' : List (Out σ δ)},
    Codes h l c → Codes h l c' → c = c'
  | [], _, _, .nil, .nil => rfl
  | .step _ :: _, _, _, .step a, .step b => by rw [Codes.unique a b]
  | .sub _ :: _, _, _, .sub a b, .sub a' b' => by rw [a.unique a', Codes.unique b b']

/-- A context is a position in the program. -/
theorem seg_of_ctx {h : Heap σ δ} {s : T σ δ} : ∀ C : Ctx σ δ, Rep h (C.plug s) →
    (C.plug s).ids.Nodup → Seg h (C.plug s).id s.id C.pre C.post
  | .hole, _, _ => .here
  | .inn p pre c post, hr, hn => by
    rw [Ctx.plug, Rep] at hr
    obtain ⟨q, e⟩ := progOf_some hr.1
    rw [Es.app_shape, Es.shape] at e
    rw [Ctx.plug, T.ids, Es.app_ids, Es.ids, List.nodup_cons, List.nodup_append,
      List.nodup_append] at hn
    have h2 := hr.2
    rw [Es.app_rep, RepEs] at h2
    exact .child (show h p = _ from e) (codes_of_rep pre h2.1 hn.2.1) (codes_of_rep post h2.2.2.2 hn.2.2.1.2.1)
      (seg_of_ctx c h2.2.1 hn.2.2.1.1)

theorem shape_split : ∀ (es : Es σ δ) (l m : List (Elem σ)) (c : Id),
    es.shape = l ++ .sub c :: m →
    ∃ pre u post, es = Es.app pre (.sub u post) ∧ pre.shape = l ∧ post.shape = m ∧ u.id = c
  | .nil, l, m, c, h => by cases l <;> exact nomatch h
  | .step s r, [], m, c, h => nomatch h
  | .step s r, x :: l, m, c, h => by
    rw [Es.shape, List.cons_append, List.cons.injEq] at h
    obtain ⟨pre, u, post, h1, h2, h3, h4⟩ := shape_split r l m c h.2
    exact ⟨.step s pre, u, post, by rw [Es.app, h1], by rw [Es.shape, h2, h.1], h3, h4⟩
  | .sub t r, [], m, c, h => by
    rw [Es.shape, List.nil_append, List.cons.injEq] at h
    injection h.1 with h1
    exact ⟨.nil, t, r, rfl, rfl, h.2, h1⟩
  | .sub t r, x :: l, m, c, h => by
    rw [Es.shape, List.cons_append, List.cons.injEq] at h
    obtain ⟨pre, u, post, h1, h2, h3, h4⟩ := shape_split r l m c h.2
    exact ⟨.sub t pre, u, post, by rw [Es.app, h1], by rw [Es.shape, h2, h.1], h3, h4⟩

/-- A position in the program is a context. -/
theorem ctx_of_seg {h : Heap σ δ} {r i : Id} {pre post : List (Out σ δ)}
    (sg : Seg h r i pre post) : ∀ t : T σ δ, Rep h t → t.ids.Nodup → t.id = r →
    ∃ C s, t = Ctx.plug C s ∧ s.id = i ∧ C.pre = pre ∧ C.post = post := by
  induction sg with
  | here => exact fun t _ _ ht => ⟨.hole, t, rfl, ht, rfl, rfl⟩
  | @child r q c i l m cl cm pre post he hl hm _ ih =>
    intro t hr hn ht
    have hp := hr.prog
    rw [ht, progOf, he] at hp
    cases t with
    | flat j x => simp [T.prog] at hp
    | recur j x y => simp [T.prog] at hp
    | tree j es =>
      simp only [Option.map_some, T.prog, Option.some.injEq, Prog.tree.injEq] at hp
      obtain ⟨p1, u, p2, e1, e2, e3, e4⟩ := shape_split es l m c hp.symm
      subst e1
      rw [Rep, Es.app_rep, RepEs] at hr
      rw [T.ids, Es.app_ids, Es.ids, List.nodup_cons, List.nodup_append, List.nodup_append] at hn
      obtain ⟨C, s, e5, e6, e7, e8⟩ := ih u hr.2.2.1 hn.2.2.1.1 e4
      refine ⟨.inn j p1 C p2, s, by rw [Ctx.plug, e5], e6, ?_, ?_⟩
      · rw [Ctx.pre, e7, Codes.unique hl (e2 ▸ codes_of_rep p1 hr.2.1 hn.2.1)]
      · rw [Ctx.post, e8, Codes.unique hm (e3 ▸ codes_of_rep p2 hr.2.2.2.2 hn.2.2.1.2.1)]

theorem mem_plug {C : Ctx σ δ} {s : T σ δ} : s.id ∈ (C.plug s).ids :=
  (Ctx.plug_ids s C).mem_iff.2 (List.mem_append_right _ s.id_mem)

theorem app_inj {i : Id} {u u' : T σ δ} {post post' : Es σ δ} (hu : i ∈ u.ids) (hu' : i ∈ u'.ids) :
    ∀ (pre pre' : Es σ δ), (pre.app (.sub u post)).ids.Nodup →
    pre.app (.sub u post) = pre'.app (.sub u' post') → pre = pre' ∧ u = u' ∧ post = post'
  | .nil, .nil, hn, e => by
    simp only [Es.app, Es.sub.injEq] at e
    exact ⟨rfl, e⟩
  | .nil, .sub t r, hn, e => by
    simp only [Es.app, Es.sub.injEq] at e
    simp only [Es.app, Es.ids, List.nodup_append] at hn
    refine absurd rfl (hn.2.2 i hu i ?_)
    rw [e.2, Es.app_ids, Es.ids]; simp [hu']
  | .nil, .step t r, hn, e => by simp [Es.app] at e
  | .step s r, .nil, hn, e => by simp [Es.app] at e
  | .step s r, .step s' r', hn, e => by
    simp only [Es.app, Es.step.injEq] at e
    simp only [Es.app, Es.ids] at hn
    obtain ⟨h1, h2⟩ := app_inj hu hu' r r' hn e.2
    exact ⟨by rw [e.1, h1], h2⟩
  | .step s r, .sub t r', hn, e => by simp [Es.app] at e
  | .sub t r, .nil, hn, e => by
    simp only [Es.app, Es.sub.injEq] at e
    simp only [Es.app, Es.ids, List.nodup_append] at hn
    refine absurd rfl (hn.2.2 i (e.1 ▸ hu') i ?_)
    rw [Es.app_ids, Es.ids]; simp [hu]
  | .sub t r, .step s r', hn, e => by simp [Es.app] at e
  | .sub t r, .sub t' r', hn, e => by
    simp only [Es.app, Es.sub.injEq] at e
    simp only [Es.app, Es.ids, List.nodup_append] at hn
    obtain ⟨h1, h2⟩ := app_inj hu hu' r r' hn.2.1 e.2
    exact ⟨by rw [e.1, h1], h2⟩

/-- A node occurs at one place only. -/
theorem plug_inj {s s' : T σ δ} (hid : s'.id = s.id) : ∀ (C C' : Ctx σ δ),
    (C.plug s).ids.Nodup → C.plug s = C'.plug s' → C = C' ∧ s = s'
  | .hole, .hole, hn, e => ⟨rfl, e⟩
  | .hole, .inn p pre c post, hn, e => by
    exfalso
    simp only [Ctx.plug] at e hn
    rw [e] at hn
    have : p = s'.id := by rw [hid, e]; rfl
    rw [T.ids, List.nodup_cons] at hn
    apply hn.1
    rw [Es.app_ids, Es.ids, this]; simp [mem_plug]
  | .inn p pre c post, .hole, hn, e => by
    exfalso
    simp only [Ctx.plug] at e hn
    have : p = s.id := by rw [← hid, ← e]; rfl
    rw [T.ids, List.nodup_cons] at hn
    apply hn.1
    rw [Es.app_ids, Es.ids, this]; simp [mem_plug]
  | .inn p pre c post, .inn p' pre' c' post', hn, e => by
    simp only [Ctx.plug, T.tree.injEq] at e
    simp only [Ctx.plug, T.ids, List.nodup_cons] at hn
    obtain ⟨h1, h2, h3⟩ := app_inj (i := s.id) (mem_plug (C := c)) (hid ▸ mem_plug (C := c'))
      pre pre' hn.2 e.2
    have hn' := hn.2
    rw [Es.app_ids, Es.ids, List.nodup_append, List.nodup_append] at hn'
    obtain ⟨h4, h5⟩ := plug_inj hid c c' hn'.2.1.1 h2
    exact ⟨by rw [e.1, h1, h3, h4], h5⟩

theorem Inv.program {b : Builder σ δ} {F : List (T σ δ)} (I : Inv b F) {t : T σ δ} (ht : t ∈ F) :
    Program b.map t.id t.code :=
  program_of_rep (I.rep t ht) (idsF_nodup_mem I.nodup ht)

/-- The effect of a local update on the program of a tree root. -/
theorem update_effect {b : Builder σ δ} {L : List (T σ δ)} {C : Ctx σ δ} {s s' : T σ δ}
    {R G : List (T σ δ)} {b' : Builder σ δ}
    (I : Inv b (L ++ Ctx.plug C s :: R)) (I' : Inv b' (L ++ Ctx.plug C s' :: (R ++ G)))
    (hid : s'.id = s.id) {r : Id} (hr : Top (L ++ Ctx.plug C s :: R) r) :
    (∀ pre post, Seg b.map r s.id pre post →
      Program b.map r (pre ++ s.code ++ post) ∧ Program b'.map r (pre ++ s'.code ++ post)) ∧
    ((∀ pre post, ¬ Seg b.map r s.id pre post) →
      ∀ c, Program b.map r c → Program b'.map r c) := by
  obtain ⟨t, ht, hid'⟩ := hr
  have hn := idsF_nodup_mem I.nodup ht
  have hrep := I.rep t ht
  have hp := I.program ht
  constructor
  · intro pre post sg
    obtain ⟨C', u, e1, e2, e3, e4⟩ := ctx_of_seg sg t hrep hn hid'
    have hut : s.id ∈ t.ids := by rw [← e2, e1]; exact mem_plug
    have heq : t = C.plug s := forest_unique I.nodup ht (by simp) hut mem_plug
    obtain ⟨hC, hs⟩ := plug_inj e2 C C' (heq ▸ hn) (heq ▸ e1)
    subst hC
    constructor
    · rw [heq, Ctx.plug_code, e3, e4] at hp
      rw [← hid', heq]; exact hp
    · have := I'.program (t := C.plug s') (by simp)
      rw [Ctx.plug_code, e3, e4, Ctx.plug_id hid, ← heq, hid'] at this
      exact this
  · intro hno c hc
    rw [hid'] at hp
    rw [hc.unique hp]
    rw [List.mem_append, List.mem_cons] at ht
    rcases ht with ht | ht | ht
    · have := I'.program (t := t) (by simp [ht])
      rw [hid'] at this; exact this
    · exfalso
      have := seg_of_ctx C (ht ▸ hrep) (ht ▸ hn)
      rw [← ht, hid'] at this
      exact hno _ _ this
    · have := I'.program (t := t) (by simp [ht])
      rw [hid'] at this; exact this

theorem Inv.top {b : Builder σ δ} {F : List (T σ δ)} (I : Inv b F) {r : Id} (h : Owner b r) :
    Top F r := by
  rcases h with h | h
  · exact I.root r h
  · exact I.ext r h

theorem replaces_of_update {b : Builder σ δ} {L : List (T σ δ)} {C : Ctx σ δ} {s s' : T σ δ}
    {R G : List (T σ δ)} {b' : Builder σ δ}
    (I : Inv b (L ++ Ctx.plug C s :: R)) (I' : Inv b' (L ++ Ctx.plug C s' :: (R ++ G)))
    (hid : s'.id = s.id) : Replaces b b' s.id s.code s'.code :=
  fun _ hr => update_effect I I' hid (I.top hr)

/-- Replacing a segment by itself changes nothing. -/
theorem same_of_replaces {b b' : Builder σ δ} {F : List (T σ δ)} (I : Inv b F)
    {e : Id} {c : List (Out σ δ)}
    (h : Replaces b b' e c c) : SamePrograms b b' := by
  intro r hr
  have key : ∀ x, Program b.map r x → Program b'.map r x := by
    intro x hx
    obtain ⟨h1, h2⟩ := h r hr
    by_cases hs : ∃ pre post, Seg b.map r e pre post
    · obtain ⟨pre, post, sg⟩ := hs
      obtain ⟨a, b⟩ := h1 pre post sg
      rw [hx.unique a]; exact b
    · exact h2 (fun pre post sg => hs ⟨pre, post, sg⟩) x hx
  refine fun x => ⟨key x, fun hx => ?_⟩
  obtain ⟨t, ht, hid⟩ := I.top hr
  have hp := I.program ht
  rw [hid] at hp
  rw [hx.unique (key _ hp)]; exact hp

end
end Verif.Builder
