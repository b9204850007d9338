import Verif.Builder.Machine
/-!
# Every builder state is a forest

`Inv b F`: the heap of `b` consists exactly of the trees of `F`, no node is
shared, and the roots of the main program and of the extracted subprograms are
roots of trees.  `Loc` describes an update confined to one subtree.
-/
set_option linter.unusedSimpArgs false
set_option linter.unusedVariables false

namespace Verif.Builder
section
variable {σ δ : Type}

def idsF (F : List (T σ δ)) : List Id := F.flatMap T.ids

/-- `i` is the root of a tree of the forest. -/
def Top (F : List (T σ δ)) (i : Id) : Prop := ∃ t ∈ F, t.id = i

structure Inv (b : Builder σ δ) (F : List (T σ δ)) : Prop where
  nodup : (idsF F).Nodup
  rep : ∀ t ∈ F, Rep b.map t
  dom : ∀ i, (b.map i).isSome = true → i ∈ idsF F
  root : ∀ r, b.root = some r → Top F r
  ext : ∀ i ∈ b.extracted, Top F i
  cur : ∀ c, b.current = some c → (b.map c).isSome = true
  extnd : b.extracted.Nodup
  rootext : ∀ r, b.root = some r → r ∉ b.extracted

/-- An update of the heap confined to the subtree `s`, which becomes `s'`; `G`
are the trees split off and `new` the nodes created. -/
structure Loc (h h' : Heap σ δ) (s s' : T σ δ) (G : List (T σ δ)) (new : List Id) : Prop where
  off : ∀ j, j ∉ s.ids → j ∉ new → h' j = h j
  par : parentOf h' s.id = parentOf h s.id
  rep : Rep h' s'
  repG : ∀ g ∈ G, Rep h' g
  ident : s'.id = s.id
  perm : (s'.ids ++ idsF G).Perm (s.ids ++ new)

theorem idsF_append (F G : List (T σ δ)) : idsF (F ++ G) = idsF F ++ idsF G := by
  simp [idsF]

theorem idsF_cons (t : T σ δ) (G : List (T σ δ)) : idsF (t :: G) = t.ids ++ idsF G := by
  simp [idsF]

theorem mem_idsF {F : List (T σ δ)} {i : Id} : i ∈ idsF F ↔ ∃ t ∈ F, i ∈ t.ids := by
  simp [idsF]

theorem idsF_nodup_mem {F : List (T σ δ)} (h : (idsF F).Nodup) {t : T σ δ} (ht : t ∈ F) :
    t.ids.Nodup := by
  obtain ⟨L, R, rfl⟩ := List.append_of_mem ht
  rw [idsF_append, idsF_cons, List.nodup_append, List.nodup_append] at h
  exact h.2.1.1

/-- Two trees of a forest that share a node are the same. -/
theorem forest_unique {F : List (T σ δ)} (h : (idsF F).Nodup) {t u : T σ δ} (ht : t ∈ F)
    (hu : u ∈ F) {i : Id} (hi : i ∈ t.ids) (hj : i ∈ u.ids) : t = u := by
  induction F with
  | nil => exact nomatch ht
  | cons a F ih =>
    rw [idsF_cons, List.nodup_append] at h
    rw [List.mem_cons] at ht hu
    rcases ht with rfl | ht <;> rcases hu with rfl | hu
    · rfl
    · exact absurd rfl (h.2.2 i hi i (mem_idsF.2 ⟨u, hu, hj⟩))
    · exact absurd rfl (h.2.2 i hj i (mem_idsF.2 ⟨t, ht, hi⟩))
    · exact ih h.2.1 ht hu

theorem Inv.focus {b : Builder σ δ} {F : List (T σ δ)} (I : Inv b F) {i : Id}
    (hi : (b.map i).isSome = true) :
    ∃ L C s R, F = L ++ Ctx.plug C s :: R ∧ s.id = i := by
  obtain ⟨t, ht, hm⟩ := mem_idsF.1 (I.dom i hi)
  obtain ⟨C, s, e, e'⟩ := T.focus t hm
  obtain ⟨L, R, hF⟩ := List.append_of_mem ht
  exact ⟨L, C, s, R, by rw [hF, e], e'⟩

theorem Inv.focus_rep {b : Builder σ δ} {L : List (T σ δ)} {C : Ctx σ δ} {s : T σ δ}
    {R : List (T σ δ)} (I : Inv b (L ++ Ctx.plug C s :: R)) :
    Rep b.map s ∧ s.ids.Nodup := by
  have hr := I.rep (C.plug s) (by simp)
  rw [Ctx.plug_rep] at hr
  have hn := idsF_nodup_mem I.nodup (t := C.plug s) (by simp)
  rw [(Ctx.plug_ids s C).nodup_iff, List.nodup_append] at hn
  exact ⟨hr.2, hn.2.1⟩

/-- The forest after an update confined to one subtree. -/
theorem Inv.update {b : Builder σ δ} {L : List (T σ δ)} {C : Ctx σ δ} {s s' : T σ δ}
    {R G : List (T σ δ)} {new : List Id} {h' : Heap σ δ}
    (I : Inv b (L ++ Ctx.plug C s :: R)) (U : Loc b.map h' s s' G new)
    (hnew : new.Nodup) (hfresh : ∀ j ∈ new, b.map j = none) :
    Inv { b with map := h' } (L ++ Ctx.plug C s' :: (R ++ G)) := by
  have hdomF : ∀ j ∈ idsF (L ++ Ctx.plug C s :: R), (b.map j).isSome = true := by
    intro j hj
    obtain ⟨t, ht, hm⟩ := mem_idsF.1 hj
    exact Rep.dom t (I.rep t ht) j hm
  have hdisj : ∀ j ∈ idsF (L ++ Ctx.plug C s :: R), j ∉ new := by
    intro j hj hn
    have := hdomF j hj
    rw [hfresh j hn] at this; exact nomatch this
  have hn := I.nodup
  -- everything outside the subtree
  have hP : (idsF (L ++ Ctx.plug C s :: R)).Perm ((idsF L ++ C.ids ++ idsF R) ++ s.ids) := by
    rw [idsF_append, idsF_cons]
    refine (List.Perm.append_left _ ((Ctx.plug_ids s C).append_right _)).trans ?_
    simp only [List.append_assoc]
    refine List.Perm.append_left _ (List.Perm.append_left _ ?_)
    exact List.perm_append_comm
  have hP' : (idsF (L ++ Ctx.plug C s' :: (R ++ G))).Perm
      ((idsF L ++ C.ids ++ idsF R) ++ (s'.ids ++ idsF G)) := by
    rw [idsF_append, idsF_cons, idsF_append]
    refine (List.Perm.append_left _ ((Ctx.plug_ids s' C).append_right _)).trans ?_
    simp only [List.append_assoc]
    refine List.Perm.append_left _ (List.Perm.append_left _ ?_)
    rw [← List.append_assoc, ← List.append_assoc]
    exact List.Perm.append_right _ List.perm_append_comm
  have hPP : (idsF (L ++ Ctx.plug C s' :: (R ++ G))).Perm
      (idsF (L ++ Ctx.plug C s :: R) ++ new) := by
    refine hP'.trans ((List.Perm.append_left _ U.perm).trans ?_)
    rw [← List.append_assoc]
    exact List.Perm.append_right _ hP.symm
  have hn2 := hP.nodup_iff.1 hn
  rw [List.nodup_append] at hn2
  have hout : ∀ j, j ∈ idsF L ++ C.ids ++ idsF R → h' j = b.map j := by
    intro j hj
    refine U.off j (fun hs => hn2.2.2 j hj j hs rfl) (hdisj j ?_)
    exact hP.mem_iff.2 (List.mem_append_left _ hj)
  have hrepO : ∀ t, t ∈ L ∨ t ∈ R → Rep h' t := by
    intro t ht
    refine Rep.congr t (fun i hi => hout i ?_) (I.rep t ?_)
    · rcases ht with ht | ht
      · exact List.mem_append_left _ (List.mem_append_left _ (mem_idsF.2 ⟨t, ht, hi⟩))
      · exact List.mem_append_right _ (mem_idsF.2 ⟨t, ht, hi⟩)
    · rcases ht with ht | ht <;> simp [ht]
  have htop : ∀ i, Top (L ++ Ctx.plug C s :: R) i → Top (L ++ Ctx.plug C s' :: (R ++ G)) i := by
    rintro i ⟨t, ht, hid⟩
    rw [List.mem_append, List.mem_cons] at ht
    rcases ht with ht | rfl | ht
    · exact ⟨t, by simp [ht], hid⟩
    · exact ⟨C.plug s', by simp, by rw [Ctx.plug_id U.ident, hid]⟩
    · exact ⟨t, by simp [ht], hid⟩
  refine ⟨?_, ?_, ?_, ?_, ?_, ?_, I.extnd, I.rootext⟩
  · rw [hPP.nodup_iff, List.nodup_append]
    exact ⟨hn, hnew, fun a ha c hc e => hdisj a ha (e ▸ hc)⟩
  · intro t ht
    rw [List.mem_append, List.mem_cons, List.mem_append] at ht
    rcases ht with ht | rfl | ht | ht
    · exact hrepO t (Or.inl ht)
    · have hr := I.rep (C.plug s) (by simp)
      rw [Ctx.plug_rep] at hr ⊢
      refine ⟨?_, U.rep⟩
      rw [U.ident]
      exact Ctx.repAux_congr U.par C (fun j hj => hout j (by simp [hj])) hr.1
    · exact hrepO t (Or.inr ht)
    · exact U.repG t ht
  · intro i hi
    rw [hPP.mem_iff, List.mem_append]
    by_cases hm : i ∈ s.ids
    · exact Or.inl (hP.mem_iff.2 (List.mem_append_right _ hm))
    · by_cases hw : i ∈ new
      · exact Or.inr hw
      · have hi' : (h' i).isSome = true := hi
        rw [U.off i hm hw] at hi'
        exact Or.inl (I.dom i hi')
  · exact fun r hr => htop r (I.root r hr)
  · exact fun i hi => htop i (I.ext i hi)
  · intro c hc
    have h0 := I.cur c hc
    by_cases hm : c ∈ s.ids
    · have hin : c ∈ s'.ids ++ idsF G := U.perm.mem_iff.2 (List.mem_append_left _ hm)
      rw [List.mem_append] at hin
      rcases hin with hin | hin
      · exact Rep.dom s' U.rep c hin
      · obtain ⟨g, hg, hgi⟩ := mem_idsF.1 hin
        exact Rep.dom g (U.repG g hg) c hgi
    · by_cases hw : c ∈ new
      · rw [hfresh c hw] at h0; exact nomatch h0
      · show (h' c).isSome = true
        rw [U.off c hm hw]; exact h0

/-! ## The operations as local updates -/

theorem set_self (h : Heap σ δ) (i : Id) (n : Node σ δ) : set h i n i = some n := by simp [set]

theorem set_ne {h : Heap σ δ} {i j : Id} {n : Node σ δ} (e : j ≠ i) : set h i n j = h j := by
  simp [set, e]

theorem loc_flatten {h : Heap σ δ} {s : T σ δ} (hr : Rep h s) (hn : s.ids.Nodup) :
    Loc h (flattened h s) s (.flat s.id s.code) s.debris [] where
  off j hj _ := flattened_outside hj
  par := flattened_parent _
  rep := by rw [Rep]; exact flattened_self hr
  repG := T.debris_rep hr hn
  ident := rfl
  perm := by
    have := T.debris_ids s
    simp only [T.ids, List.append_nil]
    rw [this]; exact List.Perm.refl _

/-- After flattening, the node is given a program without children. -/
theorem loc_leaf {h : Heap σ δ} {s s' : T σ δ} {q : Option Id} (hr : Rep h s)
    (hn : s.ids.Nodup) (hq : parentOf (flattened h s) s.id = some q)
    (hid : s'.id = s.id) (hids : s'.ids = [s.id])
    (hrep : ∀ h', progOf h' s.id = some s'.prog → Rep h' s') :
    Loc h (set (flattened h s) s.id ⟨s'.prog, q⟩) s s' s.debris [] where
  off j hj _ := by
    have hne : j ≠ s.id := fun e => hj (e ▸ s.id_mem)
    rw [set_ne hne]; exact flattened_outside hj
  par := by
    rw [parentOf, set_self, ← flattened_parent (h := h) (t := s), hq]; rfl
  rep := hrep _ (by rw [progOf, set_self]; rfl)
  repG := by
    intro g hg
    refine Rep.congr g (fun i hi => ?_) (T.debris_rep hr hn g hg)
    have hd := T.debris_ids s
    rw [hd, List.nodup_cons] at hn
    refine set_ne (fun e => hn.1 ?_)
    rw [← e, List.mem_flatMap]
    exact ⟨g, hg, hi⟩
  ident := hid
  perm := by
    have := T.debris_ids s
    rw [hids, List.append_nil, this]; exact List.Perm.refl _

/-- The direct children. -/
def Es.subs : Es σ δ → List (T σ δ)
  | .nil => []
  | .step _ r => r.subs
  | .sub t r => t :: r.subs

theorem Es.subs_ids : ∀ es : Es σ δ, idsF es.subs = es.ids
  | .nil => rfl
  | .step s r => by rw [Es.subs, Es.ids, Es.subs_ids r]
  | .sub t r => by rw [Es.subs, Es.ids, idsF_cons, Es.subs_ids r]

theorem Es.subs_rep {h : Heap σ δ} {p : Id} : ∀ es : Es σ δ, RepEs h p es →
    ∀ u ∈ es.subs, Rep h u
  | .nil, _ => nofun
  | .step s r, hr => by rw [RepEs] at hr; rw [Es.subs]; exact Es.subs_rep r hr
  | .sub t r, hr => by
    rw [RepEs] at hr
    intro u hu
    rw [Es.subs, List.mem_cons] at hu
    rcases hu with rfl | hu
    · exact hr.1
    · exact Es.subs_rep r hr.2.2 u hu

def T.subs : T σ δ → List (T σ δ)
  | .tree _ es => es.subs
  | _ => []

theorem T.subs_ids (t : T σ δ) : t.ids = t.id :: idsF t.subs := by
  cases t with
  | tree i es => rw [T.ids, T.subs, Es.subs_ids]; rfl
  | flat i l => rfl
  | recur i d k => rfl

theorem T.subs_rep {h : Heap σ δ} {t : T σ δ} (hr : Rep h t) : ∀ u ∈ t.subs, Rep h u := by
  cases t with
  | tree i es => rw [Rep] at hr; exact Es.subs_rep es hr.2
  | flat i l => exact nofun
  | recur i d k => exact nofun

theorem loc_recur {h : Heap σ δ} {s : T σ δ} {q : Option Id} (hr : Rep h s)
    (hn : s.ids.Nodup) (hq : parentOf h s.id = some q) (d : δ) (k : Int) :
    Loc h (set h s.id ⟨.recur d k, q⟩) s (.recur s.id d k) s.subs [] where
  off j hj _ := set_ne (fun e => hj (e ▸ s.id_mem))
  par := by rw [hq, parentOf, set_self]; rfl
  rep := by rw [Rep, progOf, set_self]; rfl
  repG := by
    intro g hg
    refine Rep.congr g (fun i hi => ?_) (T.subs_rep hr g hg)
    rw [T.subs_ids, List.nodup_cons] at hn
    refine set_ne (fun e => hn.1 ?_)
    rw [← e]; exact mem_idsF.2 ⟨g, hg, hi⟩
  ident := rfl
  perm := by rw [T.ids, List.append_nil, T.subs_ids s]; exact List.Perm.refl _

/-- The element list of a tree plan changes, its children being kept or dropped. -/
theorem loc_elems {h : Heap σ δ} {i : Id} {es es' : Es σ δ} {G : List (T σ δ)} {q : Option Id}
    (hr : Rep h (.tree i es)) (hn : (T.tree i es).ids.Nodup)
    (hq : parentOf h i = some q)
    (hperm : (es'.ids ++ idsF G).Perm es.ids)
    (hes : ∀ h', RepEs h' i es → RepEs h' i es') (hG : ∀ h', RepEs h' i es → ∀ g ∈ G, Rep h' g) :
    Loc h (set h i ⟨.tree es'.shape, q⟩) (.tree i es) (.tree i es') G [] := by
  rw [T.ids, List.nodup_cons] at hn
  rw [Rep] at hr
  have hr2 : RepEs (set h i ⟨.tree es'.shape, q⟩) i es :=
    RepEs.congr es (fun j hj => set_ne (fun e => hn.1 (e ▸ hj))) hr.2
  refine ⟨?_, ?_, ?_, hG _ hr2, rfl, ?_⟩
  · intro j hj _
    exact set_ne (fun e => hj (by rw [e, T.ids]; exact List.mem_cons_self ..))
  · show parentOf _ i = parentOf h i
    rw [hq, parentOf, set_self]; rfl
  · rw [Rep, progOf, set_self]; exact ⟨rfl, hes _ hr2⟩
  · simp only [T.ids, List.append_nil, List.cons_append]
    exact List.Perm.cons _ hperm

theorem loc_enter {h : Heap σ δ} {i e : Id} {es : Es σ δ} {q : Option Id}
    (hr : Rep h (.tree i es)) (hn : (T.tree i es).ids.Nodup)
    (hq : parentOf h i = some q) (he : h e = none) :
    Loc h (set (set h e ⟨.tree [], some i⟩) i ⟨.tree (es.shape ++ [.sub e]), q⟩) (.tree i es)
      (.tree i (es.app (.sub (.tree e .nil) .nil))) [] [e] := by
  have hdom := Rep.dom _ hr
  have hne : ∀ j ∈ (T.tree i es).ids, j ≠ e := by
    intro j hj hje
    have := hdom j hj
    rw [hje, he] at this; exact nomatch this
  rw [Rep] at hr
  rw [T.ids, List.nodup_cons] at hn
  have hie : i ≠ e := hne i (by simp [T.ids])
  refine ⟨?_, ?_, ?_, nofun, rfl, ?_⟩
  · intro j hj hj2
    rw [T.ids, List.mem_cons, not_or] at hj
    rw [List.mem_singleton] at hj2
    rw [set_ne hj.1, set_ne hj2]
  · show parentOf _ i = parentOf h i
    rw [hq, parentOf, set_self]; rfl
  · rw [Rep, progOf, set_self, Es.app_rep, Es.app_shape]
    refine ⟨rfl, ?_, ?_⟩
    · refine RepEs.congr es (fun j hj => ?_) hr.2
      have hji : j ≠ i := fun e => hn.1 (e ▸ hj)
      rw [set_ne hji, set_ne (hne j (by simp [T.ids, hj]))]
    · simp only [RepEs, Rep, T.id, progOf, parentOf, set_ne hie.symm, set_self, Es.shape, and_true]
      exact ⟨rfl, rfl⟩
  · simp only [T.ids, Es.app_ids, Es.ids, idsF, List.flatMap_nil, List.append_nil, List.cons_append]
    exact List.Perm.refl _

theorem loc_reassign {h : Heap σ δ} {p c : Id} {d : δ} {k : Int} {q qc : Option Id}
    (hr : Rep h (.tree p (.sub (.recur c d k) .nil)))
    (hn : (T.tree p (.sub (.recur c d k : T σ δ) .nil)).ids.Nodup)
    (hq : parentOf h p = some q) :
    Loc h (set (set h c ⟨.tree [], qc⟩) p ⟨.recur d k, q⟩)
      (.tree p (.sub (.recur c d k) .nil)) (.recur p d k) [.tree c .nil] [] := by
  simp only [T.ids, Es.ids, List.append_nil, List.nodup_cons, List.mem_singleton] at hn
  have hcp : c ≠ p := fun e => hn.1 e.symm
  refine ⟨?_, ?_, ?_, ?_, rfl, ?_⟩
  · intro j hj _
    simp only [T.ids, Es.ids, List.append_nil, List.mem_cons, List.not_mem_nil, or_false,
      not_or] at hj
    rw [set_ne hj.1, set_ne hj.2]
  · show parentOf _ p = parentOf h p
    rw [hq, parentOf, set_self]; rfl
  · rw [Rep, progOf, set_self]; rfl
  · intro g hg
    rw [List.mem_singleton] at hg; subst hg
    rw [Rep, RepEs, progOf, set_ne hcp, set_self]; exact ⟨rfl, trivial⟩
  · simp [T.ids, Es.ids, idsF]

theorem eraseChild_spec {c : Id} : ∀ (es : Es σ δ) (l : List (Elem σ)),
    eraseChild c es.shape = some l →
    ∃ pre u post, es = Es.app pre (.sub u post) ∧ u.id = c ∧ l = (Es.app pre post).shape
  | .nil, l, h => nomatch h
  | .step s r, l, h => by
    rw [Es.shape, eraseChild] at h
    cases e : eraseChild c r.shape with
    | none => rw [e] at h; exact nomatch h
    | some l' =>
      rw [e] at h
      obtain ⟨pre, u, post, h1, h2, h3⟩ := eraseChild_spec r l' e
      refine ⟨.step s pre, u, post, by rw [Es.app, h1], h2, ?_⟩
      simp only [Option.some.injEq] at h
      rw [← h, h3, Es.app, Es.shape]
  | .sub t r, l, h => by
    rw [Es.shape, eraseChild] at h
    by_cases hc : t.id = c
    · rw [if_pos hc] at h
      simp only [Option.some.injEq] at h
      exact ⟨.nil, t, r, rfl, hc, h.symm⟩
    · rw [if_neg hc] at h
      cases e : eraseChild c r.shape with
      | none => rw [e] at h; exact nomatch h
      | some l' =>
        rw [e] at h
        obtain ⟨pre, u, post, h1, h2, h3⟩ := eraseChild_spec r l' e
        refine ⟨.sub t pre, u, post, by rw [Es.app, h1], h2, ?_⟩
        simp only [Option.some.injEq] at h
        rw [← h, h3, Es.app, Es.shape]

theorem eraseChild_mem {c : Id} : ∀ (l : List (Elem σ)), Elem.sub c ∈ l →
    ∃ l', eraseChild c l = some l'
  | [], h => nomatch h
  | .step s :: r, h => by
    have h' : Elem.sub c ∈ r := by simpa using h
    obtain ⟨l', e⟩ := eraseChild_mem r h'
    exact ⟨_, by rw [eraseChild, e]⟩
  | .sub i :: r, h => by
    rw [eraseChild]
    by_cases hc : i = c
    · exact ⟨r, by rw [if_pos hc]⟩
    · have h' : Elem.sub c ∈ r := by
        rcases List.mem_cons.1 h with h | h
        · injection h with h; exact absurd h.symm hc
        · exact h
      obtain ⟨l', e⟩ := eraseChild_mem r h'
      exact ⟨_, by rw [if_neg hc, e]⟩

theorem loc_extract {h : Heap σ δ} {i : Id} {pre post : Es σ δ} {u : T σ δ} {q : Option Id}
    (hr : Rep h (.tree i (pre.app (.sub u post))))
    (hn : (T.tree i (pre.app (.sub u post))).ids.Nodup)
    (hq : parentOf h i = some q) :
    Loc h (set h i ⟨.tree (pre.app post).shape, q⟩) (.tree i (pre.app (.sub u post)))
      (.tree i (pre.app post)) [u] [] := by
  refine loc_elems hr hn hq ?_ ?_ ?_
  · rw [Es.app_ids, Es.app_ids, Es.ids, idsF_cons]
    simp only [idsF, List.flatMap_nil, List.append_nil, List.append_assoc]
    exact List.Perm.append_left _ List.perm_append_comm
  · intro h' hh
    rw [Es.app_rep, RepEs] at hh
    rw [Es.app_rep]; exact ⟨hh.1, hh.2.2.2⟩
  · intro h' hh g hg
    rw [List.mem_singleton] at hg; subst hg
    rw [Es.app_rep, RepEs] at hh
    exact hh.2.1

end
end Verif.Builder
