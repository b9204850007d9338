import Verif.Ids.Inv

set_option linter.unusedSimpArgs false
set_option linter.unusedVariables false

/-!
# The visitor keeps the invariant
-/

namespace Cel.Ids
open Cel Cel.Proto

variable {good : Range → Prop}

theorem plainCall_ids (i : Int) (f : String) (target : Option NExpr) (args : List NExpr) :
    (allIds (plainCall i f target args)).Perm (i :: idsAll (target.toList ++ args)) := by
  unfold plainCall
  refine (allIds_node _ _).trans ?_
  cases target <;> simp [groups, idsAll, allIds]

theorem plainCall_complete {i : Int} {f : String} {target : Option NExpr} {args : List NExpr}
    (h : ∀ e ∈ target.toList ++ args, Complete e) : Complete (plainCall i f target args) := by
  unfold plainCall
  simp only [Complete, CompleteAll, isCall]
  refine ⟨?_, completeAll_of fun e he => h e (by simp [he])⟩
  cases target with
  | none => exact .inl (by simp)
  | some t => exact .inr (h t (by simp))

theorem recordCall_next (env : Env) (e : NExpr) (f : String) (target : Option NExpr) (args : List NExpr)
    (calls : Int → Option NExpr) (s : St) :
    (recordCall env e f target args calls s).next = s.next ∧ (recordCall env e f target args calls s).pos = s.pos := by
  unfold recordCall
  split <;> exact ⟨rfl, rfl⟩

theorem callOrMacro_inv (hk : ∀ r, good r → r.known = true) {env : Env} {i : Int} {f : String}
    {target : Option NExpr} {args : List NExpr} {s s1 : St} {e : NExpr} {F : List Int}
    (h : Inv good s (i :: (idsAll (target.toList ++ args) ++ F)))
    (hc : ∀ e ∈ target.toList ++ args, Complete e)
    (hs : callOrMacro env i f target args s = some (e, s1)) : Inv good s1 (allIds e ++ F) ∧ Complete e := by
  have hplain : Inv good s (allIds (plainCall i f target args) ++ F) ∧ Complete (plainCall i f target args) :=
    ⟨h.perm (List.Perm.append_right F (plainCall_ids i f target args).symm), plainCall_complete hc⟩
  unfold callOrMacro at hs
  split at hs
  · simp only [Option.some.injEq, Prod.mk.injEq] at hs
    obtain ⟨rfl, rfl⟩ := hs
    exact hplain
  · split at hs
    · simp only [Option.some.injEq, Prod.mk.injEq] at hs
      obtain ⟨rfl, rfl⟩ := hs
      exact hplain
    · simp at hs
    · split at hs
      · simp at hs
      · rename_i p e' s' hrun
        simp only [Option.some.injEq, Prod.mk.injEq] at hs
        obtain ⟨rfl, rfl⟩ := hs
        obtain ⟨r, hr, hg⟩ := h.pos i (by simp)
        have h0 : Inv good { s with macroPos := rangeOf s i } (idsAll (target.toList ++ args) ++ (i :: F)) :=
          Inv.perm (h.other (s' := { s with macroPos := rangeOf s i }) rfl rfl) List.perm_middle.symm
        obtain ⟨h1, h2⟩ := runProg_inv hk h0 hc (by rw [rangeOf_some hr]; exact hg) hrun
        refine ⟨?_, h2⟩
        have h3 := h1.perm List.perm_middle
        obtain ⟨e1, e2⟩ := recordCall_next env e' f target args s.calls { s' with macroPos := .unknown }
        exact (h3.other e1 e2).erase

theorem idsAll_cons (e : NExpr) (es : List NExpr) : idsAll (e :: es) = allIds e ++ idsAll es := by simp [idsAll]
theorem idsAll_nil : idsAll [] = [] := rfl

theorem ofTerms_ids (f : String) : ∀ (t : Parser.Tree NExpr), (allIds (ofTerms f t)).Perm (t.ops ++ idsAll t.leaves)
  | .leaf e => by simp [ofTerms, Parser.Tree.ops, Parser.Tree.leaves, idsAll]
  | .flat id args => by
    simp only [ofTerms, Parser.Tree.ops, Parser.Tree.leaves]
    refine (allIds_node _ _).trans ?_
    simp [groups, idsAll, allIds]
  | .node id l r => by
    simp only [ofTerms, Parser.Tree.ops, Parser.Tree.leaves]
    refine (allIds_node _ _).trans ?_
    simp only [groups, List.flatten_nil, List.nil_append, idsAll_cons, idsAll_nil, allIds, List.append_nil]
    refine (List.Perm.cons _ ((ofTerms_ids f l).append (ofTerms_ids f r))).trans ?_
    have e1 : idsAll (l.leaves ++ r.leaves) = idsAll l.leaves ++ idsAll r.leaves := by simp [idsAll]
    rw [e1]
    simp only [List.append_assoc, List.cons_append]
    refine List.Perm.trans ?_ List.perm_middle.symm
    refine List.Perm.cons _ (List.Perm.append_left _ ?_)
    simp only [← List.append_assoc]
    exact List.Perm.append_right _ List.perm_append_comm

theorem ofTerms_complete (f : String) : ∀ (t : Parser.Tree NExpr), (∀ e ∈ t.leaves, Complete e) → Complete (ofTerms f t)
  | .leaf e, h => h e (by simp [Parser.Tree.leaves])
  | .flat id args, h => by
    simp only [ofTerms, Complete, CompleteAll, isCall]
    exact ⟨.inl (by simp), completeAll_of fun e he => h e (by simpa [Parser.Tree.leaves] using he)⟩
  | .node id l r, h => by
    simp only [ofTerms, Complete, CompleteAll, isCall]
    exact ⟨.inl (by simp), .inr (ofTerms_complete f l fun e he => h e (by simp [Parser.Tree.leaves, he])),
      .inr (ofTerms_complete f r fun e he => h e (by simp [Parser.Tree.leaves, he])), trivial⟩

theorem zip_fst (is : List Int) (es : List NExpr) (h : is.length = es.length) : (is.zip es).map (·.1) = is := by
  rw [List.map_fst_zip]; omega
theorem zip_snd (is : List Int) (es : List NExpr) (h : is.length = es.length) : (is.zip es).map (·.2) = es := by
  rw [List.map_snd_zip]; omega

/-- The balancer uses every term once and no operator twice. -/
theorem balance_uses {variadic : Bool} {e : NExpr} {is : List Int} {es : List NExpr} {t : Parser.Tree NExpr}
    (hl : is.length = es.length) (h : Parser.balance variadic e (is.zip es) = some t) :
    t.leaves = e :: es ∧ t.ops.Sublist is := by
  cases variadic with
  | false =>
    obtain ⟨T, h1, h2, h3, -⟩ := Parser.C39_structure e (is.zip es)
    rw [h1] at h
    injection h with h
    subst h
    rw [h2, h3, zip_snd is es hl, zip_fst is es hl]
    exact ⟨rfl, List.Sublist.refl _⟩
  | true =>
    cases is with
    | nil =>
      cases es with
      | nil =>
        simp only [List.zip_nil_right] at h
        simp only [Parser.balance, List.map_nil, List.length_cons, List.length_nil, if_true, Option.some.injEq] at h
        subst h
        simp [Parser.Tree.leaves, Parser.Tree.ops]
      | cons e' es => simp at hl
    | cons i is =>
      cases es with
      | nil => simp at hl
      | cons e' es =>
        simp only [List.zip_cons_cons] at h
        rw [Parser.C39_variadic] at h
        injection h with h
        subst h
        refine ⟨?_, ?_⟩
        · simp only [Parser.Tree.leaves]
          rw [zip_snd is es (by simpa using hl)]
        · simp only [Parser.Tree.ops]
          exact List.Sublist.cons_cons _ (List.nil_sublist _)

theorem groups_bareStruct (name : String) (fs : List (String × Bool × Range)) :
    (groups (.struct name (fs.map fun f => ⟨0, f.1, f.2.1⟩))).flatten.length = fs.length := by
  simp only [groups]
  rw [fields_length]; simp

theorem groups_bareMap (ents : List (Bool × Range)) :
    (groups (.map (ents.map fun e => ⟨0, e.1⟩))).flatten.length = ents.length := by
  simp only [groups]
  rw [entries_length]; simp

/-- As many ids as ranges. -/
def IdsFor (n : SNode) (ids : List Int) : Prop := ids.length = (before n).flatten.length

theorem consHead_length (r : Range) (gs : List (List Range)) :
    (consHead r gs).flatten.length = gs.flatten.length + 1 := by
  cases gs <;> simp [consHead]

theorem ranges_length (es : List (Bool × Range)) :
    (es.flatMap fun e => [[e.2], ([] : List Range)]).flatten.length = es.length := by
  induction es with
  | nil => rfl
  | cons e es ih =>
    simp only [List.flatMap_cons, List.cons_append, List.nil_append, List.flatten_cons, List.length_append,
      List.length_cons, List.length_nil, ih]
    try omega

theorem franges_length (fs : List (String × Bool × Range)) :
    (fs.map fun f => [f.2.2]).flatten.length = fs.length := by
  induction fs with
  | nil => rfl
  | cons e es ih =>
    simp only [List.map_cons, List.flatten_cons, List.length_append, List.length_cons, List.length_nil, ih]
    try omega

theorem build_inv (hk : ∀ r, good r → r.known = true) {env : Env} {n : SNode} {ids : List Int} {es : List NExpr}
    {s s1 : St} {e : NExpr} {F : List Int} (h : Inv good s (ids ++ (idsAll es ++ F)))
    (hl : IdsFor n ids) (hc : ∀ e ∈ es, Complete e) (hs : build env n ids es s = some (e, s1)) :
    Inv good s1 (allIds e ++ F) ∧ Complete e := by
  unfold build at hs
  split at hs
  · simp only [Option.some.injEq, Prod.mk.injEq] at hs
    obtain ⟨rfl, rfl⟩ := hs
    exact ⟨by simpa [allIds, idsKids, groups, idsAll] using h, by simp [Complete, CompleteAll]⟩
  · simp only [Option.some.injEq, Prod.mk.injEq] at hs
    obtain ⟨rfl, rfl⟩ := hs
    exact ⟨by simpa [allIds, idsKids, groups, idsAll] using h, by simp [Complete, CompleteAll]⟩
  · simp only [Option.some.injEq, Prod.mk.injEq] at hs
    obtain ⟨rfl, rfl⟩ := hs
    refine ⟨?_, by simp only [Complete]; exact completeAll_of hc⟩
    refine h.perm ?_
    rw [← List.append_assoc]
    refine List.Perm.append_right F ?_
    refine List.Perm.trans ?_ (allIds_node _ es).symm
    simp [groups]
  · rename_i name fs r i is
    simp only [Option.some.injEq, Prod.mk.injEq] at hs
    obtain ⟨rfl, rfl⟩ := hs
    refine ⟨?_, by simp only [Complete]; exact completeAll_of hc⟩
    refine h.perm ?_
    rw [← List.append_assoc]
    refine List.Perm.append_right F ?_
    refine List.Perm.trans ?_ (allIds_node _ es).symm
    simp only []
    have hlen : is.length = fs.length := by
      have := hl
      simp only [IdsFor, before, consHead_length, franges_length, List.length_cons] at this
      omega
    rw [groups_withIds_flatten _ _ (by rw [groups_bareStruct]; exact hlen)]
    exact List.Perm.refl _
  · rename_i ents r i is
    simp only [Option.some.injEq, Prod.mk.injEq] at hs
    obtain ⟨rfl, rfl⟩ := hs
    refine ⟨?_, by simp only [Complete]; exact completeAll_of hc⟩
    refine h.perm ?_
    rw [← List.append_assoc]
    refine List.Perm.append_right F ?_
    refine List.Perm.trans ?_ (allIds_node _ es).symm
    simp only []
    have hlen : is.length = ents.length := by
      have := hl
      simp only [IdsFor, before, consHead_length, ranges_length, List.length_cons] at this
      omega
    rw [groups_withIds_flatten _ _ (by rw [groups_bareMap]; exact hlen)]
    exact List.Perm.refl _
  · simp only [Option.some.injEq, Prod.mk.injEq] at hs
    obtain ⟨rfl, rfl⟩ := hs
    refine ⟨?_, by simp only [Complete]; exact completeAll_of hc⟩
    simpa [allIds, idsKids, groups, idsAll] using h
  · rename_i f op whole i j e'
    simp only [Option.some.injEq, Prod.mk.injEq] at hs
    obtain ⟨rfl, rfl⟩ := hs
    refine ⟨?_, ?_⟩
    · refine h.perm ?_
      simp only [allIds, idsKids, groups, idsAll, List.flatMap_cons, List.flatMap_nil, List.append_nil, List.nil_append,
        List.cons_append, List.headD, List.tail, List.flatten_nil]
      refine List.Perm.cons _ ?_
      simp only [List.append_assoc, List.cons_append, List.nil_append]
      exact List.perm_middle.symm
    · simp only [Complete, CompleteAll, isCall]
      exact ⟨.inl (by simp), .inr (hc e' (by simp)), .inr trivial, trivial⟩
  · refine callOrMacro_inv hk ?_ ?_ hs
    · simpa using h
    · simpa using hc
  · refine callOrMacro_inv hk ?_ ?_ hs
    · simpa using h
    · simpa using hc
  · refine callOrMacro_inv hk ?_ ?_ hs
    · simpa using h
    · simpa using hc
  · rename_i op i a b c
    simp only [Option.some.injEq, Prod.mk.injEq] at hs
    obtain ⟨rfl, rfl⟩ := hs
    refine ⟨?_, ?_⟩
    · simpa [allIds, idsKids, groups, idsAll] using h
    · simp only [Complete, CompleteAll, isCall]
      exact ⟨.inl (by simp), .inr (hc a (by simp)), .inr (hc b (by simp)), .inr (hc c (by simp)), trivial⟩
  · rename_i f ops e' es'
    split at hs
    · rename_i hlen
      split at hs
      · rename_i t ht
        simp only [Option.some.injEq, Prod.mk.injEq] at hs
        obtain ⟨rfl, rfl⟩ := hs
        obtain ⟨h1, h2⟩ := balance_uses hlen ht
        refine ⟨?_, ofTerms_complete f t (by rw [h1]; exact hc)⟩
        have h3 : Inv good s (t.ops ++ (idsAll (e' :: es') ++ F)) := h.sublist (List.Sublist.append_right h2 _)
        refine h3.perm ?_
        rw [← List.append_assoc, ← h1]
        exact List.Perm.append_right F (ofTerms_ids f t).symm
      · simp at hs
    · simp at hs
  · simp at hs

theorem headD_good {good : Range → Prop} {gs : List (List Range)} (h : ∀ g ∈ gs, ∀ r ∈ g, good r) :
    (∀ r ∈ gs.headD [], good r) ∧ ∀ g ∈ gs.tail, ∀ r ∈ g, good r := by
  cases gs with
  | nil => simp
  | cons g gs => exact ⟨fun r hr => h g (by simp) r (by simpa using hr), fun g' hg' => h g' (by simp at hg' ⊢; exact .inr hg')⟩

theorem headD_len (gs : List (List Range)) : gs.flatten.length = (gs.headD []).length + gs.tail.flatten.length := by
  cases gs <;> simp

mutual
theorem visit_inv (hk : ∀ r, good r → r.known = true) (env : Env) : ∀ (t : Syn) {s s1 : St} {e : NExpr} {F : List Int}
    (h : Inv good s F) (hg : Located good t) (hs : visit env t s = some (e, s1)),
    Inv good s1 (allIds e ++ F) ∧ Complete e
  | .absent, s, s1, e, F, h, hg, hs => by simp [visit] at hs
  | .node n ks, s, s1, e, F, h, hg, hs => by
    rw [visit] at hs
    simp only [Located] at hg
    split at hs
    · simp at hs
    · rename_i ids es s2 hv
      obtain ⟨h1, h2, h3⟩ := visitKids_inv hk env ks (before n) h hg.1 hg.2 hv
      exact build_inv hk h1 h2 h3 hs
theorem visitKids_inv (hk : ∀ r, good r → r.known = true) (env : Env) : ∀ (ks : List Syn) (gs : List (List Range))
    {s s1 : St} {ids : List Int} {es : List NExpr} {F : List Int} (h : Inv good s F)
    (hgs : ∀ g ∈ gs, ∀ r ∈ g, good r) (hg : LocatedAll good ks) (hs : visitKids env gs ks s = some (ids, es, s1)),
    Inv good s1 (ids ++ (idsAll es ++ F)) ∧ ids.length = gs.flatten.length ∧ ∀ e ∈ es, Complete e
  | [], gs, s, s1, ids, es, F, h, hgs, hg, hs => by
    rw [visitKids] at hs
    simp only [Option.some.injEq, Prod.mk.injEq] at hs
    obtain ⟨rfl, rfl, rfl⟩ := hs
    refine ⟨?_, allocAll_length _ _, by simp⟩
    simpa [idsAll] using h.alloc hk gs.flatten (fun r hr => by
      obtain ⟨g, h1, h2⟩ := List.mem_flatten.1 hr
      exact hgs g h1 r h2)
  | k :: ks, gs, s, s1, ids, es, F, h, hgs, hg, hs => by
    rw [visitKids] at hs
    simp only [LocatedAll] at hg
    obtain ⟨hg1, hg2⟩ := headD_good hgs
    have h1 := h.alloc hk (gs.headD []) hg1
    split at hs
    · simp at hs
    · rename_i e s2 hv
      obtain ⟨h2, hc⟩ := visit_inv hk env k h1 hg.1 hv
      split at hs
      · simp at hs
      · rename_i is es' s3 hv'
        simp only [Option.some.injEq, Prod.mk.injEq] at hs
        obtain ⟨rfl, rfl, rfl⟩ := hs
        obtain ⟨h3, hlen, hcs⟩ := visitKids_inv hk env ks gs.tail h2 hg2 hg.2 hv'
        refine ⟨?_, ?_, ?_⟩
        · refine h3.perm ?_
          simp only [idsAll_cons]
          generalize (allocAll (gs.headD []) s).1 = A
          rw [List.append_assoc]
          refine List.Perm.trans ?_ (List.perm_append_comm_assoc _ _ _)
          refine List.Perm.append_left is ?_
          have : (idsAll es' ++ (allIds e ++ (A ++ F))).Perm (A ++ (allIds e ++ (idsAll es' ++ F))) := by
            refine (List.Perm.append_left _ (List.perm_append_comm_assoc _ _ _)).trans ?_
            refine (List.perm_append_comm_assoc _ _ _).trans ?_
            exact List.Perm.append_left _ (List.perm_append_comm_assoc _ _ _)
          simpa [List.append_assoc] using this
        · rw [List.length_append, allocAll_length, hlen, headD_len gs]
        · intro e' he'
          rcases List.mem_cons.1 he' with rfl | he'
          · exact hc
          · exact hcs e' he'
end

theorem init_inv : Inv good St.init [] :=
  ⟨⟨by simp [St.init], by simp [St.init]⟩, by simp [St.init], by simp, by simp, by simp⟩

end Cel.Ids
