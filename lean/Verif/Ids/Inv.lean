import Verif.Ids.Copy
import Mathlib.Data.List.Nodup
import Mathlib.Data.List.Perm.Basic

set_option linter.unusedSimpArgs false
set_option linter.unusedVariables false

/-!
# The invariant of a parse
-/

namespace Cel.Ids
open Cel Cel.Proto

/-- `owned` are the ids held by expressions and by calls under construction. -/
structure Inv (good : Range → Prop) (s : St) (owned : List Int) : Prop where
  sane : Sane s
  one : 1 ≤ s.next
  nodup : owned.Nodup
  range : ∀ i ∈ owned, 1 ≤ i ∧ i < s.next
  pos : ∀ i ∈ owned, ∃ r, s.pos i = some r ∧ good r

variable {good : Range → Prop}

theorem Inv.perm {s : St} {a b : List Int} (h : Inv good s a) (hp : a.Perm b) : Inv good s b :=
  ⟨h.sane, h.one, hp.nodup_iff.1 h.nodup, fun i hi => h.range i (hp.mem_iff.2 hi),
    fun i hi => h.pos i (hp.mem_iff.2 hi)⟩

theorem Inv.sublist {s : St} {a b : List Int} (h : Inv good s a) (hp : b.Sublist a) : Inv good s b :=
  ⟨h.sane, h.one, h.nodup.sublist hp, fun i hi => h.range i (hp.subset hi), fun i hi => h.pos i (hp.subset hi)⟩

theorem Inv.right {s : St} {a b : List Int} (h : Inv good s (a ++ b)) : Inv good s b :=
  h.sublist (List.sublist_append_right a b)

theorem Inv.left {s : St} {a b : List Int} (h : Inv good s (a ++ b)) : Inv good s a :=
  h.sublist (List.sublist_append_left a b)

theorem Inv.next {s : St} {a : List Int} (h : Inv good s a) {r : Range} (hk : r.known = true) (hg : good r) :
    Inv good (nextIdAt r s).2 ((nextIdAt r s).1 :: a) := by
  refine ⟨h.sane.nextIdAt r, ?_, ?_, ?_, ?_⟩
  · have := h.one; simp only [nextIdAt]; omega
  · refine List.nodup_cons.2 ⟨fun hm => ?_, h.nodup⟩
    have := (h.range _ hm).2
    simp only [nextIdAt] at this
    omega
  · intro i hi
    rcases List.mem_cons.1 hi with rfl | hi
    · simp only [nextIdAt]; have := h.one; omega
    · have := h.range i hi
      simp only [nextIdAt]; omega
  · intro i hi
    rcases List.mem_cons.1 hi with rfl | hi
    · exact ⟨r, nextIdAt_new h.sane hk, hg⟩
    · obtain ⟨r', h1, h2⟩ := h.pos i hi
      exact ⟨r', by rw [nextIdAt_old _ (h.range i hi).2]; exact h1, h2⟩

theorem Inv.alloc (hk : ∀ r, good r → r.known = true) : ∀ (rs : List Range) {s : St} {a : List Int}
    (h : Inv good s a) (hg : ∀ r ∈ rs, good r), Inv good (allocAll rs s).2 ((allocAll rs s).1 ++ a)
  | [], s, a, h, _ => h
  | r :: rs, s, a, h, hg => by
    have h1 := h.next (hk r (hg r (by simp))) (hg r (by simp))
    have h2 := Inv.alloc hk rs h1 fun r' hr' => hg r' (by simp [hr'])
    simp only [allocAll]
    refine h2.perm ?_
    rw [List.cons_append]
    exact List.perm_middle

theorem allocAll_length : ∀ (rs : List Range) (s : St), (allocAll rs s).1.length = rs.length
  | [], s => rfl
  | r :: rs, s => by simp [allocAll, allocAll_length rs]

theorem allocAll_macroPos : ∀ (rs : List Range) (s : St), (allocAll rs s).2.macroPos = s.macroPos
  | [], s => rfl
  | r :: rs, s => by rw [allocAll]; simp only []; rw [allocAll_macroPos rs]; rfl

theorem Inv.copy {s : St} {a : List Int} {e : NExpr} (h : Inv good s a) (hs : ∀ i ∈ allIds e, i ∈ a)
    (hc : Complete e) : Inv good (copy e s).2 (allIds (copy e s).1 ++ a) ∧ Complete (copy e s).1 ∧
      (copy e s).2.macroPos = s.macroPos := by
  have ho : Old s (allIds e) := fun i hi => by
    have := h.range i (hs i hi)
    exact ⟨by omega, this.2⟩
  obtain ⟨hcp, -, hc'⟩ := copy_spec e h.sane ho hc
  refine ⟨⟨hcp.sane, ?_, ?_, ?_, ?_⟩, hc', hcp.macroPos⟩
  · have := hcp.le; have := h.one; omega
  · rw [List.nodup_append]
    refine ⟨?_, h.nodup, ?_⟩
    · rw [hcp.ids]; exact upFrom_nodup _ _
    · intro i hi j hj
      rw [hcp.ids, mem_upFrom] at hi
      have := (h.range j hj).2
      omega
  · intro i hi
    rcases List.mem_append.1 hi with hi | hi
    · rw [hcp.ids, mem_upFrom] at hi
      have := h.one
      rw [hcp.next]; omega
    · have := h.range i hi
      have := hcp.le
      omega
  · intro i hi
    rcases List.mem_append.1 hi with hi | hi
    · have hm : (Ids.copy e s).2.pos i ∈ (allIds e).map s.pos := by
        rw [← hcp.pos]; exact List.mem_map_of_mem hi
      obtain ⟨j, hj, hji⟩ := List.mem_map.1 hm
      obtain ⟨r, hr, hg⟩ := h.pos j (hs j hj)
      exact ⟨r, by rw [← hji, hr], hg⟩
    · obtain ⟨r, hr, hg⟩ := h.pos i hi
      exact ⟨r, by rw [hcp.keep i (h.range i hi).2, hr], hg⟩

theorem Inv.erase {s : St} {a : List Int} {i : Int} (h : Inv good s (i :: a)) : Inv good (eraseId i s) a := by
  have hi := h.range i (by simp)
  have hn := List.nodup_cons.1 h.nodup
  refine ⟨⟨?_, ?_⟩, ?_, hn.2, ?_, ?_⟩
  · intro j hj
    simp only [eraseId] at hj ⊢
    by_cases hji : j = i
    · simp [hji] at hj
    · simp only [hji, if_false] at hj
      have := h.sane.fresh j hj
      split <;> omega
  · intro j r hj
    simp only [eraseId] at hj
    by_cases hji : j = i
    · simp [hji] at hj
    · simp only [hji, if_false] at hj
      exact h.sane.known j r hj
  · simp only [eraseId]
    have := h.one
    split <;> omega
  · intro j hj
    have hjr := h.range j (by simp [hj])
    have hne : j ≠ i := fun he => hn.1 (he ▸ hj)
    simp only [eraseId]
    split <;> omega
  · intro j hj
    have hne : j ≠ i := fun he => hn.1 (he ▸ hj)
    obtain ⟨r, hr, hg⟩ := h.pos j (by simp [hj])
    exact ⟨r, by simp [eraseId, hne, hr], hg⟩

/-- The invariant does not look at the macro position or the macro calls. -/
theorem Inv.other {s s' : St} {a : List Int} (h : Inv good s a) (hn : s'.next = s.next) (hp : s'.pos = s.pos) :
    Inv good s' a :=
  ⟨⟨fun i hi => by rw [hp] at hi; rw [hn]; exact h.sane.fresh i hi,
    fun i r hi => by rw [hp] at hi; exact h.sane.known i r hi⟩, by rw [hn]; exact h.one, h.nodup,
    fun i hi => by rw [hn]; exact h.range i hi, fun i hi => by rw [hp]; exact h.pos i hi⟩

/-! ## Ids of nodes -/

def idsAll (es : List NExpr) : List Int := es.flatMap allIds

theorem idsKids_perm : ∀ (ks : List NExpr) (gs : List (List Int)), (idsKids gs ks).Perm (gs.flatten ++ idsAll ks)
  | [], gs => by rw [idsKids_nil]; simp [idsAll]
  | k :: ks, gs => by
    rw [idsKids_cons, flatten_headD gs, List.append_assoc]
    refine List.Perm.append_left _ ?_
    have ih := idsKids_perm ks gs.tail
    refine ((List.Perm.append_left (allIds k) ih)).trans ?_
    simp only [idsAll, List.flatMap_cons, ← List.append_assoc]
    exact List.Perm.append_right _ List.perm_append_comm

theorem allIds_node (l : NNode) (ks : List NExpr) :
    (allIds (.node l ks)).Perm (l.id :: ((groups l.kind).flatten ++ idsAll ks)) := by
  rw [allIds]
  exact List.Perm.cons _ (idsKids_perm ks _)

theorem completeAll_of {call : Bool} : ∀ {es : List NExpr}, (∀ e ∈ es, Complete e) → CompleteAll call es
  | [], _ => by simp [CompleteAll]
  | e :: es, h => by
    simp only [CompleteAll]
    exact ⟨.inr (h e (by simp)), completeAll_of fun e' he' => h e' (by simp [he'])⟩

theorem complete_of_all {call : Bool} : ∀ {es : List NExpr}, CompleteAll call es → ∀ e ∈ es, e = .absent ∨ Complete e
  | [], _, e, he => by simp at he
  | e' :: es, h, e, he => by
    simp only [CompleteAll] at h
    rcases List.mem_cons.1 he with rfl | he
    · rcases h.1 with h | h
      · exact .inl h.2
      · exact .inr h
    · exact complete_of_all h.2 e he

/-! ## Registers -/

def regIds (regs : Regs) : List Int := regs.flatMap fun r => match r with | some e => allIds e | none => []

/-- Registers hold whole expressions. -/
def RegsOk (regs : Regs) : Prop := ∀ r ∈ regs, ∀ e, r = some e → Complete e

theorem take_spec {regs regs1 : Regs} {i : Nat} {e : NExpr} (h : take regs i = some (e, regs1)) :
    (regIds regs).Perm (allIds e ++ regIds regs1) ∧ some e ∈ regs ∧ ∀ r ∈ regs1, r ∈ regs ∨ r = none := by
  unfold take at h
  split at h
  · rename_i e' he
    simp only [Option.some.injEq, Prod.mk.injEq] at h
    obtain ⟨rfl, rfl⟩ := h
    induction regs generalizing i with
    | nil => simp at he
    | cons r rs ih =>
      cases i with
      | zero =>
        simp only [List.getElem?_cons_zero, Option.some.injEq] at he
        subst he
        refine ⟨by simp [regIds], by simp, ?_⟩
        intro r hr
        simp only [List.set_cons_zero, List.mem_cons] at hr
        rcases hr with rfl | hr
        · exact .inr rfl
        · exact .inl (by simp [hr])
      | succ i =>
        simp only [List.getElem?_cons_succ] at he
        obtain ⟨h1, h2, h3⟩ := ih he
        refine ⟨?_, by simp [h2], ?_⟩
        · simp only [regIds, List.flatMap_cons, List.set_cons_succ] at h1 ⊢
          refine (List.Perm.append_left _ h1).trans ?_
          simp only [← List.append_assoc]
          exact List.Perm.append_right _ List.perm_append_comm
        · intro r' hr'
          simp only [List.set_cons_succ, List.mem_cons] at hr'
          rcases hr' with rfl | hr'
          · exact .inl (by simp)
          · rcases h3 r' hr' with h | h
            · exact .inl (by simp [h])
            · exact .inr h
  · simp at h

theorem RegsOk.take {regs regs1 : Regs} {i : Nat} {e : NExpr} (hr : RegsOk regs)
    (h : Ids.take regs i = some (e, regs1)) : Complete e ∧ RegsOk regs1 := by
  obtain ⟨-, h2, h3⟩ := take_spec h
  refine ⟨hr _ h2 e rfl, fun r hr' e' he' => ?_⟩
  rcases h3 r hr' with h | h
  · exact hr r h e' he'
  · rw [h] at he'; cases he'

theorem takeAll_spec : ∀ (is : List Nat) {regs regs1 : Regs} {es : List NExpr} (hr : RegsOk regs)
    (h : takeAll regs is = some (es, regs1)),
    (regIds regs).Perm (idsAll es ++ regIds regs1) ∧ (∀ e ∈ es, Complete e) ∧ RegsOk regs1
  | [], regs, regs1, es, hr, h => by
    simp only [takeAll, Option.some.injEq, Prod.mk.injEq] at h
    obtain ⟨rfl, rfl⟩ := h
    exact ⟨by simp [idsAll], by simp, hr⟩
  | i :: is, regs, regs1, es, hr, h => by
    simp only [takeAll] at h
    split at h
    · simp at h
    · rename_i e regs2 ht
      split at h
      · simp at h
      · rename_i es' regs3 ht'
        simp only [Option.some.injEq, Prod.mk.injEq] at h
        obtain ⟨rfl, rfl⟩ := h
        obtain ⟨h1, -, -⟩ := take_spec ht
        obtain ⟨hc, hr2⟩ := hr.take ht
        obtain ⟨h2, hc2, hr3⟩ := takeAll_spec is hr2 ht'
        refine ⟨?_, ?_, hr3⟩
        · refine (h1.trans (List.Perm.append_left _ h2)).trans ?_
          simp [idsAll, List.flatMap_cons, List.append_assoc]
        · intro e' he'
          rcases List.mem_cons.1 he' with rfl | he'
          · exact hc
          · exact hc2 e' he'

/-! ## Programs -/

theorem regIds_append (a b : Regs) : regIds (a ++ b) = regIds a ++ regIds b := by simp [regIds]

theorem regIds_some (es : List NExpr) : regIds (es.map some) = idsAll es := by
  simp [regIds, idsAll, List.flatMap_map]

theorem RegsOk.append {a b : Regs} (ha : RegsOk a) (hb : RegsOk b) : RegsOk (a ++ b) := by
  intro r hr
  rcases List.mem_append.1 hr with h | h
  · exact ha r h
  · exact hb r h

theorem RegsOk.some {es : List NExpr} (h : ∀ e ∈ es, Complete e) : RegsOk (es.map some) := by
  intro r hr e he
  obtain ⟨e', h1, rfl⟩ := List.mem_map.1 hr
  injection he with he
  exact he ▸ h e' h1

theorem groups_withIds_flatten (k : NKind) (is : List Int) (h : is.length = (groups k).flatten.length) :
    (groups (withIds k is)).flatten = is := by rw [groups_withIds k is h, regroup_flatten _ _ h]

/-- One factory call keeps the invariant. -/
theorem step_inv (hk : ∀ r, good r → r.known = true) {regs regs1 : Regs} {s s1 : St} {i : Instr} {F : List Int}
    (h : Inv good s (regIds regs ++ F)) (hr : RegsOk regs) (hm : good s.macroPos)
    (hs : step regs s i = some (regs1, s1)) :
    Inv good s1 (regIds regs1 ++ F) ∧ RegsOk regs1 ∧ s1.macroPos = s.macroPos := by
  cases i with
  | new k is =>
    simp only [step] at hs
    split at hs
    · simp at hs
    · rename_i es regs2 ht
      simp only [Option.some.injEq, Prod.mk.injEq] at hs
      obtain ⟨rfl, rfl⟩ := hs
      obtain ⟨hp, hc, hr2⟩ := takeAll_spec is hr ht
      have h1 := h.alloc hk ((groups k).flatten.map fun _ => s.macroPos)
        (fun r hr => by obtain ⟨_, _, rfl⟩ := List.mem_map.1 hr; exact hm)
      have hmp := allocAll_macroPos ((groups k).flatten.map fun _ => s.macroPos) s
      have hlen := allocAll_length ((groups k).flatten.map fun _ => s.macroPos) s
      generalize allocAll ((groups k).flatten.map fun _ => s.macroPos) s = p at h1 hmp hlen
      have h2 := h1.next (r := p.2.macroPos) (by rw [hmp]; exact hk _ hm) (by rw [hmp]; exact hm)
      refine ⟨?_, ?_, by simpa [nextId, nextIdAt] using hmp⟩
      · refine h2.perm ?_
        rw [regIds_append]
        have e1 : regIds [some (Proto.Tree.node ⟨(nextId p.2).1, withIds k p.1⟩ es)] =
            allIds (Proto.Tree.node ⟨(nextId p.2).1, withIds k p.1⟩ es) := by simp [regIds]
        rw [e1]
        have e2 := allIds_node ⟨(nextId p.2).1, withIds k p.1⟩ es
        simp only [] at e2
        rw [groups_withIds_flatten k p.1 (by rw [hlen, List.length_map])] at e2
        have e3 : (nextIdAt p.2.macroPos p.2).1 = (nextId p.2).1 := rfl
        rw [e3]
        refine (List.Perm.cons _ (List.Perm.append_left p.1 (List.Perm.append_right F hp))).trans ?_
        refine List.Perm.trans ?_ (List.Perm.append_right F ((List.Perm.append_right (regIds regs2) e2.symm).trans List.perm_append_comm))
        simp
      · exact hr2.append (by
          intro r hr' e he
          simp only [List.mem_singleton] at hr'
          rw [hr'] at he
          injection he with he
          subst he
          simp only [Complete]
          exact completeAll_of hc)
  | call f is =>
    simp only [step] at hs
    split at hs
    · simp at hs
    · rename_i es regs2 ht
      simp only [Option.some.injEq, Prod.mk.injEq] at hs
      obtain ⟨rfl, rfl⟩ := hs
      obtain ⟨hp, hc, hr2⟩ := takeAll_spec is hr ht
      have h2 := h.next (r := s.macroPos) (hk _ hm) hm
      refine ⟨?_, ?_, rfl⟩
      · refine h2.perm ?_
        rw [regIds_append]
        have e1 : regIds [some (Proto.Tree.node ⟨(nextId s).1, .call f⟩ (.absent :: es))] =
            allIds (Proto.Tree.node ⟨(nextId s).1, .call f⟩ (.absent :: es)) := by simp [regIds]
        rw [e1]
        have e2 := allIds_node ⟨(nextId s).1, .call f⟩ (.absent :: es)
        simp only [groups, List.flatten_nil, List.nil_append] at e2
        have e4 : idsAll (.absent :: es) = idsAll es := by simp [idsAll, allIds]
        rw [e4] at e2
        have e3 : (nextIdAt s.macroPos s).1 = (nextId s).1 := rfl
        rw [e3]
        refine (List.Perm.cons _ (List.Perm.append_right F hp)).trans ?_
        refine List.Perm.trans ?_ (List.Perm.append_right F ((List.Perm.append_right (regIds regs2) e2.symm).trans List.perm_append_comm))
        simp
      · exact hr2.append (by
          intro r hr' e he
          simp only [List.mem_singleton] at hr'
          rw [hr'] at he
          injection he with he
          subst he
          simp only [Complete, CompleteAll, isCall]
          exact ⟨.inl (by simp), completeAll_of hc⟩)
  | copy i =>
    simp only [step] at hs
    split at hs
    · rename_i e he
      simp only [Option.some.injEq, Prod.mk.injEq] at hs
      obtain ⟨rfl, rfl⟩ := hs
      have hmem : some e ∈ regs := List.mem_of_getElem? he
      obtain ⟨h1, h2, h3⟩ := h.copy (e := e)
        (fun j hj => List.mem_append_left _ (List.mem_flatMap.2 ⟨some e, hmem, hj⟩)) (hr _ hmem e rfl)
      refine ⟨h1.perm ?_, hr.append ?_, h3⟩
      · rw [regIds_append, ← List.append_assoc]
        refine List.Perm.append_right F ?_
        have e1 : regIds [some (Ids.copy e s).1] = allIds (Ids.copy e s).1 := by simp [regIds]
        rw [e1]
        exact List.perm_append_comm
      · intro r hr' e' he'
        simp only [List.mem_singleton] at hr'
        rw [hr'] at he'
        injection he' with he'
        exact he' ▸ h2
    · simp at hs
  | release i =>
    simp only [step] at hs
    split at hs
    · rename_i l0 l ks cs regs2 ht
      simp only [Option.some.injEq, Prod.mk.injEq] at hs
      obtain ⟨rfl, rfl⟩ := hs
      obtain ⟨hp, -, -⟩ := take_spec ht
      obtain ⟨hc, hr2⟩ := hr.take ht
      simp only [Complete, CompleteAll] at hc
      have hcn : Complete (.node l ks) := by
        rcases hc.1 with h | h
        · simp at h
        · simpa [Complete] using h
      refine ⟨?_, hr2.append (RegsOk.some (es := [.node l ks]) (by simpa using hcn)), rfl⟩
      have h1 := h.perm (List.Perm.append_right F (hp.trans (List.Perm.append_right _ (allIds_node l0 (.node l ks :: cs)))))
      have e1 : regIds (regs2 ++ [some (.node l ks)]) = regIds regs2 ++ allIds (.node l ks) := by
        rw [regIds_append]; simp [regIds]
      have e2 : idsAll (.node l ks :: cs) = allIds (.node l ks) ++ idsAll cs := by simp [idsAll]
      rw [e1]
      rw [e2] at h1
      simp only [List.cons_append, List.append_assoc] at h1
      have h2 : Inv good s (allIds (.node l ks) ++ (idsAll cs ++ (regIds regs2 ++ F))) :=
        (h1.sublist (List.sublist_cons_self _ _)).right
      have h3 : Inv good s (allIds (.node l ks) ++ (regIds regs2 ++ F)) :=
        h2.sublist (List.Sublist.append_left (List.sublist_append_right _ _) _)
      refine h3.perm ?_
      rw [← List.append_assoc]
      exact List.Perm.append_right F List.perm_append_comm
    · simp at hs

theorem runInstrs_inv (hk : ∀ r, good r → r.known = true) : ∀ (is : List Instr) {regs regs1 : Regs} {s s1 : St}
    {F : List Int} (h : Inv good s (regIds regs ++ F)) (hr : RegsOk regs) (hm : good s.macroPos)
    (hs : runInstrs regs s is = some (regs1, s1)), Inv good s1 (regIds regs1 ++ F) ∧ RegsOk regs1
  | [], regs, regs1, s, s1, F, h, hr, hm, hs => by
    simp only [runInstrs, Option.some.injEq, Prod.mk.injEq] at hs
    obtain ⟨rfl, rfl⟩ := hs
    exact ⟨h, hr⟩
  | i :: is, regs, regs1, s, s1, F, h, hr, hm, hs => by
    simp only [runInstrs] at hs
    split at hs
    · simp at hs
    · rename_i regs2 s2 h2
      obtain ⟨a, b, c⟩ := step_inv hk h hr hm h2
      exact runInstrs_inv hk is a b (by rw [c]; exact hm) hs

/-- A macro program keeps the invariant, whatever it does. -/
theorem runProg_inv (hk : ∀ r, good r → r.known = true) {p : Prog} {inputs : List NExpr} {s s1 : St} {e : NExpr}
    {F : List Int} (h : Inv good s (idsAll inputs ++ F)) (hc : ∀ e ∈ inputs, Complete e) (hm : good s.macroPos)
    (hs : runProg p inputs s = some (e, s1)) : Inv good s1 (allIds e ++ F) ∧ Complete e := by
  unfold runProg at hs
  split at hs
  · simp at hs
  · rename_i regs s2 h1
    split at hs
    · simp at hs
    · rename_i e' regs' h2
      simp only [Option.some.injEq, Prod.mk.injEq] at hs
      obtain ⟨rfl, rfl⟩ := hs
      obtain ⟨a, b⟩ := runInstrs_inv hk p.instrs (by rw [regIds_some]; exact h) (RegsOk.some hc) hm h1
      obtain ⟨c1, -, -⟩ := take_spec h2
      refine ⟨?_, (b.take h2).1⟩
      have h3 := a.perm (List.Perm.append_right F c1)
      exact h3.sublist (by
        rw [List.append_assoc]
        exact List.Sublist.append_left (List.sublist_append_right _ _) _)

end Cel.Ids
