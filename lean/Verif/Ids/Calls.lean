import Verif.Ids.CallsProof
import Verif.Ids.Main
import Verif.Ids.Witness

set_option linter.unusedSimpArgs false
set_option linter.unusedVariables false

/-!
# C86: the macro calls record the source
-/

namespace Cel.Ids
open Cel Cel.Proto

/-- What holds between two states of a parse that records macro calls. -/
structure Later (s s1 : St) : Prop where
  next : s.next ≤ s1.next
  keys : ∀ i, s1.calls i ≠ none → i < s1.next
  old : ∀ i, i < s.next → s1.calls i = s.calls i

def KeysOk (s : St) : Prop := ∀ i, s.calls i ≠ none → i < s.next

theorem Later.refl {s : St} (h : KeysOk s) : Later s s := ⟨Int.le_refl _, h, fun _ _ => rfl⟩
theorem Later.trans {a b c : St} (h1 : Later a b) (h2 : Later b c) : Later a c :=
  ⟨by have := h1.next; have := h2.next; omega, h2.keys, fun i hi => by
    rw [h2.old i (by have := h1.next; omega), h1.old i hi]⟩

theorem KeysOk.next {s : St} (h : KeysOk s) {i : Int} (hi : s.next ≤ i) : s.calls i = none := by
  cases hc : s.calls i with
  | none => rfl
  | some e => have := h i (by simp [hc]); omega

theorem Grows.later {s s1 : St} (h : Grows s s1) (hk : KeysOk s) : Later s s1 :=
  ⟨h.next, fun i hi => by rw [h.calls] at hi; have := hk i hi; have := h.next; omega, fun i _ => by rw [h.calls]⟩

theorem bareTarget {n : Int} {calls : Int → Option NExpr} {target target0 : Option NExpr} {args args0 : List NExpr}
    (ht : Pairs n calls target.toList target0.toList) (ha : Pairs n calls args args0) :
    ReadsAllN n calls true (target.getD .absent :: args) (bare (target0.getD .absent) :: bareAll args0) := by
  cases target with
  | none =>
    cases target0 with
    | none => simp only [Option.getD, bare]; exact .unset (ha.all true)
    | some t0 => cases ht
  | some t =>
    cases target0 with
    | none => cases ht
    | some t0 =>
      cases ht with
      | cons h _ => exact .cons h (ha.all true)

theorem callOrMacro_reads {env : Env} (hadd : env.addMacroCalls = true) (hf : FreshMacros env) {i i0 : Int}
    {f : String} {target target0 : Option NExpr} {args args0 : List NExpr} {s s1 : St} {e : NExpr} (hk : KeysOk s)
    (h1 : 1 ≤ s.next) (hi : i < s.next) (hic : s.calls i = none)
    (ht : Pairs s.next s.calls target.toList target0.toList) (ha : Pairs s.next s.calls args args0)
    (hs : callOrMacro env i f target args s = some (e, s1)) :
    Later s s1 ∧ ReadsN s1.next s1.calls e (bare (plainCall i0 f target0 args0)) := by
  have hb : bare (plainCall i0 f target0 args0) =
      .node ⟨0, .call f⟩ (bare (target0.getD .absent) :: bareAll args0) := by
    simp only [plainCall, bare, bareKind, bareAll]
  rw [hb]
  have hplain : ReadsN s.next s.calls (plainCall i f target args)
      (.node ⟨0, .call f⟩ (bare (target0.getD .absent) :: bareAll args0)) :=
    .plain (l := ⟨i, .call f⟩) hi hic rfl (bareTarget ht ha)
  unfold callOrMacro at hs
  split at hs
  · simp only [Option.some.injEq, Prod.mk.injEq] at hs
    obtain ⟨rfl, rfl⟩ := hs
    exact ⟨Later.refl hk, hplain⟩
  · rename_i m hm
    split at hs
    · simp only [Option.some.injEq, Prod.mk.injEq] at hs
      obtain ⟨rfl, rfl⟩ := hs
      exact ⟨Later.refl hk, hplain⟩
    · cases hs
    · rename_i p hp
      split at hs
      · cases hs
      · rename_i e' s' hrun
        simp only [Option.some.injEq, Prod.mk.injEq] at hs
        obtain ⟨rfl, rfl⟩ := hs
        have hg := grows_prog hrun
        obtain ⟨hlo, hhi⟩ := hf f args.length target.isSome m target args p hm hp rfl rfl _ _ _ hrun
        simp only [] at hlo
        have hgc : s'.calls = s.calls := hg.calls
        have hgn : s.next ≤ s'.next := hg.next
        cases e' with
        | absent => simp only [idOf] at hlo; omega
        | node l ks =>
          simp only [idOf] at hlo hhi
          have hnone : s.calls l.id = none := hk.next hlo
          unfold recordCall
          rw [if_pos hadd]
          have hnext : (eraseId i (addMacroCall l.id f (target.map (buildArg s.calls)) (args.map (buildArg s.calls))
              { s' with macroPos := .unknown })).next = s'.next := by
            simp only [eraseId, addMacroCall]
            rw [if_neg (by omega)]
          have hcalls : (eraseId i (addMacroCall l.id f (target.map (buildArg s.calls)) (args.map (buildArg s.calls))
              { s' with macroPos := .unknown })).calls = fun j => if j = l.id then
                some (.node ⟨0, .call f⟩ ((target.map (buildArg s.calls)).getD .absent :: args.map (buildArg s.calls)))
                else s.calls j := by
            simp only [eraseId, addMacroCall]
            rw [hgc, hnone]
          simp only [idOf]
          generalize (eraseId i (addMacroCall l.id f (target.map (buildArg s.calls)) (args.map (buildArg s.calls))
              { s' with macroPos := .unknown })) = sf at hnext hcalls
          have hold : ∀ j, j < s.next → sf.calls j = s.calls j := by
            intro j hj
            rw [hcalls]
            simp only []
            rw [if_neg (by omega)]
          refine ⟨⟨by rw [hnext]; exact hgn, ?_, hold⟩, ?_⟩
          · intro j hj
            rw [hcalls] at hj
            rw [hnext]
            by_cases hjl : j = l.id
            · omega
            · simp only [hjl, if_false] at hj
              have := hk j hj
              omega
          · refine .recorded (i := 0) (cs := (target.map (buildArg s.calls)).getD .absent :: args.map (buildArg s.calls))
              (by rw [hnext]; exact hhi) (by rw [hcalls]; simp) ?_
            refine bareTarget ?_ ((ha.built hold).mono (by rw [hnext]; exact hgn) fun j _ => rfl)
            have e1 : (target.map (buildArg s.calls)).toList = target.toList.map (buildArg s.calls) := by
              cases target <;> rfl
            rw [e1]
            exact (ht.built hold).mono (by rw [hnext]; exact hgn) fun j _ => rfl

/-- Ids that belong to calls under construction. -/
def Held (s : St) (ids : List Int) : Prop := ∀ i ∈ ids, i < s.next ∧ s.calls i = none

theorem Held.later {s s1 : St} {ids : List Int} (h : Held s ids) (hl : Later s s1) : Held s1 ids := fun i hi =>
  ⟨by have := (h i hi).1; have := hl.next; omega, by rw [hl.old i (h i hi).1]; exact (h i hi).2⟩

theorem alloc_held : ∀ (rs : List Range) {s : St} (hk : KeysOk s), Held (allocAll rs s).2 (allocAll rs s).1
  | [], s, hk => by intro i hi; simp [allocAll] at hi
  | r :: rs, s, hk => by
    have hl := (grows_next r s).later hk
    have ih := alloc_held rs (s := (nextIdAt r s).2) hl.keys
    have hg := grows_alloc rs (nextIdAt r s).2
    intro i hi
    simp only [allocAll, List.mem_cons] at hi ⊢
    rcases hi with rfl | hi
    · refine ⟨?_, ?_⟩
      · have := hg.next
        simp only [nextIdAt] at this ⊢
        omega
      · rw [hg.calls]
        exact hk.next (Int.le_refl _)
    · exact ih i hi

theorem list_one {α : Type} {xs : List α} (h : xs.length = 1) : ∃ x, xs = [x] := List.length_eq_one_iff.1 h

theorem setField_bare (fs : List (String × Bool × Range)) (is is' : List Int) (name : String)
    (h : is.length = fs.length) (h' : is'.length = fs.length) :
    bareKind (withIds (.struct name (fs.map fun f => ⟨0, f.1, f.2.1⟩)) is) =
      bareKind (withIds (.struct name (fs.map fun f => ⟨0, f.1, f.2.1⟩)) is') := by
  rw [bare_withIds _ _ (by rw [groups_bareStruct]; exact h), bare_withIds _ _ (by rw [groups_bareStruct]; exact h')]

theorem setEntry_bare (es : List (Bool × Range)) (is is' : List Int)
    (h : is.length = es.length) (h' : is'.length = es.length) :
    bareKind (withIds (.map (es.map fun e => ⟨0, e.1⟩)) is) = bareKind (withIds (.map (es.map fun e => ⟨0, e.1⟩)) is') := by
  rw [bare_withIds _ _ (by rw [groups_bareMap]; exact h), bare_withIds _ _ (by rw [groups_bareMap]; exact h')]

theorem isComp_withIds (k : NKind) (is : List Int) : isComp (withIds k is) = isComp k := by cases k <;> rfl

theorem build_reads {env : Env} (hadd : env.addMacroCalls = true) (hf : FreshMacros env) {n : SNode}
    {ids ids0 : List Int} {es es0 : List NExpr} {s s1 s0 : St} {e : NExpr} (hk : KeysOk s) (h1 : 1 ≤ s.next)
    (hh : Held s ids) (hl : IdsFor n ids) (hl0 : IdsFor n ids0) (hp : Pairs s.next s.calls es es0)
    (hs : build env n ids es s = some (e, s1)) :
    Later s s1 ∧ ∃ e0 s0', build (noMacros env.variadic) n ids0 es0 s0 = some (e0, s0') ∧
      ReadsN s1.next s1.calls e (bare e0) := by
  have hll : ids.length = ids0.length := by
    have := hl; have := hl0
    simp only [IdsFor] at *
    omega
  unfold build at hs
  split at hs
  · simp only [Option.some.injEq, Prod.mk.injEq] at hs
    obtain ⟨rfl, rfl⟩ := hs
    obtain ⟨i0, rfl⟩ := list_one hll.symm
    cases hp
    have h := hh _ (List.mem_singleton.2 rfl)
    exact ⟨Later.refl hk, _, _, rfl, .plain h.1 h.2 rfl (by rw [bareAll]; exact .nil)⟩
  · simp only [Option.some.injEq, Prod.mk.injEq] at hs
    obtain ⟨rfl, rfl⟩ := hs
    obtain ⟨i0, rfl⟩ := list_one hll.symm
    cases hp
    have h := hh _ (List.mem_singleton.2 rfl)
    exact ⟨Later.refl hk, _, _, rfl, .plain h.1 h.2 rfl (by rw [bareAll]; exact .nil)⟩
  · simp only [Option.some.injEq, Prod.mk.injEq] at hs
    obtain ⟨rfl, rfl⟩ := hs
    obtain ⟨i0, rfl⟩ := list_one hll.symm
    have h := hh _ (List.mem_singleton.2 rfl)
    exact ⟨Later.refl hk, _, _, rfl, .plain h.1 h.2 rfl (hp.all _)⟩
  · rename_i name fs r i is
    simp only [Option.some.injEq, Prod.mk.injEq] at hs
    obtain ⟨rfl, rfl⟩ := hs
    have h := hh i (by simp)
    cases ids0 with
    | nil => simp at hll
    | cons i0 is0 =>
      have hlen : is.length = fs.length := by
        have := hl
        simp only [IdsFor, before, consHead_length, franges_length, List.length_cons] at this
        omega
      have hlen0 : is0.length = fs.length := by
        have := hl0
        simp only [IdsFor, before, consHead_length, franges_length, List.length_cons] at this
        omega
      refine ⟨Later.refl hk, _, _, rfl, ?_⟩
      simp only [bare]
      rw [setField_bare fs is0 is name hlen0 hlen]
      exact .plain (l := ⟨i, _⟩) h.1 h.2 (by rw [isComp_withIds]; rfl) (hp.all _)
  · rename_i ents r i is
    simp only [Option.some.injEq, Prod.mk.injEq] at hs
    obtain ⟨rfl, rfl⟩ := hs
    have h := hh i (by simp)
    cases ids0 with
    | nil => simp at hll
    | cons i0 is0 =>
      have hlen : is.length = ents.length := by
        have := hl
        simp only [IdsFor, before, consHead_length, ranges_length, List.length_cons] at this
        omega
      have hlen0 : is0.length = ents.length := by
        have := hl0
        simp only [IdsFor, before, consHead_length, ranges_length, List.length_cons] at this
        omega
      refine ⟨Later.refl hk, _, _, rfl, ?_⟩
      simp only [bare]
      rw [setEntry_bare ents is0 is hlen0 hlen]
      exact .plain (l := ⟨i, _⟩) h.1 h.2 (by rw [isComp_withIds]; rfl) (hp.all _)
  · simp only [Option.some.injEq, Prod.mk.injEq] at hs
    obtain ⟨rfl, rfl⟩ := hs
    obtain ⟨i0, rfl⟩ := list_one hll.symm
    cases hp with
    | cons ha hp =>
      cases hp
      have h := hh _ (List.mem_singleton.2 rfl)
      exact ⟨Later.refl hk, _, _, rfl, .plain h.1 h.2 rfl (by simp only [bareAll]; exact .cons ha .nil)⟩
  · rename_i f op whole i j e'
    simp only [Option.some.injEq, Prod.mk.injEq] at hs
    obtain ⟨rfl, rfl⟩ := hs
    obtain ⟨i0, j0, rfl⟩ := List.length_eq_two.1 hll.symm
    cases hp with
    | cons ha hp =>
      cases hp
      have h := hh i (by simp)
      have h' := hh j (by simp)
      refine ⟨Later.refl hk, _, _, rfl, ?_⟩
      simp only [bare, bareAll]
      exact .plain h.1 h.2 rfl (.unset (.cons ha (.cons (.plain h'.1 h'.2 rfl .nil) .nil)))
  · rename_i f r i es
    obtain ⟨i0, rfl⟩ := list_one hll.symm
    have h := hh _ (List.mem_singleton.2 rfl)
    obtain ⟨a, b⟩ := callOrMacro_reads (i0 := i0) (target0 := none) hadd hf hk h1 h.1 h.2 (target := none) (show Pairs _ _ [] [] from .nil) hp hs
    exact ⟨a, _, _, rfl, b⟩
  · rename_i f r i e' es'
    obtain ⟨i0, rfl⟩ := list_one hll.symm
    have h := hh _ (List.mem_singleton.2 rfl)
    cases hp with
    | cons ha hp =>
      rename_i e0 es0
      obtain ⟨a, b⟩ := callOrMacro_reads (i0 := i0) (target0 := some e0) hadd hf hk h1 h.1 h.2 (target := some e')
        (show Pairs _ _ [e'] [e0] from .cons ha .nil) hp hs
      exact ⟨a, _, _, rfl, b⟩
  · rename_i f op i a b
    obtain ⟨i0, rfl⟩ := list_one hll.symm
    have h := hh _ (List.mem_singleton.2 rfl)
    obtain ⟨c, d⟩ := callOrMacro_reads (i0 := i0) (target0 := none) hadd hf hk h1 h.1 h.2 (target := none) (show Pairs _ _ [] [] from .nil) hp hs
    cases hp with
    | cons ha hp =>
      cases hp with
      | cons hb hp =>
        cases hp
        exact ⟨c, _, _, rfl, d⟩
  · rename_i op i a b c
    simp only [Option.some.injEq, Prod.mk.injEq] at hs
    obtain ⟨rfl, rfl⟩ := hs
    obtain ⟨i0, rfl⟩ := list_one hll.symm
    have h := hh _ (List.mem_singleton.2 rfl)
    cases hp with
    | cons ha hp =>
      cases hp with
      | cons hb hp =>
        cases hp with
        | cons hc hp =>
          cases hp
          refine ⟨Later.refl hk, _, _, rfl, ?_⟩
          simp only [bare, bareAll]
          exact .plain h.1 h.2 rfl (.unset (.cons ha (.cons hb (.cons hc .nil))))
  · rename_i f ops e' es'
    split at hs
    · rename_i hlen
      split at hs
      · rename_i t ht
        simp only [Option.some.injEq, Prod.mk.injEq] at hs
        obtain ⟨rfl, rfl⟩ := hs
        cases hp with
        | cons ha hp =>
          rename_i e0 es0
          have hlen0 : ids0.length = es0.length := by
            have := List.Forall₂.length_eq hp; omega
          obtain ⟨t0, h2, h3⟩ := balance_rel (R := fun e e0 => ReadsN s.next s.calls e (bare e0)) hlen hlen0 ha hp ht
          obtain ⟨-, h4⟩ := balance_uses hlen ht
          refine ⟨Later.refl hk, ofTerms f t0, s0, ?_, ofTerms_reads f h3 fun i hi => hh i (h4.subset hi)⟩
          have h2' : Parser.balance (noMacros env.variadic).variadic e0 (ids0.zip es0) = some t0 := h2
          simp only [build, hlen0, if_true, h2']
      · cases hs
    · cases hs
  · cases hs

mutual
theorem visit_reads {env : Env} (hadd : env.addMacroCalls = true) (hf : FreshMacros env) : ∀ (t : Syn) {s s1 : St}
    {e : NExpr} (s0 : St) (hk : KeysOk s) (h1 : 1 ≤ s.next) (hs : visit env t s = some (e, s1)),
    Later s s1 ∧ ∃ e0 s0', visit (noMacros env.variadic) t s0 = some (e0, s0') ∧ ReadsN s1.next s1.calls e (bare e0)
  | .absent, s, s1, e, s0, hk, h1, hs => by simp [visit] at hs
  | .node n ks, s, s1, e, s0, hk, h1, hs => by
    rw [visit] at hs
    split at hs
    · cases hs
    · rename_i ids es s2 hv
      obtain ⟨hl, hh, hlen, ids0, es0, s0', hv0, hlen0, hp⟩ := visitKids_reads hadd hf ks (before n) s0 hk h1 hv
      obtain ⟨hl2, e0, s0'', hb, hr⟩ := build_reads (s0 := s0') hadd hf hl.keys
        (by have := hl.next; omega) hh hlen hlen0 hp hs
      exact ⟨hl.trans hl2, e0, s0'', by rw [visit, hv0]; exact hb, hr⟩
theorem visitKids_reads {env : Env} (hadd : env.addMacroCalls = true) (hf : FreshMacros env) : ∀ (ks : List Syn)
    (gs : List (List Range)) {s s1 : St} {ids : List Int} {es : List NExpr} (s0 : St) (hk : KeysOk s) (h1 : 1 ≤ s.next)
    (hs : visitKids env gs ks s = some (ids, es, s1)),
    Later s s1 ∧ Held s1 ids ∧ ids.length = gs.flatten.length ∧
      ∃ ids0 es0 s0', visitKids (noMacros env.variadic) gs ks s0 = some (ids0, es0, s0') ∧
        ids0.length = gs.flatten.length ∧ Pairs s1.next s1.calls es es0
  | [], gs, s, s1, ids, es, s0, hk, h1, hs => by
    rw [visitKids] at hs
    simp only [Option.some.injEq, Prod.mk.injEq] at hs
    obtain ⟨rfl, rfl, rfl⟩ := hs
    refine ⟨(grows_alloc _ s).later hk, alloc_held _ hk, allocAll_length _ _, (allocAll gs.flatten s0).1, [],
      (allocAll gs.flatten s0).2, by rw [visitKids], allocAll_length _ _, .nil⟩
  | k :: ks, gs, s, s1, ids, es, s0, hk, h1, hs => by
    rw [visitKids] at hs
    have hla := (grows_alloc (gs.headD []) s).later hk
    have hha := alloc_held (gs.headD []) hk
    split at hs
    · cases hs
    · rename_i e s2 hv
      obtain ⟨hl, e0, s0', hv0, hr⟩ := visit_reads hadd hf k (allocAll (gs.headD []) s0).2 hla.keys
        (by have := hla.next; omega) hv
      split at hs
      · cases hs
      · rename_i is es' s3 hv'
        simp only [Option.some.injEq, Prod.mk.injEq] at hs
        obtain ⟨rfl, rfl, rfl⟩ := hs
        obtain ⟨hl3, hh3, hlen, ids0, es0, s0'', hv0', hlen0, hp⟩ := visitKids_reads hadd hf ks gs.tail s0' hl.keys
          (by have := hla.next; have := hl.next; omega) hv'
        refine ⟨hla.trans (hl.trans hl3), ?_, ?_, (allocAll (gs.headD []) s0).1 ++ ids0, e0 :: es0, s0'', ?_, ?_, ?_⟩
        · intro i hi
          rcases List.mem_append.1 hi with hi | hi
          · exact hha.later (hl.trans hl3) i hi
          · exact hh3 i hi
        · rw [List.length_append, allocAll_length, hlen, headD_len gs]
        · rw [visitKids]
          simp only [hv0, hv0']
        · rw [List.length_append, allocAll_length, hlen0, headD_len gs]
        · exact .cons (hr.mono hl3.next hl3.old) hp
end

/-- **C86 (source).** When macro calls are recorded, and every expansion ends with a node it made, the
parsed expression with its macro calls reads as the text: it reads as what parsing the same text
without any macro gives, up to ids. -/
theorem C86_source {env : Env} (hadd : env.addMacroCalls = true) (hf : FreshMacros env) {t : Syn} {e : NExpr} {s : St}
    (h : parse env t = some (e, s)) :
    ∃ e0 s0, parse (noMacros env.variadic) t = some (e0, s0) ∧ Reads s.calls e (bare e0) := by
  obtain ⟨-, e0, s0, h1, h2⟩ := visit_reads hadd hf t St.init (fun i hi => by simp [St.init] at hi) (by simp [St.init]) h
  exact ⟨e0, s0, h1, h2.reads⟩

/-- **C86 (one reading).** There is only one way to read an expression. -/
theorem C86_unique {calls : Int → Option NExpr} {e r r' : NExpr} (h : Reads calls e r) (h' : Reads calls e r') :
    r = r' :=
  Reads.rec (motive_1 := fun e r _ => ∀ r', Reads calls e r' → r = r')
    (motive_2 := fun c ks rs _ => ∀ rs', ReadsAll calls c ks rs' → rs = rs')
    (fun {l ks i f cs rs} hc h ih r' h' => by
      cases h' with
      | recorded hc' h' =>
        rw [hc] at hc'
        injection hc' with hc'
        injection hc' with e1 e2
        injection e1 with e3 e4
        injection e4 with e5
        subst e2 e5
        rw [ih _ h']
      | plain hc' _ _ => rw [hc] at hc'; cases hc')
    (fun {l ks rs} hc hk h ih r' h' => by
      cases h' with
      | recorded hc' h' => rw [hc] at hc'; cases hc'
      | plain _ _ h' => rw [ih _ h'])
    (fun {c} rs' h' => by cases h'; rfl)
    (fun {ks rs} h ih rs' h' => by
      cases h' with
      | unset h' => rw [ih _ h']
      | cons h1 _ => cases h1)
    (fun {c k r ks rs} h1 h2 ih1 ih2 rs' h' => by
      cases h' with
      | unset h' => cases h1
      | cons h1' h2' => rw [ih1 _ h1', ih2 _ h2']) h r' h'

/-! ## The standard macros -/

theorem takeAll_length : ∀ (is : List Nat) {regs regs1 : Regs} {es : List NExpr}
    (h : takeAll regs is = some (es, regs1)), regs1.length = regs.length
  | [], regs, regs1, es, h => by
    simp only [takeAll, Option.some.injEq, Prod.mk.injEq] at h
    rw [← h.2]
  | i :: is, regs, regs1, es, h => by
    simp only [takeAll] at h
    split at h
    · cases h
    · rename_i e r1 h1
      split at h
      · cases h
      · rename_i es' r2 h2
        simp only [Option.some.injEq, Prod.mk.injEq] at h
        rw [← h.2, takeAll_length is h2]
        unfold take at h1
        split at h1
        · simp only [Option.some.injEq, Prod.mk.injEq] at h1
          rw [← h1.2]; simp
        · cases h1

theorem step_length {regs regs1 : Regs} {s s1 : St} {i : Instr} (h : step regs s i = some (regs1, s1)) :
    regs1.length = regs.length + 1 := by
  cases i with
  | new k is =>
    simp only [step] at h
    split at h
    · cases h
    · rename_i es r1 ht
      simp only [Option.some.injEq, Prod.mk.injEq] at h
      rw [← h.1, List.length_append, takeAll_length is ht]; rfl
  | call f is =>
    simp only [step] at h
    split at h
    · cases h
    · rename_i es r1 ht
      simp only [Option.some.injEq, Prod.mk.injEq] at h
      rw [← h.1, List.length_append, takeAll_length is ht]; rfl
  | copy i =>
    simp only [step] at h
    split at h
    · simp only [Option.some.injEq, Prod.mk.injEq] at h
      rw [← h.1]; simp
    · cases h
  | release i =>
    simp only [step] at h
    split at h
    · rename_i l0 l ks cs r1 ht
      simp only [Option.some.injEq, Prod.mk.injEq] at h
      rw [← h.1, List.length_append]
      unfold take at ht
      split at ht
      · simp only [Option.some.injEq, Prod.mk.injEq] at ht
        rw [← ht.2]; simp
      · cases ht
    · cases h

/-- The program ends by making a node, and returns it. -/
def endsFresh (p : Prog) (n : Nat) : Bool :=
  match p.instrs.getLast? with
  | some (.new _ _) => p.ret + 1 = n + p.instrs.length
  | some (.call _ _) => p.ret + 1 = n + p.instrs.length
  | _ => false

theorem step_fresh {regs regs1 : Regs} {s s1 : St} {i : Instr} (h : step regs s i = some (regs1, s1))
    (hi : (∃ k is, i = .new k is) ∨ ∃ f is, i = .call f is) :
    ∃ e, regs1[regs.length]? = some (some e) ∧ s.next ≤ idOf e ∧ idOf e < s1.next := by
  rcases hi with ⟨k, is, rfl⟩ | ⟨f, is, rfl⟩
  · simp only [step] at h
    split at h
    · cases h
    · rename_i es r1 ht
      simp only [Option.some.injEq, Prod.mk.injEq] at h
      have hl := takeAll_length is ht
      have hg := (grows_alloc ((groups k).flatten.map fun _ => s.macroPos) s).next
      rw [← h.1, ← h.2]
      generalize allocAll ((groups k).flatten.map fun _ => s.macroPos) s = q at hg
      refine ⟨.node ⟨(nextId q.2).1, withIds k q.1⟩ es, ?_, ?_⟩
      · rw [← hl]; simp
      · simp only [idOf, nextId, nextIdAt]
        omega
  · simp only [step] at h
    split at h
    · cases h
    · rename_i es r1 ht
      simp only [Option.some.injEq, Prod.mk.injEq] at h
      have hl := takeAll_length is ht
      refine ⟨_, by rw [← h.1, ← hl]; simp; rfl, ?_⟩
      rw [← h.2]
      simp only [idOf, nextId, nextIdAt]
      omega

theorem instrs_fresh : ∀ (is : List Instr) (i : Instr) {regs regs1 : Regs} {s s1 : St}
    (h : runInstrs regs s (is ++ [i]) = some (regs1, s1)) (hi : (∃ k is, i = .new k is) ∨ ∃ f is, i = .call f is),
    ∃ e, regs1[regs.length + is.length]? = some (some e) ∧ s.next ≤ idOf e ∧ idOf e < s1.next
  | [], i, regs, regs1, s, s1, h, hi => by
    simp only [List.nil_append, runInstrs] at h
    split at h
    · cases h
    · rename_i r2 s2 hs
      simp only [Option.some.injEq, Prod.mk.injEq] at h
      obtain ⟨rfl, rfl⟩ := h
      simpa using step_fresh hs hi
  | j :: is, i, regs, regs1, s, s1, h, hi => by
    simp only [List.cons_append, runInstrs] at h
    split at h
    · cases h
    · rename_i r2 s2 hs
      obtain ⟨e, h1, h2, h3⟩ := instrs_fresh is i h hi
      rw [step_length hs] at h1
      refine ⟨e, ?_, by have := (grows_step hs).next; omega, h3⟩
      rw [← h1]
      congr 1
      simp only [List.length_cons]
      omega

theorem prog_fresh {p : Prog} {inputs : List NExpr} {s s1 : St} {e : NExpr} (hp : endsFresh p inputs.length = true)
    (h : runProg p inputs s = some (e, s1)) : s.next ≤ idOf e ∧ idOf e < s1.next := by
  have key : ∃ is i, p.instrs = is ++ [i] ∧ ((∃ k rs, i = .new k rs) ∨ ∃ f rs, i = .call f rs) ∧
      p.ret + 1 = inputs.length + p.instrs.length := by
    unfold endsFresh at hp
    split at hp
    · rename_i k rs hl
      obtain ⟨is, his⟩ := List.getLast?_eq_some_iff.1 hl
      exact ⟨is, _, his, .inl ⟨_, _, rfl⟩, by simpa using hp⟩
    · rename_i k rs hl
      obtain ⟨is, his⟩ := List.getLast?_eq_some_iff.1 hl
      exact ⟨is, _, his, .inr ⟨_, _, rfl⟩, by simpa using hp⟩
    · cases hp
  obtain ⟨is, i, hi, hk, hr⟩ := key
  unfold runProg at h
  split at h
  · cases h
  · rename_i regs s2 hrun
    split at h
    · cases h
    · rename_i e' r1 ht
      simp only [Option.some.injEq, Prod.mk.injEq] at h
      obtain ⟨rfl, rfl⟩ := h
      rw [hi] at hrun hr
      obtain ⟨e2, h1, h2, h3⟩ := instrs_fresh is i hrun hk
      have : p.ret = (inputs.map some).length + is.length := by
        rw [List.length_map]
        rw [List.length_append] at hr
        simp only [List.length_cons, List.length_nil] at hr
        omega
      rw [← this] at h1
      simp only [take, h1, Option.some.injEq, Prod.mk.injEq] at ht
      rw [← ht.1]
      exact ⟨h2, h3⟩

theorem stdMacros_mem {f : String} {n : Nat} {b : Bool} {m : Expander} (h : stdMacros f n b = some m) :
    ((f, n, b), m) ∈ stdList := by
  unfold stdMacros at h
  obtain ⟨x, h1, h2⟩ := Option.map_eq_some_iff.1 h
  have h3 := List.find?_some h1
  have h4 := List.mem_of_find?_eq_some h1
  simp only [decide_eq_true_eq] at h3
  rw [← h3, ← h2]
  exact h4

/-- **C86 (standard macros).** The standard macros and `cel.bind` end every expansion with a node they
make. -/
theorem C86_standard (calls variadic : Bool) : FreshMacros ⟨stdMacros, calls, variadic⟩ := by
  intro f n b m target args p hm hp hn hb s e s1 hrun
  have hmem := stdMacros_mem hm
  refine prog_fresh ?_ hrun
  have hl : (target.toList ++ args).length = (if b then 1 else 0) + n := by
    rw [List.length_append, hn]
    cases target <;> simp_all
  rw [hl]
  simp only [stdList, List.mem_cons, Prod.mk.injEq, List.not_mem_nil, or_false] at hmem
  rcases hmem with ⟨⟨-, hn, hr⟩, rfl⟩ | ⟨⟨-, hn, hr⟩, rfl⟩ | ⟨⟨-, hn, hr⟩, rfl⟩ | ⟨⟨-, hn, hr⟩, rfl⟩ |
    ⟨⟨-, hn, hr⟩, rfl⟩ | ⟨⟨-, hn, hr⟩, rfl⟩ | ⟨⟨-, hn, hr⟩, rfl⟩ | ⟨⟨-, hn, hr⟩, rfl⟩ | ⟨⟨-, hn, hr⟩, rfl⟩ |
    ⟨⟨-, hn, hr⟩, rfl⟩
  · rw [hn, hr]
    unfold expandHas at hp
    split at hp
    · injection hp with hp
      subst hp
      simp [endsFresh, hasProg]
    · cases hp
  · rw [hn, hr]; obtain ⟨v, rfl⟩ := varMacro_prog hp; simp [endsFresh, allProg, comp]
  · rw [hn, hr]; obtain ⟨v, rfl⟩ := varMacro_prog hp; simp [endsFresh, existsProg, comp]
  · rw [hn, hr]; obtain ⟨v, rfl⟩ := varMacro_prog hp; simp [endsFresh, existsOneProg, comp]
  · rw [hn, hr]; obtain ⟨v, rfl⟩ := varMacro_prog hp; simp [endsFresh, map2Prog, comp]
  · rw [hn, hr]; obtain ⟨v, rfl⟩ := varMacro_prog hp; simp [endsFresh, map3Prog, comp]
  · rw [hn, hr]; obtain ⟨v, rfl⟩ := varMacro_prog hp; simp [endsFresh, filterProg, comp]
  · rw [hn, hr]; obtain ⟨v, rfl⟩ := varMacro_prog hp; simp [endsFresh, optMapProg, comp]
  · rw [hn, hr]; obtain ⟨v, rfl⟩ := varMacro_prog hp; simp [endsFresh, optFlatMapProg, comp]
  · rw [hn, hr]
    unfold expandBind at hp
    split at hp
    · injection hp with hp
      subst hp
      simp [endsFresh, bindProg, comp]
    · cases hp
    · cases hp

/-! ## A macro that gives back its target -/

/-- `a.same()`. -/
def selfSyn : Syn := .node (.member "same" (one 1)) [name "a" 0]
def selfEnv : Env := ⟨fun f _ _ => if f = "same" then some sameMacro else none, true, false⟩

/-- **C86 (boundary).** When a macro gives back its target, the recorded call contains the very node
it is recorded for: the expression cannot be read back – a reader that follows the macro calls does
not end. -/
theorem C86_boundary_self : ∃ e s, parse selfEnv selfSyn = some (e, s) ∧ ¬ ∃ r, Reads s.calls e r := by
  refine ⟨_, _, rfl, ?_⟩
  rintro ⟨r, h⟩
  have key : ∀ (calls : Int → Option NExpr) (n : Nat) (l l' : NNode) (ks ks' : List NExpr) (i : Int) (f : String)
      (cs : List NExpr) (r : NExpr), l'.id = l.id → calls l.id = some (.node ⟨i, .call f⟩ (.node l' ks' :: cs)) →
      sizeOf r < n → ¬ Reads calls (.node l ks) r := by
    intro calls n
    induction n with
    | zero => intro l l' ks ks' i f cs r _ _ h; omega
    | succ n ih =>
      intro l l' ks ks' i f cs r hl hc hn h
      cases h with
      | plain hc' _ _ => rw [hc] at hc'; cases hc'
      | recorded hc' h =>
        rw [hc] at hc'
        injection hc' with hc'
        injection hc' with e1 e2
        subst e2
        cases h with
        | cons h hs =>
          refine ih l' l' ks' ks' i f cs _ rfl (by rw [hl]; exact hc) ?_ h
          simp only [Proto.Tree.node.sizeOf_spec, List.cons.sizeOf_spec] at hn
          omega
  exact key _ _ _ _ _ _ _ _ _ _ rfl rfl (Nat.lt_succ_self _) h

/-- **C86 (example).** `a.?b.optMap(x, {"k": has(x.c)})` with the standard macros: the macros are
recorded under the ids 23 and 12 of their expansions, the first with the second left out (only its
id is there, as the last of the list). -/
theorem C86_example :
    (parse stdEnv sample).map (fun p => (idOf p.1, (List.range 30).filter fun i => (p.2.calls i).isSome,
        (p.2.calls 12).map allIds, (p.2.calls 23).map allIds)) =
      some (23, [12, 23], some [0, 11, 10], some [0, 2, 1, 3, 5, 6, 7, 8, 12]) := by decide +kernel

/-- `[a].all(x, has(x.c))`. -/
def sample2 : Syn :=
  .node (.member "all" (one 7)) [.node (.list [false] (one 0)) [name "a" 1], name "x" 8,
    .node (.global "has" (one 14)) [.node (.select "c" (one 16)) [name "x" 15]]]

/-- **C86 (example).** With the macro calls it has one reading, the text; without them it has none. -/
theorem C86_example_reads : ∃ e s e0 s0, parse stdEnv sample2 = some (e, s) ∧
    parse (noMacros false) sample2 = some (e0, s0) ∧ Reads s.calls e (bare e0) ∧
    (∀ r, Reads s.calls e r → r = bare e0) ∧ ¬ ∃ r, Reads (fun _ => none) e r := by
  have hd : (parse stdEnv sample2).map (fun p => match p.1 with
      | .node l _ => isComp l.kind
      | .absent => false) = some true := by decide +kernel
  obtain ⟨⟨e, s⟩, h, hk⟩ := Option.map_eq_some_iff.1 hd
  obtain ⟨e0, s0, h1, h2⟩ := C86_source (env := stdEnv) rfl (C86_standard true false) h
  refine ⟨e, s, e0, s0, h, h1, h2, fun r hr => C86_unique hr h2, ?_⟩
  rintro ⟨r, hr⟩
  cases hr with
  | recorded hc _ => cases hc
  | plain _ hk' _ => simp only [hk'] at hk; cases hk

end Cel.Ids
