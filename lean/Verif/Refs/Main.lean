import Verif.Refs.Proof

set_option linter.unusedSimpArgs false
set_option linter.unusedVariables false

/-! # C84 – resolving references before planning -/

namespace Cel.Refs
open Cel Cel.Proto Cel.Walk Cel.Rewrite Cel.Runtime

/-! ## The resolver is a rewriter that makes progress -/

/-- What `PreVisitRewrite` can leave: the node, or a leaf that is a constant or an identifier. -/
theorem preVisit_cases {F : Type} (env : Env F) (strict : Bool) (l : NNode) (ks : List NExpr) (s : State) :
    ((preVisit env strict (.node l ks) s).2.2 = false ∧ (preVisit env strict (.node l ks) s).2.1 = .node l ks) ∨
    (∃ c, (preVisit env strict (.node l ks) s).2.2 = true ∧
      (preVisit env strict (.node l ks) s).2.1 = .node ⟨l.id, .const c⟩ []) ∨
    (∃ n, (preVisit env strict (.node l ks) s).2.2 = true ∧
      (preVisit env strict (.node l ks) s).2.1 = .node ⟨l.id, .ident n⟩ []) := by
  obtain ⟨id, k⟩ := l
  rw [preVisit, getReference_eq]
  generalize addAll strict (idWarning env id) s = s0
  cases refOf env id with
  | none => exact .inl ⟨rfl, rfl⟩
  | some r =>
    obtain ⟨name, ovs, v⟩ := r
    cases v with
    | none =>
      cases k with
      | ident n =>
        simp only [maybeUpdateIdent]
        split
        · exact .inr (.inr ⟨_, rfl, rfl⟩)
        · exact .inl ⟨rfl, rfl⟩
      | select f t =>
        simp only [maybeUpdateSelect]
        split
        · exact .inl ⟨rfl, rfl⟩
        · split
          · exact .inr (.inr ⟨_, rfl, rfl⟩)
          · exact .inl ⟨rfl, rfl⟩
      | _ => exact .inl ⟨rfl, rfl⟩
    | some v =>
      cases v with
      | int i => exact .inr (.inl ⟨_, rfl, rfl⟩)
      | _ =>
        cases k with
        | ident n =>
          simp only
          split
          · exact .inl ⟨rfl, rfl⟩
          · exact .inr (.inl ⟨_, rfl, rfl⟩)
        | _ => exact .inl ⟨rfl, rfl⟩

/-- What `PostVisitRewrite` can leave: the node, or a call with the same arguments. -/
theorem postVisit_cases {F : Type} (env : Env F) (strict : Bool) (l : NNode) (ks : List NExpr) (s : State) :
    ((postVisit env strict (.node l ks) s).2.2 = false ∧ (postVisit env strict (.node l ks) s).2.1 = .node l ks) ∨
    (∃ f g target target' args, l.kind = .call f ∧ ks = target :: args ∧
      (target' = target ∨ target' = .absent) ∧ (postVisit env strict (.node l ks) s).2.2 = true ∧
      (postVisit env strict (.node l ks) s).2.1 = .node ⟨l.id, .call g⟩ (target' :: args)) := by
  obtain ⟨id, k⟩ := l
  rw [postVisit, getReference_eq]
  generalize addAll strict (idWarning env id) s = s0
  cases k with
  | call f =>
    cases ks with
    | nil => exact .inl ⟨rfl, rfl⟩
    | cons target args =>
      simp only [maybeUpdateCall]
      split
      · split
        · split
          · exact .inr ⟨f, _, target, .absent, args, rfl, rfl, .inr rfl, rfl, rfl⟩
          · exact .inl ⟨rfl, rfl⟩
        · exact .inl ⟨rfl, rfl⟩
      · split
        · exact .inl ⟨rfl, rfl⟩
        · split
          · exact .inr ⟨f, _, target, target, args, rfl, rfl, .inl rfl, rfl, rfl⟩
          · exact .inl ⟨rfl, rfl⟩
  | _ => exact .inl ⟨rfl, rfl⟩

theorem resolver_sound {F : Type} (env : Env F) (strict : Bool) : (resolver env strict).Sound where
  pre n s hp hw := by
    cases n with
    | absent => simp [Tree.present] at hp
    | node l ks =>
      show (preVisit env strict (.node l ks) s).2.1.present = true ∧ WFC (preVisit env strict (.node l ks) s).2.1
      rcases preVisit_cases env strict l ks s with ⟨_, h⟩ | ⟨c, _, h⟩ | ⟨c, _, h⟩ <;> rw [h]
      · exact ⟨hp, hw⟩
      · exact ⟨rfl, by simp [WFC, CShape, WFCs]⟩
      · exact ⟨rfl, by simp [WFC, CShape, WFCs]⟩
  post n s hp hw := by
    cases n with
    | absent => simp [Tree.present] at hp
    | node l ks =>
      show (postVisit env strict (.node l ks) s).2.1.present = true ∧ WFC (postVisit env strict (.node l ks) s).2.1
      rcases postVisit_cases env strict l ks s with ⟨_, h⟩ | ⟨f, g, target, target', args, hk, rfl, ht, _, h⟩ <;> rw [h]
      · exact ⟨hp, hw⟩
      · refine ⟨rfl, ?_⟩
        simp only [WFC, hk, CShape, WFCs] at hw ⊢
        obtain ⟨⟨t, as, e, ha⟩, hwt, hwa⟩ := hw
        simp only [List.cons.injEq] at e
        obtain ⟨rfl, rfl⟩ := e
        refine ⟨⟨_, _, rfl, ha⟩, ?_, hwa⟩
        rcases ht with rfl | rfl
        · exact hwt
        · simp [WFC]

theorem resolver_shrinks {F : Type} (env : Env F) (strict : Bool) : (resolver env strict).Shrinks Tree.size := by
  refine shrinks_of_kids _ ?_
  intro l ks s l' ks' h
  have h : (preVisit env strict (.node l ks) s).2.1 = .node l' ks' := h
  rcases preVisit_cases env strict l ks s with ⟨_, e⟩ | ⟨c, _, e⟩ | ⟨c, _, e⟩ <;> rw [e] at h <;>
    simp only [Tree.node.injEq] at h
  · exact .inl h.2.symm
  · exact .inr h.2.symm
  · exact .inr h.2.symm

theorem resolver_honest {F : Type} (env : Env F) (strict : Bool) : (resolver env strict).Honest := by
  constructor
  · intro n s h
    cases n with
    | absent => rfl
    | node l ks =>
      have h : (preVisit env strict (.node l ks) s).2.2 = false := h
      show (preVisit env strict (.node l ks) s).2.1 = _
      rcases preVisit_cases env strict l ks s with ⟨_, e⟩ | ⟨c, e, _⟩ | ⟨c, e, _⟩
      · exact e
      · rw [e] at h; simp at h
      · rw [e] at h; simp at h
  · intro n s h
    cases n with
    | absent => rfl
    | node l ks =>
      have h : (postVisit env strict (.node l ks) s).2.2 = false := h
      show (postVisit env strict (.node l ks) s).2.1 = _
      rcases postVisit_cases env strict l ks s with ⟨_, e⟩ | ⟨f, g, t, t', a, _, _, _, e, _⟩
      · exact e
      · rw [e] at h; simp at h

/-! ## The whole pass -/

/-- For every expression without repeated ids, whatever the reference map says: the pass ends, the
expression is the one with the references resolved, the warnings are exactly those of the
specification, in order, and the result is the first of them if warnings are errors. -/
theorem C84_resolves {F : Type} (env : Env F) (strict : Bool) (t : NExpr) (hp : t.present = true)
    (hw : WFC t) (hd : DistinctIds t) :
    ∃ N b, (b = false → resolved env t = touch t) ∧ ∀ fuel, N ≤ fuel →
      resolveReferences env strict t fuel = some (warnings env t, resolved env t,
        match (if strict then (warnings env t).head? else none) with
        | some i => .error i
        | none => .ok b) := by
  obtain ⟨t', s', b, N, hwt, hpt, hN⟩ := C83_terminates (resolver env strict) (resolver_sound env strict)
    false Tree.size (resolver_shrinks env strict) t hp hw ⟨[], [], none⟩
  have hrw := (C83_rewrite_iff (resolver env strict) (resolver_sound env strict) false t hp hw _ _ _ _).mp
    ⟨N, hN N (Nat.le_refl _)⟩
  obtain ⟨h1, h2, h3, h4⟩ := rw_claim env strict false hrw hw hp hd (by simp) (by simp)
  have h3 : StatusOk strict s' := h3 (by simp [StatusOk])
  simp only [List.nil_append] at h2
  refine ⟨N, b, fun hb => ?_, fun fuel hf => ?_⟩
  · rw [← h1]
    subst hb
    exact C83_false_unchanged (resolver env strict) (resolver_sound env strict) (resolver_honest env strict)
      false t hp hw _ N t' s' (hN N (Nat.le_refl _))
  · rw [resolveReferences, hN fuel hf, ← h1, ← h2]
    simp only [StatusOk] at h3
    simp only [h3]
    cases (if strict = true then s'.issues.head? else none) <;> rfl

/-- The extension of the planner: with `kCheckedOnly` and no reference map nothing is done;
otherwise planning goes on with the resolved expression, unless warnings are errors and there is
one. -/
theorem C84_update_ast {F : Type} (env : Env F) (strict checkedOnly mapEmpty : Bool) (t : NExpr)
    (hp : t.present = true) (hw : WFC t) (hd : DistinctIds t) :
    (checkedOnly = true → mapEmpty = true → ∀ fuel, updateAst env strict checkedOnly mapEmpty t fuel =
      some ([], t, .ok ())) ∧
    (checkedOnly = false ∨ mapEmpty = false → ∃ N, ∀ fuel, N ≤ fuel →
      updateAst env strict checkedOnly mapEmpty t fuel = some (warnings env t, resolved env t,
        match (if strict then (warnings env t).head? else none) with
        | some i => .error i
        | none => .ok ())) := by
  constructor
  · rintro rfl rfl fuel; rfl
  · intro h
    obtain ⟨N, b, _, hN⟩ := C84_resolves env strict t hp hw hd
    refine ⟨N, fun fuel hf => ?_⟩
    have hcond : (checkedOnly && mapEmpty) = false := by
      rcases h with h | h <;> simp [h]
    rw [updateAst, hcond, hN fuel hf]
    cases (if strict then (warnings env t).head? else none) <;> rfl

/-! ## What a function name stands for -/

/-- Overloads with so many arguments under exactly this name. -/
def Overloaded {F : Type} (env : Env F) (receiver : Bool) (argc : Nat) (n : String) : Prop :=
  (∃ d f, (d, f) ∈ env.functions.findStaticByArity n receiver argc) ∨
  (∃ d, d ∈ env.functions.findLazyByArity n receiver argc)

theorem planPrefixes_head (container : Names.Name) :
    [] ∈ Names.planPrefixes container ∧
    ∀ p ∈ Names.planPrefixes container, p.head? ≠ some '.' := by
  have hsegs : ∀ (c : Names.Name), ∀ e ∈ Names.splitDot c, '.' ∉ e := by
    intro c
    induction c with
    | nil => simp [Names.splitDot]
    | cons x xs ih =>
      intro e he
      rw [Names.splitDot] at he
      by_cases hx : x = '.'
      · rw [if_pos hx] at he
        simp only [List.mem_cons] at he
        rcases he with rfl | he
        · simp
        · exact ih e he
      · rw [if_neg hx] at he
        cases hs : Names.splitDot xs with
        | nil =>
          rw [hs] at he
          simp only [List.mem_singleton] at he
          subst he
          simpa using fun h => hx h.symm
        | cons s ss =>
          rw [hs] at he ih
          simp only [List.mem_cons] at he
          rcases he with rfl | he
          · have := ih s (by simp)
            simp only [List.mem_cons, not_or]
            exact ⟨fun h => hx h.symm, this⟩
          · exact ih e (by simp [he])
  have key : ∀ (es : List Names.Name) (st : Names.Name × List Names.Name), (∀ e ∈ es, '.' ∉ e) →
      st.1.head? ≠ some '.' → [] ∈ st.2 → (∀ p ∈ st.2, p.head? ≠ some '.') →
      [] ∈ (es.foldl (fun (st : Names.Name × List Names.Name) elem =>
        if elem = [] then st
        else (st.1 ++ elem ++ ['.'], (st.1 ++ elem ++ ['.']) :: st.2)) st).2 ∧
      ∀ p ∈ (es.foldl (fun (st : Names.Name × List Names.Name) elem =>
        if elem = [] then st
        else (st.1 ++ elem ++ ['.'], (st.1 ++ elem ++ ['.']) :: st.2)) st).2, p.head? ≠ some '.' := by
    intro es
    induction es with
    | nil => intro st _ _ h1 h2; exact ⟨h1, h2⟩
    | cons e es ih =>
      intro st he h0 h1 h2
      rw [List.foldl_cons]
      by_cases hn : e = []
      · rw [if_pos hn]
        exact ih st (fun x hx => he x (by simp [hx])) h0 h1 h2
      · rw [if_neg hn]
        have hh : (st.1 ++ e ++ ['.']).head? ≠ some '.' := by
          cases hst : st.1 with
          | nil =>
            cases e with
            | nil => exact absurd rfl hn
            | cons c cs =>
              have := he (c :: cs) (by simp)
              simp only [List.mem_cons, not_or] at this
              simpa using fun h => this.1 h.symm
          | cons c cs => rw [hst] at h0; simpa using h0
        refine ih _ (fun x hx => he x (by simp [hx])) hh (by simp [h1]) ?_
        intro p hp
        simp only [List.mem_cons] at hp
        rcases hp with rfl | hp
        · exact hh
        · exact h2 p hp
  exact key _ _ (hsegs container) (by simp) (by simp) (by simp)

theorem prefixesFor_plain (container name : Names.Name) (h : name.head? ≠ some '.') :
    Names.prefixesFor container name = (Names.planPrefixes container, name) := by
  unfold Names.prefixesFor
  split
  · simp at h
  · rfl

/-- A name without a leading dot is one of the names it stands for, and they have no leading dot. -/
theorem names_plain {F : Type} (env : Env F) (name : String) (h : name.toList.head? ≠ some '.') :
    name ∈ names env name ∧ ∀ n ∈ names env name, n.toList.head? ≠ some '.' := by
  obtain ⟨h1, h2⟩ := planPrefixes_head env.container.toList
  simp only [names, Names.fullyQualifiedNames, prefixesFor_plain _ _ h, List.map_map, List.mem_map,
    Function.comp_apply]
  refine ⟨⟨[], h1, by simp⟩, ?_⟩
  rintro n ⟨p, hp, rfl⟩
  have := h2 p hp
  rw [String.toList_ofList]
  cases p with
  | nil => simpa using h
  | cons c cs => simpa using this

/-- A name with a leading dot stands for itself without the dot. -/
theorem names_dot {F : Type} (env : Env F) (name : String) (r : List Char) (h : name.toList = '.' :: r) :
    names env name = [String.ofList r] := by
  simp [names, Names.fullyQualifiedNames, Names.prefixesFor, h]

/-- **The first candidate.** A function name that is no operator and has no leading dot stands for the
first of its names in the container, innermost namespace first, that is known; for none if none is. -/
theorem C84_first_candidate {F : Type} (env : Env F) (name : String) (argc : Nat)
    (hs : isSpecialFunction name = false) (hdot : name.toList.head? ≠ some '.') :
    (∀ f, functionFor env name argc = some f ↔ ∃ pre post, names env name = pre ++ f :: post ∧
      Known env false argc f ∧ ∀ n ∈ pre, ¬ Known env false argc n) ∧
    (functionFor env name argc = none ↔ ∀ n ∈ names env name, ¬ Known env false argc n) := by
  classical
  have e : functionFor env name argc = (names env name).find? (fun n => decide (Known env false argc n)) := by
    rw [functionFor, hs]
    simp only [Bool.false_eq_true, if_false, hdot]
    split
    · next h => exact h.symm
    · next n h => exact h.symm
  rw [e]
  constructor
  · intro f
    rw [List.find?_eq_some_iff_append]
    simp only [decide_eq_true_eq]
    constructor
    · rintro ⟨h1, as, bs, h2, h3⟩
      exact ⟨as, bs, h2, h1, fun n hn => by simpa using h3 n hn⟩
    · rintro ⟨as, bs, h2, h1, h3⟩
      exact ⟨h1, as, bs, h2, fun n hn => by simpa using h3 n hn⟩
  · simp

/-- A name with a leading dot is kept if it is known outside any namespace or, oddly, below the
container (see `C84_boundary_doubled`). -/
theorem C84_leading_dot {F : Type} (env : Env F) (name : String) (argc : Nat) (r : List Char)
    (hs : isSpecialFunction name = false) (h : name.toList = '.' :: r) (f : String) :
    functionFor env name argc = some f ↔ f = name ∧ Known env false argc (String.ofList r) := by
  classical
  rw [functionFor, hs, names_dot env name r h, List.find?_cons]
  by_cases hk : Known env false argc (String.ofList r)
  · simp [hk, h, eq_comm]
  · simp [hk, h]

/-- No function is registered under a name that has namespaces of the container in front of it twice. -/
def NotDoubled {F : Type} (env : Env F) (name : String) (argc : Nat) : Prop :=
  ∀ n ∈ names env name, ∀ m ∈ names env n, m ∉ names env name → ¬ Overloaded env false argc m

theorem planPrefixes_sorted (container : Names.Name) :
    (Names.planPrefixes container).Pairwise (fun a b => b.length < a.length) := by
  have key : ∀ (es : List Names.Name) (st : Names.Name × List Names.Name),
      (∀ p ∈ st.2, p.length ≤ st.1.length) → st.2.Pairwise (fun a b => b.length < a.length) →
      (es.foldl (fun (st : Names.Name × List Names.Name) elem =>
        if elem = [] then st
        else (st.1 ++ elem ++ ['.'], (st.1 ++ elem ++ ['.']) :: st.2)) st).2.Pairwise
          (fun a b => b.length < a.length) := by
    intro es
    induction es with
    | nil => intro st _ h; exact h
    | cons e es ih =>
      intro st h1 h2
      rw [List.foldl_cons]
      by_cases hn : e = []
      · rw [if_pos hn]; exact ih st h1 h2
      · rw [if_neg hn]
        refine ih _ ?_ ?_
        · intro p hp
          simp only [List.mem_cons] at hp
          rcases hp with rfl | hp
          · exact Nat.le_refl _
          · have := h1 p hp
            simp only [List.length_append]; omega
        · refine List.pairwise_cons.mpr ⟨fun p hp => ?_, h2⟩
          have := h1 p hp
          simp only [List.length_append, List.length_singleton]; omega
  exact key _ _ (by simp) (by simp)

theorem names_sorted {F : Type} (env : Env F) (name : String) (h : name.toList.head? ≠ some '.') :
    (names env name).Pairwise (fun a b => b.toList.length < a.toList.length) := by
  have := planPrefixes_sorted env.container.toList
  simp only [names, Names.fullyQualifiedNames, prefixesFor_plain _ _ h, List.map_map]
  rw [List.pairwise_map]
  refine this.imp ?_
  intro a b hab
  simp only [Function.comp_apply, String.toList_ofList, List.length_append]
  omega

theorem names_longer {F : Type} (env : Env F) (name : String) (h : name.toList.head? ≠ some '.') (m : String)
    (hm : m ∈ names env name) : m = name ∨ name.toList.length < m.toList.length := by
  simp only [names, Names.fullyQualifiedNames, prefixesFor_plain _ _ h, List.map_map, List.mem_map,
    Function.comp_apply] at hm
  obtain ⟨p, hp, rfl⟩ := hm
  cases p with
  | nil => left; simp
  | cons c cs =>
    right
    simp only [String.toList_ofList, List.length_append, List.length_cons]; omega

theorem findLazy_go {F : Type} (container name : Names.Name) (registry : Names.Name → List F) :
    ∀ ps : List Names.Name, ps ≠ [] →
    Names.findLazyOverloads.go container name registry ps = registry (Names.prefixesFor container name).2
  | [], h => absurd rfl h
  | p :: ps, _ => by
    rw [Names.findLazyOverloads.go]
    by_cases h : registry (Names.prefixesFor container name).2 = []
    · simp only [h, ne_eq, not_true_eq_false, if_false]
      cases ps with
      | nil => rfl
      | cons q qs => rw [findLazy_go container name registry (q :: qs) (by simp), h]
    · simp [h]

theorem find_only {F : Type} (reg : String → List F) (n : String) : ∀ ns : List String, n ∈ ns →
    (∀ m ∈ ns, m ≠ n → reg m = []) → (((ns.map reg).find? (fun l => !l.isEmpty)).getD []) = reg n
  | [], h, _ => by simp at h
  | m :: ns, h, ho => by
    rw [List.map_cons, List.find?_cons]
    by_cases hm : m = n
    · subst hm
      cases hr : reg m with
      | nil =>
        simp only [List.isEmpty_nil, Bool.not_true]
        by_cases hin : m ∈ ns
        · rw [find_only reg m ns hin (fun x hx => ho x (by simp [hx])), hr]
        · have : (ns.map reg).find? (fun l => !l.isEmpty) = none := by
            rw [List.find?_eq_none]
            intro l hl
            obtain ⟨x, hx, rfl⟩ := List.mem_map.mp hl
            have : x ≠ m := fun e => hin (e ▸ hx)
            simp [ho x (by simp [hx]) this]
          rw [this]; rfl
      | cons a as => simp
    · rw [ho m (by simp) hm]
      simp only [List.isEmpty_nil, Bool.not_true]
      refine find_only reg n ns ?_ (fun x hx => ho x (by simp [hx]))
      rcases List.mem_cons.mp h with h | h
      · exact absurd h.symm hm
      · exact h

/-- **What is planned.** If no function is registered below the container's namespaces under a doubled
name, the function a call is resolved to is the first name, innermost namespace first, that has
overloads, and the planner then plans exactly its overloads: the lazy ones, or else the static ones.
(Without resolution lazily bound functions of a namespace are not found: C38.) -/
theorem C84_planned {F : Type} (env : Env F) (name : String) (argc : Nat) (f : String)
    (hs : isSpecialFunction name = false) (hdot : name.toList.head? ≠ some '.')
    (hd : NotDoubled env name argc) (h : functionFor env name argc = some f) :
    (∃ pre post, names env name = pre ++ f :: post ∧ ∀ n ∈ pre, ¬ Overloaded env false argc n) ∧
    Overloaded env false argc f ∧
    planned env f false argc =
      if (env.functions.findLazyByArity f false argc).isEmpty
      then ([], env.functions.findStaticByArity f false argc)
      else (env.functions.findLazyByArity f false argc, []) := by
  obtain ⟨pre, post, hn, hk, hpre⟩ := ((C84_first_candidate env name argc hs hdot).1 f).mp h
  have hplain := (names_plain env name hdot).2
  have hf : f ∈ names env name := by rw [hn]; simp
  have hff := names_plain env f (hplain f hf)
  have hpre' : ∀ n ∈ pre, ¬ Overloaded env false argc n := by
    intro n hnp ho
    have hin : n ∈ names env name := by rw [hn]; simp [hnp]
    exact hpre n hnp ⟨n, (names_plain env n (hplain n hin)).1, ho⟩
  have honly : ∀ m ∈ names env f, m ≠ f → ¬ Overloaded env false argc m := by
    intro m hm e
    by_cases hin : m ∈ names env name
    · have hl := (names_longer env f (hplain f hf) m hm).resolve_left e
      have hsort := names_sorted env name hdot
      rw [hn] at hin hsort
      rcases List.mem_append.mp hin with h | h
      · exact hpre' m h
      · rcases List.mem_cons.mp h with h | h
        · exact absurd h e
        · have := (List.pairwise_append.mp hsort).2.1
          have := (List.pairwise_cons.mp this).1 m h
          omega
    · exact hd f hf m hm hin
  refine ⟨⟨pre, post, hn, hpre'⟩, ?_, ?_⟩
  · obtain ⟨m, hm, ho⟩ := hk
    by_cases e : m = f
    · subst e; exact ho
    · exact absurd ho (honly m hm e)
  · have hother : ∀ m ∈ names env f, m ≠ f → env.functions.findStaticByArity m false argc = [] := by
      intro m hm e
      cases hl : env.functions.findStaticByArity m false argc with
      | nil => rfl
      | cons x xs => exact absurd (.inl ⟨x.1, x.2, by simp [hl]⟩) (honly m hm e)
    have hpf := prefixesFor_plain env.container.toList f.toList (hplain f hf)
    have hlz : Names.findLazyOverloads env.container.toList f.toList
        (fun n => env.functions.findLazyByArity (String.ofList n) false argc) =
        env.functions.findLazyByArity f false argc := by
      unfold Names.findLazyOverloads
      rw [findLazy_go _ _ _ _ (by
        rw [hpf]
        intro e
        have := (planPrefixes_head env.container.toList).1
        rw [show Names.planPrefixes env.container.toList = [] from e] at this
        simp at this), hpf]
      simp
    have hst : Names.findOverloads env.container.toList f.toList
        (fun n => env.functions.findStaticByArity (String.ofList n) false argc) =
        env.functions.findStaticByArity f false argc := by
      unfold Names.findOverloads
      rw [Names.findOverloads_go]
      have := find_only (fun n => env.functions.findStaticByArity n false argc) f (names env f) hff.1 hother
      rw [← this]
      simp only [names, Names.fullyQualifiedNames, List.map_map, Function.comp_def]
    simp only [planned, hlz, hst]

/-! ## Calls and namespaces -/

/-- `base.f₁.f₂ …`: selections, each with its id. -/
def chainOf (base : NExpr) (fields : List (Int × String)) : NExpr :=
  fields.foldl (fun e p => .node ⟨p.1, .select p.2 false⟩ [e]) base

theorem dotted_chain_none {F : Type} (env : Env F) : ∀ (fields : List (Int × String)) (base : NExpr),
    dotted env base = none → dotted env (chainOf base fields) = none
  | [], base, h => h
  | p :: fs, base, h => by
    refine dotted_chain_none env fs (.node ⟨p.1, .select p.2 false⟩ [base]) ?_
    rw [dotted_node]
    split
    · rfl
    · simp [h]

theorem chainOf_present : ∀ (fields : List (Int × String)) (base : NExpr), base.present = true →
    (chainOf base fields).present = true
  | [], base, h => h
  | p :: fs, base, h => chainOf_present fs (.node ⟨p.1, .select p.2 false⟩ [base]) rfl

/-- `x.f₁.f₂.g(args)` where the checker found `x` to be a constant or a variable of another name is
never taken for a function of a namespace, whatever functions are registered: it stays a call of `g`
on its target. -/
theorem C84_variable_no_namespace {F : Type} (env : Env F) (l : NNode) (ks : List NExpr)
    (h : (constantOf env l).isSome = true ∨ (variableOf env l).isSome = true)
    (fields : List (Int × String)) (id : Int) (function : String) (args : List NExpr)
    (hc : constantOf env ⟨id, .call function⟩ = none) :
    resolved env (.node ⟨id, .call function⟩ (chainOf (.node l ks) fields :: args)) =
      .node ⟨id, .call function⟩ (resolved env (chainOf (.node l ks) fields) :: args.map (resolved env)) := by
  have hv : variableOf env ⟨id, .call function⟩ = none := by
    simp only [variableOf]
    split
    · split <;> rfl
    · rfl
  have hd : dotted env (chainOf (.node l ks) fields) = none := by
    refine dotted_chain_none env fields _ ?_
    rw [dotted_node, if_pos (by simpa using h)]
  rw [resolved, hc, hv]
  have hk : resolvedKids env (readsUnset (.call function)) (chainOf (.node l ks) fields :: args) =
      resolved env (chainOf (.node l ks) fields) :: args.map (resolved env) := by
    rw [resolvedKids_touch]; rfl
  simp only [hk, nodeFor, callFor, hd, chainOf_present fields (.node l ks) rfl, if_true]

/-- `a.b.g(args)` where the target only spells a name, and a function of that name is known for the
number of arguments, becomes the call of that function without target. -/
theorem C84_namespace_call {F : Type} (env : Env F) (target : NExpr) (id : Int) (function : String)
    (args : List NExpr) (hc : constantOf env ⟨id, .call function⟩ = none) (ns f : String)
    (hd : dotted env target = some ns) (hf : functionFor env (ns ++ "." ++ function) args.length = some f) :
    resolved env (.node ⟨id, .call function⟩ (target :: args)) =
      .node ⟨id, .call f⟩ (.absent :: args.map (resolved env)) := by
  have hv : variableOf env ⟨id, .call function⟩ = none := by
    simp only [variableOf]
    split
    · split <;> rfl
    · rfl
  have hp : target.present = true := by
    cases target with
    | absent => simp [dotted] at hd
    | node l ks => rfl
  rw [resolved, hc, hv]
  have hk : resolvedKids env (readsUnset (.call function)) (target :: args) =
      resolved env target :: args.map (resolved env) := by
    rw [resolvedKids_touch]; rfl
  simp only [hk, nodeFor, callFor, hd, hp, if_true, List.length_map, hf]

/-- The operators are left alone and never reported as missing, whatever is registered. -/
theorem C84_operators {F : Type} (env : Env F) (id : Int) (function : String) (args : List NExpr)
    (hs : isSpecialFunction function = true) (hc : constantOf env ⟨id, .call function⟩ = none) :
    resolved env (.node ⟨id, .call function⟩ (.absent :: args)) =
      .node ⟨id, .call function⟩ (.absent :: args.map (resolved env)) ∧
    ∀ target n, functionFor env function n = some function ∧
      (target = Tree.absent → targetWarnings env function target n = []) := by
  have hv : variableOf env ⟨id, .call function⟩ = none := by
    simp only [variableOf]
    split
    · split <;> rfl
    · rfl
  have hf : ∀ n, functionFor env function n = some function := fun n => by rw [functionFor, if_pos hs]
  constructor
  · rw [resolved, hc, hv]
    have hk : resolvedKids env (readsUnset (.call function)) (.absent :: args) =
        .absent :: args.map (resolved env) := by
      rw [resolvedKids_touch]
      show resolved env .absent :: _ = _
      rw [resolved]
    simp [hk, nodeFor, callFor, hf, Tree.present]
  · intro target n
    refine ⟨hf n, ?_⟩
    rintro rfl
    simp [targetWarnings, Tree.present, hf]

end Cel.Refs
