import Verif.Refs.Lookup

set_option linter.unusedSimpArgs false
set_option linter.unusedVariables false

/-! # The resolver computes the resolved expression -/

namespace Cel.Refs
open Cel Cel.Proto Cel.Walk Cel.Rewrite Cel.Runtime

/-! ## Issues -/

/-- Several issues, in order. -/
def addAll (strict : Bool) (is : List Issue) (s : State) : State := is.foldl (fun s i => addIssue strict i s) s

@[simp] theorem addAll_nil (strict : Bool) (s : State) : addAll strict [] s = s := rfl

theorem addAll_append (strict : Bool) (a b : List Issue) (s : State) :
    addAll strict (a ++ b) s = addAll strict b (addAll strict a s) := by simp [addAll]

@[simp] theorem addAll_one (strict : Bool) (i : Issue) (s : State) :
    addAll strict [i] s = addIssue strict i s := rfl

@[simp] theorem addAll_rewritten (strict : Bool) : ∀ (is : List Issue) (s : State),
    (addAll strict is s).rewritten = s.rewritten
  | [], s => rfl
  | i :: is, s => by
    show (addAll strict is (addIssue strict i s)).rewritten = _
    rw [addAll_rewritten strict is]; rfl

@[simp] theorem addAll_issues (strict : Bool) : ∀ (is : List Issue) (s : State),
    (addAll strict is s).issues = s.issues ++ is
  | [], s => by simp
  | i :: is, s => by
    show (addAll strict is (addIssue strict i s)).issues = _
    rw [addAll_issues strict is]; simp [addIssue]

/-- The status is the first issue, if issues are errors. -/
def StatusOk (strict : Bool) (s : State) : Prop := s.status = if strict then s.issues.head? else none

theorem statusOk_add {strict : Bool} {s : State} (h : StatusOk strict s) (i : Issue) :
    StatusOk strict (addIssue strict i s) := by
  simp only [StatusOk, addIssue] at h ⊢
  cases strict with
  | false => simpa using h
  | true =>
    simp only [if_true] at h ⊢
    rw [h]
    cases s.issues <;> simp

theorem statusOk_addAll {strict : Bool} : ∀ (is : List Issue) {s : State}, StatusOk strict s →
    StatusOk strict (addAll strict is s)
  | [], s, h => h
  | i :: is, s, h => statusOk_addAll is (statusOk_add h i)

/-! ## The hooks -/

theorem getReference_eq {F : Type} (env : Env F) (strict : Bool) (id : Int) (s : State) :
    getReference env strict id s = (refOf env id, addAll strict (idWarning env id) s) := by
  simp only [getReference, refOf, idWarning]
  by_cases h : id = 0
  · subst h
    cases env.refs 0 <;> simp
  · cases env.refs id <;> simp [h]

theorem refOf_id {F : Type} (env : Env F) {id : Int} {r : Reference} (h : refOf env id = some r) :
    id ≠ 0 ∧ idWarning env id = [] := by
  simp only [refOf] at h
  by_cases h0 : id = 0
  · simp [h0] at h
  · exact ⟨h0, by simp [idWarning, h0]⟩

theorem constant_id {F : Type} (env : Env F) {l : NNode} {c : Const} (h : constantOf env l = some c) :
    l.id ≠ 0 ∧ idWarning env l.id = [] := by
  cases hr : refOf env l.id with
  | none => rw [constantOf, hr] at h; simp at h
  | some r => exact refOf_id env hr

theorem variable_id {F : Type} (env : Env F) {l : NNode} {c : String} (h : variableOf env l = some c) :
    l.id ≠ 0 ∧ idWarning env l.id = [] := by
  cases hr : refOf env l.id with
  | none => rw [variableOf, hr] at h; simp at h
  | some r => exact refOf_id env hr

theorem variable_not_constant {F : Type} (env : Env F) {l : NNode} {c : String}
    (h : variableOf env l = some c) : constantOf env l = none := by
  simp only [variableOf, constantOf] at h ⊢
  cases hr : refOf env l.id with
  | none => rfl
  | some r =>
    obtain ⟨n, o, v⟩ := r
    rw [hr] at h
    cases v with
    | none => rfl
    | some v => simp at h

/-- What `PreVisitRewrite` does with a node. -/
theorem preVisit_eq {F : Type} (env : Env F) (strict : Bool) (l : NNode) (ks : List NExpr) (s : State)
    (hs : CShape l.kind ks) :
    preVisit env strict (.node l ks) s =
      match constantOf env l, variableOf env l with
      | some c, _ => (s, .node ⟨l.id, .const c⟩ [], true)
      | none, some name => ({ s with rewritten := l.id :: s.rewritten }, .node ⟨l.id, .ident name⟩ [], true)
      | none, none => (addAll strict (idWarning env l.id ++ testWarning env l) s, .node l ks, false) := by
  obtain ⟨id, k⟩ := l
  simp only [preVisit, getReference_eq]
  cases hr : refOf env id with
  | none =>
    have h1 : constantOf env ⟨id, k⟩ = none := by simp [constantOf, hr]
    have h2 : variableOf env ⟨id, k⟩ = none := by simp [variableOf, hr]
    have h3 : testWarning env ⟨id, k⟩ = [] := by simp [testWarning, hr]
    simp [h1, h2, h3]
  | some r =>
    obtain ⟨hid, hw⟩ := refOf_id env hr
    obtain ⟨name, ovs, v⟩ := r
    simp only [hw, addAll_nil, List.nil_append]
    cases v with
    | none =>
      have h1 : constantOf env ⟨id, k⟩ = none := by simp [constantOf, hr]
      simp only [h1]
      cases k with
      | ident n =>
        simp only [CShape] at hs
        subst hs
        by_cases hn : name = ""
        · simp [variableOf, hr, hn, maybeUpdateIdent, testWarning]
        · by_cases hnn : name = n
          · simp [variableOf, hr, hn, hnn, maybeUpdateIdent, testWarning]
          · simp [variableOf, hr, hn, hnn, maybeUpdateIdent]
      | select f t =>
        cases t with
        | true =>
          by_cases hn : name = "" <;> simp [variableOf, hr, hn, maybeUpdateSelect, testWarning]
        | false =>
          by_cases hn : name = "" <;> simp [variableOf, hr, hn, maybeUpdateSelect, testWarning]
      | _ => by_cases hn : name = "" <;> simp [variableOf, hr, hn, testWarning]
    | some v =>
      have h2 : variableOf env ⟨id, k⟩ = none := by simp [variableOf, hr]
      have h3 : testWarning env ⟨id, k⟩ = [] := by simp [testWarning, hr]
      simp only [h2, h3, addAll_nil]
      cases v with
      | int i => simp [constantOf, hr]
      | null =>
        cases k with
        | ident n =>
          by_cases hn : n = "google.protobuf.NullValue.NULL_VALUE" <;> simp [constantOf, hr, hn]
        | _ => simp [constantOf, hr]
      | _ => cases k <;> simp [constantOf, hr]

/-- What `PostVisitRewrite` does with a node that is no call. -/
theorem postVisit_other {F : Type} (env : Env F) (strict : Bool) (l : NNode) (ks : List NExpr) (s : State)
    (h : ∀ f, l.kind ≠ .call f) :
    postVisit env strict (.node l ks) s = (addAll strict (idWarning env l.id) s, .node l ks, false) := by
  simp only [postVisit, getReference_eq]
  cases hk : l.kind with
  | call f => exact absurd hk (h f)
  | _ => rfl

theorem checkOverloads_eq (strict : Bool) (f : String) (o : Option Reference) (s1 : State) :
    checkOverloads strict f o s1 = addAll strict (overloadWarnings f o) s1 := by
  cases o with
  | none => rfl
  | some r => by_cases h : r.overloads = [] <;> simp [checkOverloads, overloadWarnings, h]

theorem lastCheck_eq {F : Type} (env : Env F) (strict : Bool) (f : String) (target target' : NExpr)
    (n : Nat) (s : State) (hp : target'.present = target.present)
    (h : target.present = true → ((dotted env target).bind fun ns =>
      functionFor env (ns ++ "." ++ f) n).isSome = false)
    (h' : target.present = false → (functionFor env f n).isSome = true) :
    lastCheck env strict f target' n s = addAll strict (targetWarnings env f target n) s := by
  rw [lastCheck, targetWarnings, hp]
  have hk := overloadExists_iff env f (n + 1) true
  by_cases ht : target.present = true
  · rw [if_pos ht, h ht, if_neg (by simp : ¬ (false = true))]
    generalize isSpecialFunction f = sp
    generalize overloadExists env f (argumentsMatcher (n + 1)) true = oe at hk
    generalize Known env true (n + 1) f = kn at hk
    cases sp <;> cases oe <;> simp_all
  · rw [if_neg ht, if_pos (h' (by simpa using ht)), if_neg (fun e => ht e.1)]; rfl

/-- What `MaybeUpdateCallNode` does. -/
theorem maybeUpdateCall_eq {F : Type} (env : Env F) (strict : Bool) (id : Int) (f : String)
    (target target' : NExpr) (args' : List NExpr) (r : Option Reference) (s : State)
    (hp : target'.present = target.present)
    (hns : toNamespace s.rewritten target' = dotted env target) :
    ∃ b, maybeUpdateCall env strict id f target' args' r s =
      (addAll strict (targetWarnings env f target args'.length) (checkOverloads strict f r s),
        callFor env ⟨id, .call f⟩ f target target' args', b) := by
  have hl := lastCheck_eq env strict f target target' args'.length
  generalize hs2 : checkOverloads strict f r s = s2
  rw [maybeUpdateCall, callFor, hp, hns]
  simp only [best_eq, hs2]
  by_cases ht : target.present = true
  · rw [if_pos ht, if_pos ht]
    generalize hd : dotted env target = d at hl
    cases d with
    | none => exact ⟨false, by rw [hl s2 hp (fun _ => rfl) (by simp [ht])]⟩
    | some ns =>
      simp only
      generalize hf : functionFor env (ns ++ "." ++ f) args'.length = o
      cases o with
      | none =>
        exact ⟨false, by rw [hl s2 hp (fun _ => by simp [hf]) (by simp [ht])]⟩
      | some g =>
        refine ⟨true, ?_⟩
        rw [targetWarnings, if_pos ht, hd, Option.bind_some, hf]
        simp only [Option.isSome_some, if_true, addAll_nil]
  · rw [if_neg ht, if_neg ht]
    generalize hf : functionFor env f args'.length = o
    cases o with
    | none =>
      refine ⟨false, ?_⟩
      rw [targetWarnings, if_neg ht, hf, lastCheck, hp, if_neg (fun e => ht e.1)]; rfl
    | some g =>
      simp only
      by_cases hg : g = f
      · rw [if_neg (by simpa using hg)]
        subst hg
        refine ⟨false, ?_⟩
        rw [hl s2 hp (fun e => absurd e ht) (fun _ => by rw [hf]; rfl)]
      · rw [if_pos hg]
        refine ⟨true, ?_⟩
        rw [targetWarnings, if_neg ht, hf]
        simp only [Option.isSome_some, if_true, addAll_nil]

/-- What `PostVisitRewrite` does with a call. -/
theorem postVisit_call {F : Type} (env : Env F) (strict : Bool) (id : Int) (f : String)
    (target target' : NExpr) (args' : List NExpr) (s : State)
    (hp : target'.present = target.present)
    (hns : toNamespace s.rewritten target' = dotted env target) :
    ∃ b, postVisit env strict (.node ⟨id, .call f⟩ (target' :: args')) s =
      (addAll strict (idWarning env id ++ callWarnings env ⟨id, .call f⟩ f target args'.length) s,
        callFor env ⟨id, .call f⟩ f target target' args', b) := by
  rw [postVisit, getReference_eq]
  rw [addAll_append, callWarnings, addAll_append, ← checkOverloads_eq]
  exact maybeUpdateCall_eq env strict id f target target' args' (refOf env id)
    (addAll strict (idWarning env id) s) hp (by rw [addAll_rewritten]; exact hns)

/-! ## Ids -/

mutual
/-- The ids of the nodes found to be renamed variables. -/
def renamed {F : Type} (env : Env F) : NExpr → List Int
  | .absent => []
  | .node l ks =>
    match constantOf env l, variableOf env l with
    | some _, _ => []
    | none, some _ => [l.id]
    | none, none => renamedKids env ks
def renamedKids {F : Type} (env : Env F) : List NExpr → List Int
  | [] => []
  | c :: cs => renamed env c ++ renamedKids env cs
end

mutual
theorem renamed_ids {F : Type} (env : Env F) : ∀ (n : NExpr) (i : Int), i ∈ renamed env n → i ∈ ids n
  | .absent, i, h => by simp [renamed] at h
  | .node l ks, i, h => by
    rw [renamed] at h
    cases hc : constantOf env l with
    | some c => rw [hc] at h; simp at h
    | none =>
      cases hv : variableOf env l with
      | some nm =>
        rw [hc, hv] at h
        simp only [List.mem_singleton] at h
        have := (variable_id env hv).1
        simp [ids, h, this]
      | none =>
        rw [hc, hv] at h
        simp only [ids, List.mem_append]
        exact .inr (renamedKids_ids env ks i h)
theorem renamedKids_ids {F : Type} (env : Env F) : ∀ (ks : List NExpr) (i : Int),
    i ∈ renamedKids env ks → i ∈ idsKids ks
  | [], i, h => by simp [renamedKids] at h
  | c :: cs, i, h => by
    simp only [renamedKids, idsKids, List.mem_append] at h ⊢
    rcases h with h | h
    · exact .inl (renamed_ids env c i h)
    · exact .inr (renamedKids_ids env cs i h)
end

theorem resolved_present {F : Type} (env : Env F) (n : NExpr) :
    (resolved env n).present = n.present := by
  cases n with
  | absent => simp [resolved]
  | node l ks =>
    rw [resolved]
    split
    · rfl
    · rfl
    · unfold nodeFor
      split
      · simp only [callFor]
        repeat' split
        all_goals rfl
      · rfl

theorem resolvedKids_nil {F : Type} (env : Env F) (c : Bool) : resolvedKids env c [] = [] := by
  rw [resolvedKids]

theorem dotted_node {F : Type} (env : Env F) (l : NNode) (ks : List NExpr) :
    dotted env (.node l ks) =
      if (constantOf env l).isSome || (variableOf env l).isSome then none
      else match l.kind, ks with
        | .ident name, _ => some name
        | .select field false, k :: _ =>
          match dotted env k with
          | none => none
          | some ns => some (ns ++ "." ++ field)
        | _, _ => none := by
  rw [dotted.eq_def]; rfl

/-- The namespace read off the resolved target is the dotted name of the target. -/
theorem toNamespace_resolved {F : Type} (env : Env F) : ∀ (n : NExpr) (R : List Int), WFC n →
    (ids n).Nodup → (∀ i ∈ ids n, i ∈ R ↔ i ∈ renamed env n) → (0 : Int) ∉ R →
    toNamespace R (resolved env n) = dotted env n
  | .absent, R, hw, hnd, hR, h0 => by simp [resolved, toNamespace, dotted]
  | .node l ks, R, hw, hnd, hR, h0 => by
    cases hc : constantOf env l with
    | some c =>
      rw [resolved, dotted_node, hc]
      simp [toNamespace]
    | none =>
      cases hv : variableOf env l with
      | some nm =>
        have hid := (variable_id env hv).1
        have : l.id ∈ R := (hR l.id (by simp [ids, hid])).mpr (by simp [renamed, hc, hv])
        rw [resolved, dotted_node, hc, hv]
        simp [toNamespace, this]
      | none =>
        simp only [WFC] at hw
        have hlid : l.id ∉ R := by
          intro hm
          by_cases hz : l.id = 0
          · rw [hz] at hm; exact h0 hm
          · have hi : l.id ∈ ids (.node l ks) := by simp [ids, hz]
            have := (hR l.id hi).mp hm
            simp only [renamed, hc, hv] at this
            have := renamedKids_ids env ks _ this
            simp only [ids, hz, if_false, List.singleton_append, List.nodup_cons] at hnd
            exact hnd.1 this
        obtain ⟨id, k⟩ := l
        simp only at hlid
        cases k with
        | ident n =>
          rw [resolved, dotted_node, hc, hv]
          simp [nodeFor, toNamespace, hlid]
        | select f t =>
          have hsh := hw.1
          simp only [CShape] at hsh
          match ks, hsh with
          | [k], _ =>
            have hkid : resolvedKids env (readsUnset (.select f t)) [k] = [resolved env k] := by
              cases k with
              | absent => simp [resolvedKids, readsUnset, resolved]
              | node lk kk => simp [resolvedKids]
            cases t with
            | true =>
              rw [resolved, dotted_node, hc, hv]
              simp [nodeFor, hkid, toNamespace, hlid]
            | false =>
              have hids : ∀ i ∈ ids k, i ∈ ids (.node ⟨id, .select f false⟩ [k]) := by
                intro i hi; simp [ids, idsKids, hi]
              have hndk : (ids k).Nodup := by
                simp only [ids, idsKids, List.append_nil] at hnd
                exact hnd.sublist (List.sublist_append_right _ _)
              have ih := toNamespace_resolved env k R (by have := hw.2; simp only [WFCs] at this; exact this.1)
                hndk (fun i hi => by
                  have := hR i (hids i hi)
                  simpa [renamed, renamedKids, hc, hv] using this) h0
              rw [resolved, dotted_node, hc, hv]
              simp only [nodeFor, hkid, Option.isSome_none, Bool.or_false, Bool.false_eq_true, if_false]
              simp only [toNamespace, hlid, if_false, ih, Bool.false_eq_true]
              cases dotted env k <;> rfl
        | call f =>
          rw [resolved, dotted_node, hc, hv]
          simp only [nodeFor, Option.isSome_none, Bool.or_false, Bool.false_eq_true, if_false]
          split
          · simp only [callFor]
            repeat' split
            all_goals simp [toNamespace]
          · simp [toNamespace]
        | _ =>
          rw [resolved, dotted_node, hc, hv]
          simp [nodeFor, toNamespace]

mutual
theorem zero_ids : ∀ n : NExpr, (0 : Int) ∉ ids n
  | .absent => by simp [ids]
  | .node l ks => by
    simp only [ids, List.mem_append]
    rintro (h | h)
    · split at h <;> simp at h
      rename_i hz; exact hz h.symm
    · exact zero_idsKids ks h
theorem zero_idsKids : ∀ ks : List NExpr, (0 : Int) ∉ idsKids ks
  | [] => by simp [idsKids]
  | c :: cs => by
    simp only [idsKids, List.mem_append]
    rintro (h | h)
    · exact zero_ids c h
    · exact zero_idsKids cs h
end

/-! ## Children -/

theorem ids_created (n : NExpr) : ids (created n) = ids n := by
  cases n <;> simp [created, ids, idsKids, NNode.dflt]

theorem idsKids_touch (k : NKind) (ks : List NExpr) : idsKids (touchKids k ks) = idsKids ks := by
  have h : idsKids (ks.map created) = idsKids ks := by
    induction ks with
    | nil => rfl
    | cons c cs ih => simp [idsKids, ids_created, ih]
  cases k <;> first | rfl | exact h

theorem dflt_const {F : Type} (env : Env F) : constantOf env NNode.dflt = none := by
  simp [constantOf, refOf, NNode.dflt]
theorem dflt_var {F : Type} (env : Env F) : variableOf env NNode.dflt = none := by
  simp [variableOf, refOf, NNode.dflt]
theorem dflt_test {F : Type} (env : Env F) : testWarning env NNode.dflt = [] := by
  simp [testWarning, refOf, NNode.dflt]

theorem resolved_dflt {F : Type} (env : Env F) : resolved env (.node NNode.dflt []) = .node NNode.dflt [] := by
  rw [resolved, dflt_const, dflt_var]
  simp [NNode.dflt, resolvedKids, nodeFor]

theorem warnings_dflt {F : Type} (env : Env F) :
    warnings env (.node NNode.dflt []) = idWarning env 0 ++ idWarning env 0 := by
  rw [warnings.eq_def]
  simp only [dflt_const, dflt_var, dflt_test]
  simp [NNode.dflt, warningsKids, afterWarnings]

theorem renamed_created {F : Type} (env : Env F) (n : NExpr) : renamed env (created n) = renamed env n := by
  cases n with
  | absent => simp [created, renamed, dflt_const, dflt_var, renamedKids]
  | node l ks => rfl

theorem renamedKids_touch {F : Type} (env : Env F) (k : NKind) (ks : List NExpr) :
    renamedKids env (touchKids k ks) = renamedKids env ks := by
  have h : renamedKids env (ks.map created) = renamedKids env ks := by
    induction ks with
    | nil => rfl
    | cons c cs ih => simp [renamedKids, renamed_created, ih]
  cases k <;> first | rfl | exact h

theorem resolvedKids_touch {F : Type} (env : Env F) (k : NKind) (ks : List NExpr) :
    resolvedKids env (readsUnset k) ks = (touchKids k ks).map (resolved env) := by
  have h0 : ∀ ks : List NExpr, resolvedKids env false ks = ks.map (resolved env) := by
    intro ks
    induction ks with
    | nil => simp [resolvedKids]
    | cons c cs ih => cases c <;> simp [resolvedKids, ih, resolved]
  have h1 : ∀ ks : List NExpr, resolvedKids env true ks = (ks.map created).map (resolved env) := by
    intro ks
    induction ks with
    | nil => simp [resolvedKids]
    | cons c cs ih => cases c <;> simp [resolvedKids, ih, resolved_dflt, created]
  cases k <;> first | exact h0 ks | exact h1 ks

theorem warningsKids_touch {F : Type} (env : Env F) (k : NKind) (ks : List NExpr) :
    warningsKids env (readsUnset k) ks = (touchKids k ks).flatMap (warnings env) := by
  have h0 : ∀ ks : List NExpr, warningsKids env false ks = ks.flatMap (warnings env) := by
    intro ks
    induction ks with
    | nil => simp [warningsKids]
    | cons c cs ih => cases c <;> simp [warningsKids, ih, warnings]
  have h1 : ∀ ks : List NExpr, warningsKids env true ks = (ks.map created).flatMap (warnings env) := by
    intro ks
    induction ks with
    | nil => simp [warningsKids]
    | cons c cs ih => cases c <;> simp [warningsKids, ih, warnings_dflt, created]
  cases k <;> first | exact h0 ks | exact h1 ks

/-! ## The traversal -/

theorem visits_id {F : Type} (env : Env F) (strict : Bool) (n : NExpr) : ∀ (es : List Ev) (s : State),
    visits (resolver env strict) n es s = s
  | [], s => rfl
  | e :: es, s => visits_id env strict n es s

/-- What is claimed of the rewriting of a node. -/
def Claim {F : Type} (env : Env F) (strict : Bool) (n : NExpr) (s : State) (n' : NExpr) (s' : State) : Prop :=
  WFC n → n.present = true → (ids n).Nodup →
    (∀ i ∈ ids n, i ∉ s.rewritten) → (0 : Int) ∉ s.rewritten →
    n' = resolved env n ∧ s'.issues = s.issues ++ warnings env n ∧
      (StatusOk strict s → StatusOk strict s') ∧
      (∀ i, i ∈ s'.rewritten ↔ i ∈ s.rewritten ∨ i ∈ renamed env n)

/-- What is claimed of the rewriting of children. -/
def KidsClaim {F : Type} (env : Env F) (strict : Bool) (done cs : List NExpr) (s : State) (ks : List NExpr)
    (s' : State) : Prop :=
  WFCs cs → (idsKids cs).Nodup →
    (∀ i ∈ idsKids cs, i ∉ s.rewritten) → (0 : Int) ∉ s.rewritten →
    ks = done ++ cs.map (resolved env) ∧ s'.issues = s.issues ++ cs.flatMap (warnings env) ∧
      (StatusOk strict s → StatusOk strict s') ∧
      (∀ i, i ∈ s'.rewritten ↔ i ∈ s.rewritten ∨ i ∈ renamedKids env cs)

theorem claim_node {F : Type} (env : Env F) (strict : Bool) {l0 l l' : NNode} {ks0 ks ks1 ks' : List NExpr}
    {s s1 s2 s3 : State} {b1 b3 : Bool}
    (hpre' : preVisit env strict (.node l0 ks0) s = (s1, .node l ks, b1))
    (hk : KidsClaim env strict [] (touchKids l.kind ks) s1 ks1 s2)
    (hknil : touchKids l.kind ks = [] → ks1 = [] ∧ s2 = s1)
    (hpost' : postVisit env strict (.node l ks1) s2 = (s3, .node l' ks', b3)) :
    Claim env strict (.node l0 ks0) s (.node l' ks') s3 := by
    intro hw hp hnd hdis h0
    simp only [WFC] at hw
    rw [preVisit_eq env strict l0 ks0 s hw.1] at hpre'
    cases hc : constantOf env l0 with
    | some c =>
      rw [hc] at hpre'
      simp only [Prod.mk.injEq, Tree.node.injEq] at hpre'
      obtain ⟨rfl, ⟨rfl, rfl⟩, _⟩ := hpre'
      obtain ⟨rfl, rfl⟩ := hknil rfl
      rw [postVisit_other env strict _ _ _ (by simp)] at hpost'
      simp only [(constant_id env hc).2, addAll_nil, Prod.mk.injEq, Tree.node.injEq] at hpost'
      obtain ⟨rfl, ⟨rfl, rfl⟩, _⟩ := hpost'
      refine ⟨by simp [resolved, hc, touchKids], by simp [warnings, hc, (constant_id env hc).2], id, fun i => ?_⟩
      simp [renamed, hc]
    | none =>
    cases hv : variableOf env l0 with
    | some nm =>
      rw [hc, hv] at hpre'
      simp only [Prod.mk.injEq, Tree.node.injEq] at hpre'
      obtain ⟨rfl, ⟨rfl, rfl⟩, _⟩ := hpre'
      obtain ⟨rfl, rfl⟩ := hknil rfl
      rw [postVisit_other env strict _ _ _ (by simp)] at hpost'
      simp only [(variable_id env hv).2, addAll_nil, Prod.mk.injEq, Tree.node.injEq] at hpost'
      obtain ⟨rfl, ⟨rfl, rfl⟩, _⟩ := hpost'
      refine ⟨by simp [resolved, hc, hv, touchKids], by simp [warnings, hc, hv, (variable_id env hv).2], id,
        fun i => ?_⟩
      simp only [renamed, hc, hv, List.mem_cons, List.mem_singleton, List.not_mem_nil, or_false]
      exact Or.comm
    | none =>
      rw [hc, hv] at hpre'
      simp only [Prod.mk.injEq, Tree.node.injEq] at hpre'
      obtain ⟨rfl, ⟨rfl, rfl⟩, _⟩ := hpre'
      have hndk : (idsKids (touchKids l0.kind ks0)).Nodup := by
        rw [idsKids_touch]
        simp only [ids] at hnd
        exact hnd.sublist (List.sublist_append_right _ _)
      obtain ⟨hks1, hiss, hst, hrw⟩ := hk (touchKids_wfcs _ _ hw.2) hndk
        (fun i hi => by
          rw [idsKids_touch] at hi
          rw [addAll_rewritten]
          exact hdis i (by simp [ids, hi])) (by rw [addAll_rewritten]; exact h0)
      rw [addAll_rewritten] at hrw
      rw [renamedKids_touch] at hrw
      have hrw' : ∀ i, i ∈ s2.rewritten ↔ i ∈ s.rewritten ∨ i ∈ renamed env (.node l0 ks0) := by
        intro i; rw [hrw]; simp [renamed, hc, hv]
      simp only [List.nil_append] at hks1
      rw [← resolvedKids_touch] at hks1
      rw [addAll_issues, ← warningsKids_touch] at hiss
      by_cases hcall : ∃ f, l0.kind = .call f
      · obtain ⟨f, hf⟩ := hcall
        obtain ⟨id0, k0⟩ := l0
        simp only at hf
        subst hf
        have hsh := hw.1
        simp only [CShape] at hsh
        obtain ⟨target, args, rfl, hargs⟩ := hsh
        have hks1' : ks1 = resolved env target :: args.map (resolved env) := by
          rw [hks1, resolvedKids_touch]; rfl
        rw [hks1'] at hpost'
        have h02 : (0 : Int) ∉ s2.rewritten := by
          intro h
          rcases (hrw 0).mp h with h | h
          · exact h0 h
          · have hz : ∀ ks : List NExpr, (0 : Int) ∉ idsKids ks := fun ks => zero_idsKids ks
            exact hz _ (renamedKids_ids env _ 0 h)
        have htsub : ∀ i ∈ ids target, i ∈ ids (.node ⟨id0, .call f⟩ (target :: args)) := by
          intro i hi; simp [ids, idsKids, hi]
        have hndall : (idsKids (target :: args)).Nodup := by
          simp only [ids] at hnd
          exact hnd.sublist (List.sublist_append_right _ _)
        simp only [idsKids] at hndall
        have hwk := hw.2
        simp only [WFCs] at hwk
        have hns := toNamespace_resolved env target s2.rewritten hwk.1
          (hndall.sublist (List.sublist_append_left _ _)) (fun i hi => by
            rw [hrw]
            have h1 : i ∉ s.rewritten := hdis i (htsub i hi)
            simp only [renamedKids, List.mem_append, h1, false_or]
            constructor
            · rintro (h | h)
              · exact h
              · exact absurd (renamedKids_ids env _ i h)
                  ((List.nodup_append.mp hndall).2.2 i hi i · rfl)
            · exact .inl) h02
        obtain ⟨b', hpc⟩ := postVisit_call env strict id0 f target (resolved env target)
          (args.map (resolved env)) s2 (resolved_present env target) hns
        rw [hpc] at hpost'
        simp only [Prod.mk.injEq] at hpost'
        obtain ⟨rfl, hn', _⟩ := hpost'
        refine ⟨?_, ?_, ?_, ?_⟩
        · rw [← hn', resolved, hc, hv]
          have : resolvedKids env (readsUnset (.call f)) (target :: args) =
              resolved env target :: args.map (resolved env) := by
            rw [resolvedKids_touch]; rfl
          rw [this]; rfl
        · rw [addAll_issues, hiss, warnings, hc, hv]
          simp only [afterWarnings, List.length_map, List.append_assoc]
        · intro h
          exact statusOk_addAll _ (hst (statusOk_addAll _ h))
        · intro i
          rw [addAll_rewritten]
          exact hrw' i
      · have hne : ∀ f, l0.kind ≠ .call f := fun f h => hcall ⟨f, h⟩
        rw [postVisit_other env strict _ _ _ hne] at hpost'
        simp only [Prod.mk.injEq] at hpost'
        obtain ⟨rfl, hn', _⟩ := hpost'
        refine ⟨?_, ?_, ?_, ?_⟩
        · rw [← hn', resolved, hc, hv, hks1]
          cases hkk : l0.kind with
          | call f => exact absurd hkk (hne f)
          | _ => simp [nodeFor, hkk]
        · rw [addAll_issues, hiss, warnings, hc, hv]
          cases hkk : l0.kind with
          | call f => exact absurd hkk (hne f)
          | _ => simp [afterWarnings, hkk, List.append_assoc]
        · intro h
          exact statusOk_addAll _ (hst (statusOk_addAll _ h))
        · intro i
          rw [addAll_rewritten]
          exact hrw' i

theorem kids_none {F : Type} (env : Env F) (strict cb : Bool) {a : Addr} {l : NNode} {ks : List NExpr}
    {s s' : State} {b : Bool} {cs : List NExpr} (h : RwKids (resolver env strict) cb a l [] cs s ks s' b)
    (e : cs = []) : ks = [] ∧ s' = s := by
  subst e; cases h; exact ⟨rfl, rfl⟩

theorem rw_claim {F : Type} (env : Env F) (strict cb : Bool) {a : Addr} {n : NExpr} {s : State} {n' : NExpr}
    {s' : State} {b : Bool} (h : Rw (resolver env strict) cb a n s n' s' b) : Claim env strict n s n' s' := by
  refine Rw.rec (motive_1 := fun _ n s n' s' _ _ => Claim env strict n s n' s')
    (motive_2 := fun _ _ done cs s ks s' _ _ => KidsClaim env strict done cs s ks s') ?_ ?_ ?_ ?_ h
  · intro a n s s1 s2 s3 l l' ks ks1 ks' b1 b2 b3 hpre hk hpost ih
    cases n with
    | absent => intro hw hp; simp [Tree.present] at hp
    | node l0 ks0 =>
      simp only [visits_id] at hk hpost ih
      exact claim_node env strict hpre ih (fun e => kids_none env strict cb hk e) hpost
  · intro a l done s _ _ _ _
    simp [renamedKids]
  · intro a l done cs ks s s' b hk ih hw hnd hdis h0
    simp only [WFCs] at hw
    simp only [idsKids, ids, List.nil_append] at hnd hdis
    obtain ⟨h1, h2, h3, h4⟩ := ih hw.2 hnd hdis h0
    exact ⟨by rw [h1]; simp [resolved], by rw [h2]; simp [warnings], h3, by
      intro i; rw [h4]; simp [renamedKids, renamed]⟩
  · intro a l done cs ks c c' s s1 s' b1 b2 hp h1 h2 i1 i2 hw hnd hdis h0
    simp only [WFCs] at hw
    simp only [visits_id] at i1 i2
    simp only [idsKids] at hnd hdis
    obtain ⟨hn, hi, hs, hr⟩ := i1 hw.1 hp
      (hnd.sublist (List.sublist_append_left _ _)) (fun i h => hdis i (by simp [h])) h0
    have hd := (List.nodup_append.mp hnd).2.2
    obtain ⟨k1, k2, k3, k4⟩ := i2 hw.2
      (hnd.sublist (List.sublist_append_right _ _)) (fun i h hm => by
        rcases (hr i).mp hm with h' | h'
        · exact hdis i (by simp [h]) h'
        · exact hd i (renamed_ids env c i h') i h rfl) (fun hm => by
        rcases (hr 0).mp hm with h' | h'
        · exact h0 h'
        · exact zero_ids c (renamed_ids env c 0 h'))
    refine ⟨by rw [k1, hn]; simp, by rw [k2, hi]; simp [List.append_assoc], fun h => k3 (hs h), fun i => ?_⟩
    rw [k4, hr]
    simp only [renamedKids, List.mem_append, or_assoc]

end Cel.Refs
