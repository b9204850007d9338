import Verif.Policy.Spec

/-!
# The composed expression means what the policy means (C55)
-/

set_option linter.unusedSimpArgs false
set_option linter.unusedVariables false

namespace Policy

/-! ## Slots -/

theorem slotVals_append (I : Interp) (σ : Env) : ∀ (es : List Ex) (vs : List Val) (e : Ex),
    slotVals I σ (es ++ [e]) vs = slotVals I σ es vs ++ [eval I (slotVals I σ es vs) σ noLocals e]
  | [], vs, e => by simp [slotVals]
  | e' :: es, vs, e => by simp only [List.cons_append, slotVals]; exact slotVals_append I σ es _ e

theorem slotVals_length (I : Interp) (σ : Env) : ∀ (es : List Ex) (vs : List Val),
    (slotVals I σ es vs).length = vs.length + es.length
  | [], vs => by simp [slotVals]
  | e :: es, vs => by
    simp only [slotVals]
    rw [slotVals_length I σ es]
    simp; omega

/-! ## Variables -/

/-- The scopes and slot values `vs` represent the environment `σ` over the activation `σ0`. -/
def Agrees (ss : List Scope) (vs : List Val) (σ0 σ : Env) : Prop :=
  ∀ x, (∃ n, blockIndex ss x = some n ∧ vs[n]? = some (σ x)) ∨ (blockIndex ss x = none ∧ σ x = σ0 x)

theorem Agrees.append {ss : List Scope} {vs : List Val} {σ0 σ : Env} (h : Agrees ss vs σ0 σ) (more : List Val) :
    Agrees ss (vs ++ more) σ0 σ := by
  intro x
  rcases h x with ⟨n, h1, h2⟩ | h
  · refine .inl ⟨n, h1, ?_⟩
    have hlt : n < vs.length := by
      rcases Nat.lt_or_ge n vs.length with h | h
      · exact h
      · rw [List.getElem?_eq_none h] at h2; exact absurd h2 (by simp)
    rw [List.getElem?_append_left hlt]; exact h2
  · exact .inr h

mutual
theorem eval_mapVars (I : Interp) {ss : List Scope} {vs : List Val} {σ0 σ : Env} (hA : Agrees ss vs σ0 σ) :
    ∀ (e : Ex) (ρ : Env), Source e → eval I vs σ0 ρ (mapVars ss e) = eval I [] σ ρ e
  | .const v, ρ, _ => by simp only [mapVars, eval]
  | .ref x, ρ, _ => by
    rcases hA x with ⟨n, h1, h2⟩ | ⟨h1, h2⟩
    · simp only [mapVars, h1, eval, h2, Option.getD_some]
    · simp only [mapVars, h1, eval, h2]
  | .loc x, ρ, _ => by simp only [mapVars, eval]
  | .index n, ρ, h => absurd h (by simp [Source])
  | .app op args, ρ, h => by
    simp only [Source] at h
    simp only [mapVars, eval, evalList_mapVars I hA args ρ h]
  | .compr iv av a b c d e, ρ, h => by
    simp only [Source] at h
    obtain ⟨ha, hb, hc, hd, he⟩ := h
    simp only [mapVars, eval, eval_mapVars I hA a ρ ha, eval_mapVars I hA b ρ hb]
    have hc' : ∀ ρ, eval I vs σ0 ρ (mapVars ss c) = eval I [] σ ρ c := fun ρ => eval_mapVars I hA c ρ hc
    have hd' : ∀ ρ, eval I vs σ0 ρ (mapVars ss d) = eval I [] σ ρ d := fun ρ => eval_mapVars I hA d ρ hd
    have he' : ∀ ρ, eval I vs σ0 ρ (mapVars ss e) = eval I [] σ ρ e := fun ρ => eval_mapVars I hA e ρ he
    simp only [hc', hd', he']
theorem evalList_mapVars (I : Interp) {ss : List Scope} {vs : List Val} {σ0 σ : Env} (hA : Agrees ss vs σ0 σ) :
    ∀ (es : List Ex) (ρ : Env), SourceList es → evalList I vs σ0 ρ (mapVarsList ss es) = evalList I [] σ ρ es
  | [], ρ, _ => by simp only [mapVarsList, evalList]
  | e :: es, ρ, h => by
    simp only [SourceList] at h
    simp only [mapVarsList, evalList, eval_mapVars I hA e ρ h.1, evalList_mapVars I hA es ρ h.2]
end

theorem ident_prefix (x : String) : "variable".toList.isPrefixOf (ident x).toList = true := by
  rw [ident, String.toList_append]
  rfl

theorem blockIndex_cons (x : String) (n : Nat) (s : Scope) (ss : List Scope) (y : String) :
    blockIndex (((ident x, n) :: s) :: ss) y = if y = ident x then some n else blockIndex (s :: ss) y := by
  have hp := ident_prefix x
  generalize ident x = z at hp ⊢
  unfold blockIndex
  generalize "variable".toList = w at hp ⊢
  by_cases h : y = z
  · subst h
    rw [if_pos hp, if_pos rfl, resolve.eq_def]
    simp only [List.lookup, beq_self_eq_true]
  · have h' : (y == z) = false := by simpa using h
    rw [if_neg h]
    by_cases hy : w.isPrefixOf y.toList = true
    · rw [if_pos hy, if_pos hy]
      simp only [resolve, List.lookup, h']
    · rw [if_neg hy, if_neg hy]

theorem blockIndex_nil (ss : List Scope) (x : String) : blockIndex ([] :: ss) x = blockIndex ss x := by
  unfold blockIndex
  rw [resolve.eq_def]
  rfl

theorem blockIndex_empty (x : String) : blockIndex [] x = none := by
  unfold blockIndex
  split <;> rfl

attribute [local irreducible] blockIndex

theorem composeVars_agrees (I : Interp) (ss : List Scope) (σ0 : Env) :
    ∀ (vars : List (String × Ex)) (s : Scope) (init : List Ex) (σ : Env),
      (∀ v ∈ vars, Source v.2) → Agrees (s :: ss) (slotVals I σ0 init []) σ0 σ →
      Agrees ((composeVars ss s init vars).1 :: ss) (slotVals I σ0 (composeVars ss s init vars).2 []) σ0
        (declare I σ vars)
  | [], s, init, σ, _, h => h
  | (x, e) :: vs, s, init, σ, hs, h => by
    simp only [composeVars, declare]
    apply composeVars_agrees I ss σ0 vs
    · intro v hv; exact hs v (List.mem_cons_of_mem _ hv)
    · rw [slotVals_append]
      have he := eval_mapVars I h e noLocals (hs (x, e) (List.mem_cons_self ..))
      rw [he]
      intro y
      rw [blockIndex_cons]
      by_cases hy : y = ident x
      · refine .inl ⟨init.length, by rw [if_pos hy], ?_⟩
        have hl : (slotVals I σ0 init []).length = init.length := by rw [slotVals_length]; simp
        rw [List.getElem?_append_right (by omega), hl]
        simp only [Nat.sub_self, List.getElem?_cons_zero]
        rw [Env.bind, if_pos (by rw [hy, ident])]
      · rw [if_neg hy]
        have hb : (σ.bind ("variables." ++ x) (eval I [] σ noLocals e)) y = σ y := by
          rw [Env.bind, if_neg (by rw [ident] at hy; exact hy)]
        rw [hb]
        exact h.append _ y

/-- The slots only grow. -/
theorem composeVars_grows (ss : List Scope) : ∀ (vars : List (String × Ex)) (s : Scope) (init : List Ex),
    init <+: (composeVars ss s init vars).2
  | [], s, init => List.prefix_refl _
  | (x, e) :: vs, s, init => by
    simp only [composeVars]
    exact List.IsPrefix.trans (List.prefix_append _ _) (composeVars_grows ss vs _ _)

theorem slotVals_append' (I : Interp) (σ : Env) : ∀ (a c : List Ex) (vs : List Val),
    slotVals I σ (a ++ c) vs = slotVals I σ c (slotVals I σ a vs)
  | [], c, vs => rfl
  | e :: a, c, vs => by simp only [List.cons_append, slotVals]; exact slotVals_append' I σ a c _

theorem slotVals_prefix (I : Interp) (σ : Env) : ∀ (c : List Ex) (vs : List Val), vs <+: slotVals I σ c vs
  | [], vs => List.prefix_refl _
  | e :: c, vs => List.IsPrefix.trans (List.prefix_append _ _) (slotVals_prefix I σ c _)

theorem slotVals_grows (I : Interp) (σ : Env) {a b : List Ex} (h : a <+: b) :
    slotVals I σ a [] <+: slotVals I σ b [] := by
  obtain ⟨c, rfl⟩ := h
  rw [slotVals_append']
  exact slotVals_prefix I σ c _

theorem Agrees.grows {ss : List Scope} {vs ws : List Val} {σ0 σ : Env} (h : Agrees ss vs σ0 σ) (hp : vs <+: ws) :
    Agrees ss ws σ0 σ := by
  obtain ⟨m, rfl⟩ := hp
  exact h.append m

/-! ## Composition: the slots, and the wrapping -/

theorem trivial_iff (c : Option Ex) : trivial c = true ↔ Unconditional c := by
  constructor
  · intro h
    unfold trivial at h
    split at h
    · exact .none
    · exact .true
    · exact absurd h (by simp)
  · intro h; cases h <;> rfl

/-- What `composeMatches` gives for an unconditional last match. -/
theorem composeMatches_last {ss nw init c p} (hc : trivial c = true) :
    composeMatches ss nw init (.cons c p .nil) =
      match composeProd ss init p with
      | .error e => .error e
      | .ok (init1, e1, w1) => .ok (init1, wrapIf nw w1 e1, nw) := by
  rw [composeMatches.eq_def]
  simp only [hc]
  rfl

theorem composeMatches_through {ss nw init c p c' p' ms'} (hc : trivial c = true) :
    composeMatches ss nw init (.cons c p (.cons c' p' ms')) =
      if exhaustiveProd p then .error .internalUnreachable
      else
        match composeProd ss init p with
        | .error e => .error e
        | .ok (init1, e1, w1) =>
          if w1 then
            match composeMatches ss nw init1 (.cons c' p' ms') with
            | .error e => .error e
            | .ok (init2, e2, w2) =>
              .ok (init2, .app (if nw then .orElse else .orValue) [wrapIf nw w1 e1, e2], w2)
          else .error .internalNotWrapped := by
  rw [composeMatches.eq_def]
  simp only [hc]
  rfl

theorem composeMatches_cond {ss nw init c p ms} (hc : trivial c = false) :
    composeMatches ss nw init (.cons c p ms) =
      match composeProd ss init p with
      | .error e => .error e
      | .ok (init1, e1, w1) =>
        match composeMatches ss nw init1 ms with
        | .error e => .error e
        | .ok (init2, e2, w2) =>
          .ok (init2,
            .app .cond [mapVars ss (c.getD (.const (.bool true))), wrapIf nw w1 e1, e2], w2) := by
  rw [composeMatches.eq_def]
  simp only [hc]
  rfl

/-- `v` shows the outcome `o`: as it is, or as an optional. -/
def Shows (wrapped : Bool) (o : Outcome) (v : Val) : Prop :=
  if wrapped = true then v = o.asOptional else o = .produced v

theorem shows_wrapIf (I : Interp) (nw w : Bool) (o : Outcome) (vs : List Val) (σ ρ : Env) (e : Ex)
    (hw : w = true → nw = true)
    (h : Shows w o (eval I vs σ ρ e)) : Shows nw o (eval I vs σ ρ (wrapIf nw w e)) := by
  cases nw <;> cases w
  · simpa [wrapIf] using h
  · exact absurd (hw rfl) (by simp)
  · simp only [Shows, Bool.false_eq_true, if_false] at h
    subst h
    simp only [Shows, wrapIf, Bool.not_false, Bool.and_self, if_true, eval, evalList]
    cases eval I vs σ ρ e <;> simp [apply, Outcome.asOptional]
  · simpa [wrapIf] using h

/-- The statement proved by induction for rules, matches and productions. -/
def Good (I : Interp) (σ0 : Env) (init : List Ex) (o : Outcome) (w : Bool)
    (res : List Ex × Ex × Bool) : Prop :=
  init <+: res.1 ∧ res.2.2 = w ∧
    ∀ ws, slotVals I σ0 res.1 [] <+: ws → Shows w o (eval I ws σ0 noLocals res.2.1)

mutual
theorem composeRule_good (I : Interp) (σ0 : Env) : ∀ (r : Rule) (ss : List Scope) (init : List Ex) (σ : Env)
    (res : List Ex × Ex × Bool), r.Source → Agrees ss (slotVals I σ0 init []) σ0 σ →
    composeRule ss init r = .ok res → Good I σ0 init (r.outcome I σ) (!exhaustive r) res
  | .mk vars ms, ss, init, σ, res, hs, hA, h => by
    simp only [Rule.Source] at hs
    simp only [composeRule] at h
    have hA0 : Agrees ([] :: ss) (slotVals I σ0 init []) σ0 σ := by
      intro x
      rw [blockIndex_nil]; exact hA x
    have hA1 := composeVars_agrees I ss σ0 vars [] init σ hs.1 hA0
    have hg := composeMatches_good I σ0 ms _ _ _ _ res hs.2 hA1 (by simp) h
    refine ⟨List.IsPrefix.trans (composeVars_grows ss vars [] init) hg.1, ?_, ?_⟩
    · simpa [exhaustive] using hg.2.1
    · simpa [exhaustive, Rule.outcome] using hg.2.2
theorem composeMatches_good (I : Interp) (σ0 : Env) : ∀ (ms : Matches) (ss : List Scope) (nw : Bool)
    (init : List Ex) (σ : Env) (res : List Ex × Ex × Bool), ms.Source →
    Agrees ss (slotVals I σ0 init []) σ0 σ → (nw = false → exhaustiveFrom false ms = true) →
    composeMatches ss nw init ms = .ok res → Good I σ0 init (ms.outcome I σ) nw res
  | .nil, ss, nw, init, σ, res, hs, hA, hn, h => by
    simp only [composeMatches, Except.ok.injEq] at h
    subst h
    have : nw = true := by
      cases nw
      · exact absurd (hn rfl) (by simp [exhaustiveFrom])
      · rfl
    subst this
    exact ⟨List.prefix_refl _, rfl, fun ws _ => by simp [Shows, eval, evalList, apply, Matches.outcome,
      Outcome.asOptional]⟩
  | .cons c p ms, ss, nw, init, σ, res, hs, hA, hn, h => by
    simp only [Matches.Source] at hs
    obtain ⟨hsc, hsp, hsm⟩ := hs
    -- what the flag says about this match
    have hn1 : nw = false → (trivial c = true ∨ exhaustiveProd p = true) ∧
        exhaustiveFrom (trivial c && exhaustiveProd p) ms = true := by
      intro h0
      have := hn h0
      simp only [exhaustiveFrom, Bool.false_or] at this
      split at this
      · exact absurd this (by simp)
      · rename_i hx
        refine ⟨?_, this⟩
        cases h1 : trivial c <;> cases h2 : exhaustiveProd p <;> simp_all
    cases hc : trivial c with
    | true =>
      have hu : Unconditional c := (trivial_iff c).1 hc
      cases ms with
      | nil =>
        rw [composeMatches_last hc] at h
        cases hp : composeProd ss init p with
        | error e => rw [hp] at h; exact absurd h (by simp)
        | ok r1 =>
          obtain ⟨init1, e1, w1⟩ := r1
          rw [hp] at h
          simp only [Except.ok.injEq] at h
          subst h
          have hg := composeProd_good I σ0 p ss init σ _ hsp hA hp
          obtain ⟨g1, g2, g3⟩ := hg
          simp only at g1 g2 g3
          subst g2
          refine ⟨g1, rfl, ?_⟩
          intro ws hws
          have h3 := g3 ws hws
          have ho : Matches.outcome I σ (.cons c p .nil) = p.outcome I σ := by
            simp only [Matches.outcome, if_pos hu]
            cases p.outcome I σ <;> rfl
          rw [ho]
          apply shows_wrapIf I nw _ _ ws σ0 noLocals e1 _ h3
          intro hw
          cases nw with
          | true => rfl
          | false =>
            have := (hn1 rfl).2
            simp only [exhaustiveFrom, hc, Bool.true_and] at this
            rw [this] at hw
            exact absurd hw (by simp)
      | cons c' p' ms' =>
        rw [composeMatches_through hc] at h
        split at h
        · exact absurd h (by simp)
        rename_i hex
        have hex : exhaustiveProd p = false := by simpa using hex
        cases hp : composeProd ss init p with
        | error e => rw [hp] at h; exact absurd h (by simp)
        | ok r1 =>
          obtain ⟨init1, e1, w1⟩ := r1
          rw [hp] at h
          have hg := composeProd_good I σ0 p ss init σ _ hsp hA hp
          obtain ⟨g1, g2, g3⟩ := hg
          simp only at g1 g2 g3
          rw [hex] at g2 g3
          simp only [Bool.not_false] at g2 g3
          subst g2
          simp only [if_true] at h
          cases hm : composeMatches ss nw init1 (.cons c' p' ms') with
          | error e => rw [hm] at h; exact absurd h (by simp)
          | ok r2 =>
            obtain ⟨init2, e2, w2⟩ := r2
            rw [hm] at h
            simp only [Except.ok.injEq] at h
            subst h
            have hA' := hA.grows (slotVals_grows I σ0 g1)
            have hg2 := composeMatches_good I σ0 (.cons c' p' ms') ss nw init1 σ _ hsm hA' (by
              intro h0
              have := (hn1 h0).2
              rw [hc, hex] at this
              simpa using this) hm
            obtain ⟨k1, k2, k3⟩ := hg2
            simp only at k1 k2 k3
            refine ⟨List.IsPrefix.trans g1 k1, k2, ?_⟩
            intro ws hws
            have h1 := g3 ws (List.IsPrefix.trans (slotVals_grows I σ0 k1) hws)
            have h2 := k3 ws hws
            have ho : Matches.outcome I σ (.cons c p (.cons c' p' ms')) =
                match p.outcome I σ with
                | .noMatch => Matches.outcome I σ (.cons c' p' ms')
                | .produced v => .produced v := by
              rw [Matches.outcome.eq_def]
              simp only [if_pos hu]
              rfl
            rw [ho]
            have hw : wrapIf nw true e1 = e1 := by cases nw <;> rfl
            rw [hw]
            simp only [Shows, if_true] at h1
            generalize Matches.outcome I σ (.cons c' p' ms') = o2 at h2 ⊢
            generalize p.outcome I σ = o1 at h1 ⊢
            simp only [eval, evalList, h1]
            generalize eval I ws σ0 noLocals e2 = v2 at h2 ⊢
            cases nw with
            | true =>
              simp only [Shows, if_true] at h2 ⊢
              subst h2
              cases o1 with
              | noMatch =>
                cases o2 with
                | noMatch => simp [apply, Outcome.asOptional]
                | produced v => cases v <;> simp [apply, Outcome.asOptional]
              | produced v => cases v <;> simp [apply, Outcome.asOptional]
            | false =>
              simp only [Shows, Bool.false_eq_true, if_false] at h2 ⊢
              subst h2
              cases o1 with
              | noMatch => simp [apply, Outcome.asOptional]
              | produced v => cases v <;> simp [apply, Outcome.asOptional]
    | false =>
      have hu : ¬ Unconditional c := by
        intro hh; rw [(trivial_iff c).2 hh] at hc; exact absurd hc (by simp)
      rw [composeMatches_cond hc] at h
      cases hp : composeProd ss init p with
      | error e => rw [hp] at h; exact absurd h (by simp)
      | ok r1 =>
        obtain ⟨init1, e1, w1⟩ := r1
        rw [hp] at h
        simp only at h
        have hg := composeProd_good I σ0 p ss init σ _ hsp hA hp
        obtain ⟨g1, g2, g3⟩ := hg
        simp only at g1 g2 g3
        subst g2
        cases hm : composeMatches ss nw init1 ms with
        | error e => rw [hm] at h; exact absurd h (by simp)
        | ok r2 =>
          obtain ⟨init2, e2, w2⟩ := r2
          rw [hm] at h
          simp only [Except.ok.injEq] at h
          subst h
          have hA' := hA.grows (slotVals_grows I σ0 g1)
          have hg2 := composeMatches_good I σ0 ms ss nw init1 σ _ hsm hA' (by
            intro h0
            have := (hn1 h0).2
            rw [hc] at this
            simpa using this) hm
          obtain ⟨k1, k2, k3⟩ := hg2
          simp only at k1 k2 k3
          refine ⟨List.IsPrefix.trans g1 k1, k2, ?_⟩
          intro ws hws
          have h1 := g3 ws (List.IsPrefix.trans (slotVals_grows I σ0 k1) hws)
          have h2 := k3 ws hws
          have h1' := shows_wrapIf I nw _ _ ws σ0 noLocals e1 (by
            intro hw
            cases nw with
            | true => rfl
            | false =>
              rcases (hn1 rfl).1 with h | h
              · rw [hc] at h; exact absurd h (by simp)
              · rw [h] at hw; exact absurd hw (by simp)) h1
          have hAw : Agrees ss ws σ0 σ :=
            (hA'.grows (slotVals_grows I σ0 k1)).grows hws
          have hsc' : Source (c.getD (.const (.bool true))) := by
            cases c with
            | none => exact absurd Unconditional.none hu
            | some e => exact hsc e rfl
          have hcv := eval_mapVars I hAw _ noLocals hsc'
          have ho : Matches.outcome I σ (.cons c p ms) =
              match eval I [] σ noLocals (c.getD (.const (.bool true))) with
              | .bool true => p.outcome I σ
              | .bool false => ms.outcome I σ
              | .err e => .produced (.err e)
              | _ => .produced (.err "no matching overload: _?_:_") := by
            rw [Matches.outcome.eq_def]
            simp only [if_neg hu]
            rfl
          rw [ho]
          simp only [eval, evalList, hcv]
          generalize eval I [] σ noLocals (c.getD (.const (.bool true))) = cv
          cases cv with
          | bool b => cases b <;> simpa [apply]
          | err e => cases nw <;> simp [apply, Shows, Outcome.asOptional]
          | optNone => cases nw <;> simp [apply, Shows, Outcome.asOptional]
          | optSome v => cases nw <;> simp [apply, Shows, Outcome.asOptional]
          | data n => cases nw <;> simp [apply, Shows, Outcome.asOptional]
theorem composeProd_good (I : Interp) (σ0 : Env) : ∀ (p : Production) (ss : List Scope) (init : List Ex) (σ : Env)
    (res : List Ex × Ex × Bool), p.Source → Agrees ss (slotVals I σ0 init []) σ0 σ →
    composeProd ss init p = .ok res → Good I σ0 init (p.outcome I σ) (!exhaustiveProd p) res
  | .empty, ss, init, σ, res, hs, hA, h => absurd h (by simp [composeProd])
  | .rule r, ss, init, σ, res, hs, hA, h => by
    simp only [Production.Source] at hs
    simp only [composeProd] at h
    simpa [exhaustiveProd, Production.outcome] using composeRule_good I σ0 r ss init σ res hs hA h
  | .output e, ss, init, σ, res, hs, hA, h => by
    simp only [Production.Source] at hs
    simp only [composeProd, Except.ok.injEq] at h
    subst h
    refine ⟨List.prefix_refl _, rfl, ?_⟩
    intro ws hws
    simp only [exhaustiveProd, Shows, Production.outcome, Bool.not_true, Bool.false_eq_true, if_false]
    rw [eval_mapVars I (hA.grows hws) e noLocals hs]
end

/-! ## Accepted policies compose -/

mutual
theorem composeRule_total : ∀ (r : Rule) (ss : List Scope) (init : List Ex),
    checkRule r = .ok () → structureOk r = .ok () →
    ∃ init' e, composeRule ss init r = .ok (init', e, !exhaustive r)
  | .mk vars .nil, ss, init, _, h => absurd h (by simp [structureOk])
  | .mk vars (.cons c p ms), ss, init, hk, h => by
    simp only [structureOk] at h
    simp only [checkRule] at hk
    split at hk
    · simp only [composeRule, exhaustive]
      exact composeMatches_total (.cons c p ms) _ _ _ hk h (by simp)
    · exact absurd hk (by simp)
theorem composeMatches_total : ∀ (ms : Matches) (ss : List Scope) (nw : Bool) (init : List Ex),
    checkMatches ms = .ok () → structureFrom false ms = .ok () →
    (nw = false → exhaustiveFrom false ms = true) →
    ∃ init' e, composeMatches ss nw init ms = .ok (init', e, nw)
  | .nil, ss, nw, init, _, _, hn => by
    cases nw with
    | false => exact absurd (hn rfl) (by simp [exhaustiveFrom])
    | true => exact ⟨init, .app .optNone [], by simp [composeMatches]⟩
  | .cons c p ms, ss, nw, init, hk, h, hn => by
    have hk' : checkProd p = .ok () ∧ checkMatches ms = .ok () := by
      simp only [checkMatches] at hk
      split at hk
      · exact absurd hk (by simp)
      · rename_i hx; exact ⟨hx, hk⟩
    have hs : structureProd p = .ok () ∧ structureFrom (trivial c && exhaustiveProd p) ms = .ok () := by
      simp only [structureFrom, Bool.false_eq_true, if_false] at h
      split at h
      · exact absurd h (by simp)
      · rename_i hx; exact ⟨hx, h⟩
    have hn1 : nw = false → exhaustiveFrom (trivial c && exhaustiveProd p) ms = true := by
      intro h0
      have := hn h0
      simp only [exhaustiveFrom, Bool.false_or] at this
      split at this
      · exact absurd this (by simp)
      · exact this
    obtain ⟨init1, e1, hp⟩ := composeProd_total p ss init hk'.1 hs.1
    cases hc : trivial c with
    | true =>
      cases ms with
      | nil => rw [composeMatches_last hc, hp]; exact ⟨_, _, rfl⟩
      | cons c' p' ms' =>
        have hex : exhaustiveProd p = false := by
          cases hx : exhaustiveProd p with
          | false => rfl
          | true =>
            have := hs.2
            rw [hc, hx] at this
            simp [structureFrom] at this
        rw [hc, hex] at hs hn1
        obtain ⟨init2, e2, hm⟩ := composeMatches_total (.cons c' p' ms') ss nw init1 hk'.2 hs.2 hn1
        rw [composeMatches_through hc, if_neg (by simp [hex]), hp]
        simp only [hex, Bool.not_false, if_true, hm]
        exact ⟨_, _, rfl⟩
    | false =>
      rw [hc] at hs hn1
      obtain ⟨init2, e2, hm⟩ := composeMatches_total ms ss nw init1 hk'.2 hs.2 hn1
      rw [composeMatches_cond hc, hp]
      simp only [hm]
      exact ⟨_, _, rfl⟩
theorem composeProd_total : ∀ (p : Production) (ss : List Scope) (init : List Ex),
    checkProd p = .ok () → structureProd p = .ok () →
    ∃ init' e, composeProd ss init p = .ok (init', e, !exhaustiveProd p)
  | .empty, ss, init, h, _ => absurd h (by simp [checkProd])
  | .rule r, ss, init, hk, h => by
    simp only [checkProd] at hk
    simp only [structureProd] at h
    simp only [composeProd, exhaustiveProd]
    exact composeRule_total r ss init hk h
  | .output e, ss, init, _, _ => ⟨init, mapVars ss e, by simp [composeProd, exhaustiveProd]⟩
end

/-! ## Exhaustive rules -/

mutual
theorem exhaustive_iff : ∀ (r : Rule), structureOk r = .ok () → (exhaustive r = true ↔ AlwaysMatches r)
  | .mk vars .nil, h => absurd h (by simp [structureOk])
  | .mk vars (.cons c p ms), h => by
    simp only [structureOk] at h
    have := exhaustiveFrom_iff (.cons c p ms) h
    simp only [exhaustive]
    rw [this]
    constructor
    · exact .mk
    · intro h; cases h; assumption
theorem exhaustiveFrom_iff : ∀ (ms : Matches), structureFrom false ms = .ok () →
    (exhaustiveFrom false ms = true ↔ MatchesAlways ms)
  | .nil, _ => by
    simp only [exhaustiveFrom, Bool.false_eq_true, false_iff]
    intro h; cases h
  | .cons c p ms, h => by
    have hs : structureProd p = .ok () ∧ structureFrom (trivial c && exhaustiveProd p) ms = .ok () := by
      simp only [structureFrom, Bool.false_eq_true, if_false] at h
      split at h
      · exact absurd h (by simp)
      · rename_i hx; exact ⟨hx, h⟩
    have ihp := exhaustiveProd_iff p hs.1
    simp only [exhaustiveFrom, Bool.false_or]
    cases hc : trivial c with
    | true =>
      have hu := (trivial_iff c).1 hc
      cases hx : exhaustiveProd p with
      | true =>
        have hm : ms = .nil := by
          cases ms with
          | nil => rfl
          | cons c' p' ms' =>
            have := hs.2
            rw [hc, hx] at this
            simp [structureFrom] at this
        subst hm
        simp only [Bool.not_true, Bool.and_self, Bool.false_eq_true, if_false, exhaustiveFrom, true_iff]
        exact .here hu (ihp.1 hx)
      | false =>
        have ihm := exhaustiveFrom_iff ms (by rw [hc, hx] at hs; exact hs.2)
        simp only [Bool.not_true, Bool.false_and, Bool.true_and, Bool.false_eq_true, if_false]
        rw [ihm]
        constructor
        · exact .fallthrough hu
        · intro h
          cases h with
          | here _ hp => rw [ihp.2 hp] at hx; exact absurd hx (by simp)
          | fallthrough _ hm => exact hm
          | conditional hn _ _ => exact absurd hu hn
    | false =>
      have hu : ¬ Unconditional c := by
        intro hh; rw [(trivial_iff c).2 hh] at hc; exact absurd hc (by simp)
      have ihm := exhaustiveFrom_iff ms (by rw [hc] at hs; exact hs.2)
      cases hx : exhaustiveProd p with
      | true =>
        simp only [Bool.not_true, Bool.not_false, Bool.and_false, Bool.false_and, Bool.false_eq_true, if_false]
        rw [ihm]
        constructor
        · exact .conditional hu (ihp.1 hx)
        · intro h
          cases h with
          | here hh _ => exact absurd hh hu
          | fallthrough hh _ => exact absurd hh hu
          | conditional _ _ hm => exact hm
      | false =>
        simp only [Bool.not_false, Bool.and_self, if_true, Bool.false_eq_true, false_iff]
        intro h
        cases h with
        | here hh _ => exact hu hh
        | fallthrough hh _ => exact hu hh
        | conditional _ hp _ => rw [ihp.2 hp] at hx; exact absurd hx (by simp)
theorem exhaustiveProd_iff : ∀ (p : Production), structureProd p = .ok () →
    (exhaustiveProd p = true ↔ Produces p)
  | .empty, _ => by
    simp only [exhaustiveProd, Bool.false_eq_true, false_iff]
    intro h; cases h
  | .rule r, h => by
    simp only [structureProd] at h
    simp only [exhaustiveProd]
    rw [exhaustive_iff r h]
    constructor
    · exact .rule
    · intro h; cases h; assumption
  | .output e, _ => by
    simp only [exhaustiveProd, true_iff]
    exact .output
end

/-- Composition alone: a composed policy shows the outcome. -/
theorem compose_shows (I : Interp) (σ : Env) {r : Rule} {p : Prog} (hs : r.Source) (h : compose r = .ok p) :
    Shows (!exhaustive r) (r.outcome I σ) (p.run I σ) := by
  unfold compose at h
  split at h
  · exact absurd h (by simp)
  · split at h
    · exact absurd h (by simp)
    · rename_i init body w hc
      split at h
      · simp only [Except.ok.injEq] at h
        subst h
        have hA : Agrees [] (slotVals I σ [] []) σ σ := by
          intro x
          exact .inr ⟨blockIndex_empty x, rfl⟩
        have hg := composeRule_good I σ r [] [] σ _ hs hA hc
        exact hg.2.2 _ (List.prefix_refl _)
      · exact absurd h (by simp)

end Policy
