import Verif.Policy.FirstMatch

/-!
# Unnesting keeps the meaning (C56)
-/

set_option linter.unusedSimpArgs false
set_option linter.unusedVariables false

namespace Policy

attribute [local irreducible] blockIndex

/-! ## Indices in range -/

mutual
/-- Every `@indexN` of the expression has `N < n`. -/
def Scoped (n : Nat) : Ex → Prop
  | .const _ => True
  | .ref _ => True
  | .loc _ => True
  | .index m => m < n
  | .app _ args => ScopedList n args
  | .compr _ _ a b c d e => Scoped n a ∧ Scoped n b ∧ Scoped n c ∧ Scoped n d ∧ Scoped n e
/-- Over a list. -/
def ScopedList (n : Nat) : List Ex → Prop
  | [] => True
  | e :: es => Scoped n e ∧ ScopedList n es
end

mutual
theorem Scoped.mono {n m : Nat} (h : n ≤ m) : ∀ (e : Ex), Scoped n e → Scoped m e
  | .const _, _ => by simp [Scoped]
  | .ref _, _ => by simp [Scoped]
  | .loc _, _ => by simp [Scoped]
  | .index k, hk => by simp only [Scoped] at *; omega
  | .app _ args, hk => by simp only [Scoped] at *; exact ScopedList.mono h args hk
  | .compr _ _ a b c d e, hk => by
    simp only [Scoped] at *
    exact ⟨Scoped.mono h a hk.1, Scoped.mono h b hk.2.1, Scoped.mono h c hk.2.2.1, Scoped.mono h d hk.2.2.2.1,
      Scoped.mono h e hk.2.2.2.2⟩
theorem ScopedList.mono {n m : Nat} (h : n ≤ m) : ∀ (es : List Ex), ScopedList n es → ScopedList m es
  | [], _ => by simp [ScopedList]
  | e :: es, hk => by
    simp only [ScopedList] at *
    exact ⟨Scoped.mono h e hk.1, ScopedList.mono h es hk.2⟩
end

mutual
theorem eval_scoped (I : Interp) (σ : Env) {vs ws : List Val} (hp : vs <+: ws) :
    ∀ (e : Ex) (ρ : Env), Scoped vs.length e → eval I ws σ ρ e = eval I vs σ ρ e
  | .const _, ρ, _ => by simp only [eval]
  | .ref _, ρ, _ => by simp only [eval]
  | .loc _, ρ, _ => by simp only [eval]
  | .index k, ρ, hk => by
    simp only [Scoped] at hk
    obtain ⟨m, rfl⟩ := hp
    simp only [eval]
    rw [List.getElem?_append_left hk]
  | .app op args, ρ, hk => by
    simp only [Scoped] at hk
    simp only [eval, evalList_scoped I σ hp args ρ hk]
  | .compr iv av a b c d e, ρ, hk => by
    simp only [Scoped] at hk
    obtain ⟨ha, hb, hc, hd, he⟩ := hk
    simp only [eval, eval_scoped I σ hp a ρ ha, eval_scoped I σ hp b ρ hb]
    have hc' : ∀ ρ, eval I ws σ ρ c = eval I vs σ ρ c := fun ρ => eval_scoped I σ hp c ρ hc
    have hd' : ∀ ρ, eval I ws σ ρ d = eval I vs σ ρ d := fun ρ => eval_scoped I σ hp d ρ hd
    have he' : ∀ ρ, eval I ws σ ρ e = eval I vs σ ρ e := fun ρ => eval_scoped I σ hp e ρ he
    simp only [hc', hd', he']
theorem evalList_scoped (I : Interp) (σ : Env) {vs ws : List Val} (hp : vs <+: ws) :
    ∀ (es : List Ex) (ρ : Env), ScopedList vs.length es → evalList I ws σ ρ es = evalList I vs σ ρ es
  | [], ρ, _ => by simp only [evalList]
  | e :: es, ρ, hk => by
    simp only [ScopedList] at hk
    simp only [evalList, eval_scoped I σ hp e ρ hk.1, evalList_scoped I σ hp es ρ hk.2]
end

/-! ## The composed expression is in range -/

/-- Every variable in scope has a slot below `n`. -/
def Bounded (ss : List Scope) (n : Nat) : Prop := ∀ x m, blockIndex ss x = some m → m < n

theorem Bounded.mono {ss : List Scope} {n m : Nat} (h : Bounded ss n) (hle : n ≤ m) : Bounded ss m :=
  fun x k hk => Nat.lt_of_lt_of_le (h x k hk) hle

mutual
theorem mapVars_scoped {ss : List Scope} {n : Nat} (hb : Bounded ss n) :
    ∀ (e : Ex), Source e → Scoped n (mapVars ss e)
  | .const _, _ => by simp [mapVars, Scoped]
  | .ref x, _ => by
    simp only [mapVars]
    cases hx : blockIndex ss x with
    | none => simp [Scoped]
    | some m => simpa [Scoped] using hb x m hx
  | .loc _, _ => by simp [mapVars, Scoped]
  | .index k, h => absurd h (by simp [Source])
  | .app _ args, h => by
    simp only [Source] at h
    simp only [mapVars, Scoped]
    exact mapVarsList_scoped hb args h
  | .compr _ _ a b c d e, h => by
    simp only [Source] at h
    simp only [mapVars, Scoped]
    exact ⟨mapVars_scoped hb a h.1, mapVars_scoped hb b h.2.1, mapVars_scoped hb c h.2.2.1,
      mapVars_scoped hb d h.2.2.2.1, mapVars_scoped hb e h.2.2.2.2⟩
theorem mapVarsList_scoped {ss : List Scope} {n : Nat} (hb : Bounded ss n) :
    ∀ (es : List Ex), SourceList es → ScopedList n (mapVarsList ss es)
  | [], _ => by simp [mapVarsList, ScopedList]
  | e :: es, h => by
    simp only [SourceList] at h
    simp only [mapVarsList, ScopedList]
    exact ⟨mapVars_scoped hb e h.1, mapVarsList_scoped hb es h.2⟩
end

theorem composeVars_bounded (ss : List Scope) : ∀ (vars : List (String × Ex)) (s : Scope) (init : List Ex),
    Bounded (s :: ss) init.length →
    Bounded ((composeVars ss s init vars).1 :: ss) (composeVars ss s init vars).2.length
  | [], s, init, h => h
  | (x, e) :: vs, s, init, h => by
    simp only [composeVars]
    apply composeVars_bounded ss vs
    intro y m hy
    rw [blockIndex_cons] at hy
    split at hy
    · simp only [Option.some.injEq] at hy; subst hy; simp
    · have := h y m hy
      simp; omega

theorem wrapIf_scoped {n : Nat} {nw w : Bool} {e : Ex} (h : Scoped n e) : Scoped n (wrapIf nw w e) := by
  unfold wrapIf
  split
  · simp only [Scoped, ScopedList]; exact ⟨h, True.intro⟩
  · exact h

/-- Slots grow and the expression is in range. -/
def InRange (init : List Ex) (res : List Ex × Ex × Bool) : Prop :=
  init.length ≤ res.1.length ∧ Scoped res.1.length res.2.1

mutual
theorem composeRule_scoped : ∀ (r : Rule) (ss : List Scope) (init : List Ex) (res : List Ex × Ex × Bool),
    r.Source → Bounded ss init.length → composeRule ss init r = .ok res → InRange init res
  | .mk vars ms, ss, init, res, hs, hb, h => by
    simp only [Rule.Source] at hs
    simp only [composeRule] at h
    have hb0 : Bounded ([] :: ss) init.length := by
      intro x m hm
      rw [blockIndex_nil] at hm
      exact hb x m hm
    have hg := composeMatches_scoped ms _ _ _ res hs.2 (composeVars_bounded ss vars [] init hb0) h
    have hl := (composeVars_grows ss vars [] init).length_le
    exact ⟨Nat.le_trans hl hg.1, hg.2⟩
theorem composeMatches_scoped : ∀ (ms : Matches) (ss : List Scope) (nw : Bool) (init : List Ex)
    (res : List Ex × Ex × Bool), ms.Source → Bounded ss init.length →
    composeMatches ss nw init ms = .ok res → InRange init res
  | .nil, ss, nw, init, res, hs, hb, h => by
    simp only [composeMatches, Except.ok.injEq] at h
    subst h
    exact ⟨Nat.le_refl _, by simp [Scoped, ScopedList]⟩
  | .cons c p ms, ss, nw, init, res, hs, hb, h => by
    simp only [Matches.Source] at hs
    obtain ⟨hsc, hsp, hsm⟩ := hs
    cases hc : trivial c with
    | true =>
      cases ms with
      | nil =>
        rw [composeMatches_last hc] at h
        cases hp : composeProd ss init p with
        | error e => rw [hp] at h; exact absurd h (by simp)
        | ok r1 =>
          obtain ⟨init1, e1, w1⟩ := r1
          rw [hp] at h
          simp only [Except.ok.injEq] at h
          subst h
          have hg := composeProd_scoped p ss init _ hsp hb hp
          exact ⟨hg.1, wrapIf_scoped hg.2⟩
      | cons c' p' ms' =>
        rw [composeMatches_through hc] at h
        split at h
        · exact absurd h (by simp)
        cases hp : composeProd ss init p with
        | error e => rw [hp] at h; exact absurd h (by simp)
        | ok r1 =>
          obtain ⟨init1, e1, w1⟩ := r1
          rw [hp] at h
          have hg := composeProd_scoped p ss init _ hsp hb hp
          simp only at h
          split at h
          · cases hm : composeMatches ss nw init1 (.cons c' p' ms') with
            | error e => rw [hm] at h; exact absurd h (by simp)
            | ok r2 =>
              obtain ⟨init2, e2, w2⟩ := r2
              rw [hm] at h
              simp only [Except.ok.injEq] at h
              subst h
              have hg2 := composeMatches_scoped (.cons c' p' ms') ss nw init1 _ hsm (hb.mono hg.1) hm
              refine ⟨Nat.le_trans hg.1 hg2.1, ?_⟩
              simp only [Scoped, ScopedList]
              exact ⟨wrapIf_scoped (Scoped.mono hg2.1 _ hg.2), hg2.2, True.intro⟩
          · exact absurd h (by simp)
    | false =>
      rw [composeMatches_cond hc] at h
      cases hp : composeProd ss init p with
      | error e => rw [hp] at h; exact absurd h (by simp)
      | ok r1 =>
        obtain ⟨init1, e1, w1⟩ := r1
        rw [hp] at h
        have hg := composeProd_scoped p ss init _ hsp hb hp
        simp only at h
        cases hm : composeMatches ss nw init1 ms with
        | error e => rw [hm] at h; exact absurd h (by simp)
        | ok r2 =>
          obtain ⟨init2, e2, w2⟩ := r2
          rw [hm] at h
          simp only [Except.ok.injEq] at h
          subst h
          have hg2 := composeMatches_scoped ms ss nw init1 _ hsm (hb.mono hg.1) hm
          refine ⟨Nat.le_trans hg.1 hg2.1, ?_⟩
          have hsc' : Source (c.getD (.const (.bool true))) := by
            cases c with
            | none => simp [Source]
            | some e => exact hsc e rfl
          simp only [Scoped, ScopedList]
          exact ⟨mapVars_scoped (hb.mono (Nat.le_trans hg.1 hg2.1)) _ hsc',
            wrapIf_scoped (Scoped.mono hg2.1 _ hg.2), hg2.2, True.intro⟩
theorem composeProd_scoped : ∀ (p : Production) (ss : List Scope) (init : List Ex) (res : List Ex × Ex × Bool),
    p.Source → Bounded ss init.length → composeProd ss init p = .ok res → InRange init res
  | .empty, ss, init, res, hs, hb, h => absurd h (by simp [composeProd])
  | .rule r, ss, init, res, hs, hb, h => by
    simp only [Production.Source] at hs
    simp only [composeProd] at h
    exact composeRule_scoped r ss init res hs hb h
  | .output e, ss, init, res, hs, hb, h => by
    simp only [Production.Source] at hs
    simp only [composeProd, Except.ok.injEq] at h
    subst h
    exact ⟨Nat.le_refl _, mapVars_scoped hb e hs⟩
end

/-! ## Slicing -/

mutual
/-- Nothing is cut inside a comprehension that is not refused. -/
theorem slice_inC (h : Nat) : ∀ (e : Ex) (init : List Ex), blocked h true e = false → slice h init e = (init, e)
  | .const v, init, hb => by
    simp only [blocked, Bool.true_and] at hb
    simp [slice, cut, hb]
  | .ref x, init, hb => by
    simp only [blocked, Bool.true_and] at hb
    simp [slice, cut, hb]
  | .loc x, init, hb => by
    simp only [blocked, Bool.true_and] at hb
    simp [slice, cut, hb]
  | .index n, init, hb => by
    simp only [blocked, Bool.true_and] at hb
    simp [slice, cut, hb]
  | .app op args, init, hb => by
    simp only [blocked, Bool.true_and, Bool.or_eq_false_iff] at hb
    simp [slice, cut, hb.1, sliceList_inC h args init hb.2]
  | .compr iv av a b c d e, init, hb => by
    simp only [blocked, Bool.or_eq_false_iff] at hb
    obtain ⟨h0, ⟨⟨⟨ha, hb⟩, hc⟩, hd⟩, he⟩ := hb
    simp [slice, cut, h0, slice_inC h a init ha, slice_inC h b init hb, slice_inC h c init hc,
      slice_inC h d init hd, slice_inC h e init he]
theorem sliceList_inC (h : Nat) : ∀ (es : List Ex) (init : List Ex), blockedList h true es = false →
    sliceList h init es = (init, es)
  | [], init, _ => by simp [sliceList]
  | e :: es, init, hb => by
    simp only [blockedList, Bool.or_eq_false_iff] at hb
    simp [sliceList, slice_inC h e init hb.1, sliceList_inC h es init hb.2]
end

/-- What slicing must do. -/
def Sliced (I : Interp) (σ : Env) (init : List Ex) (e : Ex) (r : List Ex × Ex) : Prop :=
  init <+: r.1 ∧ ∀ ws, slotVals I σ r.1 [] <+: ws → eval I ws σ noLocals r.2 = eval I ws σ noLocals e

theorem slotLen (I : Interp) (σ : Env) (es : List Ex) : (slotVals I σ es []).length = es.length := by
  rw [slotVals_length]; simp

theorem cut_sliced (I : Interp) (σ : Env) (h : Nat) {init : List Ex} {e : Ex} {r : List Ex × Ex}
    (hs : Scoped init.length e) (hr : Sliced I σ init e r) : Sliced I σ init e (cut h e r) := by
  unfold cut
  split
  · refine ⟨List.IsPrefix.trans hr.1 (List.prefix_append _ _), ?_⟩
    intro ws hws
    simp only at hws ⊢
    rw [slotVals_append] at hws
    have h1 := hr.2 _ (List.prefix_refl _)
    rw [h1] at hws
    have hp : slotVals I σ r.1 [] <+: ws := List.IsPrefix.trans (List.prefix_append _ _) hws
    have h2 : eval I ws σ noLocals e = eval I (slotVals I σ r.1 []) σ noLocals e :=
      eval_scoped I σ hp e noLocals (Scoped.mono (by rw [slotLen]; exact hr.1.length_le) e hs)
    rw [h2]
    obtain ⟨m, rfl⟩ := hws
    simp only [eval]
    rw [List.append_assoc, List.getElem?_append_right (by rw [slotLen]; exact Nat.le_refl _), slotLen]
    simp
  · exact hr

mutual
theorem slice_sliced (I : Interp) (σ : Env) (h : Nat) : ∀ (e : Ex) (init : List Ex), blocked h false e = false →
    Scoped init.length e → Sliced I σ init e (slice h init e)
  | .const v, init, _, hs => by
    simp only [slice]
    exact cut_sliced I σ h hs ⟨List.prefix_refl _, fun _ _ => rfl⟩
  | .ref v, init, _, hs => by
    simp only [slice]
    exact cut_sliced I σ h hs ⟨List.prefix_refl _, fun _ _ => rfl⟩
  | .loc v, init, _, hs => by
    simp only [slice]
    exact cut_sliced I σ h hs ⟨List.prefix_refl _, fun _ _ => rfl⟩
  | .index v, init, _, hs => by
    simp only [slice]
    exact cut_sliced I σ h hs ⟨List.prefix_refl _, fun _ _ => rfl⟩
  | .app op args, init, hb, hs => by
    simp only [slice]
    apply cut_sliced I σ h hs
    simp only [blocked, Bool.false_and, Bool.false_or] at hb
    simp only [Scoped] at hs
    have := sliceList_sliced I σ h args init hb hs
    refine ⟨this.1, ?_⟩
    intro ws hws
    simp only [eval, this.2 ws hws]
  | .compr iv av a b c d e, init, hb, hs => by
    have hid : slice h init (.compr iv av a b c d e) = (init, .compr iv av a b c d e) := by
      apply slice_inC
      simpa [blocked] using hb
    rw [hid]
    exact ⟨List.prefix_refl _, fun _ _ => rfl⟩
theorem sliceList_sliced (I : Interp) (σ : Env) (h : Nat) : ∀ (es : List Ex) (init : List Ex),
    blockedList h false es = false → ScopedList init.length es →
    init <+: (sliceList h init es).1 ∧ ∀ ws, slotVals I σ (sliceList h init es).1 [] <+: ws →
      evalList I ws σ noLocals (sliceList h init es).2 = evalList I ws σ noLocals es
  | [], init, _, _ => by simp [sliceList]
  | e :: es, init, hb, hs => by
    simp only [blockedList, Bool.or_eq_false_iff] at hb
    simp only [ScopedList] at hs
    have h1 := slice_sliced I σ h e init hb.1 hs.1
    have h2 := sliceList_sliced I σ h es (slice h init e).1 hb.2 (ScopedList.mono h1.1.length_le es hs.2)
    simp only [sliceList]
    refine ⟨List.IsPrefix.trans h1.1 h2.1, ?_⟩
    intro ws hws
    simp only [evalList]
    rw [h2.2 ws hws, h1.2 ws (List.IsPrefix.trans (slotVals_grows I σ h2.1) hws)]
end

theorem unnest_run (I : Interp) (σ : Env) {h : Nat} {p q : Prog} (hs : Scoped p.inits.length p.body)
    (hu : unnest h p = .ok q) : q.run I σ = p.run I σ := by
  unfold unnest at hu
  split at hu
  · simp only [Except.ok.injEq] at hu; subst hu; rfl
  · split at hu
    · exact absurd hu (by simp)
    · rename_i hb
      simp only [Except.ok.injEq] at hu
      subst hu
      simp only [Bool.or_eq_true, not_or, Bool.not_eq_true] at hb
      have hsl := slice_sliced I σ h p.body p.inits hb.2 hs
      simp only [Prog.run]
      rw [hsl.2 _ (List.prefix_refl _)]
      have := eval_scoped I σ (slotVals_grows I σ hsl.1) p.body noLocals (by rw [slotLen]; exact hs)
      exact this

theorem compose_scoped {r : Rule} {p : Prog} (hs : r.Source) (h : compose r = .ok p) :
    Scoped p.inits.length p.body := by
  unfold compose at h
  split at h
  · exact absurd h (by simp)
  · split at h
    · exact absurd h (by simp)
    · rename_i init body w hc
      split at h
      · simp only [Except.ok.injEq] at h
        subst h
        exact (composeRule_scoped r [] [] _ hs (by intro x m hm; rw [blockIndex_empty] at hm; simp at hm) hc).2
      · exact absurd h (by simp)

end Policy
