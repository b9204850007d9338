import Verif.Macro.ShortCircuit

/-!
# C25: short-circuiting only removes evaluations

The host state is a log to which every function call (or lazily provided variable) appends what it was
called with.  The log of the short-circuiting plan is a sublist of the log of the exhaustive plan.
-/

set_option linter.unusedSimpArgs false
set_option linter.unusedVariables false

namespace Cel.Macro
open Cel Cel.Num Cel.Eval Cel.Data

variable {E : Type}

/-- A step that returns a value determined by its operands and logs events determined by its operands. -/
def LoggedOp (P : Value → Prop) (k : Nat) (f : Op (List E)) : Prop :=
  ∃ (g : List VA → VA) (ev : List VA → List E), (∀ xs, xs.length = k → ∀ log, f xs log = (.ok (g xs), log ++ ev xs)) ∧
    ∀ xs ys, Sames P xs ys → ev xs = ev ys

/-- Variables have values; reading one may be logged. -/
def LoggedVars (P : Value → Prop) (cfg : Cfg (List E)) : Prop :=
  ∀ x, ∃ (a : VA) (ev : List E), P a.v ∧ ∀ log, cfg.global x log = (.ok a, log ++ ev)

/-- Environments of values, related pointwise. -/
def SameVals (P : Value → Prop) : Env (List E) → Env (List E) → Prop
  | [], [] => True
  | (x, .val a) :: ρ, (y, .val b) :: ρ' => x = y ∧ Same P a b ∧ SameVals P ρ ρ'
  | _, _ => False

theorem SameVals.get {P : Value → Prop} (z : String) : ∀ {ρ ρ' : Env (List E)}, SameVals P ρ ρ' →
    (envGet ρ z = none ∧ envGet ρ' z = none) ∨
    ∃ a b, envGet ρ z = some (.val a) ∧ envGet ρ' z = some (.val b) ∧ Same P a b
  | [], [], _ => Or.inl ⟨rfl, rfl⟩
  | [], (_, .val _) :: _, he => he.elim
  | [], (_, .delayed _ _) :: _, he => he.elim
  | (_, .val _) :: _, [], he => he.elim
  | (_, .delayed _ _) :: _, [], he => he.elim
  | (_, .delayed _ _) :: _, (_, .val _) :: _, he => he.elim
  | (_, .delayed _ _) :: _, (_, .delayed _ _) :: _, he => he.elim
  | (_, .val _) :: _, (_, .delayed _ _) :: _, he => he.elim
  | (x, .val a) :: ρ, (y, .val b) :: ρ', he => by
    obtain ⟨rfl, hab, he⟩ := he
    unfold envGet
    by_cases hz : z = x
    · rw [if_pos hz, if_pos hz]; exact Or.inr ⟨a, b, rfl, rfl, hab⟩
    · rw [if_neg hz, if_neg hz]; exact SameVals.get z he

theorem SameVals.append {P : Value → Prop} : ∀ {ρ₁ ρ₁' ρ ρ' : Env (List E)}, SameVals P ρ₁ ρ₁' → SameVals P ρ ρ' →
    SameVals P (ρ₁ ++ ρ) (ρ₁' ++ ρ')
  | [], [], _, _, _, h => h
  | [], (_, .val _) :: _, _, _, he, _ => he.elim
  | [], (_, .delayed _ _) :: _, _, _, he, _ => he.elim
  | (_, .val _) :: _, [], _, _, he, _ => he.elim
  | (_, .delayed _ _) :: _, [], _, _, he, _ => he.elim
  | (_, .delayed _ _) :: _, (_, .val _) :: _, _, _, he, _ => he.elim
  | (_, .delayed _ _) :: _, (_, .delayed _ _) :: _, _, _, he, _ => he.elim
  | (_, .val _) :: _, (_, .delayed _ _) :: _, _, _, he, _ => he.elim
  | (_, .val _) :: _, (_, .val _) :: _, _, _, he, h => ⟨he.1, he.2.1, SameVals.append he.2.2 h⟩

/-- The outcome adds `tr` to the log, and changes nothing else. -/
def Logs {α : Type} (o : Out (List E) α) (s : SS (List E)) (a : α) (tr : List E) : Prop :=
  o = .ok a { s with host := s.host ++ tr }

/-- Two evaluations that both succeed, with related results, the first logging a sublist of the second. -/
def Fewer {α : Type} (R : α → α → Prop) (o o' : SS (List E) → Out (List E) α) : Prop :=
  ∃ a b tr tr', (∀ s, Logs (o s) s a tr) ∧ (∀ s, Logs (o' s) s b tr') ∧ R a b ∧ tr.Sublist tr'

theorem Logs.bind {α β : Type} {o : Out (List E) α} {f : α → SS (List E) → Out (List E) β} {s : SS (List E)} {a : α}
    {b : β} {tr tr' : List E} (h1 : Logs o s a tr) (h2 : ∀ s, Logs (f a s) s b tr') :
    Logs (o.bind f) s b (tr ++ tr') := by
  unfold Logs at *
  rw [h1]
  simp only [Out.bind, h2, List.append_assoc]

theorem Logs.pure {α : Type} (s : SS (List E)) (a : α) : Logs (.ok a s) s a [] := by
  unfold Logs; simp

section
variable {P : Value → Prop} {cfg : Cfg (List E)}

theorem tick_zero (n : Int) : tick 0 n = some n := by simp [tick]

/-- Running a loop whose accumulator no longer changes, exhaustively. -/
theorem loop_fixed {c : Cfg (List E)} (hsc : c.shortCircuit = false) (hmax : c.maxIter = 0) {Fix : VA → Prop} {Q : Item → Prop} {v : Value}
    {condE stepE : Item → VA → SS (List E) → Out (List E) VA}
    (hfix : ∀ it a, Q it → Fix a → a.v = v → ∃ x tr b tr', (∀ s, Logs (condE it a s) s x tr) ∧ (∃ y, x.v = .bool y) ∧
      (∀ s, Logs (stepE it a s) s b tr') ∧ Fix b ∧ b.v = v) :
    ∀ (l : List Item), (∀ it ∈ l, Q it) → ∀ (a : VA), Fix a → a.v = v →
      ∃ b tr, (∀ s, Logs (loop c condE stepE l a s) s (.accu b) tr) ∧ b.v = v
  | [], _, a, _, hv => ⟨a, [], fun s => by unfold loop; exact Logs.pure s _, hv⟩
  | it :: l, hq, a, hf, hv => by
    obtain ⟨x, tr, b, tr', h1, ⟨y, hy⟩, h3, h4, h5⟩ := hfix it a (hq it List.mem_cons_self) hf hv
    obtain ⟨r, tr2, h6, h7⟩ := loop_fixed hsc hmax hfix l (fun i hi => hq i (List.mem_cons_of_mem _ hi)) b h4 h5
    refine ⟨r, tr ++ (tr' ++ tr2), fun s => ?_, h7⟩
    unfold loop
    rw [hmax, tick_zero]
    simp only []
    refine (h1 s).bind fun s => ?_
    simp only [condOf, hy, hsc]
    simp only [Bool.false_eq_true, and_false, if_false]
    exact (h3 s).bind fun s => h6 s

theorem loop_fewer {unk : Bool} (hD : Domain unk P) (hmax : cfg.maxIter = 0) {Fix : VA → Prop} {Q : Item → Prop}
    {condS stepS condE stepE : Item → VA → SS (List E) → Out (List E) VA}
    (hc : ∀ it a b, Q it → Same P a b → ∃ x y tr tr', (∀ s, Logs (condS it a s) s x tr) ∧ (∀ s, Logs (condE it b s) s y tr') ∧
      Same P x y ∧ tr.Sublist tr' ∧ (y.v = .bool false → Fix b))
    (hs : ∀ it a b, Q it → Same P a b → Fewer (Same P) (stepS it a) (stepE it b))
    (hfix : ∀ it b, Q it → Fix b → ∃ x tr c tr', (∀ s, Logs (condE it b s) s x tr) ∧ (∃ y, x.v = .bool y) ∧
      (∀ s, Logs (stepE it b s) s c tr') ∧ Fix c ∧ c.v = b.v) :
    ∀ (l : List Item), (∀ it ∈ l, Q it) → ∀ (a b : VA), Same P a b →
      Fewer (SameEnd P) (loop (scOn cfg) condS stepS l a) (loop (scOff cfg) condE stepE l b)
  | [], _, a, b, hab => ⟨.accu a, .accu b, [], [], fun s => by unfold loop; exact Logs.pure s _,
      fun s => by unfold loop; exact Logs.pure s _, hab, List.Sublist.refl _⟩
  | it :: l, hq, a, b, hab => by
    have hqi := hq it List.mem_cons_self
    obtain ⟨x, y, tr, tr', hx, hy, hxy, hsub, hfx⟩ := hc it a b hqi hab
    obtain ⟨a', b', t2, t2', hsS, hsE, hab', hsub2⟩ := hs it a b hqi hab
    obtain ⟨r, r', t3, t3', hl1, hl2, hrr, hsub3⟩ := loop_fewer hD hmax hc hs hfix l
      (fun i hi => hq i (List.mem_cons_of_mem _ hi)) a' b' hab'
    have hm1 : (scOn cfg).maxIter = 0 := hmax
    have hm2 : (scOff cfg).maxIter = 0 := hmax
    have hgo : condOf true x = .go → condOf false y = .go →
        Fewer (SameEnd P) (loop (scOn cfg) condS stepS (it :: l) a) (loop (scOff cfg) condE stepE (it :: l) b) := by
      intro e1 e2
      refine ⟨r, r', tr ++ (t2 ++ t3), tr' ++ (t2' ++ t3'), fun s => ?_, fun s => ?_, hrr,
        hsub.append (hsub2.append hsub3)⟩
      · unfold loop
        rw [hm1, tick_zero]
        simp only []
        refine (hx s).bind fun s => ?_
        have : condOf (scOn cfg).shortCircuit x = .go := e1
        rw [this]
        exact (hsS s).bind fun s => hl1 s
      · unfold loop
        rw [hm2, tick_zero]
        simp only []
        refine (hy s).bind fun s => ?_
        have : condOf (scOff cfg).shortCircuit y = .go := e2
        rw [this]
        exact (hsE s).bind fun s => hl2 s
    have hstop : ∀ u w, condOf true x = .stop u → condOf false y = .stop w → Same P u w →
        Fewer (SameEnd P) (loop (scOn cfg) condS stepS (it :: l) a) (loop (scOff cfg) condE stepE (it :: l) b) := by
      intro u w e1 e2 huw
      refine ⟨.stop u, .stop w, tr ++ [], tr' ++ [], fun s => ?_, fun s => ?_, huw, by simpa using hsub⟩
      · unfold loop
        rw [hm1, tick_zero]
        simp only []
        refine (hx s).bind fun s => ?_
        have : condOf (scOn cfg).shortCircuit x = .stop u := e1
        rw [this]; exact Logs.pure s _
      · unfold loop
        rw [hm2, tick_zero]
        simp only []
        refine (hy s).bind fun s => ?_
        have : condOf (scOff cfg).shortCircuit y = .stop w := e2
        rw [this]; exact Logs.pure s _
    rcases hxy.cases with ⟨heq, hp⟩ | ⟨n, m, h1, h2⟩
    · by_cases hfalse : y.v = .bool false
      · obtain ⟨rb, t4, hrb, hrv⟩ := loop_fixed (c := scOff cfg) rfl hmax (Fix := Fix) (v := b.v) (fun it a hqa hfa hva => by
          obtain ⟨x, tr, c, tr', h1, h2, h3, h4, h5⟩ := hfix it a hqa hfa
          exact ⟨x, tr, c, tr', h1, h2, h3, h4, by rw [h5, hva]⟩) l (fun i hi => hq i (List.mem_cons_of_mem _ hi)) b' (by
            obtain ⟨x, tr, c, tr', h1, h2, h3, h4, h5⟩ := hfix it b hqi (hfx hfalse)
            have := (hsE ⟨[], 0, []⟩).symm.trans (h3 ⟨[], 0, []⟩)
            cases this; exact h4) (by
            obtain ⟨x, tr, c, tr', h1, h2, h3, h4, h5⟩ := hfix it b hqi (hfx hfalse)
            have := (hsE ⟨[], 0, []⟩).symm.trans (h3 ⟨[], 0, []⟩)
            cases this; exact h5)
        refine ⟨.accu a, .accu rb, tr ++ [], tr' ++ (t2' ++ t4), fun s => ?_, fun s => ?_,
          ⟨hab.1, by rw [hrv]; exact hab.2.1, by rw [hrv]; exact hab.2.2⟩, hsub.append (List.nil_sublist _)⟩
        · unfold loop
          rw [hm1, tick_zero]
          simp only []
          refine (hx s).bind fun s => ?_
          have : condOf (scOn cfg).shortCircuit x = .brk := by simp [condOf, heq, hfalse, scOn]
          rw [this]; exact Logs.pure s _
        · unfold loop
          rw [hm2, tick_zero]
          simp only []
          refine (hy s).bind fun s => ?_
          have : condOf (scOff cfg).shortCircuit y = .go := by simp [condOf, hfalse, scOff]
          rw [this]
          exact (hsE s).bind fun s => hrb s
      · cases hv : y.v with
        | bool z =>
          have hz : z = true := by cases z with | true => rfl | false => exact absurd hv hfalse
          subst hz
          exact hgo (by simp [condOf, heq, hv]) (by simp [condOf, hv])
        | error e => exact hstop _ _ (by simp [condOf, heq, hv]) (by simp [condOf, hv]) hxy
        | unknown e => exact hstop _ _ (by simp [condOf, heq, hv]) (by simp [condOf, hv]) hxy
        | _ =>
          exact hstop ⟨.error (noOverload "<loop_condition>"), none⟩ ⟨.error (noOverload "<loop_condition>"), none⟩
            (by simp [condOf, heq, hv]) (by simp [condOf, hv]) (Same.err hD)
    · exact hstop _ _ (by simp [condOf, h1]) (by simp [condOf, h2]) hxy

theorem iter_sameVals (hT : cfg.unknowns = false ∨ cfg.pats = []) (x : String) (y : Option String) (t t' : Trail)
    (it : Item) (hi : ItemIn P it) :
    SameVals P (iterBinds (scOn cfg) x y t it) (iterBinds (scOff cfg) x y t' it) := by
  have := iter_same (cfg := cfg) hT x y t t' it hi
  cases y with
  | none => exact ⟨rfl, this.2.1, trivial⟩
  | some y => exact ⟨rfl, this.2.1, rfl, this.2.2.2.1, trivial⟩

theorem envGet_accu {c : Cfg (List E)} {accu x : String} {y : Option String} (hx : accu ≠ x) (hy : y ≠ some accu)
    (t : Trail) (it : Item) (a : VA) (ρ : Env (List E)) :
    envGet (iterBinds c x y t it ++ (accu, .val a) :: ρ) accu = some (.val a) := by
  cases y with
  | none => simp [iterBinds, envGet, hx]
  | some y =>
    have : accu ≠ y := fun hh => hy (by rw [hh])
    simp [iterBinds, envGet, hx, this]

theorem den_accu {c : Cfg (List E)} {accu x : String} {y : Option String} (hx : accu ≠ x) (hy : y ≠ some accu)
    (t : Trail) (it : Item) (a : VA) (ρ : Env (List E)) (s : SS (List E)) :
    den c (accuIdent accu) (iterBinds c x y t it ++ (accu, .val a) :: ρ) s = .ok a s := by
  simp only [accuIdent, den, Bool.false_eq_true, if_false, envGet_accu hx hy, readBinding]

theorem den_nsf {c : Cfg (List E)} (e : Expr (List E)) (ρ : Env (List E)) (s : SS (List E)) (a : VA)
    (he : den c e ρ s = .ok a s) : den c (.op nsfOp (args1 e)) ρ s = .ok (notStrictlyFalse a) s := by
  simp only [den, args1, denArgs, he, Out.bind, nsfOp, lift]

theorem den_not {c : Cfg (List E)} (sc : StepCfg) (e : Expr (List E)) (ρ : Env (List E)) (s : SS (List E)) (a : VA)
    (he : den c e ρ s = .ok a s) : den c (.op (notOp sc) (args1 e)) ρ s = .ok (notStep sc.unknowns sc.pats a) s := by
  simp only [den, args1, denArgs, he, Out.bind, notOp, lift]

mutual
theorem den_fewer (hD : Domain cfg.unknowns P) (hT : cfg.unknowns = false ∨ cfg.pats = []) (hmax : cfg.maxIter = 0)
    (hg : LoggedVars P cfg) (e : Expr (List E)) (hl : Lang P [] e) (hb : NoBind e)
    (ho : ∀ f k, HasOp f k e → LoggedOp P k f) : ∀ (ρ ρ' : Env (List E)), SameVals P ρ ρ' →
    Fewer (Same P) (den (scOn cfg) e ρ) (den (scOff cfg) e ρ') := by
  cases e with
  | const v =>
    intro ρ ρ' hρ
    exact ⟨⟨v, none⟩, ⟨v, none⟩, [], [], fun s => by simp only [den]; exact Logs.pure s _,
      fun s => by simp only [den]; exact Logs.pure s _, Same.of_eq hl, List.Sublist.refl _⟩
  | ident x abs =>
    intro ρ ρ' hρ
    obtain ⟨a, ev, hp, ha⟩ := hg x
    have hglob : Fewer (Same P) (fun s => lift ((scOn cfg).global x s.host) s) (fun s => lift ((scOff cfg).global x s.host) s) :=
      ⟨a, a, ev, ev, fun s => by simp only [scOn, ha]; rfl, fun s => by simp only [scOff, ha]; rfl, ⟨hp, hp, Or.inl rfl⟩, List.Sublist.refl _⟩
    cases abs with
    | true =>
      obtain ⟨a, b, t, t', h1, h2, h3⟩ := hglob
      exact ⟨a, b, t, t', fun s => by simpa only [den, if_true] using h1 s, fun s => by simpa only [den, if_true] using h2 s, h3⟩
    | false =>
      rcases hρ.get x with ⟨e1, e2⟩ | ⟨a, b, e1, e2, hab⟩
      · obtain ⟨a, b, t, t', h1, h2, h3⟩ := hglob
        exact ⟨a, b, t, t', fun s => by simpa only [den, Bool.false_eq_true, if_false, e1] using h1 s,
          fun s => by simpa only [den, Bool.false_eq_true, if_false, e2] using h2 s, h3⟩
      · exact ⟨a, b, [], [], fun s => by simp only [den, Bool.false_eq_true, if_false, e1, readBinding]; exact Logs.pure s _,
          fun s => by simp only [den, Bool.false_eq_true, if_false, e2, readBinding]; exact Logs.pure s _, hab,
          List.Sublist.refl _⟩
  | op f args =>
    intro ρ ρ' hρ
    obtain ⟨xs, ys, t, t', h1, h2, ⟨hxy, hlx, hly⟩, hsub⟩ := denArgs_fewer hD hT hmax hg args hl.2 hb
      (fun g k hgk => ho g k (Or.inr hgk)) ρ ρ' hρ
    obtain ⟨g, ev, hgv, hev⟩ := ho f args.len (Or.inl ⟨rfl, rfl⟩)
    have hr := hl.1 xs ys hxy
    rw [hgv xs hlx, hgv ys hly] at hr
    refine ⟨g xs, g ys, t ++ ev xs, t' ++ ev ys, fun s => ?_, fun s => ?_, hr, ?_⟩
    · simp only [den]
      exact (h1 s).bind fun s => by rw [hgv xs hlx]; rfl
    · simp only [den]
      exact (h2 s).bind fun s => by rw [hgv ys hly]; rfl
    · rw [hev xs ys hxy]; exact hsub.append (List.Sublist.refl _)
  | logic isOr a b =>
    intro ρ ρ' hρ
    obtain ⟨x, x', t, t', h1, h2, hx, hsub⟩ := den_fewer hD hT hmax hg a hl.1 hb.1 (fun g k hgk => ho g k (Or.inl hgk)) ρ ρ' hρ
    obtain ⟨z, z', u, u', h3, h4, hz, hsub'⟩ := den_fewer hD hT hmax hg b hl.2 hb.2 (fun g k hgk => ho g k (Or.inr hgk)) ρ ρ' hρ
    have hlog := logic_same (unk := cfg.unknowns) hD isOr hx hz
    have hexh : ∀ s, Logs (den (scOff cfg) (.logic isOr a b) ρ' s) s ⟨calcLogic isOr cfg.unknowns x'.v z'.v, none⟩ (t' ++ (u' ++ [])) := by
      intro s
      simp only [den]
      refine (h2 s).bind fun s => ?_
      simp only [scOff]
      exact (h4 s).bind fun s => Logs.pure s _
    by_cases habs : x.v = .bool isOr
    · refine ⟨x, _, t ++ [], _, fun s => ?_, hexh, ?_, hsub.append (List.nil_sublist _)⟩
      · simp only [den]
        refine (h1 s).bind fun s => ?_
        simp only [scOn, habs, if_true]
        exact Logs.pure s _
      · rcases hx.cases with ⟨heq, hp⟩ | ⟨n, m, e1, e2⟩
        · rw [← heq, habs, logic_absorbed_left]
          exact ⟨hp, hD.bool _, Or.inl habs⟩
        · rw [habs] at e1; cases e1
    · refine ⟨⟨calcLogic isOr cfg.unknowns x.v z.v, none⟩, _, t ++ (u ++ []), _, fun s => ?_, hexh, hlog,
        hsub.append (by simpa using hsub')⟩
      simp only [den]
      refine (h1 s).bind fun s => ?_
      simp only [scOn]
      split
      · rename_i y hy
        rw [if_neg (by rintro rfl; exact habs hy)]
        exact (h3 s).bind fun s => Logs.pure s _
      · exact (h3 s).bind fun s => Logs.pure s _
  | cond c t f =>
    intro ρ ρ' hρ
    obtain ⟨x, x', u, u', h1, h2, hx, hsub⟩ := den_fewer hD hT hmax hg c hl.1 hb.1 (fun g k hgk => ho g k (Or.inl hgk)) ρ ρ' hρ
    obtain ⟨y, y', w, w', h3, h4, hy, hsub'⟩ := den_fewer hD hT hmax hg t hl.2.1 hb.2.1 (fun g k hgk => ho g k (Or.inr (Or.inl hgk))) ρ ρ' hρ
    obtain ⟨z, z', q, q', h5, h6, hz, hsub''⟩ := den_fewer hD hT hmax hg f hl.2.2 hb.2.2 (fun g k hgk => ho g k (Or.inr (Or.inr hgk))) ρ ρ' hρ
    have hexh : ∀ s, Logs (den (scOff cfg) (.cond c t f) ρ' s) s (ternaryStep cfg.unknowns x' y' z') (u' ++ (w' ++ (q' ++ []))) := by
      intro s
      simp only [den]
      refine (h2 s).bind fun s => ?_
      simp only [scOff, Bool.false_eq_true, if_false]
      exact (h4 s).bind fun s => (h6 s).bind fun s => Logs.pure s _
    have htern := tern_same hD hx hy hz
    cases hto : ternOf x with
    | stop v =>
      rw [hto] at htern
      refine ⟨v, _, u ++ [], _, fun s => ?_, hexh, htern, hsub.append (List.nil_sublist _)⟩
      simp only [den]
      refine (h1 s).bind fun s => ?_
      simp only [scOn, if_true, hto]
      exact Logs.pure s _
    | yes =>
      rw [hto] at htern
      refine ⟨y, _, u ++ w, _, fun s => ?_, hexh, htern, hsub.append (by simpa using hsub'.trans (List.sublist_append_left _ _))⟩
      simp only [den]
      refine (h1 s).bind fun s => ?_
      simp only [scOn, if_true, hto]
      exact h3 s
    | no =>
      rw [hto] at htern
      refine ⟨z, _, u ++ q, _, fun s => ?_, hexh, htern, hsub.append (by simpa using hsub''.trans (List.sublist_append_right _ _))⟩
      simp only [den]
      refine (h1 s).bind fun s => ?_
      simp only [scOn, if_true, hto]
      exact h5 s
  | comp x y accu range init cnd stp res =>
    intro ρ ρ' hρ
    obtain ⟨hlr, hli, hls, hlres, hml⟩ := hl
    obtain ⟨hbr, hbi, hbc, hbs, hbres⟩ := hb
    obtain ⟨r, r', t, t', h1, h2, hr, hsub⟩ := den_fewer hD hT hmax hg range hlr hbr
      (fun g k hgk => ho g k (Or.inl hgk)) ρ ρ' hρ
    obtain ⟨i, i', u, u', h3, h4, hi, hsub'⟩ := den_fewer hD hT hmax hg init hli hbi
      (fun g k hgk => ho g k (Or.inr (Or.inl hgk))) ρ ρ' hρ
    have hcu : (scOn cfg).unknowns = cfg.unknowns := rfl
    have hcu' : (scOff cfg).unknowns = cfg.unknowns := rfl
    have hcp : (scOn cfg).pats = cfg.pats := rfl
    have hcp' : (scOff cfg).pats = cfg.pats := rfl
    rcases range_same hD hT hr with ⟨l, e1, e2, hin⟩ | ⟨v, w, e1, e2, hvw⟩
    · have hstp : ∀ it a b, ItemIn P it → Same P a b →
          Fewer (Same P) (den (scOn cfg) stp (iterBinds (scOn cfg) x y r.t it ++ (accu, .val a) :: ρ))
            (den (scOff cfg) stp (iterBinds (scOff cfg) x y r'.t it ++ (accu, .val b) :: ρ')) := by
        intro it a b hit hab
        exact den_fewer hD hT hmax hg stp hls hbs (fun g k hgk => ho g k (Or.inr (Or.inr (Or.inr (Or.inl hgk))))) _ _
          ((iter_sameVals hT x y _ _ it hit).append ⟨rfl, hab, hρ⟩)
      have hloop : Fewer (SameEnd P)
          (loop (scOn cfg) (fun it a s => den (scOn cfg) cnd (iterBinds (scOn cfg) x y r.t it ++ (accu, .val a) :: ρ) s)
            (fun it a s => den (scOn cfg) stp (iterBinds (scOn cfg) x y r.t it ++ (accu, .val a) :: ρ) s) l i)
          (loop (scOff cfg) (fun it a s => den (scOff cfg) cnd (iterBinds (scOff cfg) x y r'.t it ++ (accu, .val a) :: ρ') s)
            (fun it a s => den (scOff cfg) stp (iterBinds (scOff cfg) x y r'.t it ++ (accu, .val a) :: ρ') s) l i') := by
        rcases hml with rfl | ⟨hx, hy, hml⟩
        · refine loop_fewer (Fix := fun _ => False) (Q := ItemIn P) hD hmax ?_ hstp ?_ l hin _ _ hi
          · intro it a b _ _
            exact ⟨⟨.bool true, none⟩, ⟨.bool true, none⟩, [], [], fun s => by simp only [den]; exact Logs.pure s _,
              fun s => by simp only [den]; exact Logs.pure s _, Same.of_eq (hD.bool _), List.Sublist.refl _,
              fun hh => by simp at hh⟩
          · intro it b _ hf; exact hf.elim
        · have hfixlog : ∀ (isOr : Bool) (p : Expr (List E)), stp = .logic isOr (accuIdent accu) p →
              ∀ (it : Item) (b : VA), ItemIn P it → b.v = .bool isOr → ∃ c tr,
              (∀ s, Logs (den (scOff cfg) stp (iterBinds (scOff cfg) x y r'.t it ++ (accu, .val b) :: ρ') s) s c tr) ∧
              c.v = .bool isOr := by
            intro isOr p hstpeq it b hit hbv
            have hPb : P b.v := by rw [hbv]; exact hD.bool _
            obtain ⟨c1, c2, t1, t2, _, hc2, hcc, _⟩ := hstp it b b hit ⟨hPb, hPb, Or.inl rfl⟩
            refine ⟨c2, t2, hc2, ?_⟩
            have := hc2 ⟨[], 0, []⟩
            unfold Logs at this
            rw [hstpeq] at this
            simp only [den, den_accu hx hy, Out.bind, scOff] at this
            revert this
            generalize den _ p _ _ = o
            intro this
            cases o with
            | ok z s' =>
              simp only [Out.ok.injEq] at this
              rw [← this.1, hbv]
              exact logic_absorbed_left isOr _
            | err e h => simp at this
            | ub => simp at this
          rcases hml with ⟨rfl, p, hp⟩ | ⟨c, hcpats, rfl, p, hp⟩
          · refine loop_fewer (Fix := fun b => b.v = .bool false) (Q := ItemIn P) hD hmax ?_ hstp ?_ l hin _ _ hi
            · intro it a b hit hab
              refine ⟨notStrictlyFalse a, notStrictlyFalse b, [], [], fun s => ?_, fun s => ?_, nsf_same hD hab,
                List.Sublist.refl _, fun hf => ?_⟩
              · rw [den_nsf _ _ _ _ (den_accu hx hy _ _ _ _ _)]; exact Logs.pure s _
              · rw [den_nsf _ _ _ _ (den_accu hx hy _ _ _ _ _)]; exact Logs.pure s _
              · cases hv : b.v <;> simp only [notStrictlyFalse, hv] at hf
                case bool z => exact hf
                all_goals cases hf
            · intro it b hit hf
              obtain ⟨c, tr, hc1, hc2⟩ := hfixlog false p hp it b hit hf
              refine ⟨notStrictlyFalse b, [], c, tr, fun s => ?_, ⟨false, ?_⟩, hc1, hc2, by rw [hc2, hf]⟩
              · rw [den_nsf _ _ _ _ (den_accu hx hy _ _ _ _ _)]; exact Logs.pure s _
              · simp only [notStrictlyFalse, hf]
          · obtain ⟨cu, cpats, cms, cmp⟩ := c
            simp only at hcpats
            subst hcpats
            have hu : ∀ t, (if cu = true ∧ checkUnknown [] t true = true then t else none) = (none : Trail) := by
              intro t; simp [checkUnknown_nil]
            refine loop_fewer (Fix := fun b => b.v = .bool true) (Q := ItemIn P) hD hmax ?_ hstp ?_ l hin _ _ hi
            · intro it a b hit hab
              refine ⟨notStrictlyFalse (notStep cu [] a), notStrictlyFalse (notStep cu [] b), [], [], fun s => ?_, fun s => ?_,
                nsf_same hD (not_same hD _ hab), List.Sublist.refl _, fun hf => ?_⟩
              · rw [den_nsf _ _ _ _ (den_not _ _ _ _ _ (den_accu hx hy _ _ _ _ _))]; exact Logs.pure s _
              · rw [den_nsf _ _ _ _ (den_not _ _ _ _ _ (den_accu hx hy _ _ _ _ _))]; exact Logs.pure s _
              · simp only [notStep, hu] at hf
                cases hv : b.v <;> simp only [notStrictlyFalse, hv] at hf
                case bool z => cases z <;> simp_all
                all_goals cases hf
            · intro it b hit hf
              obtain ⟨c, tr, hc1, hc2⟩ := hfixlog true p hp it b hit hf
              refine ⟨notStrictlyFalse (notStep cu [] b), [], c, tr, fun s => ?_, ⟨false, ?_⟩, hc1, hc2, by rw [hc2, hf]⟩
              · rw [den_nsf _ _ _ _ (den_not _ _ _ _ _ (den_accu hx hy _ _ _ _ _))]; exact Logs.pure s _
              · simp only [notStep, hu, notStrictlyFalse, hf]; rfl
      obtain ⟨f, f', w, w', h5, h6, hff, hsub''⟩ := hloop
      match f, f', hff with
      | .stop v, .stop v', hvv =>
        refine ⟨v, v', t ++ (u ++ (w ++ [])), t' ++ (u' ++ (w' ++ [])), fun s => ?_, fun s => ?_, hvv,
          hsub.append (hsub'.append (by simpa using hsub''))⟩
        · simp only [den]
          refine (h1 s).bind fun s => ?_
          rw [hcu, hcp, e1]
          simp only []
          exact (h3 s).bind fun s => (h5 s).bind fun s => Logs.pure s _
        · simp only [den]
          refine (h2 s).bind fun s => ?_
          rw [hcu', hcp', e2]
          simp only []
          exact (h4 s).bind fun s => (h6 s).bind fun s => Logs.pure s _
      | .accu v, .accu v', hvv =>
        obtain ⟨z, z', q, q', h7, h8, hz, hsub3⟩ := den_fewer hD hT hmax hg res hlres hbres
          (fun g k hgk => ho g k (Or.inr (Or.inr (Or.inr (Or.inr hgk))))) ((accu, .val v) :: ρ) ((accu, .val v') :: ρ') ⟨rfl, hvv, hρ⟩
        refine ⟨z, z', t ++ (u ++ (w ++ q)), t' ++ (u' ++ (w' ++ q')), fun s => ?_, fun s => ?_, hz,
          hsub.append (hsub'.append (hsub''.append hsub3))⟩
        · simp only [den]
          refine (h1 s).bind fun s => ?_
          rw [hcu, hcp, e1]
          simp only []
          exact (h3 s).bind fun s => (h5 s).bind fun s => h7 s
        · simp only [den]
          refine (h2 s).bind fun s => ?_
          rw [hcu', hcp', e2]
          simp only []
          exact (h4 s).bind fun s => (h6 s).bind fun s => h8 s
    · refine ⟨v, w, t ++ [], t' ++ [], fun s => ?_, fun s => ?_, hvw, by simpa using hsub⟩
      · simp only [den]
        refine (h1 s).bind fun s => ?_
        rw [hcu, hcp, e1]; exact Logs.pure s _
      · simp only [den]
        refine (h2 s).bind fun s => ?_
        rw [hcu', hcp', e2]; exact Logs.pure s _
  | bind x init body => exact hb.elim
theorem denArgs_fewer (hD : Domain cfg.unknowns P) (hT : cfg.unknowns = false ∨ cfg.pats = []) (hmax : cfg.maxIter = 0)
    (hg : LoggedVars P cfg) (es : Exprs (List E)) (hl : Langs P [] es) (hb : NoBinds es)
    (ho : ∀ f k, HasOps f k es → LoggedOp P k f) : ∀ (ρ ρ' : Env (List E)), SameVals P ρ ρ' →
    Fewer (fun xs ys => Sames P xs ys ∧ xs.length = es.len ∧ ys.length = es.len)
      (denArgs (scOn cfg) es ρ) (denArgs (scOff cfg) es ρ') := by
  cases es with
  | nil =>
    intro _ _ _
    exact ⟨[], [], [], [], fun s => by simp only [denArgs]; exact Logs.pure s _,
      fun s => by simp only [denArgs]; exact Logs.pure s _, ⟨trivial, rfl, rfl⟩, List.Sublist.refl _⟩
  | cons e es =>
    intro ρ ρ' hρ
    obtain ⟨x, x', t, t', h1, h2, hx, hsub⟩ := den_fewer hD hT hmax hg e hl.1 hb.1 (fun g k hgk => ho g k (Or.inl hgk)) ρ ρ' hρ
    obtain ⟨z, z', u, u', h3, h4, ⟨hz, hz1, hz2⟩, hsub'⟩ := denArgs_fewer hD hT hmax hg es hl.2 hb.2 (fun g k hgk => ho g k (Or.inr hgk)) ρ ρ' hρ
    refine ⟨x :: z, x' :: z', t ++ (u ++ []), t' ++ (u' ++ []), fun s => ?_, fun s => ?_,
      ⟨⟨hx, hz⟩, by simp [Exprs.len, hz1], by simp [Exprs.len, hz2]⟩, hsub.append (by simpa using hsub')⟩
    · simp only [denArgs]
      exact (h1 s).bind fun s => (h3 s).bind fun s => Logs.pure s _
    · simp only [denArgs]
      exact (h2 s).bind fun s => (h4 s).bind fun s => Logs.pure s _
end
end

/-- **C25 (only removes evaluations).** For every expression of the language without `cel.bind`, whose
function calls (and variable reads) append to a log: both plans stop with a value, the values are the same,
and what the short-circuiting plan logged is a sublist of what the exhaustive plan logged — no call is
added, changed or reordered. -/
theorem C25_only_removes_partial {P : Value → Prop} {cfg : Cfg (List E)} (hD : Domain cfg.unknowns P)
    (hT : cfg.unknowns = false ∨ cfg.pats = []) (hmax : cfg.maxIter = 0) (hg : LoggedVars P cfg)
    (e : Expr (List E)) (hl : Lang P [] e) (hb : NoBind e) (ho : ∀ f k, HasOp f k e → LoggedOp P k f) (log : List E) :
    ∃ v w calls calls',
      (∀ r, Halts (scOn cfg) (plan (scOn cfg) e) (MS.start log) r ↔ r = .value v (log ++ calls)) ∧
      (∀ r, Halts (scOff cfg) (plan (scOff cfg) e) (MS.start log) r ↔ r = .value w (log ++ calls')) ∧
      SameValue v w ∧ calls.Sublist calls' := by
  obtain ⟨a, b, t, t', h1, h2, hab, hsub⟩ := den_fewer hD hT hmax hg e hl hb ho [] [] trivial
  refine ⟨a.v, b.v, t, t', fun r => ?_, fun r => ?_, hab.2.2, hsub⟩
  · rw [plan_exact_partial e log (noClash_noBind hb)]
    unfold meaning
    rw [h1 ⟨log, 0, []⟩]; rfl
  · rw [plan_exact_partial e log (noClash_exhaustive rfl e)]
    unfold meaning
    rw [h2 ⟨log, 0, []⟩]; rfl

/-! ## A concrete instance: a logging predicate -/

/-- A function `f` that logs its argument and answers whether it is `1`; anything but an int is an error. -/
def logF : Op (List Int) := fun xs log =>
  match xs with
  | [x] => match x.v with
    | .int i => (.ok ⟨.bool (i == 1), none⟩, log ++ [i])
    | _ => (.ok ⟨.error (noOverload "f"), none⟩, log)
  | _ => (.ok ⟨.error (noOverload "f"), none⟩, log)

def fOf (i : Int) : Expr (List Int) := .op logF (args1 (.const (.int i)))

/-- `f(1) || (f(2) ? f(3) : f(4))` and `[1, 2].exists(x, f(x))`. -/
def demo1 : Expr (List Int) := .logic true (fOf 1) (.cond (fOf 2) (fOf 3) (fOf 4))
def demo2 : Expr (List Int) :=
  existsMacro sampleCfg "@result" "x" none (.const (.list [.int 1, .int 2])) (.op logF (args1 (.ident "x" false)))
def demoVars : Cfg (List Int) := ⟨true, false, [], 0, fun _ log => (.ok ⟨.null, none⟩, log ++ [])⟩

/-- Values without unknowns inside, to depth one: enough for the instance. -/
def DemoP : Value → Prop
  | .unknown _ => False
  | .list l => ∀ v ∈ l, ∃ i, v = .int i
  | .map m => m = []
  | _ => True

theorem demo_domain : Domain false DemoP where
  bool _ := trivial
  int _ := trivial
  error _ := trivial
  list l hl v hv := by obtain ⟨i, rfl⟩ := hl v hv; trivial
  map m hm e he := by rw [DemoP] at hm; subst hm; simp at he
  known _ u hu := hu
  unknown h := by cases h

theorem logF_not_int (v : Value) (t : Trail) (log : List Int) (hv : ∀ i, v ≠ .int i) :
    logF [⟨v, t⟩] log = (.ok ⟨.error (noOverload "f"), none⟩, log) := by
  cases v <;> first | rfl | exact absurd rfl (hv _)

theorem logF_resp : RespOp DemoP [] logF := by
  intro xs ys hxy
  match xs, ys, hxy with
  | [], [], _ => exact Same.err demo_domain
  | [⟨a, s⟩], [⟨b, t⟩], ⟨hab, _⟩ =>
    rcases hab.cases with ⟨heq, _⟩ | ⟨n, m, h1, h2⟩
    · simp only at heq
      subst heq
      by_cases hi : ∃ i, a = .int i
      · obtain ⟨i, rfl⟩ := hi; exact Same.of_eq trivial
      · rw [logF_not_int a s _ fun i hh => hi ⟨i, hh⟩, logF_not_int a t _ fun i hh => hi ⟨i, hh⟩]
        exact Same.err demo_domain
    · simp only at h1 h2
      subst h1 h2
      exact Same.err demo_domain
  | _ :: _ :: _, _ :: _ :: _, _ => exact Same.err demo_domain
  | [_], _ :: _ :: _, hh => exact hh.2.elim
  | _ :: _ :: _, [_], hh => exact hh.2.elim

theorem logF_logged : LoggedOp DemoP 1 logF := by
  refine ⟨fun xs => (match (logF xs []).1 with | .ok a => a | _ => ⟨.null, none⟩), fun xs => (logF xs []).2, ?_, ?_⟩
  · intro xs hl log
    match xs, hl with
    | [⟨v, t⟩], _ =>
      by_cases hi : ∃ i, v = .int i
      · obtain ⟨i, rfl⟩ := hi; rfl
      · simp only [logF_not_int v t _ fun i hh => hi ⟨i, hh⟩, List.append_nil]
  · intro xs ys hxy
    match xs, ys, hxy with
    | [], [], _ => rfl
    | [⟨a, s⟩], [⟨b, t⟩], ⟨hab, _⟩ =>
      rcases hab.cases with ⟨heq, _⟩ | ⟨n, m, h1, h2⟩
      · simp only at heq
        subst heq
        by_cases hi : ∃ i, a = .int i
        · obtain ⟨i, rfl⟩ := hi; rfl
        · simp only [logF_not_int a _ _ fun i hh => hi ⟨i, hh⟩]
      · simp only at h1 h2
        subst h1 h2
        rfl
    | _ :: _ :: _, _ :: _ :: _, _ => rfl
    | [_], _ :: _ :: _, hh => exact hh.2.elim
    | _ :: _ :: _, [_], hh => exact hh.2.elim

/-- The hypotheses of `C25_only_removes_partial` are met. -/
example (log : List Int) : ∃ v w calls calls',
      (∀ r, Halts (scOn demoVars) (plan (scOn demoVars) demo1) (MS.start log) r ↔ r = .value v (log ++ calls)) ∧
      (∀ r, Halts (scOff demoVars) (plan (scOff demoVars) demo1) (MS.start log) r ↔ r = .value w (log ++ calls')) ∧
      SameValue v w ∧ calls.Sublist calls' := by
  refine C25_only_removes_partial demo_domain (Or.inl rfl) rfl (fun x => ⟨⟨.null, none⟩, [], trivial, fun _ => rfl⟩) demo1 ?_ ?_ ?_ log
  · simp [demo1, fOf, Lang, Langs, args1, DemoP, logF_resp]
  · simp [demo1, fOf, NoBind, NoBinds, args1]
  · intro f k hf
    simp only [demo1, fOf, HasOp, HasOps, args1, Exprs.len, or_false] at hf
    rcases hf with ⟨rfl, rfl⟩ | ⟨rfl, rfl⟩ | ⟨rfl, rfl⟩ | ⟨rfl, rfl⟩ <;> exact logF_logged

/-- What the two plans log for these two expressions: one call instead of four, and one instead of two. -/
example : meaning (scOn demoVars) demo1 [] = .value (.bool true) [1] ∧
    meaning (scOff demoVars) demo1 [] = .value (.bool true) [1, 2, 3, 4] ∧
    meaning (scOn demoVars) demo2 [] = .value (.bool true) [1] ∧
    meaning (scOff demoVars) demo2 [] = .value (.bool true) [1, 2] := by
  refine ⟨rfl, rfl, rfl, rfl⟩

/-! ## Where the claim stops -/

/-- With unknown patterns the claim is false of the code: the short-circuiting plan leaves the attribute
trail of `a` on the stack (`eval/eval/jump_step.cc` lines 55-82), the exhaustive plan drops it
(`eval/eval/logic_step.cc` lines 253-262).  For the pattern `a.x` (a part of `a` is unknown) and `a = true`,
`!(a || b)` is unknown in the first plan and `false` in the second. -/
def trailCfg : Cfg Unit := ⟨true, true, [⟨"a", [some (.str "x")]⟩], 0, fun x s => (.ok ⟨.bool true, some ⟨x, []⟩⟩, s)⟩
def trailStep : StepCfg := { sampleCfg with unknowns := true, pats := trailCfg.pats }
def trailExpr : Expr Unit := .op (notOp trailStep) (args1 (.logic true (.ident "a" false) (.ident "b" false)))

theorem C25_unknown_patterns_observe :
    Halts (scOn trailCfg) (plan (scOn trailCfg) trailExpr) (MS.start ()) (.value (.unknown ⟨[⟨"a", []⟩], []⟩) ()) ∧
    Halts (scOff trailCfg) (plan (scOff trailCfg) trailExpr) (MS.start ()) (.value (.bool false) ()) := by
  have hb : NoBind trailExpr := ⟨⟨trivial, trivial⟩, trivial⟩
  exact ⟨(plan_exact_partial trailExpr () (noClash_noBind hb) _).2 rfl,
    (plan_exact_partial trailExpr () (noClash_noBind hb) _).2 rfl⟩

/-- A comprehension no macro writes: its condition stops the loop, but not in the exhaustive plan, where
the step goes on (`eval/eval/comprehension_step.cc` lines 602-628): the sum of `[1, 2]` while the sum is `0`. -/
def stopExpr : Expr Unit :=
  .comp "x" none "acc" (.const (.list [.int 1, .int 2])) (.const (.int 0))
    (.op (eqOp sampleCfg) (args2 (accuIdent "acc") (.const (.int 0))))
    (.op (addOp sampleCfg false) (args2 (accuIdent "acc") (.ident "x" false))) (accuIdent "acc")

theorem C25_other_loops_observe :
    Halts (scOn demoCfg) (plan (scOn demoCfg) stopExpr) (MS.start ()) (.value (.int 1) ()) ∧
    Halts (scOff demoCfg) (plan (scOff demoCfg) stopExpr) (MS.start ()) (.value (.int 3) ()) := by
  have hb : NoBind stopExpr := by simp [stopExpr, NoBind, NoBinds, args2, accuIdent]
  exact ⟨(plan_exact_partial stopExpr () (noClash_noBind hb) _).2 rfl,
    (plan_exact_partial stopExpr () (noClash_noBind hb) _).2 rfl⟩

end Cel.Macro
