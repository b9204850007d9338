import Verif.Direct.SimBase

/-!
# Simulation, node by node: operators and variables
-/

set_option linter.unusedSimpArgs false
set_option linter.unusedVariables false

namespace Cel.Direct
open Cel Cel.Num Cel.Eval Cel.Data

section
variable {σ : Type}

/-! ## Where the two evaluators are compared -/

/-- No variable outside `K` is bound to a delayed computation. -/
def PlainEnv (K : String → Bool) (ρ : Env σ) : Prop :=
  ∀ x, K x = false → ∀ c th, envGet ρ x ≠ some (.delayed c th)

/-- `K` with `x` added or removed. -/
def setK (K : String → Bool) (x : String) (b : Bool) : String → Bool := fun y => if y = x then b else K y

theorem plain_nil (K : String → Bool) : PlainEnv K ([] : Env σ) := by
  intro x _ c th h; cases h

theorem PlainEnv.val {K : String → Bool} {ρ : Env σ} (h : PlainEnv K ρ) (x : String) (a : VA) :
    PlainEnv (setK K x false) ((x, .val a) :: ρ) := by
  intro y hy c th he
  unfold envGet at he
  by_cases hxy : y = x
  · rw [if_pos hxy] at he; cases he
  · rw [if_neg hxy] at he
    unfold setK at hy
    rw [if_neg hxy] at hy
    exact h y hy c th he

theorem PlainEnv.delayed {K : String → Bool} {ρ : Env σ} (h : PlainEnv K ρ) (x : String) (b : Binding σ) :
    PlainEnv (setK K x true) ((x, b) :: ρ) := by
  intro y hy c th he
  unfold envGet at he
  unfold setK at hy
  by_cases hxy : y = x
  · rw [if_pos hxy] at hy; cases hy
  · rw [if_neg hxy] at he hy
    exact h y hy c th he

/-- Names bound to delayed computations inside a loop. -/
def loopK (K : String → Bool) (iter : String) (iter2 : Option String) (accu : String) : String → Bool :=
  match iter2 with
  | none => setK (setK K accu false) iter false
  | some y => setK (setK (setK K accu false) y false) iter false

theorem PlainEnv.loop {K : String → Bool} {ρ : Env σ} (h : PlainEnv K ρ) (cfg : Cfg σ) (iter : String)
    (iter2 : Option String) (accu : String) (t : Trail) (it : Item) (a : VA) :
    PlainEnv (loopK K iter iter2 accu) (iterBinds cfg iter iter2 t it ++ (accu, .val a) :: ρ) := by
  cases iter2 with
  | none => exact (h.val accu a).val iter _
  | some y => exact ((h.val accu a).val y _).val iter _

/-- Evaluating the expression cannot fail and has no effect: it always yields a value (possibly an
error or unknown value), and neither calls the host in a way that changes its state nor charges the
iteration budget.  `K`: the variables that may be bound to delayed computations. -/
def Inert (r : RCfg σ) (K : String → Bool) (e : Src σ) : Prop :=
  ∀ ρ s, PlainEnv K ρ → ∃ y, den r.cfg (toExpr r e) ρ s = .ok y s

/-- All are. -/
def AllInert (r : RCfg σ) (K : String → Bool) : Srcs σ → Prop
  | .nil => True
  | .cons e es => Inert r K e ∧ AllInert r K es

/-- All but the first are. -/
def TailInert (r : RCfg σ) (K : String → Bool) : Srcs σ → Prop
  | .nil => True
  | .cons _ es => AllInert r K es

/-- Only the last element may be optional. -/
def OptLast (opt : Nat → Bool) : Nat → Srcs σ → Prop
  | _, .nil => True
  | i, .cons _ es => (es = .nil ∨ opt i = false) ∧ OptLast opt (i + 1) es

/-- Keys are constants of valid kinds, pairwise different (and from `ks`), only the last entry may be
optional, and only the first entry's value may have effects (`i`: number of entries before). -/
def EntriesOK (r : RCfg σ) (K : String → Bool) (opt : Nat → Bool) : List Value → Srcs σ → Prop
  | _, .nil => True
  | _, .cons _ .nil => False
  | ks, .cons k (.cons v es) =>
    (∃ kv, k = .const kv ∧ keyKind kv = true ∧ (∀ k' ∈ ks, keyEq k' kv = false) ∧
      EntriesOK r K opt (ks ++ [kv]) es) ∧
    (es = .nil ∨ opt ks.length = false) ∧ AllInert r K es

mutual
/-- Expressions for which recursive evaluation is shown to agree. -/
def Adm (r : RCfg σ) : (String → Bool) → Src σ → Prop
  | _, .const v => Fine r.c.unknowns v
  | _, .ident _ _ => True
  | K, .call cs args => CallOK r cs ∧ Adms r K args
  | K, .not a => Adm r K a
  | K, .nsf a => Adm r K a
  | K, .bin _ a b => Adm r K a ∧ Adm r K b
  | K, .index a b => Adm r K a ∧ Adm r K b
  | K, .select _ test a => (test = true → r.c.optionals = false) ∧ Adm r K a
  | K, .list opt args => OptLast opt 0 args ∧ TailInert r K args ∧ Adms r K args
  | K, .map opt args => EntriesOK r K opt [] args ∧ Adms r K args
  | K, .logic _ a b => Adm r K a ∧ Adm r K b
  | K, .cond c t f => Adm r K c ∧ Adm r K t ∧ Adm r K f
  | K, .comp iter iter2 accu range init cnd stp res =>
    Adm r K range ∧ Adm r K init ∧ Adm r (loopK K iter iter2 accu) cnd ∧ Adm r (loopK K iter iter2 accu) stp ∧
      Adm r (setK K accu false) res
  | K, .bind x init body => Adm r K init ∧ Adm r (setK K x true) body
def Adms (r : RCfg σ) : (String → Bool) → Srcs σ → Prop
  | _, .nil => True
  | K, .cons e es => Adm r K e ∧ Adms r K es
end

/-- The configuration: no attribute patterns in force, messages and activation return fine values. -/
structure RunOK (r : RCfg σ) : Prop where
  quiet : Quiet r.c
  structs : StructOK r.c
  globals : ∀ x h a h', r.global x h = (.ok a, h') → Fine r.c.unknowns a.v

variable {r : RCfg σ}

/-- Recursive evaluation of `e` computes its meaning, in every scope. -/
def SimExpr (r : RCfg σ) (e : Src σ) : Prop :=
  ∀ (Γ : DScope σ) (ρ : Env σ) (ini : Bool) (n N : Nat) (K : String → Bool),
    WF (sc Γ) n → GoodD r Γ ρ → PlainEnv K ρ → Adm r K e → aliasSafe (planD Γ ini n e) = true →
    n + e.width ≤ N → SimD r Γ ρ n N (planD Γ ini n e) (den r.cfg (toExpr r e) ρ)

/-- All of them. -/
def SimAll (r : RCfg σ) : Srcs σ → Prop
  | .nil => True
  | .cons e es => SimExpr r e ∧ SimAll r es

theorem after_ge (ini : Bool) (n : Nat) (e : Src σ) : n ≤ e.after ini n ∧ e.after ini n ≤ n + e.width := by
  unfold Src.after; split <;> omega

theorem out_assoc {α β γ : Type} (o : Out σ α) (f : α → SS σ → Out σ β) (g : β → SS σ → Out σ γ) :
    (o.bind f).bind g = o.bind fun a s => (f a s).bind g := by
  cases o <;> rfl

theorem den_op1 (cfg : Cfg σ) (f : Op σ) (a : Expr σ) (ρ : Env σ) (s : SS σ) :
    den cfg (.op f (.cons a .nil)) ρ s = (den cfg a ρ s).bind fun x s => lift (f [x] s.host) s := by
  simp only [den, denArgs, out_assoc]; rfl

theorem den_op2 (cfg : Cfg σ) (f : Op σ) (a b : Expr σ) (ρ : Env σ) (s : SS σ) :
    den cfg (.op f (.cons a (.cons b .nil))) ρ s =
      (den cfg a ρ s).bind fun x s => (den cfg b ρ s).bind fun y s => lift (f [x, y] s.host) s := by
  simp only [den, denArgs, out_assoc]; rfl

theorem sim_const (v : Value) : SimExpr r (.const v) := by
  intro Γ ρ ini n N K wf hg hp ha hal hN av at' cur sl s hs hi
  simp only [planD, dev, toExpr, den]
  exact ConclD.ok (VR.refl ha) rfl rfl hi ChgD.refl

theorem sim_ident (hr : RunOK r) (x : String) (abs : Bool) : SimExpr r (.ident x abs) := by
  intro Γ ρ ini n N K wf hg hp ha hal hN av at' cur sl s hs hi
  have hglob : (if abs then none else dscopeGet Γ x) = none → 
      ConclD r.c.unknowns Γ ρ n N (VAR r.c.unknowns) sl s.heap
        (dev r (.ident x) av at' cur ⟨s.host, s.count, sl⟩) (lift (r.cfg.global x s.host) s) := by
    intro _
    simp only [dev]
    show ConclD r.c.unknowns Γ ρ n N (VAR r.c.unknowns) sl s.heap _ (lift (r.global x s.host) s)
    cases hgl : r.global x s.host with
    | mk res h' =>
      cases res with
      | ok a =>
        have hf := hr.globals _ _ _ _ hgl
        exact ConclD.ok (VR.refl hf) rfl rfl hi ChgD.refl
      | err e => exact ⟨.refl _, rfl⟩
      | ub => trivial
  simp only [planD, toExpr, den]
  cases he : (if abs then none else dscopeGet Γ x) with
  | none =>
    have hn : (if abs then none else envGet ρ x) = none := by
      cases abs with
      | true => rfl
      | false => exact relD_none hi.1 he
    simp only [hn]
    exact hglob he
  | some e =>
    have hf : abs = false := by
      cases abs with
      | true => cases he
      | false => rfl
    subst hf
    have he' : dscopeGet Γ x = some e := he
    simp only [Bool.false_eq_true, if_false]
    have hpl : planD Γ ini n (.ident x false : Src σ) = entStep x e := by
      simp only [planD, Bool.false_eq_true, if_false, he']
      cases e <;> rfl
    rw [hpl] at hs
    obtain ⟨b, hb, hc⟩ := simD_var (av := av) (at' := at') (cur := cur) Γ ρ n e wf hg hi.1 he' hs
    rw [hb]
    simp only
    have hc' := ConclD.region wf hi hc
    cases e <;> exact hc'

theorem sim_not (hr : RunOK r) {a : Src σ} (iha : SimExpr r a) : SimExpr r (.not a) := by
  intro Γ ρ ini n N K wf hg hp ha hal hN av at' cur sl s hs hi
  simp only [planD, aliasSafe, spineSafe, Src.width, Adm] at *
  simp only [dev, toExpr, den_op1]
  refine ConclD.bind (Nat.le_refl n) wf hi (iha Γ ρ ini n N K wf hg hp ha hal hN av at' cur sl s hs hi) ?_
  intro x y s1 sl1 _ hxy hi1 _
  exact ConclD.ok (not_rel hr.quiet hxy) rfl rfl hi1 ChgD.refl

theorem sim_nsf (hr : RunOK r) {a : Src σ} (iha : SimExpr r a) : SimExpr r (.nsf a) := by
  intro Γ ρ ini n N K wf hg hp ha hal hN av at' cur sl s hs hi
  simp only [planD, aliasSafe, spineSafe, Src.width, Adm] at *
  simp only [dev, toExpr, den_op1]
  refine ConclD.bind (Nat.le_refl n) wf hi (iha Γ ρ ini n N K wf hg hp ha hal hN av at' cur sl s hs hi) ?_
  intro x y s1 sl1 _ hxy hi1 _
  exact ConclD.ok (nsf_rel hxy) rfl rfl hi1 ChgD.refl

theorem sim_select (hr : RunOK r) {a : Src σ} (iha : SimExpr r a) (f : String) (test : Bool) :
    SimExpr r (.select f test a) := by
  intro Γ ρ ini n N K wf hg hp ha hal hN av at' cur sl s hs hi
  simp only [planD, aliasSafe, spineSafe, Src.width, Adm] at *
  simp only [dev, toExpr, den_op1]
  refine ConclD.bind (Nat.le_refl n) wf hi (iha Γ ρ ini n N K wf hg hp ha.2 hal hN av at' cur sl s hs hi) ?_
  intro x y s1 sl1 _ hxy hi1 _
  have hsel := select_rel (f := f) (test := test) hr.quiet hr.structs ha.1 hxy
  simp only [opR, selectStep]
  cases h1 : selectD r.c f test x with
  | ok v =>
    rw [h1] at hsel
    cases h2 : selectEval r.c f test y with
    | ok w => rw [h2] at hsel; exact ConclD.ok hsel rfl rfl hi1 ChgD.refl
    | err e => rw [h2] at hsel; exact hsel.elim
    | ub => rw [h2] at hsel; exact hsel.elim
  | err e =>
    rw [h1] at hsel
    cases h2 : selectEval r.c f test y with
    | ok w => rw [h2] at hsel; exact hsel.elim
    | err e => rw [h2] at hsel; exact ⟨hsel, rfl⟩
    | ub => rw [h2] at hsel; exact hsel.elim
  | ub =>
    rw [h1] at hsel
    cases h2 : selectEval r.c f test y with
    | ok w => rw [h2] at hsel; exact hsel.elim
    | err e => rw [h2] at hsel; exact hsel.elim
    | ub => trivial

/-- Left operand evaluated into the reference, which is then overwritten with the same value. -/
theorem left_svEq {d : DStep σ} {av at' at2 : Option Nat} {cur : Trail} {s : DS σ} {s1 : SS σ} {sl1 : Slots} {x : VA}
    (t : Trail) (hs : ∀ k, av = some k → d.isSlot k = true)
    (ho : dev r d av at' cur s = .ok x ⟨s1.host, s1.count, sl1⟩) :
    sv (wrT at2 t (wrV av x.v sl1)) = sv sl1 := by
  rw [sv_wrT]
  exact wrV_slot hs ho

theorem sim_bin (hr : RunOK r) {a b : Src σ} (iha : SimExpr r a) (ihb : SimExpr r b) (k : Bin) :
    SimExpr r (.bin k a b) := by
  intro Γ ρ ini n N K wf hg hp ha hal hN av at' cur sl s hs hi
  simp only [planD, aliasSafe, spineSafe, Src.width, Adm, Bool.and_eq_true] at *
  have haf := after_ge ini n a
  simp only [dev, toExpr, den_op2]
  refine ConclD.bind (Nat.le_refl n) wf hi (iha Γ ρ ini n N K wf hg hp ha.1 hal.1 (by omega) av none none sl s
    (fun k hk => isSlot_spine (hs k hk)) hi) ?_
  intro x y s1 sl1 ho hxy hi1 _
  have hsv : sv (wrV av x.v sl1) = sv sl1 := wrV_slot hs ho
  refine ConclD.svEq hsv (ConclD.bind haf.1 wf (hi1.svEq hsv)
    (ihb Γ ρ ini _ N K (wf.mono haf.1) hg hp ha.2 hal.2 (by omega) none none none _ s1
      (fun k hk => (by cases hk)) ((hi1.svEq hsv).mono haf.1)) ?_)
  intro z w s2 sl2 _ hzw hi2 _
  have hb := bin_rel hr.quiet k hxy hzw
  cases k with
  | eq neg => exact ConclD.ok hb rfl rfl hi2 ChgD.refl
  | isIn => exact ConclD.ok hb rfl rfl hi2 ChgD.refl

theorem sim_index (hr : RunOK r) {a b : Src σ} (iha : SimExpr r a) (ihb : SimExpr r b) :
    SimExpr r (.index a b) := by
  intro Γ ρ ini n N K wf hg hp ha hal hN av at' cur sl s hs hi
  simp only [planD, aliasSafe, spineSafe, Src.width, Adm, Bool.and_eq_true] at *
  have haf := after_ge ini n a
  simp only [dev, toExpr, den_op2]
  refine ConclD.bind (Nat.le_refl n) wf hi (iha Γ ρ ini n N K wf hg hp ha.1 hal.1 (by omega) none none none sl s
    (fun k hk => (by cases hk)) hi) ?_
  intro x y s1 sl1 ho hxy hi1 _
  refine ConclD.bind haf.1 wf hi1
    (ihb Γ ρ ini _ N K (wf.mono haf.1) hg hp ha.2 hal.2 (by omega) none none none _ s1
      (fun k hk => (by cases hk)) (hi1.mono haf.1)) ?_
  intro z w s2 sl2 _ hzw hi2 _
  exact ConclD.ok (index_rel hr.quiet cur hxy hzw) rfl rfl hi2 ChgD.refl

theorem sim_logic {a b : Src σ} (iha : SimExpr r a) (ihb : SimExpr r b) (o : Bool) :
    SimExpr r (.logic o a b) := by
  intro Γ ρ ini n N K wf hg hp ha hal hN av at' cur sl s hs hi
  simp only [planD, aliasSafe, spineSafe, Src.width, Adm, Bool.and_eq_true] at *
  have haf := after_ge ini n a
  simp only [dev, toExpr, den]
  refine ConclD.bind (Nat.le_refl n) wf hi (iha Γ ρ ini n N K wf hg hp ha.1 hal.1 (by omega) av at' cur sl s
    (fun k hk => isSlot_spine (hs k hk)) hi) ?_
  intro x y s1 sl1 ho hxy hi1 _
  have hsv : sv (wrT at' x.t (wrV av x.v sl1)) = sv sl1 := left_svEq x.t hs ho
  have hrest : ConclD r.c.unknowns Γ ρ n N (VAR r.c.unknowns) sl1 s1.heap
      ((dev r (planD Γ ini (a.after ini n) b) none at' x.t
        ⟨s1.host, s1.count, wrT at' x.t (wrV av x.v sl1)⟩).bind fun z s => .ok (directLogic o r.c.unknowns x z) s)
      ((den r.cfg (toExpr r b) ρ s1).bind fun z s => .ok ⟨calcLogic o r.cfg.unknowns y.v z.v, none⟩ s) := by
    refine ConclD.svEq hsv (ConclD.bind haf.1 wf (hi1.svEq hsv)
      (ihb Γ ρ ini _ N K (wf.mono haf.1) hg hp ha.2 hal.2 (by omega) none at' x.t _ s1
        (fun k hk => (by cases hk)) ((hi1.svEq hsv).mono haf.1)) ?_)
    intro z w s2 sl2 _ hzw hi2 _
    exact ConclD.ok (logic_rel o r.c.unknowns hxy hzw) rfl rfl hi2 ChgD.refl
  show ConclD r.c.unknowns Γ ρ n N (VAR r.c.unknowns) sl1 s1.heap
    (match r.shortCircuit, x.v with
      | true, .bool y => _
      | _, _ => _)
    (match r.shortCircuit, y.v with
      | true, .bool y' => _
      | _, _ => _)
  cases hsc : r.shortCircuit with
  | false => exact hrest
  | true =>
    obtain ⟨v, tv⟩ := x
    obtain ⟨w, tw⟩ := y
    have hxy' : VR r.c.unknowns v w := hxy
    rcases hxy'.split with ⟨e, hf, hne⟩ | ⟨s', t', e1, e2, hst⟩
    · subst e
      cases v with
      | bool q =>
        by_cases hq : q = o
        · simp only [if_pos hq]
          exact ConclD.ok hxy rfl rfl hi1 ChgD.refl
        · simp only [if_neg hq]
          exact hrest
      | _ => exact hrest
    · subst e1; subst e2
      exact hrest

theorem sim_cond {c t f : Src σ} (ihc : SimExpr r c) (iht : SimExpr r t) (ihf : SimExpr r f) :
    SimExpr r (.cond c t f) := by
  intro Γ ρ ini n N K wf hg hp ha hal hN av at' cur sl s hs hi
  simp only [planD, aliasSafe, spineSafe, Src.width, Adm, Bool.and_eq_true] at *
  have hac := after_ge ini n c
  have hat := after_ge ini (c.after ini n) t
  simp only [dev, toExpr, den]
  refine ConclD.bind (Nat.le_refl n) wf hi (ihc Γ ρ ini n N K wf hg hp ha.1 hal.1 (by omega) none none none sl s
    (fun k hk => (by cases hk)) hi) ?_
  intro x y s1 sl1 ho hxy hi1 _
  show ConclD r.c.unknowns Γ ρ n N (VAR r.c.unknowns) sl1 s1.heap (if r.shortCircuit = true then _ else _)
    (if r.shortCircuit = true then _ else _)
  by_cases hsc : r.shortCircuit = true
  · rw [if_pos hsc, if_pos hsc]
    have ht := tern_rel cur hxy
    revert ht
    generalize ternD cur x = p
    generalize ternOf y = q
    intro ht
    cases ht with
    | yes =>
      exact ConclD.mono hac.1 wf hi1 (iht Γ ρ ini _ N K (wf.mono hac.1) hg hp ha.2.1 hal.2.1 (by omega) av at' cur sl1 s1
        (fun k hk => (hs k hk).1) (hi1.mono hac.1))
    | no =>
      exact ConclD.mono (by omega : n ≤ _) wf hi1 (ihf Γ ρ ini _ N K (wf.mono (by omega)) hg hp ha.2.2 hal.2.2 (by omega)
        av at' cur sl1 s1 (fun k hk => (hs k hk).2) (hi1.mono (by omega)))
    | stop a b hab => exact ConclD.ok hab rfl rfl hi1 ChgD.refl
  · rw [if_neg hsc, if_neg hsc]
    refine ConclD.bind hac.1 wf hi1 (iht Γ ρ ini _ N K (wf.mono hac.1) hg hp ha.2.1 hal.2.1 (by omega) none none none sl1 s1
      (fun k hk => (by cases hk)) (hi1.mono hac.1)) ?_
    intro x2 y2 s2 sl2 _ hxy2 hi2 _
    refine ConclD.bind (by omega : n ≤ _) wf hi2 (ihf Γ ρ ini _ N K (wf.mono (by omega)) hg hp ha.2.2 hal.2.2 (by omega)
      none none none sl2 s2 (fun k hk => (by cases hk)) (hi2.mono (by omega))) ?_
    intro x3 y3 s3 sl3 _ hxy3 hi3 _
    have ht : VAR r.c.unknowns (ternPick cur x x2 x3) (ternaryStep r.cfg.unknowns y y2 y3) :=
      ternary_rel cur hxy hxy2 hxy3
    revert ht
    unfold ternPick
    cases ternD cur x with
    | stop w => exact fun ht => ConclD.ok ht rfl rfl hi3 ChgD.refl
    | yes => exact fun ht => ConclD.ok ht rfl rfl hi3 ChgD.refl
    | no => exact fun ht => ConclD.ok ht rfl rfl hi3 ChgD.refl

/-! ## Arguments and calls -/

theorem sim_args : ∀ (es : Srcs σ), SimAll r es → ∀ (Γ : DScope σ) (ρ : Env σ) (ini : Bool) (n N : Nat)
    (K : String → Bool), WF (sc Γ) n → GoodD r Γ ρ → PlainEnv K ρ → Adms r K es →
    aliasSafes (planDs Γ ini n es) = true → n + es.width ≤ N → ∀ (sl : Slots) (s : SS σ),
    InvD r.c.unknowns Γ ρ n N sl s.heap →
    ConclD r.c.unknowns Γ ρ n N (VRs r.c.unknowns) sl s.heap
      (devArgs r (planDs Γ ini n es) ⟨s.host, s.count, sl⟩) (denArgs r.cfg (toExprs r es) ρ s)
  | .nil, _, Γ, ρ, ini, n, N, K, wf, hg, hp, ha, hal, hN, sl, s, hi => by
    simp only [planDs, devArgs, toExprs, denArgs]
    exact ConclD.ok .nil rfl rfl hi ChgD.refl
  | .cons e es, hsim, Γ, ρ, ini, n, N, K, wf, hg, hp, ha, hal, hN, sl, s, hi => by
    simp only [planDs, devArgs, toExprs, denArgs, aliasSafes, Srcs.width, Adms, Bool.and_eq_true] at *
    have haf := after_ge ini n e
    refine ConclD.bind (Nat.le_refl n) wf hi (hsim.1 Γ ρ ini n N K wf hg hp ha.1 hal.1 (by omega) none none none sl s
      (fun k hk => (by cases hk)) hi) ?_
    intro x y s1 sl1 ho hxy hi1 _
    refine ConclD.bind haf.1 wf hi1 (sim_args es hsim.2 Γ ρ ini _ N K (wf.mono haf.1) hg hp ha.2 hal.2 (by omega)
      sl1 s1 (hi1.mono haf.1)) ?_
    intro xs ys s2 sl2 _ hxs hi2 _
    exact ConclD.ok (.cons hxy hxs) rfl rfl hi2 ChgD.refl

theorem sim_call {cs : CallSite σ} {args : Srcs σ} (ih : SimAll r args) : SimExpr r (.call cs args) := by
  intro Γ ρ ini n N K wf hg hp ha hal hN av at' cur sl s hs hi
  simp only [planD, aliasSafe, spineSafe, Src.width, Adm] at *
  simp only [dev, toExpr, den]
  refine ConclD.bind (Nat.le_refl n) wf hi (sim_args args ih Γ ρ ini n N K wf hg hp ha.2 hal hN sl s hi) ?_
  intro xs ys s1 sl1 ho hxs hi1 _
  have hc := ha.1 xs ys s1.host hxs
  simp only [callOp]
  revert hc
  generalize evalCall r.callOpts cs xs s1.host = p
  generalize evalCall r.callOpts cs ys s1.host = q
  obtain ⟨p1, p2⟩ := p
  obtain ⟨q1, q2⟩ := q
  rintro ⟨hh, hv⟩
  simp only at hh hv
  subst hh
  cases p1 with
  | ok v => cases q1 with
    | ok w => exact ConclD.ok hv rfl rfl hi1 ChgD.refl
    | err e => exact hv.elim
    | ub => exact hv.elim
  | err e => cases q1 with
    | ok w => exact hv.elim
    | err e => exact ⟨hv, rfl⟩
    | ub => exact hv.elim
  | ub => cases q1 with
    | ok w => exact hv.elim
    | err e => exact hv.elim
    | ub => trivial

end

end Cel.Direct
