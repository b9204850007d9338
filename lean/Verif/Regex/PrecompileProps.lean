import Verif.Regex.Precompile

/-!
# C75: precompiling patterns is not observable
-/

set_option linter.unusedSimpArgs false
set_option linter.unusedVariables false

namespace Cel.Regex
open Cel Cel.Eval Cel.Data Cel.Direct

variable {σ : Type}

/-! ## Specification -/

/-- The subject's outcomes for which the call keeps its meaning: a string that is not partially unknown; in a
recursive plan also an error or, with unknown processing, an unknown. -/
def GoodSubject (direct : Bool) (r : RCfg σ) (x : VA) : Prop :=
  (r.c.unknowns = true → checkUnknown r.c.pats x.t true = false) ∧
    ((∃ s, x.v = .str s) ∨
      direct = true ∧ ((∃ e, x.v = .error e) ∨ r.c.unknowns = true ∧ ∃ u, x.v = .unknown u ∧ Canon u))

/-- The pattern of a call the pass changes. -/
def targetPattern (P : PCfg) (cs : CallSite σ) (args : Srcs σ) : Option String :=
  if isMatches P.refs cs (srcsLen args) then constPattern args else none

/-- A call that is undefined on a subject that is not good. -/
noncomputable def guardOp (P : PCfg) (r : RCfg σ) (cs : CallSite σ) : Op σ := fun xs h =>
  open Classical in
  match xs with
  | x :: _ => if GoodSubject P.direct r x then callOp r cs xs h else (.ub, h)
  | [] => (.ub, h)

mutual
/-- The program without the pass, with every call the pass would change replaced by one that is undefined on a
subject that is not good.  That its evaluation is defined says that the evaluation meets no other subject. -/
noncomputable def guarded (P : PCfg) (r : RCfg σ) : Src σ → Expr σ
  | .const v => .const v
  | .ident x abs => .ident x abs
  | .call cs args =>
    match targetPattern P cs args with
    | some _ => .op (guardOp P r cs) (guardeds P r args)
    | none => .op (callOp r cs) (guardeds P r args)
  | .not a => .op (op1 (notStep r.c.unknowns r.c.pats)) (.cons (guarded P r a) .nil)
  | .nsf a => .op (op1 notStrictlyFalse) (.cons (guarded P r a) .nil)
  | .bin k a b => .op (binOp r k) (.cons (guarded P r a) (.cons (guarded P r b) .nil))
  | .index a b => .op (opR (indexStep r.c)) (.cons (guarded P r a) (.cons (guarded P r b) .nil))
  | .select f test a => .op (opR (selectStep r.c f test)) (.cons (guarded P r a) .nil)
  | .list opt args => .op (opR (listStep r.c opt)) (guardeds P r args)
  | .map opt args => .op (opR (mapStep r.c opt)) (guardeds P r args)
  | .logic o a b => .logic o (guarded P r a) (guarded P r b)
  | .cond c t f => .cond (guarded P r c) (guarded P r t) (guarded P r f)
  | .comp iter iter2 accu range init cnd stp res =>
    .comp iter iter2 accu (guarded P r range) (guarded P r init) (guarded P r cnd) (guarded P r stp) (guarded P r res)
  | .bind x init body => .bind x (guarded P r init) (guarded P r body)
noncomputable def guardeds (P : PCfg) (r : RCfg σ) : Srcs σ → Exprs σ
  | .nil => .nil
  | .cons e es => .cons (guarded P r e) (guardeds P r es)
end

mutual
/-- Every call the pass changes is a call of the standard function. -/
def Standard (P : PCfg) : Src σ → Prop
  | .const _ => True
  | .ident _ _ => True
  | .call cs args =>
    (∀ p, targetPattern P cs args = some p → ∃ rc id, cs = matchesSite P.compile rc id) ∧ Standards P args
  | .not a => Standard P a
  | .nsf a => Standard P a
  | .bin _ a b => Standard P a ∧ Standard P b
  | .index a b => Standard P a ∧ Standard P b
  | .select _ _ a => Standard P a
  | .list _ args => Standards P args
  | .map _ args => Standards P args
  | .logic _ a b => Standard P a ∧ Standard P b
  | .cond c t f => Standard P c ∧ Standard P t ∧ Standard P f
  | .comp _ _ _ range init cnd stp res =>
    Standard P range ∧ Standard P init ∧ Standard P cnd ∧ Standard P stp ∧ Standard P res
  | .bind _ init body => Standard P init ∧ Standard P body
def Standards (P : PCfg) : Srcs σ → Prop
  | .nil => True
  | .cons e es => Standard P e ∧ Standards P es
end

mutual
/-- The constant patterns of an expression, operands first. -/
def patterns (P : PCfg) : Src σ → List String
  | .const _ => []
  | .ident _ _ => []
  | .call cs args => patternss P args ++ (targetPattern P cs args).toList
  | .not a => patterns P a
  | .nsf a => patterns P a
  | .bin _ a b => patterns P a ++ patterns P b
  | .index a b => patterns P a ++ patterns P b
  | .select _ _ a => patterns P a
  | .list _ args => patternss P args
  | .map _ args => patternss P args
  | .logic _ a b => patterns P a ++ patterns P b
  | .cond c t f => patterns P c ++ patterns P t ++ patterns P f
  | .comp _ _ _ range init cnd stp res =>
    patterns P range ++ patterns P init ++ patterns P cnd ++ patterns P stp ++ patterns P res
  | .bind _ init body => patterns P init ++ patterns P body
def patternss (P : PCfg) : Srcs σ → List String
  | .nil => []
  | .cons e es => patterns P e ++ patternss P es
end

/-- The outcome of compiling patterns one after the other: the first failure, if any. -/
def compileAll (compile : Compile) : List String → Res Unit
  | [] => .ok ()
  | p :: ps => (compile p).bind fun _ => compileAll compile ps

theorem compileAll_append (c : Compile) (a b : List String) :
    compileAll c (a ++ b) = (compileAll c a).bind fun _ => compileAll c b := by
  induction a with
  | nil => rfl
  | cons p a ih =>
    simp only [List.cons_append, compileAll]
    cases c p with
    | ok re => exact ih
    | err e => rfl
    | ub => rfl

/-! ## The cache -/

/-- Every program in the cache is what compiling its pattern gives. -/
def Sound (compile : Compile) (k : Cache) : Prop := ∀ e ∈ k, compile e.1 = .ok e.2

theorem lookup_mem {k : Cache} {p : String} {re : Prog} (h : k.lookup p = some re) : (p, re) ∈ k := by
  induction k with
  | nil => simp at h
  | cons e k ih =>
    obtain ⟨q, w⟩ := e
    rw [List.lookup_cons] at h
    split at h
    · rename_i hq
      rw [beq_iff_eq] at hq
      cases h; subst hq; simp
    · exact List.mem_cons_of_mem _ (ih h)

theorem build_spec {c : Compile} {alive} {k : Cache} (hk : Sound c k) (p : String) :
    match c p with
    | .ok re => ∃ k', build c alive k p = .ok (re, k') ∧ Sound c k'
    | .err e => build c alive k p = .err e
    | .ub => build c alive k p = .ub := by
  have hnew : ∀ re l, c p = .ok re → (∀ e ∈ l, e ∈ k) → Sound c ((p, re) :: l) := by
    intro re l hc hl e he
    rcases List.mem_cons.1 he with rfl | he
    · exact hc
    · exact hk e (hl e he)
  unfold build
  cases hl : k.lookup p with
  | some w =>
    have hw : c p = .ok w := hk _ (lookup_mem hl)
    simp only [hw]
    by_cases ha : alive k p = true
    · simp only [ha, if_true]; exact ⟨k, rfl, hk⟩
    · simp only [ha, if_false]
      exact ⟨_, rfl, hnew _ _ hw fun e he => (List.mem_filter.1 he).1⟩
  | none =>
    simp only []
    cases hc : c p with
    | ok re => exact ⟨_, rfl, hnew _ _ hc fun e he => he⟩
    | err e => rfl
    | ub => rfl

/-! ## The call -/

theorem checkPartialUnknowns_two (pats : List Pattern) (x y : VA) (hx : checkUnknown pats x.t true = false)
    (hy : y.t = none) : checkPartialUnknowns pats [x, y] = [x.v, y.v] := by
  have hy' : checkUnknown pats y.t true = false := by rw [hy]; rfl
  simp only [checkPartialUnknowns, hx, hy']
  simp

theorem matches_args (r : RCfg σ) (x : VA) (p : String)
    (hx : r.c.unknowns = true → checkUnknown r.c.pats x.t true = false) :
    (if r.callOpts.unknowns then checkPartialUnknowns r.callOpts.pats [x, ⟨.str p, none⟩]
      else [x, ⟨.str p, none⟩].map (·.v)) = [x.v, .str p] := by
  unfold RCfg.callOpts
  simp only []
  split
  · rename_i hu
    exact checkPartialUnknowns_two _ x _ (hx hu) rfl
  · rfl

/-- The call of `matches` with a valid constant pattern does what the precompiled step does. -/
theorem callOp_matches (P : PCfg) (r : RCfg σ) (rc : Bool) (id : Int) (p : String) (re : Prog)
    (hc : P.compile p = .ok re) (x : VA) (hx : GoodSubject P.direct r x) (h : σ) :
    callOp r (matchesSite P.compile rc id) [x, ⟨.str p, none⟩] h = matchOp P.direct re [x] h := by
  obtain ⟨h1, h2⟩ := hx
  have hev : evalCall r.callOpts (matchesSite P.compile rc id) [x, ⟨.str p, none⟩] h =
      (match x.v with
       | .str s => (Res.ok (Value.bool (re s)), h)
       | .error e => (Res.ok (.error e), h)
       | .unknown u => (Res.ok (.unknown u), h)
       | _ => (Res.ub, h)) := by
    unfold evalCall
    simp only [matches_args r x p h1]
    rcases h2 with ⟨s, hs⟩ | ⟨hd, ⟨e, he⟩ | ⟨hu, u, hu', hcan⟩⟩
    · rw [hs]
      have hres : (matchesSite (σ := σ) P.compile rc id).resolve [.str s, .str p] =
          .ok (some (matchesOverload P.compile rc)) := rfl
      rw [hres]
      have hacc : shouldAcceptOverload (matchesOverload (σ := σ) P.compile rc).desc [.str s, .str p] = true := rfl
      simp only [hacc, if_true]
      unfold invoke matchesOverload
      simp only [hc]
    · rw [he]
      have hres : (matchesSite (σ := σ) P.compile rc id).resolve [.error e, .str p] = .ok none := rfl
      rw [hres]
      rfl
    · rw [hu']
      have hres : (matchesSite (σ := σ) P.compile rc id).resolve [.unknown u, .str p] = .ok none := rfl
      rw [hres]
      have hun : r.callOpts.unknowns = true := hu
      simp only [noOverloadResult, firstError, hun, if_true, mergeUnknowns, mergeLoop, Option.getD]
      rw [canon_copy hcan]
  unfold callOp
  rw [hev]
  unfold matchOp matchStep
  rcases h2 with ⟨s, hs⟩ | ⟨hd, ⟨e, he⟩ | ⟨hu, u, hu', hcan⟩⟩
  · simp only [hs]
  · simp only [he, hd, if_true]
  · simp only [hu', hd, if_true]

theorem target_shape {P : PCfg} {cs : CallSite σ} {args : Srcs σ} {p : String}
    (h : targetPattern P cs args = some p) : ∃ e, args = .cons e (.cons (.const (.str p)) .nil) := by
  unfold targetPattern at h
  split at h
  · rename_i hm
    have hl : srcsLen args = 2 := by
      unfold isMatches at hm
      split at hm
      · cases hm
      · split at hm
        · cases hm
        · omega
    match args, hl with
    | .cons e (.cons e2 .nil), _ =>
      simp only [constPattern] at h
      split at h
      · cases h; exact ⟨e, rfl⟩
      · cases h
    | .nil, hl => simp [srcsLen] at hl
    | .cons _ .nil, hl => simp [srcsLen] at hl
    | .cons _ (.cons _ (.cons _ _)), hl => simp only [srcsLen] at hl; omega
  · cases h

/-! ## The pass -/

theorem bind_ok_iff {α β : Type} {a : Res α} {f : α → Res β} {b : β} :
    a.bind f = .ok b ↔ ∃ x, a = .ok x ∧ f x = .ok b := by
  cases a <;> simp [Res.bind]

/-- `b` is `a` unless `a` is undefined. -/
def UR {α : Type} (a b : Out σ α) : Prop := a = .ub ∨ b = a

theorem UR.rfl {α : Type} (a : Out σ α) : UR a a := .inr (Eq.refl _) 

theorem UR.bind {α β : Type} {a b : Out σ α} {f g : α → SS σ → Out σ β} (h : UR a b)
    (hf : ∀ x s, UR (f x s) (g x s)) : UR (a.bind f) (b.bind g) := by
  rcases h with h | h
  · subst h; exact .inl (Eq.refl _)
  · subst h
    cases b with
    | ok x s => exact hf x s
    | err e h => exact .inr (Eq.refl _)
    | ub => exact .inl (Eq.refl _)

inductive BindRel : Binding σ → Binding σ → Prop
  | val (x : VA) : BindRel (.val x) (.val x)
  | delayed (c : Nat) {f g : SS σ → Out σ VA} : (∀ s, UR (f s) (g s)) → BindRel (.delayed c f) (.delayed c g)

/-- Environments with the same names and related bindings. -/
def EnvRel (a b : Env σ) : Prop := List.Forall₂ (fun x y => x.1 = y.1 ∧ BindRel x.2 y.2) a b

theorem BindRel.read {a b : Binding σ} (h : BindRel a b) (s : SS σ) : UR (readBinding a s) (readBinding b s) := by
  cases h with
  | val x => exact UR.rfl _
  | delayed c hf =>
    unfold readBinding
    simp only []
    split
    · exact UR.rfl _
    · exact (hf s).bind fun _ _ => UR.rfl _
    · exact UR.rfl _

theorem EnvRel.get {a b : Env σ} (h : EnvRel a b) (x : String) :
    (envGet a x = none ∧ envGet b x = none) ∨ ∃ u v, envGet a x = some u ∧ envGet b x = some v ∧ BindRel u v := by
  induction h with
  | nil => exact .inl ⟨_root_.rfl, _root_.rfl⟩
  | @cons p q l l' hpq _ ih =>
    obtain ⟨n, u⟩ := p
    obtain ⟨m, v⟩ := q
    obtain ⟨h1, h2⟩ := hpq
    simp only [] at h1 h2
    subst h1
    simp only [envGet]
    split
    · exact .inr ⟨u, v, _root_.rfl, _root_.rfl, h2⟩
    · exact ih

theorem EnvRel.cons {a b : Env σ} (h : EnvRel a b) (n : String) {u v : Binding σ} (hb : BindRel u v) :
    EnvRel ((n, u) :: a) ((n, v) :: b) := List.Forall₂.cons ⟨_root_.rfl, hb⟩ h

theorem EnvRel.iter {r : RCfg σ} {a b : Env σ} (h : EnvRel a b) (i : String) (i2 : Option String) (t : Trail)
    (it : Item) : EnvRel (iterBinds r.cfg i i2 t it ++ a) (iterBinds r.cfg i i2 t it ++ b) := by
  unfold iterBinds
  split
  · exact h.cons _ (.val _)
  · exact EnvRel.cons (EnvRel.cons h _ (.val _)) _ (.val _)

/-- An expression means the same as another, unless that is undefined. -/
def Ref (r : RCfg σ) (g e : Expr σ) : Prop :=
  ∀ ρ ρ' s, EnvRel ρ ρ' → UR (den r.cfg g ρ s) (den r.cfg e ρ' s)
def Refs (r : RCfg σ) (g e : Exprs σ) : Prop :=
  ∀ ρ ρ' s, EnvRel ρ ρ' → UR (denArgs r.cfg g ρ s) (denArgs r.cfg e ρ' s)

theorem ref_const (r : RCfg σ) (v : Value) : Ref r (.const v) (.const v) := fun _ _ _ _ => UR.rfl _

theorem ref_ident (r : RCfg σ) (x : String) (abs : Bool) : Ref r (.ident x abs) (.ident x abs) := by
  intro ρ ρ' s h
  simp only [den]
  cases abs with
  | true => exact UR.rfl _
  | false =>
    simp only [Bool.false_eq_true, if_false]
    rcases h.get x with ⟨h1, h2⟩ | ⟨u, v, h1, h2, h3⟩
    · rw [h1, h2]; exact UR.rfl _
    · rw [h1, h2]; exact h3.read s

theorem refs_nil (r : RCfg σ) : Refs r .nil .nil := fun _ _ _ _ => UR.rfl _

theorem refs_cons {r : RCfg σ} {g e : Expr σ} {gs es : Exprs σ} (h : Ref r g e) (hs : Refs r gs es) :
    Refs r (.cons g gs) (.cons e es) := by
  intro ρ ρ' s he
  simp only [denArgs]
  exact (h ρ ρ' s he).bind fun x s => (hs ρ ρ' s he).bind fun _ _ => UR.rfl _

theorem ref_op {r : RCfg σ} (f f' : Op σ) {gs es : Exprs σ} (hs : Refs r gs es)
    (hf : ∀ xs s, UR (lift (f xs s.host) s) (lift (f' xs s.host) s)) : Ref r (.op f gs) (.op f' es) := by
  intro ρ ρ' s he
  simp only [den]
  exact (hs ρ ρ' s he).bind fun x s => hf x s

theorem ref_same {r : RCfg σ} (f : Op σ) {gs es : Exprs σ} (hs : Refs r gs es) : Ref r (.op f gs) (.op f es) :=
  ref_op f f hs fun _ _ => UR.rfl _

theorem ref_op2 {r : RCfg σ} (f : Op σ) {a a' b b' : Expr σ} (ha : Ref r a a') (hb : Ref r b b') :
    Ref r (.op f (.cons a (.cons b .nil))) (.op f (.cons a' (.cons b' .nil))) :=
  ref_same f (refs_cons ha (refs_cons hb (refs_nil r)))

theorem ref_logic {r : RCfg σ} (o : Bool) {a a' b b' : Expr σ} (ha : Ref r a a') (hb : Ref r b b') :
    Ref r (.logic o a b) (.logic o a' b') := by
  intro ρ ρ' s he
  simp only [den]
  refine (ha ρ ρ' s he).bind fun x s => ?_
  split
  · split
    · exact UR.rfl _
    · exact (hb ρ ρ' s he).bind fun _ _ => UR.rfl _
  · exact (hb ρ ρ' s he).bind fun _ _ => UR.rfl _

theorem ref_bind {r : RCfg σ} (x : String) {a a' b b' : Expr σ} (ha : Ref r a a') (hb : Ref r b b') :
    Ref r (.bind x a b) (.bind x a' b') := by
  intro ρ ρ' s he
  simp only [den]
  exact (hb _ _ _ (he.cons x (.delayed _ fun s => ha ρ ρ' s he))).bind fun _ _ => UR.rfl _

theorem ref_cond {r : RCfg σ} {a a' b b' c c' : Expr σ} (ha : Ref r a a') (hb : Ref r b b')
    (hc : Ref r c c') : Ref r (.cond a b c) (.cond a' b' c') := by
  intro ρ ρ' s he
  simp only [den]
  refine (ha ρ ρ' s he).bind fun x s => ?_
  split
  · split
    · exact UR.rfl _
    · exact hb ρ ρ' s he
    · exact hc ρ ρ' s he
  · exact (hb ρ ρ' s he).bind fun _ s => (hc ρ ρ' s he).bind fun _ _ => UR.rfl _

theorem loop_ur {cfg : Cfg σ} {c c' d d' : Item → VA → SS σ → Out σ VA} (hc : ∀ i a s, UR (c i a s) (c' i a s))
    (hd : ∀ i a s, UR (d i a s) (d' i a s)) : ∀ l a s, UR (loop cfg c d l a s) (loop cfg c' d' l a s) := by
  intro l
  induction l with
  | nil => intro a s; exact UR.rfl _
  | cons it l ih =>
    intro a s
    simp only [loop]
    split
    · exact UR.rfl _
    · refine (hc _ _ _).bind fun x s => ?_
      split
      · exact UR.rfl _
      · exact UR.rfl _
      · exact (hd _ _ _).bind fun y s => ih y s

theorem ref_comp {r : RCfg σ} (i : String) (i2 : Option String) (u : String) {a a' b b' c c' d d' e e' : Expr σ}
    (ha : Ref r a a') (hb : Ref r b b') (hc : Ref r c c') (hd : Ref r d d') (he : Ref r e e') :
    Ref r (.comp i i2 u a b c d e) (.comp i i2 u a' b' c' d' e') := by
  intro ρ ρ' s hρ
  simp only [den]
  refine (ha ρ ρ' s hρ).bind fun x s => ?_
  split
  · exact UR.rfl _
  · refine (hb ρ ρ' s hρ).bind fun y s => ?_
    refine UR.bind (loop_ur (fun it a s => hc _ _ s (EnvRel.iter (hρ.cons u (.val a)) i i2 x.t it))
      (fun it a s => hd _ _ s (EnvRel.iter (hρ.cons u (.val a)) i i2 x.t it)) _ _ _) fun z s => ?_
    split
    · exact UR.rfl _
    · exact he _ _ s (hρ.cons u (.val _))

theorem mk1_ok {f : Op σ} {a : Res (Expr σ × Cache)} {b : Expr σ × Cache} (h : mk1 f a = .ok b) :
    ∃ x, a = .ok x ∧ b = (.op f (.cons x.1 .nil), x.2) := by
  unfold mk1 at h
  obtain ⟨x, hx, hb⟩ := bind_ok_iff.1 h
  cases hb
  exact ⟨x, hx, rfl⟩

/-- The conclusion for one expression. -/
def Good1 (P : PCfg) (r : RCfg σ) (e : Src σ) : Prop :=
  ∀ k a, Sound P.compile k → precompile P r e k = .ok a →
    Sound P.compile a.2 ∧ (Standard P e → Ref r (guarded P r e) a.1)

def GoodL (P : PCfg) (r : RCfg σ) (es : Srcs σ) : Prop :=
  ∀ k a, Sound P.compile k → precompiles P r es k = .ok a →
    Sound P.compile a.2 ∧ (Standards P es → Refs r (guardeds P r es) a.1) ∧
      ∀ e es0, es = .cons e es0 → ∃ e' es', a.1 = .cons e' es' ∧ (Standards P es → Ref r (guarded P r e) e')

theorem good_one {P : PCfg} {r : RCfg σ} {e a : Src σ} (f : Op σ) (ih : Good1 P r a)
    (hp : ∀ k, precompile P r e k = mk1 f (precompile P r a k))
    (ht : guarded P r e = .op f (.cons (guarded P r a) .nil)) (hq : Standard P e → Standard P a) : Good1 P r e := by
  intro k b hk hb
  rw [hp] at hb
  obtain ⟨x, hx, rfl⟩ := mk1_ok hb
  obtain ⟨h1, h2⟩ := ih k x hk hx
  refine ⟨h1, fun h => ?_⟩
  rw [ht]
  exact ref_same f (refs_cons (h2 (hq h)) (refs_nil r))

theorem good_two {P : PCfg} {r : RCfg σ} {e a b : Src σ} (F : Expr σ → Expr σ → Expr σ) (iha : Good1 P r a)
    (ihb : Good1 P r b)
    (hp : ∀ k, precompile P r e k = (precompile P r a k).bind fun a => (precompile P r b a.2).bind fun b =>
      .ok (F a.1 b.1, b.2))
    (ht : guarded P r e = F (guarded P r a) (guarded P r b)) (hq : Standard P e → Standard P a ∧ Standard P b)
    (hF : ∀ a' b', Ref r (guarded P r a) a' → Ref r (guarded P r b) b' →
      Ref r (F (guarded P r a) (guarded P r b)) (F a' b')) : Good1 P r e := by
  intro k c hk hc
  rw [hp] at hc
  obtain ⟨x, hx, hc⟩ := bind_ok_iff.1 hc
  obtain ⟨y, hy, hc⟩ := bind_ok_iff.1 hc
  cases hc
  obtain ⟨h1, h2⟩ := iha k x hk hx
  obtain ⟨h3, h4⟩ := ihb _ y h1 hy
  refine ⟨h3, fun h => ?_⟩
  rw [ht]
  exact hF _ _ (h2 (hq h).1) (h4 (hq h).2)

theorem good_call {P : PCfg} {r : RCfg σ} (cs : CallSite σ) (args : Srcs σ) (ih : GoodL P r args) :
    Good1 P r (.call cs args) := by
  intro k a hk ha
  rw [precompile] at ha
  obtain ⟨x, hx, ha1⟩ := bind_ok_iff.1 ha
  clear ha
  obtain ⟨h1, h2, h3⟩ := ih k x hk hx
  unfold callNode at ha1
  cases ht : targetPattern P cs args with
  | none =>
    have ht' := ht
    unfold targetPattern at ht'
    rw [ht'] at ha1
    cases ha1
    refine ⟨h1, fun hp => ?_⟩
    rw [Standard] at hp
    rw [guarded, ht]
    exact ref_same _ (h2 hp.2)
  | some p =>
    have ht' := ht
    unfold targetPattern at ht'
    rw [ht'] at ha1
    simp only [] at ha1
    obtain ⟨b, hb, ha2⟩ := bind_ok_iff.1 ha1
    clear ha1
    have hbs := build_spec (alive := P.alive) h1 p
    obtain ⟨re, hc, k', hb', hk'⟩ : ∃ re, P.compile p = .ok re ∧ ∃ k', build P.compile P.alive x.2 p = .ok (re, k') ∧
        Sound P.compile k' := by
      cases hc : P.compile p with
      | ok re => rw [hc] at hbs; exact ⟨re, rfl, hbs⟩
      | err e => rw [hc] at hbs; simp only [] at hbs; rw [hbs] at hb; cases hb
      | ub => rw [hc] at hbs; simp only [] at hbs; rw [hbs] at hb; cases hb
    rw [hb'] at hb
    cases hb
    obtain ⟨e, rfl⟩ := target_shape ht
    obtain ⟨e', es', hx1, hden⟩ := h3 e _ rfl
    rw [hx1] at ha2
    simp only [] at ha2
    cases ha2
    refine ⟨hk', fun hp => ?_⟩
    rw [Standard] at hp
    obtain ⟨rc, id, rfl⟩ := hp.1 p ht
    intro ρ ρ' s he
    rw [guarded, ht]
    simp only [guardeds, guarded, den, denArgs]
    have key : ∀ (x : VA) (s : SS σ), UR
        (Out.bind (Out.bind (Out.bind (Out.ok (⟨.str p, none⟩ : VA) s) fun y s =>
          Out.bind (Out.ok [] s) fun ys s => Out.ok (y :: ys) s) fun xs s => Out.ok (x :: xs) s)
          fun xs s => lift (guardOp P r (matchesSite P.compile rc id) xs s.host) s)
        (Out.bind (Out.bind (Out.ok [] s) fun xs s => Out.ok (x :: xs) s)
          fun xs s => lift (matchOp P.direct re xs s.host) s) := by
      intro x s
      simp only [Out.bind, guardOp]
      by_cases hg : GoodSubject P.direct r x
      · rw [if_pos hg, callOp_matches P r rc id p re hc x hg]
        exact UR.rfl _
      · rw [if_neg hg]
        exact .inl rfl
    rcases hden hp.2 ρ ρ' s he with h | h
    · rw [h]; exact .inl rfl
    · rw [h]
      cases den r.cfg (guarded P r e) ρ s with
      | ok x s => exact key x s
      | err e h => exact .inr rfl
      | ub => exact .inl rfl

mutual
theorem good_all (P : PCfg) (r : RCfg σ) : ∀ e : Src σ, Good1 P r e
  | .const v => by
    intro k a hk ha; rw [precompile] at ha; cases ha; exact ⟨hk, fun _ => by rw [guarded]; exact ref_const r v⟩
  | .ident x abs => by
    intro k a hk ha; rw [precompile] at ha; cases ha; exact ⟨hk, fun _ => by rw [guarded]; exact ref_ident r x abs⟩
  | .call cs args => good_call cs args (good_alls P r args)
  | .not a => good_one _ (good_all P r a) (fun k => by rw [precompile]) (by rw [guarded]) (by rw [Standard]; exact id)
  | .nsf a => good_one _ (good_all P r a) (fun k => by rw [precompile]) (by rw [guarded]) (by rw [Standard]; exact id)
  | .bin o a b =>
    good_two (fun a b => .op (binOp r o) (.cons a (.cons b .nil))) (good_all P r a) (good_all P r b)
      (fun k => by rw [precompile]) (by rw [guarded]) (by rw [Standard]; exact id) (fun _ _ => ref_op2 _)
  | .index a b =>
    good_two (fun a b => .op (opR (indexStep r.c)) (.cons a (.cons b .nil))) (good_all P r a) (good_all P r b)
      (fun k => by rw [precompile]) (by rw [guarded]) (by rw [Standard]; exact id) (fun _ _ => ref_op2 _)
  | .select f t a => good_one _ (good_all P r a) (fun k => by rw [precompile]) (by rw [guarded]) (by rw [Standard]; exact id)
  | .list opt args => by
    intro k a hk ha
    rw [precompile] at ha
    obtain ⟨x, hx, ha⟩ := bind_ok_iff.1 ha
    cases ha
    obtain ⟨h1, h2, _⟩ := good_alls P r args k x hk hx
    exact ⟨h1, fun hp => by rw [Standard] at hp; rw [guarded]; exact ref_same _ (h2 hp)⟩
  | .map opt args => by
    intro k a hk ha
    rw [precompile] at ha
    obtain ⟨x, hx, ha⟩ := bind_ok_iff.1 ha
    cases ha
    obtain ⟨h1, h2, _⟩ := good_alls P r args k x hk hx
    exact ⟨h1, fun hp => by rw [Standard] at hp; rw [guarded]; exact ref_same _ (h2 hp)⟩
  | .logic o a b =>
    good_two (fun a b => .logic o a b) (good_all P r a) (good_all P r b)
      (fun k => by rw [precompile]) (by rw [guarded]) (by rw [Standard]; exact id) (fun _ _ => ref_logic _)
  | .cond c t f => by
    intro k z hk hz
    rw [precompile] at hz
    obtain ⟨a, ha, hz⟩ := bind_ok_iff.1 hz
    obtain ⟨b, hb, hz⟩ := bind_ok_iff.1 hz
    obtain ⟨d, hd, hz⟩ := bind_ok_iff.1 hz
    cases hz
    obtain ⟨a1, a2⟩ := good_all P r c _ _ hk ha
    obtain ⟨b1, b2⟩ := good_all P r t _ _ a1 hb
    obtain ⟨d1, d2⟩ := good_all P r f _ _ b1 hd
    refine ⟨d1, fun hp => ?_⟩
    rw [Standard] at hp
    rw [guarded]
    exact ref_cond (a2 hp.1) (b2 hp.2.1) (d2 hp.2.2)
  | .comp i i2 u range init cnd stp res => by
    intro k z hk hz
    rw [precompile] at hz
    obtain ⟨a, ha, hz⟩ := bind_ok_iff.1 hz
    obtain ⟨b, hb, hz⟩ := bind_ok_iff.1 hz
    obtain ⟨c, hc, hz⟩ := bind_ok_iff.1 hz
    obtain ⟨d, hd, hz⟩ := bind_ok_iff.1 hz
    obtain ⟨e, he, hz⟩ := bind_ok_iff.1 hz
    cases hz
    obtain ⟨a1, a2⟩ := good_all P r range _ _ hk ha
    obtain ⟨b1, b2⟩ := good_all P r init _ _ a1 hb
    obtain ⟨c1, c2⟩ := good_all P r cnd _ _ b1 hc
    obtain ⟨d1, d2⟩ := good_all P r stp _ _ c1 hd
    obtain ⟨e1, e2⟩ := good_all P r res _ _ d1 he
    refine ⟨e1, fun hp => ?_⟩
    rw [Standard] at hp
    rw [guarded]
    exact ref_comp i i2 u (a2 hp.1) (b2 hp.2.1) (c2 hp.2.2.1) (d2 hp.2.2.2.1) (e2 hp.2.2.2.2)
  | .bind x init body =>
    good_two (fun a b => .bind x a b) (good_all P r init) (good_all P r body)
      (fun k => by rw [precompile]) (by rw [guarded]) (by rw [Standard]; exact id) (fun _ _ => ref_bind x)
theorem good_alls (P : PCfg) (r : RCfg σ) : ∀ es : Srcs σ, GoodL P r es
  | .nil => by
    intro k a hk ha; rw [precompiles] at ha; cases ha
    exact ⟨hk, fun _ => by rw [guardeds]; exact refs_nil r, fun e es h => by cases h⟩
  | .cons e es => by
    intro k a hk ha
    rw [precompiles] at ha
    obtain ⟨x, hx, ha⟩ := bind_ok_iff.1 ha
    obtain ⟨y, hy, ha⟩ := bind_ok_iff.1 ha
    cases ha
    obtain ⟨h1, h2⟩ := good_all P r e k x hk hx
    obtain ⟨h3, h4, _⟩ := good_alls P r es _ y h1 hy
    refine ⟨h3, fun hp => ?_, ?_⟩
    · rw [Standards] at hp
      rw [guardeds]
      exact refs_cons (h2 hp.1) (h4 hp.2)
    · intro e0 es0 heq
      cases heq
      exact ⟨_, _, rfl, fun hp => by rw [Standards] at hp; exact h2 hp.1⟩
end

mutual
theorem ref_toExpr (P : PCfg) (r : RCfg σ) : ∀ e : Src σ, Ref r (guarded P r e) (toExpr r e)
  | .const v => by rw [guarded, toExpr]; exact ref_const r v
  | .ident x abs => by rw [guarded, toExpr]; exact ref_ident r x abs
  | .call cs args => by
    rw [guarded, toExpr]
    split
    · refine ref_op _ _ (refs_toExprs P r args) fun xs s => ?_
      cases xs with
      | nil => exact .inl rfl
      | cons x xs =>
        simp only [guardOp]
        split
        · exact UR.rfl _
        · exact .inl rfl
    · exact ref_same _ (refs_toExprs P r args)
  | .not a => by rw [guarded, toExpr]; exact ref_same _ (refs_cons (ref_toExpr P r a) (refs_nil r))
  | .nsf a => by rw [guarded, toExpr]; exact ref_same _ (refs_cons (ref_toExpr P r a) (refs_nil r))
  | .bin o a b => by rw [guarded, toExpr]; exact ref_op2 _ (ref_toExpr P r a) (ref_toExpr P r b)
  | .index a b => by rw [guarded, toExpr]; exact ref_op2 _ (ref_toExpr P r a) (ref_toExpr P r b)
  | .select f t a => by rw [guarded, toExpr]; exact ref_same _ (refs_cons (ref_toExpr P r a) (refs_nil r))
  | .list opt args => by rw [guarded, toExpr]; exact ref_same _ (refs_toExprs P r args)
  | .map opt args => by rw [guarded, toExpr]; exact ref_same _ (refs_toExprs P r args)
  | .logic o a b => by rw [guarded, toExpr]; exact ref_logic _ (ref_toExpr P r a) (ref_toExpr P r b)
  | .cond c t f => by
    rw [guarded, toExpr]; exact ref_cond (ref_toExpr P r c) (ref_toExpr P r t) (ref_toExpr P r f)
  | .comp i i2 u range init cnd stp res => by
    rw [guarded, toExpr]
    exact ref_comp i i2 u (ref_toExpr P r range) (ref_toExpr P r init) (ref_toExpr P r cnd) (ref_toExpr P r stp)
      (ref_toExpr P r res)
  | .bind x init body => by rw [guarded, toExpr]; exact ref_bind x (ref_toExpr P r init) (ref_toExpr P r body)
theorem refs_toExprs (P : PCfg) (r : RCfg σ) : ∀ es : Srcs σ, Refs r (guardeds P r es) (toExprs r es)
  | .nil => by rw [guardeds, toExprs]; exact refs_nil r
  | .cons e es => by rw [guardeds, toExprs]; exact refs_cons (ref_toExpr P r e) (refs_toExprs P r es)
end

theorem sound_nil (c : Compile) : Sound c [] := fun _ h => by cases h

theorem final_ur {a b : Out σ VA} (h : UR a b) (hn : a.final ≠ .ub) : b.final = a.final := by
  rcases h with h | h
  · subst h; exact absurd rfl hn
  · rw [h]

/-- A program created with precompiled patterns gives the same outcome as without, in every evaluation in which the
calls that are changed, being calls of the standard function, meet good subjects only. -/
theorem C75_agree_partial (P : PCfg) (r : RCfg σ) (e : Src σ) (e' : Expr σ) (hc : createProgram P r e = .ok e')
    (hp : Standard P e) (h : σ) (hgood : meaning r.cfg (guarded P r e) h ≠ .ub) :
    meaning r.cfg e' h = meaning r.cfg (toExpr r e) h := by
  unfold createProgram at hc
  obtain ⟨a, ha, hc⟩ := bind_ok_iff.1 hc
  cases hc
  obtain ⟨_, h2⟩ := good_all P r e [] a (sound_nil _) ha
  unfold meaning at hgood ⊢
  rw [final_ur (h2 hp [] [] _ .nil) hgood, final_ur (ref_toExpr P r e [] [] _ .nil) hgood]

/-! ## Planning fails exactly for an invalid constant pattern -/

def void {α : Type} (r : Res α) : Res Unit := r.bind fun _ => .ok ()

theorem seq_void {α β : Type} {c : Compile} {f : Res α} {g : α → Res β} {l1 l2 : List String}
    (hf : void f = compileAll c l1) (hg : ∀ a, f = .ok a → void (g a) = compileAll c l2) :
    void (f.bind g) = compileAll c (l1 ++ l2) := by
  rw [compileAll_append, ← hf]
  cases f with
  | ok a => exact hg a rfl
  | err e => rfl
  | ub => rfl

theorem seq_last {α β : Type} {c : Compile} {f : Res α} {g : α → β} {l1 : List String}
    (hf : void f = compileAll c l1) : void (f.bind fun a => .ok (g a)) = compileAll c l1 := by
  rw [← hf]
  cases f <;> rfl

theorem build_void {c : Compile} {alive} {k : Cache} (hk : Sound c k) (p : String) :
    void (build c alive k p) = compileAll c [p] := by
  have h := build_spec (alive := alive) hk p
  simp only [compileAll]
  cases hc : c p with
  | ok re => rw [hc] at h; obtain ⟨k', hb, _⟩ := h; rw [hb]; rfl
  | err e => rw [hc] at h; simp only [] at h; rw [h]; rfl
  | ub => rw [hc] at h; simp only [] at h; rw [h]; rfl

mutual
theorem status_all (P : PCfg) (r : RCfg σ) : ∀ (e : Src σ) (k : Cache), Sound P.compile k →
    void (precompile P r e k) = compileAll P.compile (patterns P e)
  | .const v, k, hk => rfl
  | .ident x abs, k, hk => rfl
  | .call cs args, k, hk => by
    rw [precompile, patterns]
    refine seq_void (status_alls P r args k hk) fun a ha => ?_
    have hs := (good_alls P r args k a hk ha).1
    unfold callNode
    cases ht : targetPattern P cs args with
    | none => have ht' := ht; unfold targetPattern at ht'; rw [ht']; rfl
    | some p =>
      have ht' := ht; unfold targetPattern at ht'; rw [ht']
      simp only [Option.toList_some]
      rw [← build_void hs p (alive := P.alive)]
      cases build P.compile P.alive a.2 p with
      | ok b => cases a.1 <;> rfl
      | err e => rfl
      | ub => rfl
  | .not a, k, hk => by rw [precompile, patterns]; exact seq_last (status_all P r a k hk)
  | .nsf a, k, hk => by rw [precompile, patterns]; exact seq_last (status_all P r a k hk)
  | .bin o a b, k, hk => by
    rw [precompile, patterns]
    exact seq_void (status_all P r a k hk) fun x hx =>
      seq_last (status_all P r b _ (good_all P r a k x hk hx).1)
  | .index a b, k, hk => by
    rw [precompile, patterns]
    exact seq_void (status_all P r a k hk) fun x hx =>
      seq_last (status_all P r b _ (good_all P r a k x hk hx).1)
  | .select f t a, k, hk => by rw [precompile, patterns]; exact seq_last (status_all P r a k hk)
  | .list opt args, k, hk => by rw [precompile, patterns]; exact seq_last (status_alls P r args k hk)
  | .map opt args, k, hk => by rw [precompile, patterns]; exact seq_last (status_alls P r args k hk)
  | .logic o a b, k, hk => by
    rw [precompile, patterns]
    exact seq_void (status_all P r a k hk) fun x hx =>
      seq_last (status_all P r b _ (good_all P r a k x hk hx).1)
  | .cond c t f, k, hk => by
    rw [precompile, patterns, List.append_assoc]
    refine seq_void (status_all P r c k hk) fun x hx => ?_
    have h1 := (good_all P r c k x hk hx).1
    refine seq_void (status_all P r t _ h1) fun y hy => ?_
    have h2 := (good_all P r t _ y h1 hy).1
    exact seq_last (status_all P r f _ h2)
  | .comp i i2 u range init cnd stp res, k, hk => by
    rw [precompile, patterns]
    simp only [List.append_assoc]
    refine seq_void (status_all P r range k hk) fun x hx => ?_
    have h1 := (good_all P r range k x hk hx).1
    refine seq_void (status_all P r init _ h1) fun y hy => ?_
    have h2 := (good_all P r init _ y h1 hy).1
    refine seq_void (status_all P r cnd _ h2) fun z hz => ?_
    have h3 := (good_all P r cnd _ z h2 hz).1
    refine seq_void (status_all P r stp _ h3) fun w hw => ?_
    have h4 := (good_all P r stp _ w h3 hw).1
    exact seq_last (status_all P r res _ h4)
  | .bind x init body, k, hk => by
    rw [precompile, patterns]
    exact seq_void (status_all P r init k hk) fun y hy =>
      seq_last (status_all P r body _ (good_all P r init k y hk hy).1)
theorem status_alls (P : PCfg) (r : RCfg σ) : ∀ (es : Srcs σ) (k : Cache), Sound P.compile k →
    void (precompiles P r es k) = compileAll P.compile (patternss P es)
  | .nil, k, hk => rfl
  | .cons e es, k, hk => by
    rw [precompiles, patternss]
    exact seq_void (status_all P r e k hk) fun x hx =>
      seq_last (status_alls P r es _ (good_all P r e k x hk hx).1)
end

/-- Planning fails exactly when a constant pattern does not compile, and then with the error of the first such
pattern, operands first. -/
theorem C75_plan_status (P : PCfg) (r : RCfg σ) (e : Src σ) :
    (createProgram P r e).bind (fun _ => .ok ()) = compileAll P.compile (patterns P e) := by
  rw [← status_all P r e [] (sound_nil _)]
  unfold createProgram void
  cases precompile P r e [] <;> rfl

theorem compileAll_ok {c : Compile} : ∀ {l : List String}, compileAll c l = .ok () ↔ ∀ p ∈ l, ∃ re, c p = .ok re
  | [] => by simp [compileAll]
  | p :: l => by
    rw [compileAll, bind_ok_iff]
    constructor
    · rintro ⟨re, h1, h2⟩ q hq
      rcases List.mem_cons.1 hq with rfl | hq
      · exact ⟨re, h1⟩
      · exact compileAll_ok.1 h2 q hq
    · intro h
      obtain ⟨re, h1⟩ := h p (by simp)
      exact ⟨re, h1, compileAll_ok.2 fun q hq => h q (List.mem_cons_of_mem _ hq)⟩

/-- A program is created exactly when all constant patterns compile. -/
theorem C75_plan_ok_iff (P : PCfg) (r : RCfg σ) (e : Src σ) :
    (∃ e', createProgram P r e = .ok e') ↔ ∀ p ∈ patterns P e, ∃ re, P.compile p = .ok re := by
  rw [← compileAll_ok, ← C75_plan_status P r e, bind_ok_iff]
  simp

end Cel.Regex
