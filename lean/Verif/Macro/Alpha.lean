import Verif.Macro.Scope

/-!
# C28: comprehension variables are lexically scoped

* an expression's outcome (value, status, effects) depends only on the bindings of its free variables;
* renaming a bound variable, together with the references to it, changes nothing;
* the planned program of an expression writes only slots from the range reserved for it, so it cannot
  overwrite a variable of an enclosing or preceding comprehension.
-/

set_option linter.unusedSimpArgs false
set_option linter.unusedVariables false

namespace Cel.Eval
open Cel

variable {σ : Type}

/-! ## Specification: renaming -/

/-- Replace a name. -/
def rn (x x' z : String) : String := if z = x then x' else z

mutual
/-- Replace the free references to `x` by `x'`. -/
def ren (x x' : String) : Expr σ → Expr σ
  | .const v => .const v
  | .ident z abs => .ident (if abs then z else rn x x' z) abs
  | .op f args => .op f (rens x x' args)
  | .logic o a b => .logic o (ren x x' a) (ren x x' b)
  | .cond c t f => .cond (ren x x' c) (ren x x' t) (ren x x' f)
  | .comp i j accu range init cnd stp res =>
    .comp i j accu (ren x x' range) (ren x x' init)
      (if x = i ∨ j = some x ∨ x = accu then cnd else ren x x' cnd)
      (if x = i ∨ j = some x ∨ x = accu then stp else ren x x' stp)
      (if x = accu then res else ren x x' res)
  | .bind y init body => .bind y (ren x x' init) (if x = y then body else ren x x' body)
/-- In every operand. -/
def rens (x x' : String) : Exprs σ → Exprs σ
  | .nil => .nil
  | .cons e es => .cons (ren x x' e) (rens x x' es)
end

mutual
/-- The name occurs nowhere in the expression, neither as a reference nor as a bound variable. -/
def Fresh (x : String) : Expr σ → Prop
  | .const _ => True
  | .ident z abs => abs = false → z ≠ x
  | .op _ args => Freshs x args
  | .logic _ a b => Fresh x a ∧ Fresh x b
  | .cond c t f => Fresh x c ∧ Fresh x t ∧ Fresh x f
  | .comp i j accu range init cnd stp res =>
    i ≠ x ∧ j ≠ some x ∧ accu ≠ x ∧ Fresh x range ∧ Fresh x init ∧ Fresh x cnd ∧ Fresh x stp ∧ Fresh x res
  | .bind y init body => y ≠ x ∧ Fresh x init ∧ Fresh x body
/-- In no operand. -/
def Freshs (x : String) : Exprs σ → Prop
  | .nil => True
  | .cons e es => Fresh x e ∧ Freshs x es
end

mutual
theorem fresh_not_free (x : String) (e : Expr σ) (h : Fresh x e) : ¬ Free x e := by
  cases e with
  | const v => exact id
  | ident z abs => rintro ⟨rfl, rfl⟩; exact h rfl rfl
  | op f args => exact freshs_not_frees x args h
  | logic o a b => rintro (hf | hf); exacts [fresh_not_free x a h.1 hf, fresh_not_free x b h.2 hf]
  | cond c t f =>
    rintro (hf | hf | hf)
    exacts [fresh_not_free x c h.1 hf, fresh_not_free x t h.2.1 hf, fresh_not_free x f h.2.2 hf]
  | comp i j accu range init cnd stp res =>
    obtain ⟨h1, h2, h3, h4, h5, h6, h7, h8⟩ := h
    rintro (hf | hf | ⟨_, _, _, hf | hf⟩ | ⟨_, hf⟩)
    exacts [fresh_not_free x range h4 hf, fresh_not_free x init h5 hf, fresh_not_free x cnd h6 hf,
      fresh_not_free x stp h7 hf, fresh_not_free x res h8 hf]
  | bind y init body =>
    rintro (hf | ⟨_, hf⟩); exacts [fresh_not_free x init h.2.1 hf, fresh_not_free x body h.2.2 hf]
theorem freshs_not_frees (x : String) (es : Exprs σ) (h : Freshs x es) : ¬ Frees x es := by
  cases es with
  | nil => exact id
  | cons e es => rintro (hf | hf); exacts [fresh_not_free x e h.1 hf, freshs_not_frees x es h.2 hf]
end

variable {cfg : Cfg σ}

/-! ## The outcome depends only on the free variables -/

theorem out_bind_congr {α β : Type} {o o' : Out σ α} {f f' : α → SS σ → Out σ β} (h1 : o = o')
    (h2 : ∀ a s, f a s = f' a s) : o.bind f = o'.bind f' := by
  subst h1
  have : f = f' := by funext a s; exact h2 a s
  rw [this]

theorem loop_congr {c c' st st' : Item → VA → SS σ → Out σ VA} (hc : ∀ it a s, c it a s = c' it a s)
    (hs : ∀ it a s, st it a s = st' it a s) (l : List Item) (a : VA) (s : SS σ) :
    loop cfg c st l a s = loop cfg c' st' l a s := by
  have h1 : c = c' := by funext it a s; exact hc it a s
  have h2 : st = st' := by funext it a s; exact hs it a s
  rw [h1, h2]

/-- Lookup below the iteration variables. -/
theorem envGet_iter (x : String) (y : Option String) (t : Trail) (it : Item) (ρ : Env σ) (z : String) (hx : z ≠ x)
    (hy : y ≠ some z) : envGet (iterBinds cfg x y t it ++ ρ) z = envGet ρ z := by
  cases y with
  | none => simp [iterBinds, envGet, hx]
  | some y =>
    have : z ≠ y := fun hh => hy (by rw [hh])
    simp [iterBinds, envGet, hx, this]

theorem envGet_iter_congr (x : String) (y : Option String) (t : Trail) (it : Item) (ρ ρ' : Env σ) (z : String)
    (hz : z ≠ x → y ≠ some z → envGet ρ z = envGet ρ' z) :
    envGet (iterBinds cfg x y t it ++ ρ) z = envGet (iterBinds cfg x y t it ++ ρ') z := by
  by_cases hx : z = x
  · subst hx; cases y <;> simp [iterBinds, envGet]
  · by_cases hy : y = some z
    · subst hy; simp [iterBinds, envGet]
    · rw [envGet_iter x y t it ρ z hx hy, envGet_iter x y t it ρ' z hx hy, hz hx hy]

theorem envGet_cons_congr (w : String) (b : Binding σ) (ρ ρ' : Env σ) (z : String)
    (hz : z ≠ w → envGet ρ z = envGet ρ' z) : envGet ((w, b) :: ρ) z = envGet ((w, b) :: ρ') z := by
  unfold envGet
  by_cases hw : z = w
  · rw [if_pos hw, if_pos hw]
  · rw [if_neg hw, if_neg hw]; exact hz hw

mutual
theorem den_agree (e : Expr σ) : ∀ (ρ ρ' : Env σ), (∀ z, Free z e → envGet ρ z = envGet ρ' z) → ∀ s,
    den cfg e ρ s = den cfg e ρ' s := by
  cases e with
  | const v => intro ρ ρ' _ s; rfl
  | ident x abs =>
    intro ρ ρ' ha s
    simp only [den]
    cases abs with
    | true => rfl
    | false => rw [if_neg (by simp), if_neg (by simp), ha x ⟨rfl, rfl⟩]
  | op f args =>
    intro ρ ρ' ha s
    simp only [den]
    rw [denArgs_agree args ρ ρ' ha]
  | logic o a b =>
    intro ρ ρ' ha s
    have h1 := den_agree a ρ ρ' fun z hz => ha z (Or.inl hz)
    have h2 := den_agree b ρ ρ' fun z hz => ha z (Or.inr hz)
    simp only [den, h1, h2]
  | cond c t f =>
    intro ρ ρ' ha s
    have h1 := den_agree c ρ ρ' fun z hz => ha z (Or.inl hz)
    have h2 := den_agree t ρ ρ' fun z hz => ha z (Or.inr (Or.inl hz))
    have h3 := den_agree f ρ ρ' fun z hz => ha z (Or.inr (Or.inr hz))
    simp only [den, h1, h2, h3]
  | comp x y accu range init cnd stp res =>
    intro ρ ρ' ha s
    simp only [den]
    have hbody : ∀ z, (Free z cnd ∨ Free z stp) → ∀ t it a,
        envGet (iterBinds cfg x y t it ++ (accu, .val a) :: ρ) z
          = envGet (iterBinds cfg x y t it ++ (accu, .val a) :: ρ') z := by
      intro z hz t it a
      refine envGet_iter_congr x y t it _ _ z fun hx hy => envGet_cons_congr _ _ _ _ z fun hacc => ha z ?_
      exact Or.inr (Or.inr (Or.inl ⟨hx, hy, hacc, hz⟩))
    refine out_bind_congr (den_agree range ρ ρ' (fun z hz => ha z (Or.inl hz)) s) fun r s => ?_
    cases rangeOf cfg.unknowns cfg.pats r with
    | stop v => rfl
    | items l =>
      simp only []
      refine out_bind_congr (den_agree init ρ ρ' (fun z hz => ha z (Or.inr (Or.inl hz))) s) fun a s => ?_
      refine out_bind_congr (loop_congr (fun it a s => den_agree cnd _ _ (fun z hz => hbody z (Or.inl hz) _ it a) s)
        (fun it a s => den_agree stp _ _ (fun z hz => hbody z (Or.inr hz) _ it a) s) l a s) fun e s => ?_
      cases e with
      | stop v => rfl
      | accu v =>
        exact den_agree res _ _ (fun z hz => envGet_cons_congr _ _ _ _ z fun hacc => ha z (Or.inr (Or.inr (Or.inr ⟨hacc, hz⟩)))) s
  | bind x init body =>
    intro ρ ρ' ha s
    simp only [den]
    have hth : (fun s => den cfg init ρ s) = fun s => den cfg init ρ' s := by
      funext s; exact den_agree init ρ ρ' (fun z hz => ha z (Or.inl hz)) s
    rw [hth]
    refine out_bind_congr (den_agree body _ _ (fun z hz => envGet_cons_congr _ _ _ _ z fun hx => ha z (Or.inr ⟨hx, hz⟩)) _)
      fun a s => rfl
theorem denArgs_agree (es : Exprs σ) : ∀ (ρ ρ' : Env σ), (∀ z, Frees z es → envGet ρ z = envGet ρ' z) → ∀ s,
    denArgs cfg es ρ s = denArgs cfg es ρ' s := by
  cases es with
  | nil => intro ρ ρ' _ s; rfl
  | cons e es =>
    intro ρ ρ' ha s
    have h1 := den_agree e ρ ρ' fun z hz => ha z (Or.inl hz)
    have h2 := denArgs_agree es ρ ρ' fun z hz => ha z (Or.inr hz)
    simp only [denArgs, h1, h2]
end

/-! ## Renaming -/

/-- `ρ'` is `ρ` with the bound variable `x` renamed to `x'`. -/
def RenEnv (x x' : String) (ρ ρ' : Env σ) : Prop :=
  (∀ z, z ≠ x → z ≠ x' → envGet ρ' z = envGet ρ z) ∧ ∃ b, envGet ρ' x' = some b ∧ envGet ρ x = some b

theorem RenEnv.cons {x x' y : String} {b : Binding σ} {ρ ρ' : Env σ} (h : RenEnv x x' ρ ρ') (hy : y ≠ x) (hy' : y ≠ x') :
    RenEnv x x' ((y, b) :: ρ) ((y, b) :: ρ') := by
  refine ⟨fun z hz hz' => envGet_cons_congr _ _ _ _ z fun _ => h.1 z hz hz', ?_⟩
  simp only [envGet]
  rw [if_neg (Ne.symm hy'), if_neg (Ne.symm hy)]
  exact h.2

theorem RenEnv.iter {x x' i : String} {j : Option String} {t : Trail} {it : Item} {ρ ρ' : Env σ} (h : RenEnv x x' ρ ρ')
    (hi : i ≠ x) (hi' : i ≠ x') (hj : j ≠ some x) (hj' : j ≠ some x') :
    RenEnv x x' (iterBinds cfg i j t it ++ ρ) (iterBinds cfg i j t it ++ ρ') := by
  refine ⟨fun z hz hz' => envGet_iter_congr i j t it _ _ z fun _ _ => h.1 z hz hz', ?_⟩
  rw [envGet_iter i j t it _ x' (Ne.symm hi') hj', envGet_iter i j t it _ x (Ne.symm hi) hj]
  exact h.2

/-- Under a binder of `x` the two environments agree on everything an expression without `x'` can see. -/
theorem RenEnv.below {x x' : String} {ρ ρ' : Env σ} (h : RenEnv x x' ρ ρ') {e : Expr σ} (hf : Fresh x' e) (z : String)
    (hz : Free z e) (hzx : z ≠ x) : envGet ρ' z = envGet ρ z :=
  h.1 z hzx (fun hh => fresh_not_free x' e hf (hh ▸ hz))

mutual
theorem den_ren (x x' : String) (e : Expr σ) (hf : Fresh x' e) : ∀ (ρ ρ' : Env σ), RenEnv x x' ρ ρ' → ∀ s,
    den cfg (ren x x' e) ρ' s = den cfg e ρ s := by
  cases e with
  | const v => intro ρ ρ' _ s; rfl
  | ident z abs =>
    intro ρ ρ' hr s
    cases abs with
    | true => simp only [ren, den, if_true]
    | false =>
      simp only [ren, den, Bool.false_eq_true, if_false, rn]
      by_cases hz : z = x
      · subst hz
        obtain ⟨b, h1, h2⟩ := hr.2
        simp only [if_true, h1, h2]
      · rw [if_neg hz, hr.1 z hz (hf rfl)]
  | op f args =>
    intro ρ ρ' hr s
    simp only [ren, den]
    rw [denArgs_ren x x' args hf ρ ρ' hr]
  | logic o a b =>
    intro ρ ρ' hr s
    simp only [ren, den, den_ren x x' a hf.1 ρ ρ' hr, den_ren x x' b hf.2 ρ ρ' hr]
  | cond c t f =>
    intro ρ ρ' hr s
    simp only [ren, den, den_ren x x' c hf.1 ρ ρ' hr, den_ren x x' t hf.2.1 ρ ρ' hr, den_ren x x' f hf.2.2 ρ ρ' hr]
  | comp i j accu range init cnd stp res =>
    intro ρ ρ' hr s
    obtain ⟨hi', hj', ha', hfr, hfi, hfc, hfs, hfres⟩ := hf
    simp only [ren, den]
    refine out_bind_congr (den_ren x x' range hfr ρ ρ' hr s) fun r s => ?_
    cases rangeOf cfg.unknowns cfg.pats r with
    | stop v => rfl
    | items l =>
      simp only []
      refine out_bind_congr (den_ren x x' init hfi ρ ρ' hr s) fun a s => ?_
      have hbody : ∀ (e : Expr σ), Fresh x' e → (∀ (ρ ρ' : Env σ), RenEnv x x' ρ ρ' → ∀ s, den cfg (ren x x' e) ρ' s = den cfg e ρ s) →
          ∀ it (a : VA) s,
          den cfg (if x = i ∨ j = some x ∨ x = accu then e else ren x x' e) (iterBinds cfg i j r.t it ++ (accu, .val a) :: ρ') s
            = den cfg e (iterBinds cfg i j r.t it ++ (accu, .val a) :: ρ) s := by
        intro e hfe ih it a s
        by_cases hb : x = i ∨ j = some x ∨ x = accu
        · rw [if_pos hb]
          refine den_agree e _ _ (fun z hz => envGet_iter_congr i j r.t it _ _ z fun hzi hzj =>
            envGet_cons_congr _ _ _ _ z fun hza => hr.below hfe z hz ?_) s
          rintro rfl
          rcases hb with hb | hb | hb
          exacts [hzi hb, hzj hb, hza hb]
        · rw [if_neg hb]
          push Not at hb
          exact ih _ _ ((hr.cons (Ne.symm hb.2.2) ha').iter (Ne.symm hb.1) hi' hb.2.1 hj') s
      refine out_bind_congr (loop_congr (hbody cnd hfc (den_ren x x' cnd hfc)) (hbody stp hfs (den_ren x x' stp hfs)) l a s) fun e s => ?_
      cases e with
      | stop v => rfl
      | accu v =>
        simp only []
        by_cases hb : x = accu
        · rw [if_pos hb]
          exact den_agree res _ _ (fun z hz => envGet_cons_congr _ _ _ _ z fun hza => hr.below hfres z hz (by rw [hb]; exact hza)) s
        · rw [if_neg hb]
          exact den_ren x x' res hfres _ _ (hr.cons (Ne.symm hb) ha') s
  | bind y init body =>
    intro ρ ρ' hr s
    obtain ⟨hy', hfi, hfb⟩ := hf
    simp only [ren, den]
    have hth : (fun s => den cfg (ren x x' init) ρ' s) = fun s => den cfg init ρ s := by
      funext s; exact den_ren x x' init hfi ρ ρ' hr s
    rw [hth]
    refine out_bind_congr ?_ fun a s => rfl
    by_cases hb : x = y
    · rw [if_pos hb]
      exact den_agree body _ _ (fun z hz => envGet_cons_congr _ _ _ _ z fun hza => hr.below hfb z hz (by rw [hb]; exact hza)) _
    · rw [if_neg hb]
      exact den_ren x x' body hfb _ _ (hr.cons (Ne.symm hb) hy') _
theorem denArgs_ren (x x' : String) (es : Exprs σ) (hf : Freshs x' es) : ∀ (ρ ρ' : Env σ), RenEnv x x' ρ ρ' → ∀ s,
    denArgs cfg (rens x x' es) ρ' s = denArgs cfg es ρ s := by
  cases es with
  | nil => intro ρ ρ' _ s; rfl
  | cons e es =>
    intro ρ ρ' hr s
    simp only [rens, denArgs, den_ren x x' e hf.1 ρ ρ' hr, denArgs_ren x x' es hf.2 ρ ρ' hr]
end

/-- **C28 (lexical scope).** The outcome of an expression — value, failing status, effects on the host, and
the memoised bindings — depends only on the bindings of the variables that occur free in it: what an
enclosing comprehension binds under a name that the expression rebinds, or does not mention, is invisible. -/
theorem C28_only_free_variables (e : Expr σ) (ρ ρ' : Env σ) (h : ∀ z, Free z e → envGet ρ z = envGet ρ' z) (s : SS σ) :
    den cfg e ρ s = den cfg e ρ' s := den_agree e ρ ρ' h s

/-- **C28 (renaming the iteration variable).** `range.map(x, e)`-style comprehensions do not depend on the
choice of the iteration variable, in any context (`ρ`, `s`), whatever variables enclosing comprehensions bind
— including one of the same name — and whatever the condition, step and result do. -/
theorem C28_rename_iteration_variable (x x' accu : String) (y : Option String) (range init cnd stp res : Expr σ)
    (hx : x ≠ accu) (hx' : x' ≠ accu) (hy : y ≠ some x) (hy' : y ≠ some x') (hc : Fresh x' cnd) (hs : Fresh x' stp)
    (ρ : Env σ) (s : SS σ) :
    den cfg (.comp x' y accu range init (ren x x' cnd) (ren x x' stp) res) ρ s
      = den cfg (.comp x y accu range init cnd stp res) ρ s := by
  simp only [den]
  refine out_bind_congr rfl fun r s => ?_
  cases rangeOf cfg.unknowns cfg.pats r with
  | stop v => rfl
  | items l =>
    simp only []
    refine out_bind_congr rfl fun a s => ?_
    have hr : ∀ it (a : VA), RenEnv x x' (iterBinds cfg x y r.t it ++ (accu, .val a) :: ρ)
        (iterBinds cfg x' y r.t it ++ (accu, .val a) :: ρ) := by
      intro it a
      cases y with
      | none =>
        refine ⟨fun z hz hz' => by simp [iterBinds, envGet, hz, hz'], _, by simp [iterBinds, envGet]; rfl, by simp [iterBinds, envGet]⟩
      | some y =>
        refine ⟨fun z hz hz' => by simp [iterBinds, envGet, hz, hz'], _, by simp [iterBinds, envGet]; rfl, by simp [iterBinds, envGet]⟩
    refine out_bind_congr (loop_congr (fun it a s => den_ren x x' cnd hc _ _ (hr it a) s)
      (fun it a s => den_ren x x' stp hs _ _ (hr it a) s) l a s) fun e s => rfl

/-- **C28 (renaming the accumulator).** -/
theorem C28_rename_accumulator (x accu accu' : String) (y : Option String) (range init cnd stp res : Expr σ)
    (hx : x ≠ accu) (hx' : x ≠ accu') (hy : y ≠ some accu) (hy' : y ≠ some accu') (hc : Fresh accu' cnd)
    (hs : Fresh accu' stp) (hres : Fresh accu' res) (ρ : Env σ) (s : SS σ) :
    den cfg (.comp x y accu' range init (ren accu accu' cnd) (ren accu accu' stp) (ren accu accu' res)) ρ s
      = den cfg (.comp x y accu range init cnd stp res) ρ s := by
  simp only [den]
  refine out_bind_congr rfl fun r s => ?_
  cases rangeOf cfg.unknowns cfg.pats r with
  | stop v => rfl
  | items l =>
    simp only []
    refine out_bind_congr rfl fun a s => ?_
    have hr0 : ∀ (a : VA), RenEnv accu accu' ((accu, .val a) :: ρ) ((accu', .val a) :: ρ) := by
      intro a
      exact ⟨fun z hz hz' => by simp [envGet, hz, hz'], .val a, by simp [envGet], by simp [envGet]⟩
    have hr : ∀ it (a : VA), RenEnv accu accu' (iterBinds cfg x y r.t it ++ (accu, .val a) :: ρ)
        (iterBinds cfg x y r.t it ++ (accu', .val a) :: ρ) := fun it a => (hr0 a).iter hx hx' hy hy'
    refine out_bind_congr (loop_congr (fun it a s => den_ren accu accu' cnd hc _ _ (hr it a) s)
      (fun it a s => den_ren accu accu' stp hs _ _ (hr it a) s) l a s) fun e s => ?_
    cases e with
    | stop v => rfl
    | accu v => exact den_ren accu accu' res hres _ _ (hr0 v) s

/-- **C28 (renaming a `cel.bind` variable).** -/
theorem C28_rename_bind (x x' : String) (init body : Expr σ) (hb : Fresh x' body) (ρ : Env σ) (s : SS σ) :
    den cfg (.bind x' init (ren x x' body)) ρ s = den cfg (.bind x init body) ρ s := by
  simp only [den]
  refine out_bind_congr (den_ren x x' body hb _ _ ⟨fun z hz hz' => by simp [envGet, hz, hz'], _, by simp [envGet]; rfl,
    by simp [envGet]⟩ _) fun a s => rfl

/-- **C28, planned.** The planned program is insensitive to the iteration variable's name (without
`cel.bind`; with it, whenever no slots clash). -/
theorem C28_planned_rename (x x' accu : String) (y : Option String) (range init cnd stp res : Expr σ)
    (hx : x ≠ accu) (hx' : x' ≠ accu) (hy : y ≠ some x) (hy' : y ≠ some x') (hc : Fresh x' cnd) (hs : Fresh x' stp)
    (h1 : NoClash cfg (.comp x y accu range init cnd stp res))
    (h2 : NoClash cfg (.comp x' y accu range init (ren x x' cnd) (ren x x' stp) res)) (h : σ) (r : Final σ) :
    Halts cfg (plan cfg (.comp x' y accu range init (ren x x' cnd) (ren x x' stp) res)) (MS.start h) r ↔
    Halts cfg (plan cfg (.comp x y accu range init cnd stp res)) (MS.start h) r := by
  rw [plan_exact_partial _ h h2, plan_exact_partial _ h h1]
  unfold meaning
  rw [C28_rename_iteration_variable x x' accu y range init cnd stp res hx hx' hy hy' hc hs]

end Cel.Eval
