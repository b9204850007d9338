import Verif.Macro.Alpha

/-!
# C29: `cel.bind` is lazy and evaluated at most once

* `C29_at_most_once`: if only the initializer can advance a counter in the host, and one evaluation of it
  advances the counter by at most one, then so does the whole `cel.bind`, whatever the body does (loops,
  repeated references, nested bindings that refer to the variable, failures).
* `C29_not_reached`: if evaluation succeeds with an initializer that would blow up when evaluated, then it
  gives the same outcome with any initializer.
* `C29_unused`: in particular for a body that does not mention the variable.
* `C29_substitution_partial`: when steps have no effects, the result is that of the body with the initializer
  substituted for the variable.
-/

set_option linter.unusedSimpArgs false
set_option linter.unusedVariables false

namespace Cel.Eval
open Cel

variable {σ : Type} {cfg : Cfg σ}

/-! ## At most once -/

/-- How often the cell may still be filled: once while it is empty. -/
def rem (c : Option Nat) (heap : List (Option VA)) : Nat :=
  match c with
  | none => 0
  | some c =>
    match heap[c]? with
    | some none => 1
    | _ => 0

/-- The outcome advances the counter `μ` at most as far as the empty cell `c` allows. -/
def Slow (μ : σ → Nat) (c : Option Nat) (s : SS σ) {α : Type} (o : Out σ α) : Prop :=
  match o with
  | .ok _ s' => s'.heap.length = s.heap.length ∧ μ s'.host + rem c s'.heap ≤ μ s.host + rem c s.heap
  | .err _ h => μ h ≤ μ s.host + rem c s.heap
  | .ub => True

theorem Slow.bind {μ : σ → Nat} {c : Option Nat} {s : SS σ} {α β : Type} {o : Out σ α} {f : α → SS σ → Out σ β}
    (h1 : Slow μ c s o) (h2 : ∀ a s', s'.heap.length = s.heap.length → Slow μ c s' (f a s')) : Slow μ c s (o.bind f) := by
  cases o with
  | ok a s' =>
    have := h2 a s' h1.1
    unfold Out.bind
    simp only []
    cases hf : f a s' with
    | ok b s'' => rw [hf] at this; exact ⟨this.1.trans h1.1, this.2.trans h1.2⟩
    | err e h => rw [hf] at this; exact le_trans this h1.2
    | ub => trivial
  | err e h => exact h1
  | ub => trivial

/-- Every delayed variable is slow: reading it is. -/
def SlowEnv (μ : σ → Nat) (c : Option Nat) (L : Nat) (ρ : Env σ) : Prop :=
  ∀ x b, envGet ρ x = some b → ∀ s : SS σ, L ≤ s.heap.length → Slow μ c s (readBinding b s)

theorem SlowEnv.cons {μ : σ → Nat} {c : Option Nat} {L : Nat} {ρ : Env σ} (h : SlowEnv μ c L ρ) {y : String} {b : Binding σ}
    (hb : ∀ s : SS σ, L ≤ s.heap.length → Slow μ c s (readBinding b s)) : SlowEnv μ c L ((y, b) :: ρ) := by
  intro x b' hx
  unfold envGet at hx
  split at hx
  · cases hx; exact hb
  · exact h x b' hx

theorem SlowEnv.mono {μ : σ → Nat} {c : Option Nat} {L L' : Nat} {ρ : Env σ} (h : SlowEnv μ c L ρ) (hl : L ≤ L') : SlowEnv μ c L' ρ :=
  fun x b hx s hs => h x b hx s (hl.trans hs)

theorem slow_val {μ : σ → Nat} {c : Option Nat} (a : VA) (s : SS σ) : Slow μ c s (readBinding (.val a) s) :=
  ⟨rfl, le_refl _⟩

theorem SlowEnv.iter {μ : σ → Nat} {c : Option Nat} {L : Nat} {ρ : Env σ} (h : SlowEnv μ c L ρ) (x : String) (y : Option String)
    (t : Trail) (it : Item) : SlowEnv μ c L (iterBinds cfg x y t it ++ ρ) := by
  cases y with
  | none => exact h.cons fun s _ => slow_val _ s
  | some y => exact (h.cons fun s _ => slow_val _ s).cons fun s _ => slow_val _ s

/-- A step of the host leaves the counter alone. -/
def QuietStep (μ : σ → Nat) (h : σ) (r : Res VA × σ) : Prop := μ r.2 ≤ μ h

theorem slow_lift {μ : σ → Nat} {c : Option Nat} {s : SS σ} {r : Res VA × σ} (h : QuietStep μ s.host r) :
    Slow μ c s (lift r s) := by
  obtain ⟨r, h'⟩ := r
  cases r with
  | ok a => exact ⟨rfl, Nat.add_le_add_right h _⟩
  | err e => exact Nat.le_add_right_of_le h
  | ub => trivial

theorem rem_append (c : Option Nat) (heap : List (Option VA)) (x : Option VA) (h : ∀ k ∈ c, k < heap.length) :
    rem c (heap ++ [x]) = rem c heap := by
  cases c with
  | none => rfl
  | some c =>
  have h : c < heap.length := h c rfl
  unfold rem
  simp only []
  rw [List.getElem?_append_left h]

theorem rem_take (c : Option Nat) (n : Nat) (heap : List (Option VA)) (h : ∀ k ∈ c, k < n) :
    rem c (heap.take n) = rem c heap := by
  cases c with
  | none => rfl
  | some c =>
  have h : c < n := h c rfl
  unfold rem
  simp only []
  rw [List.getElem?_take_of_lt h]

theorem rem_set (c : Option Nat) (d : Nat) (heap : List (Option VA)) (x : VA) :
    rem c (heap.set d (some x)) ≤ rem c heap := by
  cases c with
  | none => exact le_refl _
  | some c =>
  unfold rem
  simp only []
  by_cases hcd : d = c
  · subst hcd
    by_cases hl : d < heap.length
    · rw [List.getElem?_set_self hl]; simp
    · rw [List.set_eq_of_length_le (by omega)]
  · rw [List.getElem?_set_ne hcd]

/-- Reading a delayed variable with a slow thunk. -/
theorem slow_delayed {μ : σ → Nat} {c : Option Nat} {d : Nat} {th : SS σ → Out σ VA} {s : SS σ} (h : Slow μ c s (th s)) :
    Slow μ c s (readBinding (.delayed d th) s) := by
  unfold readBinding
  simp only []
  split
  · exact ⟨rfl, le_refl _⟩
  · refine Slow.bind h fun a s' hl => ⟨by simp, ?_⟩
    have := rem_set c d s'.heap a
    simp only []
    omega
  · trivial

theorem slow_loop {μ : σ → Nat} {c : Option Nat} {L : Nat} {condF stepF : Item → VA → SS σ → Out σ VA}
    (hc : ∀ it a s, s.heap.length = L → Slow μ c s (condF it a s))
    (hs : ∀ it a s, s.heap.length = L → Slow μ c s (stepF it a s)) :
    ∀ (l : List Item) (a : VA) (s : SS σ), s.heap.length = L → Slow μ c s (loop cfg condF stepF l a s) := by
  intro l
  induction l with
  | nil => intro a s _; exact ⟨rfl, le_refl _⟩
  | cons it l ih =>
    intro a s hL
    unfold loop
    cases tick cfg.maxIter s.count with
    | none => exact Nat.le_add_right _ _
    | some n =>
      show Slow μ c { s with count := n } _
      refine Slow.bind (hc it a _ hL) fun x s1 h1 => ?_
      cases condOf cfg.shortCircuit x with
      | stop y => exact ⟨rfl, le_refl _⟩
      | brk => exact ⟨rfl, le_refl _⟩
      | go =>
        have h1' : s1.heap.length = L := h1.trans hL
        refine Slow.bind (hs it a s1 h1') fun a' s2 h2 => ih a' s2 (h2.trans h1')

mutual
theorem den_slow {μ : σ → Nat} {c : Option Nat} (hg : ∀ x h, QuietStep μ h (cfg.global x h)) (e : Expr σ)
    (ho : ∀ f k, HasOp f k e → ∀ xs h, QuietStep μ h (f xs h)) :
    ∀ (ρ : Env σ) (s : SS σ), (∀ k ∈ c, k < s.heap.length) → SlowEnv μ c s.heap.length ρ → Slow μ c s (den cfg e ρ s) := by
  cases e with
  | const v => intro ρ s _ _; exact ⟨rfl, le_refl _⟩
  | ident x abs =>
    intro ρ s hcl he
    simp only [den]
    cases abs with
    | true => exact slow_lift (hg x s.host)
    | false =>
      rw [if_neg (by simp)]
      cases hx : envGet ρ x with
      | none => exact slow_lift (hg x s.host)
      | some b => exact he x b hx s (le_refl _)
  | op f args =>
    intro ρ s hcl he
    simp only [den]
    exact Slow.bind (denArgs_slow hg args (fun g k hgk => ho g k (Or.inr hgk)) ρ s hcl he)
      fun xs s' _ => slow_lift (ho f args.len (by left; exact ⟨rfl, rfl⟩) xs s'.host)
  | logic o a b =>
    intro ρ s hcl he
    simp only [den]
    refine Slow.bind (den_slow hg a (fun g k hgk => ho g k (Or.inl hgk)) ρ s hcl he) fun x s1 h1 => ?_
    have hb : Slow μ c s1 ((den cfg b ρ s1).bind fun z s => .ok (⟨calcLogic o cfg.unknowns x.v z.v, none⟩ : VA) s) :=
      Slow.bind (den_slow hg b (fun g k hgk => ho g k (Or.inr hgk)) ρ s1 (by rw [h1]; exact hcl) (by rw [h1]; exact he))
        fun z s2 _ => ⟨rfl, le_refl _⟩
    split
    · split
      · exact ⟨rfl, le_refl _⟩
      · exact hb
    · exact hb
  | cond b t f =>
    intro ρ s hcl he
    simp only [den]
    refine Slow.bind (den_slow hg b (fun g k hgk => ho g k (Or.inl hgk)) ρ s hcl he) fun x s1 h1 => ?_
    have ht : ∀ s1 : SS σ, s1.heap.length = s.heap.length → Slow μ c s1 (den cfg t ρ s1) := fun s1 h1 =>
      den_slow hg t (fun g k hgk => ho g k (Or.inr (Or.inl hgk))) ρ s1 (by rw [h1]; exact hcl) (by rw [h1]; exact he)
    have hf : ∀ s1 : SS σ, s1.heap.length = s.heap.length → Slow μ c s1 (den cfg f ρ s1) := fun s1 h1 =>
      den_slow hg f (fun g k hgk => ho g k (Or.inr (Or.inr hgk))) ρ s1 (by rw [h1]; exact hcl) (by rw [h1]; exact he)
    split
    · cases ternOf x with
      | stop y => exact ⟨rfl, le_refl _⟩
      | yes => exact ht s1 h1
      | no => exact hf s1 h1
    · exact Slow.bind (ht s1 h1) fun y s2 h2 => Slow.bind (hf s2 (h2.trans h1)) fun z s3 _ => ⟨rfl, le_refl _⟩
  | comp x y accu range init cnd stp res =>
    intro ρ s hcl he
    simp only [den]
    refine Slow.bind (den_slow hg range (fun g k hgk => ho g k (Or.inl hgk)) ρ s hcl he) fun r s1 h1 => ?_
    cases rangeOf cfg.unknowns cfg.pats r with
    | stop v => exact ⟨rfl, le_refl _⟩
    | items l =>
      simp only []
      refine Slow.bind (den_slow hg init (fun g k hgk => ho g k (Or.inr (Or.inl hgk))) ρ s1 (by rw [h1]; exact hcl) (by rw [h1]; exact he))
        fun a s2 h2 => ?_
      have hacc : ∀ v, SlowEnv μ c s.heap.length ((accu, .val v) :: ρ) := fun v => he.cons fun s _ => slow_val v s
      refine Slow.bind (slow_loop (L := s.heap.length) (fun it a s' hs' => ?_) (fun it a s' hs' => ?_) l a s2 (h2.trans h1))
        fun e s3 h3 => ?_
      · exact den_slow hg cnd (fun g k hgk => ho g k (Or.inr (Or.inr (Or.inl hgk)))) _ s' (by rw [hs']; exact hcl)
          (by rw [hs']; exact (hacc a).iter x y _ it)
      · exact den_slow hg stp (fun g k hgk => ho g k (Or.inr (Or.inr (Or.inr (Or.inl hgk))))) _ s' (by rw [hs']; exact hcl)
          (by rw [hs']; exact (hacc a).iter x y _ it)
      · have h3' : s3.heap.length = s.heap.length := h3.trans (h2.trans h1)
        cases e with
        | stop v => exact ⟨rfl, le_refl _⟩
        | accu v =>
          exact den_slow hg res (fun g k hgk => ho g k (Or.inr (Or.inr (Or.inr (Or.inr hgk))))) _ s3 (by rw [h3']; exact hcl)
            (by rw [h3']; exact hacc v)
  | bind x init body =>
    intro ρ s hcl he
    simp only [den]
    have hlen : (s.heap ++ [(none : Option VA)]).length = s.heap.length + 1 := by simp
    have hbody := den_slow hg body (fun g k hgk => ho g k (Or.inr hgk))
      ((x, .delayed s.heap.length (fun s => den cfg init ρ s)) :: ρ) { s with heap := s.heap ++ [none] }
      (by intro k hk; have := hcl k hk; simp only [hlen]; omega)
      (by
        simp only [hlen]
        refine SlowEnv.cons (he.mono (by omega)) fun s' hs' => slow_delayed ?_
        exact den_slow hg init (fun g k hgk => ho g k (Or.inl hgk)) ρ s' (by intro k hk; have := hcl k hk; omega) (he.mono (by omega)))
    cases hd : den cfg body ((x, .delayed s.heap.length (fun s => den cfg init ρ s)) :: ρ)
      { s with heap := s.heap ++ [none] } with
    | ok a s' =>
      rw [hd] at hbody
      obtain ⟨h1, h2⟩ := hbody
      simp only [hlen] at h1
      rw [rem_append c _ _ hcl] at h2
      refine ⟨by simp [h1], ?_⟩
      show μ s'.host + rem c (s'.heap.take s.heap.length) ≤ _
      rw [rem_take c _ _ hcl]
      exact h2
    | err e h =>
      rw [hd] at hbody
      have h2 : μ h ≤ μ s.host + rem c (s.heap ++ [none]) := hbody
      rw [rem_append c _ _ hcl] at h2
      exact h2
    | ub => trivial
theorem denArgs_slow {μ : σ → Nat} {c : Option Nat} (hg : ∀ x h, QuietStep μ h (cfg.global x h)) (es : Exprs σ)
    (ho : ∀ f k, HasOps f k es → ∀ xs h, QuietStep μ h (f xs h)) :
    ∀ (ρ : Env σ) (s : SS σ), (∀ k ∈ c, k < s.heap.length) → SlowEnv μ c s.heap.length ρ → Slow μ c s (denArgs cfg es ρ s) := by
  cases es with
  | nil => intro ρ s _ _; exact ⟨rfl, le_refl _⟩
  | cons e es =>
    intro ρ s hcl he
    simp only [denArgs]
    exact Slow.bind (den_slow hg e (fun g k hgk => ho g k (Or.inl hgk)) ρ s hcl he) fun x s1 h1 =>
      Slow.bind (denArgs_slow hg es (fun g k hgk => ho g k (Or.inr hgk)) ρ s1 (by rw [h1]; exact hcl) (by rw [h1]; exact he))
        fun xs s2 _ => ⟨rfl, le_refl _⟩
end

/-- The host state at the end of an evaluation. -/
def Final.host? : Final σ → Option σ
  | .value _ h => some h
  | .status _ h => some h
  | .ub => none

theorem denArgs_quiet {μ : σ → Nat} (hg : ∀ x h, QuietStep μ h (cfg.global x h)) (es : Exprs σ)
    (ho : ∀ f k, HasOps f k es → ∀ xs h, QuietStep μ h (f xs h)) (s : SS σ) :
    match denArgs cfg es [] s with
    | .ok _ s' => μ s'.host ≤ μ s.host
    | .err _ h => μ h ≤ μ s.host
    | .ub => True := by
  have := denArgs_slow (cfg := cfg) (μ := μ) (c := none) hg es ho [] s (by intro k hk; cases hk) (by intro x b hx; cases hx)
  cases hd : denArgs cfg es [] s with
  | ok xs s' => rw [hd] at this; exact this.2
  | err e h => rw [hd] at this; exact this
  | ub => trivial

/-- **C29 (at most once).** Suppose neither the activation's variables nor the steps of the body advance the
host counter `μ`, and one evaluation of the initializer advances it by at most one.  Then so does the whole
`cel.bind`: the initializer ran at most once. -/
theorem C29_at_most_once (μ : σ → Nat) (x : String) (init body : Expr σ)
    (hg : ∀ x h, μ (cfg.global x h).2 ≤ μ h)
    (hbody : ∀ f k, HasOp f k body → ∀ xs h, μ (f xs h).2 ≤ μ h)
    (hinit : ∀ s, match den cfg init [] s with
      | .ok _ s' => μ s'.host ≤ μ s.host + 1
      | .err _ h => μ h ≤ μ s.host + 1
      | .ub => True)
    (h h' : σ) (hr : (meaning cfg (.bind x init body) h).host? = some h') : μ h' ≤ μ h + 1 := by
  have hlen : ∀ s : SS σ, ∀ a s', den cfg init [] s = .ok a s' → 0 < s.heap.length → s'.heap.length = s.heap.length := by
    intro s a s' hd hpos
    have := den_slow (cfg := cfg) (μ := fun _ => 0) (c := some 0) (fun _ _ => le_refl _) init (fun _ _ _ _ _ => le_refl _) [] s (by rintro k ⟨⟩; exact hpos)
      (by intro x b hx; cases hx)
    rw [hd] at this
    exact this.1
  have hs := den_slow (cfg := cfg) (μ := μ) (c := some 0) hg body hbody
    [(x, .delayed 0 (fun s => den cfg init [] s))] ⟨h, 0, [none]⟩ (by rintro k ⟨⟩; simp) (by
      intro y b hb s hle
      have hle : 1 ≤ s.heap.length := hle
      unfold envGet at hb
      split at hb
      · cases hb
        unfold readBinding
        simp only []
        split
        · exact ⟨rfl, le_refl _⟩
        · rename_i hc
          have hi := hinit s
          cases hd : den cfg init [] s with
          | ok a s' =>
            rw [hd] at hi
            have hl := hlen s a s' hd (by omega)
            refine ⟨by simp [hl], ?_⟩
            have h1 : rem (some 0) (s'.heap.set 0 (some a)) = 0 := by
              unfold rem
              simp only []
              rw [List.getElem?_set_self (by omega)]
            have h2 : rem (some 0) s.heap = 1 := by unfold rem; simp only []; rw [hc]
            simp only [h1, h2]
            exact hi
          | err e h =>
            rw [hd] at hi
            have h2 : rem (some 0) s.heap = 1 := by unfold rem; simp only []; rw [hc]
            show μ h ≤ _
            rw [h2]
            exact hi
          | ub => trivial
        · trivial
      · cases hb)
  unfold meaning at hr
  simp only [den, List.nil_append, List.length_nil] at hr
  cases hd : den cfg body [(x, .delayed 0 (fun s => den cfg init [] s))] ⟨h, 0, [none]⟩ with
  | ok a s' =>
    rw [hd] at hs hr
    simp only [Out.bind, Out.final, Final.host?, Option.some.injEq] at hr
    have := hs.2
    rw [hr] at this
    have h1 : rem (some 0) [(none : Option VA)] = 1 := rfl
    simp only [h1] at this
    omega
  | err e h2 =>
    rw [hd] at hs hr
    simp only [Out.bind, Out.final, Final.host?, Option.some.injEq] at hr
    subst hr
    exact hs
  | ub => rw [hd] at hr; simp [Out.bind, Out.final, Final.host?] at hr

/-- **C29 (at most once, as planned).** The flattened program calls the function in the initializer at most once:
`g` is a function the body does not call, and `μ` counts its calls. -/
theorem C29_one_call_partial (μ : σ → Nat) (x : String) (g : Op σ) (args : Exprs σ) (body : Expr σ)
    (hg : ∀ x h, μ (cfg.global x h).2 ≤ μ h)
    (hcount : ∀ xs h, μ (g xs h).2 ≤ μ h + 1)
    (hargs : ∀ f k, HasOps f k args → ∀ xs h, μ (f xs h).2 ≤ μ h)
    (hbody : ∀ f k, HasOp f k body → ∀ xs h, μ (f xs h).2 ≤ μ h)
    (hc : NoClash cfg (.bind x (.op g args) body)) (h h' : σ) (r : Final σ)
    (hr : Halts cfg (plan cfg (.bind x (.op g args) body)) (MS.start h) r) (hh : r.host? = some h') : μ h' ≤ μ h + 1 := by
  rw [plan_exact_partial _ h hc] at hr
  subst hr
  refine C29_at_most_once μ x (.op g args) body hg hbody (fun s => ?_) h h' hh
  have ha' := denArgs_quiet (cfg := cfg) hg args hargs s
  simp only [den]
  cases hd : denArgs cfg args [] s with
  | ok xs s' =>
    rw [hd] at ha'
    simp only [Out.bind]
    have hq := hcount xs s'.host
    cases hgr : g xs s'.host with
    | mk r h2 =>
      rw [hgr] at hq
      cases r with
      | ok a => exact le_trans hq (Nat.add_le_add_right ha' 1)
      | err e => exact le_trans hq (Nat.add_le_add_right ha' 1)
      | ub => trivial
  | err e h2 => rw [hd] at ha'; exact Nat.le_succ_of_le ha'
  | ub => trivial

/-! ## Laziness -/

/-- The right outcome is the left one, unless the left one blew up. -/
def Refines {α : Type} (o o' : Out σ α) : Prop := o = .ub ∨ o' = o

theorem Refines.rfl' {α : Type} (o : Out σ α) : Refines o o := Or.inr rfl

theorem Refines.bind {α β : Type} {o o' : Out σ α} {f f' : α → SS σ → Out σ β} (h1 : Refines o o')
    (h2 : ∀ a s, Refines (f a s) (f' a s)) : Refines (o.bind f) (o'.bind f') := by
  rcases h1 with h1 | h1
  · rw [h1]; exact Or.inl rfl
  · subst h1
    cases o' with
    | ok a s => exact h2 a s
    | err e h => exact Or.inr rfl
    | ub => exact Or.inl rfl

/-- Bindings that differ only where the left one blows up. -/
def RefEnv (ρ ρ' : Env σ) : Prop :=
  ∀ x, match envGet ρ x, envGet ρ' x with
    | none, none => True
    | some b, some b' => ∀ s, Refines (readBinding b s) (readBinding b' s)
    | _, _ => False

theorem RefEnv.refl (ρ : Env σ) : RefEnv ρ ρ := by
  intro x
  cases envGet ρ x with
  | none => trivial
  | some b => exact fun s => Or.inr rfl

theorem RefEnv.cons {ρ ρ' : Env σ} (h : RefEnv ρ ρ') (y : String) {b b' : Binding σ}
    (hb : ∀ s, Refines (readBinding b s) (readBinding b' s)) : RefEnv ((y, b) :: ρ) ((y, b') :: ρ') := by
  intro x
  unfold envGet
  by_cases hx : x = y
  · rw [if_pos hx, if_pos hx]; exact hb
  · rw [if_neg hx, if_neg hx]; exact h x

theorem RefEnv.iter {ρ ρ' : Env σ} (h : RefEnv ρ ρ') (x : String) (y : Option String) (t : Trail) (it : Item) :
    RefEnv (iterBinds cfg x y t it ++ ρ) (iterBinds cfg x y t it ++ ρ') := by
  cases y with
  | none => exact h.cons _ fun s => Or.inr rfl
  | some y => exact (h.cons _ fun s => Or.inr rfl).cons _ fun s => Or.inr rfl

theorem refines_delayed {c : Nat} {th th' : SS σ → Out σ VA} (h : ∀ s, Refines (th s) (th' s)) (s : SS σ) :
    Refines (readBinding (.delayed c th) s) (readBinding (.delayed c th') s) := by
  unfold readBinding
  simp only []
  split
  · exact Or.inr rfl
  · exact Refines.bind (h s) fun a s => Or.inr rfl
  · exact Or.inr rfl

theorem refines_loop {condF stepF condF' stepF' : Item → VA → SS σ → Out σ VA}
    (hc : ∀ it a s, Refines (condF it a s) (condF' it a s)) (hs : ∀ it a s, Refines (stepF it a s) (stepF' it a s)) :
    ∀ (l : List Item) (a : VA) (s : SS σ), Refines (loop cfg condF stepF l a s) (loop cfg condF' stepF' l a s) := by
  intro l
  induction l with
  | nil => intro a s; exact Or.inr rfl
  | cons it l ih =>
    intro a s
    unfold loop
    cases tick cfg.maxIter s.count with
    | none => exact Or.inr rfl
    | some n =>
      refine Refines.bind (hc it a _) fun x s1 => ?_
      cases condOf cfg.shortCircuit x with
      | stop y => exact Or.inr rfl
      | brk => exact Or.inr rfl
      | go => exact Refines.bind (hs it a s1) fun a' s2 => ih a' s2

mutual
theorem den_refines (e : Expr σ) : ∀ (ρ ρ' : Env σ), RefEnv ρ ρ' → ∀ s, Refines (den cfg e ρ s) (den cfg e ρ' s) := by
  cases e with
  | const v => intro ρ ρ' _ s; exact Or.inr rfl
  | ident x abs =>
    intro ρ ρ' he s
    simp only [den]
    cases abs with
    | true => exact Or.inr rfl
    | false =>
      rw [if_neg (by simp), if_neg (by simp)]
      have := he x
      cases h1 : envGet ρ x <;> cases h2 : envGet ρ' x <;> rw [h1, h2] at this
      · exact Or.inr rfl
      · exact this.elim
      · exact this.elim
      · exact this s
  | op f args =>
    intro ρ ρ' he s
    simp only [den]
    exact Refines.bind (denArgs_refines args ρ ρ' he s) fun xs s => Or.inr rfl
  | logic o a b =>
    intro ρ ρ' he s
    simp only [den]
    refine Refines.bind (den_refines a ρ ρ' he s) fun x s1 => ?_
    have hb : Refines ((den cfg b ρ s1).bind fun z s => .ok (⟨calcLogic o cfg.unknowns x.v z.v, none⟩ : VA) s)
        ((den cfg b ρ' s1).bind fun z s => .ok (⟨calcLogic o cfg.unknowns x.v z.v, none⟩ : VA) s) :=
      Refines.bind (den_refines b ρ ρ' he s1) fun z s2 => Or.inr rfl
    split
    · split
      · exact Or.inr rfl
      · exact hb
    · exact hb
  | cond c t f =>
    intro ρ ρ' he s
    simp only [den]
    refine Refines.bind (den_refines c ρ ρ' he s) fun x s1 => ?_
    split
    · cases ternOf x with
      | stop y => exact Or.inr rfl
      | yes => exact den_refines t ρ ρ' he s1
      | no => exact den_refines f ρ ρ' he s1
    · exact Refines.bind (den_refines t ρ ρ' he s1) fun y s2 =>
        Refines.bind (den_refines f ρ ρ' he s2) fun z s3 => Or.inr rfl
  | comp x y accu range init cnd stp res =>
    intro ρ ρ' he s
    simp only [den]
    refine Refines.bind (den_refines range ρ ρ' he s) fun r s1 => ?_
    cases rangeOf cfg.unknowns cfg.pats r with
    | stop v => exact Or.inr rfl
    | items l =>
      simp only []
      have hacc : ∀ v, RefEnv ((accu, .val v) :: ρ) ((accu, .val v) :: ρ') := fun v => he.cons _ fun s => Or.inr rfl
      refine Refines.bind (den_refines init ρ ρ' he s1) fun a s2 => ?_
      refine Refines.bind (refines_loop (fun it a s => den_refines cnd _ _ ((hacc a).iter x y _ it) s)
        (fun it a s => den_refines stp _ _ ((hacc a).iter x y _ it) s) l a s2) fun e s3 => ?_
      cases e with
      | stop v => exact Or.inr rfl
      | accu v => exact den_refines res _ _ (hacc v) s3
  | bind x init body =>
    intro ρ ρ' he s
    simp only [den]
    exact Refines.bind (den_refines body _ _ (he.cons _ (refines_delayed fun s => den_refines init ρ ρ' he s)) _)
      fun a s => Or.inr rfl
theorem denArgs_refines (es : Exprs σ) : ∀ (ρ ρ' : Env σ), RefEnv ρ ρ' → ∀ s,
    Refines (denArgs cfg es ρ s) (denArgs cfg es ρ' s) := by
  cases es with
  | nil => intro ρ ρ' _ s; exact Or.inr rfl
  | cons e es =>
    intro ρ ρ' he s
    simp only [denArgs]
    exact Refines.bind (den_refines e ρ ρ' he s) fun x s1 =>
      Refines.bind (denArgs_refines es ρ ρ' he s1) fun xs s2 => Or.inr rfl
end

/-- An initializer that blows up whenever it is evaluated. -/
def bomb : Expr σ := .op (fun _ h => (.ub, h)) .nil

/-- **C29 (lazy).** If evaluation does not blow up with an initializer that blows up when evaluated — that is,
the variable is never reached — then with any other initializer the outcome, including all effects, is the same. -/
theorem C29_not_reached (x : String) (init body : Expr σ) (ρ : Env σ) (s : SS σ)
    (hn : den cfg (.bind x bomb body) ρ s ≠ .ub) :
    den cfg (.bind x init body) ρ s = den cfg (.bind x bomb body) ρ s := by
  have : Refines (den cfg (.bind x bomb body) ρ s) (den cfg (.bind x init body) ρ s) := by
    simp only [den]
    refine Refines.bind (den_refines body _ _ ((RefEnv.refl ρ).cons _ (refines_delayed fun s => Or.inl ?_)) _) fun a s => Or.inr rfl
    rfl
  rcases this with h | h
  · exact absurd h hn
  · exact h

/-- **C29 (lazy, as planned).** -/
theorem C29_not_reached_planned_partial (x : String) (init body : Expr σ) (h : σ) (r : Final σ)
    (hc : NoClash cfg (.bind x init body)) (hc' : NoClash cfg (.bind x bomb body))
    (hb : Halts cfg (plan cfg (.bind x bomb body)) (MS.start h) r) (hn : r ≠ .ub) :
    Halts cfg (plan cfg (.bind x init body)) (MS.start h) r := by
  rw [plan_exact_partial _ h hc'] at hb
  rw [plan_exact_partial _ h hc, hb]
  unfold meaning
  refine congrArg Out.final (C29_not_reached x init body _ _ ?_).symm
  intro hu
  apply hn
  rw [hb]
  unfold meaning
  rw [hu]
  rfl

/-- **C29 (unused).** A body that does not mention the variable does not evaluate its initializer. -/
theorem C29_unused (x : String) (init init' body : Expr σ) (hf : ¬ Free x body) (ρ : Env σ) (s : SS σ) :
    den cfg (.bind x init body) ρ s = den cfg (.bind x init' body) ρ s := by
  simp only [den]
  refine out_bind_congr (den_agree body _ _ (fun z hz => ?_) _) fun a s => rfl
  have hzx : z ≠ x := fun hh => hf (hh ▸ hz)
  simp [envGet, hzx]

/-! ## Substitution -/

mutual
/-- Replace the free references to `x` by the expression `d`. -/
def subst (x : String) (d : Expr σ) : Expr σ → Expr σ
  | .const v => .const v
  | .ident z abs => if abs = false ∧ z = x then d else .ident z abs
  | .op f args => .op f (substs x d args)
  | .logic o a b => .logic o (subst x d a) (subst x d b)
  | .cond c t f => .cond (subst x d c) (subst x d t) (subst x d f)
  | .comp i j accu range init cnd stp res =>
    .comp i j accu (subst x d range) (subst x d init)
      (if x = i ∨ j = some x ∨ x = accu then cnd else subst x d cnd)
      (if x = i ∨ j = some x ∨ x = accu then stp else subst x d stp)
      (if x = accu then res else subst x d res)
  | .bind y init body => .bind y (subst x d init) (if x = y then body else subst x d body)
/-- In every operand. -/
def substs (x : String) (d : Expr σ) : Exprs σ → Exprs σ
  | .nil => .nil
  | .cons e es => .cons (subst x d e) (substs x d es)
end

mutual
/-- No variable bound inside the expression occurs free in `d`: substituting `d` captures nothing. -/
def NoCapture (d : Expr σ) : Expr σ → Prop
  | .const _ => True
  | .ident _ _ => True
  | .op _ args => NoCaptures d args
  | .logic _ a b => NoCapture d a ∧ NoCapture d b
  | .cond c t f => NoCapture d c ∧ NoCapture d t ∧ NoCapture d f
  | .comp i j accu range init cnd stp res =>
    (¬ Free i d ∧ (∀ y, j = some y → ¬ Free y d) ∧ ¬ Free accu d) ∧ NoCapture d range ∧ NoCapture d init ∧
      NoCapture d cnd ∧ NoCapture d stp ∧ NoCapture d res
  | .bind y init body => ¬ Free y d ∧ NoCapture d init ∧ NoCapture d body
/-- In no operand. -/
def NoCaptures (d : Expr σ) : Exprs σ → Prop
  | .nil => True
  | .cons e es => NoCapture d e ∧ NoCaptures d es
end

variable {h : σ}

/-- `ρ` is `ρ'` with `x` bound to the value `d` has in `ρ'`. -/
def SubEnv (cfg : Cfg σ) (h : σ) (x : String) (d : Expr σ) (ρ ρ' : PEnv) : Prop :=
  penvGet ρ x = some (pden cfg h d ρ') ∧ ∀ z, z ≠ x → penvGet ρ z = penvGet ρ' z

theorem SubEnv.cons {x y : String} {d : Expr σ} {ρ ρ' : PEnv} (hs : SubEnv cfg h x d ρ ρ') (a : VA) (hy : ¬ Free y d)
    (hxy : x ≠ y) : SubEnv cfg h x d ((y, a) :: ρ) ((y, a) :: ρ') := by
  refine ⟨?_, fun z hz => agree_cons z fun _ => hs.2 z hz⟩
  have : pden cfg h d ((y, a) :: ρ') = pden cfg h d ρ' :=
    pden_agree d _ _ fun z hz => by
      have : z ≠ y := fun hh => hy (hh ▸ hz)
      simp [penvGet, this]
  rw [this]
  simp only [penvGet]
  rw [if_neg hxy]
  exact hs.1

theorem SubEnv.iter {x i : String} {j : Option String} {d : Expr σ} {ρ ρ' : PEnv} (hs : SubEnv cfg h x d ρ ρ') (t : Trail)
    (it : Item) (hi : ¬ Free i d) (hj : ∀ y, j = some y → ¬ Free y d) (hxi : x ≠ i) (hxj : j ≠ some x) :
    SubEnv cfg h x d (piterBinds cfg i j t it ++ ρ) (piterBinds cfg i j t it ++ ρ') := by
  cases j with
  | none => exact hs.cons _ hi hxi
  | some y => exact (hs.cons _ (hj y rfl) fun hh => hxj (hh ▸ rfl)).cons _ hi hxi

mutual
theorem pden_subst (x : String) (d e : Expr σ) (hc : NoCapture d e) : ∀ (ρ ρ' : PEnv), SubEnv cfg h x d ρ ρ' →
    pden cfg h (subst x d e) ρ' = pden cfg h e ρ := by
  cases e with
  | const v => intro ρ ρ' _; rfl
  | ident z abs =>
    intro ρ ρ' hs
    unfold subst
    by_cases hz : abs = false ∧ z = x
    · rw [if_pos hz]
      obtain ⟨rfl, rfl⟩ := hz
      rw [pden.eq_def cfg h (.ident z false)]
      simp only [Bool.false_eq_true, if_false, hs.1]
    · rw [if_neg hz]
      cases abs with
      | true => rfl
      | false =>
        simp only [pden]
        rw [if_neg (by simp), if_neg (by simp), hs.2 z (fun hh => hz ⟨rfl, hh⟩)]
  | op f args =>
    intro ρ ρ' hs
    simp only [subst, pden]
    rw [pdenArgs_subst x d args hc ρ ρ' hs]
  | logic o a b =>
    intro ρ ρ' hs
    simp only [subst, pden]
    rw [pden_subst x d a hc.1 ρ ρ' hs, pden_subst x d b hc.2 ρ ρ' hs]
  | cond c t f =>
    intro ρ ρ' hs
    simp only [subst, pden]
    rw [pden_subst x d c hc.1 ρ ρ' hs, pden_subst x d t hc.2.1 ρ ρ' hs, pden_subst x d f hc.2.2 ρ ρ' hs]
  | comp i j accu range init cnd stp res =>
    intro ρ ρ' hs
    obtain ⟨⟨hi, hj, hacc⟩, h1, h2, h3, h4, h5⟩ := hc
    simp only [subst, pden]
    rw [pden_subst x d range h1 ρ ρ' hs]
    cases rangeOf cfg.unknowns cfg.pats (pden cfg h range ρ) with
    | stop v => rfl
    | items l =>
      simp only []
      rw [pden_subst x d init h2 ρ ρ' hs]
      have hb : ∀ (e : Expr σ), NoCapture d e → (∀ (ρ ρ' : PEnv), SubEnv cfg h x d ρ ρ' → pden cfg h (subst x d e) ρ' = pden cfg h e ρ) →
          ∀ t it a, pden cfg h (if x = i ∨ j = some x ∨ x = accu then e else subst x d e) (piterBinds cfg i j t it ++ (accu, a) :: ρ')
            = pden cfg h e (piterBinds cfg i j t it ++ (accu, a) :: ρ) := by
        intro e he hih t it a
        by_cases hx : x = i ∨ j = some x ∨ x = accu
        · rw [if_pos hx]
          refine pden_agree e _ _ fun z hz => agree_iter z fun hzi hzj => agree_cons z fun hza => (hs.2 z ?_).symm
          rintro rfl
          rcases hx with hx | hx | hx
          · exact hzi hx
          · exact hzj hx
          · exact hza hx
        · rw [if_neg hx]
          push Not at hx
          exact hih _ _ ((hs.cons a hacc hx.2.2).iter t it hi hj hx.1 hx.2.1)
      rw [ploop_congr (fun it a => hb cnd h3 (pden_subst x d cnd h3) _ it a) (fun it a => hb stp h4 (pden_subst x d stp h4) _ it a)]
      split
      · rfl
      · rename_i a _
        by_cases hx : x = accu
        · rw [if_pos hx]
          exact pden_agree res _ _ fun z hz => agree_cons z fun hza => (hs.2 z (hx ▸ hza)).symm
        · rw [if_neg hx]
          exact pden_subst x d res h5 _ _ (hs.cons a hacc hx)
  | bind y init body =>
    intro ρ ρ' hs
    simp only [subst, pden]
    rw [pden_subst x d init hc.2.1 ρ ρ' hs]
    by_cases hx : x = y
    · rw [if_pos hx]
      exact pden_agree body _ _ fun z hz => agree_cons z fun hza => (hs.2 z (hx ▸ hza)).symm
    · rw [if_neg hx]
      exact pden_subst x d body hc.2.2 _ _ (hs.cons _ hc.1 hx)
theorem pdenArgs_subst (x : String) (d : Expr σ) (es : Exprs σ) (hc : NoCaptures d es) : ∀ (ρ ρ' : PEnv), SubEnv cfg h x d ρ ρ' →
    pdenArgs cfg h (substs x d es) ρ' = pdenArgs cfg h es ρ := by
  cases es with
  | nil => intro ρ ρ' _; rfl
  | cons e es =>
    intro ρ ρ' hs
    simp only [substs, pdenArgs]
    rw [pden_subst x d e hc.1 ρ ρ' hs, pdenArgs_subst x d es hc.2 ρ ρ' hs]
end

mutual
/-- Steps of the substituted expression are steps of the body or of the initializer. -/
theorem hasOp_subst {f : Op σ} {k : Nat} (x : String) (d e : Expr σ) (hh : HasOp f k (subst x d e)) :
    HasOp f k e ∨ HasOp f k d := by
  cases e with
  | const v => exact Or.inl hh
  | ident z abs =>
    unfold subst at hh
    split at hh
    · exact Or.inr hh
    · exact Or.inl hh
  | op g args =>
    rcases hh with hh | hh
    · exact Or.inl (Or.inl ⟨hh.1, by rw [hh.2, substs_len]⟩)
    · exact (hasOps_substs x d args hh).imp Or.inr id
  | logic o a b =>
    rcases hh with hh | hh
    · exact (hasOp_subst x d a hh).imp Or.inl id
    · exact (hasOp_subst x d b hh).imp Or.inr id
  | cond c t g =>
    rcases hh with hh | hh | hh
    · exact (hasOp_subst x d c hh).imp Or.inl id
    · exact (hasOp_subst x d t hh).imp (fun q => Or.inr (Or.inl q)) id
    · exact (hasOp_subst x d g hh).imp (fun q => Or.inr (Or.inr q)) id
  | comp i j accu range init cnd stp res =>
    rcases hh with hh | hh | hh | hh | hh
    · exact (hasOp_subst x d range hh).imp Or.inl id
    · exact (hasOp_subst x d init hh).imp (fun q => Or.inr (Or.inl q)) id
    · split at hh
      · exact Or.inl (Or.inr (Or.inr (Or.inl hh)))
      · exact (hasOp_subst x d cnd hh).imp (fun q => Or.inr (Or.inr (Or.inl q))) id
    · split at hh
      · exact Or.inl (Or.inr (Or.inr (Or.inr (Or.inl hh))))
      · exact (hasOp_subst x d stp hh).imp (fun q => Or.inr (Or.inr (Or.inr (Or.inl q)))) id
    · split at hh
      · exact Or.inl (Or.inr (Or.inr (Or.inr (Or.inr hh))))
      · exact (hasOp_subst x d res hh).imp (fun q => Or.inr (Or.inr (Or.inr (Or.inr q)))) id
  | bind y init body =>
    rcases hh with hh | hh
    · exact (hasOp_subst x d init hh).imp Or.inl id
    · split at hh
      · exact Or.inl (Or.inr hh)
      · exact (hasOp_subst x d body hh).imp Or.inr id
theorem hasOps_substs {f : Op σ} {k : Nat} (x : String) (d : Expr σ) (es : Exprs σ) (hh : HasOps f k (substs x d es)) :
    HasOps f k es ∨ HasOp f k d := by
  cases es with
  | nil => exact Or.inl hh
  | cons e es =>
    rcases hh with hh | hh
    · exact (hasOp_subst x d e hh).imp Or.inl id
    · exact (hasOps_substs x d es hh).imp Or.inr id
theorem substs_len (x : String) (d : Expr σ) (es : Exprs σ) : (substs x d es).len = es.len := by
  cases es with
  | nil => rfl
  | cons e es => simp only [substs, Exprs.len]; rw [substs_len]
end

/-- **C29 (substitution).** When steps have no effects and never fail, the program planned for a `cel.bind` ends
with the value the program planned for the substituted expression ends with. -/
theorem C29_substitution_partial (x : String) (init body : Expr σ) (hmax : cfg.maxIter = 0) (hg : PureGlobal h cfg)
    (ho : ∀ f k, HasOp f k (.bind x init body) → PureOp h k f)
    (hcap : NoCapture init body)
    (hc : NoClash cfg (.bind x init body)) (hc' : NoClash cfg (subst x init body)) (r : Final σ) :
    Halts cfg (plan cfg (.bind x init body)) (MS.start h) r ↔
    Halts cfg (plan cfg (subst x init body)) (MS.start h) r := by
  rw [plan_pure hmax hg _ ho hc, plan_pure hmax hg _ (fun f k hf => ho f k ((hasOp_subst x init body hf).symm)) hc']
  have : pden cfg h (subst x init body) [] = pden cfg h (.bind x init body) [] := by
    rw [pden.eq_def cfg h (.bind x init body)]
    simp only []
    exact pden_subst x init body hcap _ _ ⟨by simp [penvGet], fun z hz => by simp [penvGet, hz]⟩
  rw [this]

/-! ## The hypotheses are met -/

/-- A host that counts calls. -/
def tallyCfg : Cfg Nat := ⟨true, false, [], 0, fun _ h => (.ok ⟨.null, none⟩, h)⟩

/-- A function that counts its calls and returns 7. -/
def tally : Op Nat := fun _ h => (.ok ⟨.int 7, none⟩, h + 1)

/-- A two-argument step without effects. -/
def pairUp : Op Nat := fun xs h => (.ok ⟨.list (xs.map (·.v)), none⟩, h)

/-- `cel.bind(v, tally(), [1, 2].map(...) ... [v, v])`: two references, inside a loop over two elements. -/
def twice : Expr Nat :=
  .comp "i" none "a" (.const (.list [.int 1, .int 2])) (.const .null) (.const (.bool true))
    (.op pairUp (.cons (.ident "v" false) (.cons (.ident "v" false) .nil))) (.ident "a" false)

/-- Four references, one call. -/
example : meaning tallyCfg (.bind "v" (.op tally .nil) twice) 0 = .value (.list [.int 7, .int 7]) 1 := rfl

example (h h' : Nat) (r : Final Nat)
    (hr : Halts tallyCfg (plan tallyCfg (.bind "v" (.op tally .nil) twice)) (MS.start h) r) (hh : r.host? = some h') :
    h' ≤ h + 1 := by
  refine C29_one_call_partial id "v" tally .nil twice (fun _ _ => le_refl _) (fun _ _ => le_refl _) ?_ ?_ ?_ h h' r hr hh
  · intro f k hf; exact hf.elim
  · intro f k hf xs h
    simp [twice, HasOp, HasOps] at hf
    obtain ⟨rfl, -⟩ := hf
    exact le_refl _
  · refine ⟨fun k => k = 0, ?_⟩
    simp [twice, Safe, SafeArgs]
    right; intro j hj _; omega

/-- The branch that mentions the variable is not taken: any initializer gives 1. -/
example (init : Expr Nat) (ρ : Env Nat) (s : SS Nat) :
    den tallyCfg (.bind "v" init (.cond (.const (.bool true)) (.const (.int 1)) (.ident "v" false))) ρ s
      = den tallyCfg (.bind "v" bomb (.cond (.const (.bool true)) (.const (.int 1)) (.ident "v" false))) ρ s :=
  C29_not_reached "v" init _ ρ s (by simp [den, Out.bind, tallyCfg, ternOf])

/-- Substituting makes two calls: the hypothesis that steps have no effects is needed. -/
example : meaning tallyCfg (subst "v" (.op tally .nil) twice) 0 = .value (.list [.int 7, .int 7]) 4 := rfl

end Cel.Eval
