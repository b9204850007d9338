import Verif.Eval.PlanProps

/-!
# A general preservation theorem for `den`

Any property of values, host states and counters that the individual steps preserve holds of every
value computed by an expression.  Instantiated for C21 (no internal errors) and C32 (provenance of
unknowns).
-/

set_option linter.unusedSimpArgs false
set_option linter.unusedVariables false

namespace Cel.Eval
open Cel

/-- Properties to preserve: of values, of (host, counter), of failing statuses; and whether undefined
behaviour is tolerated. -/
structure Pres (σ : Type) where
  vp : VA → Prop
  sp : σ → Int → Prop
  ep : Status → σ → Prop
  up : Prop

/-- The outcome of a host step is fine. -/
def Pres.res {σ : Type} (Q : Pres σ) (n : Int) (r : Res VA × σ) : Prop :=
  match r with
  | (.ok a, h) => Q.vp a ∧ Q.sp h n
  | (.err e, h) => Q.ep e h
  | (.ub, _) => Q.up

mutual
/-- Every constant and every step occurring in the expression preserves the property. -/
def OpsOK {σ : Type} (Q : Pres σ) : Expr σ → Prop
  | .const v => Q.vp ⟨v, none⟩
  | .ident _ _ => True
  | .op f args => (∀ xs h n, (∀ x ∈ xs, Q.vp x) → xs.length = args.len → Q.sp h n → Q.res n (f xs h)) ∧ OpsOKs Q args
  | .logic _ a b => OpsOK Q a ∧ OpsOK Q b
  | .cond c t f => OpsOK Q c ∧ OpsOK Q t ∧ OpsOK Q f
  | .comp _ _ _ range init cnd stp res =>
    OpsOK Q range ∧ OpsOK Q init ∧ OpsOK Q cnd ∧ OpsOK Q stp ∧ OpsOK Q res
  | .bind _ init body => OpsOK Q init ∧ OpsOK Q body
def OpsOKs {σ : Type} (Q : Pres σ) : Exprs σ → Prop
  | .nil => True
  | .cons e es => OpsOK Q e ∧ OpsOKs Q es
end

/-- The built-in steps preserve the property. -/
structure Closed {σ : Type} (cfg : Cfg σ) (Q : Pres σ) : Prop where
  global : ∀ x h n, Q.sp h n → Q.res n (cfg.global x h)
  logic : ∀ o x y, Q.vp x → Q.vp y → Q.vp ⟨calcLogic o cfg.unknowns x.v y.v, none⟩
  tern : ∀ x y z, Q.vp x → Q.vp y → Q.vp z → Q.vp (ternaryStep cfg.unknowns x y z)
  ternStop : ∀ x y, Q.vp x → ternOf x = .stop y → Q.vp y
  rangeStop : ∀ x y, Q.vp x → rangeOf cfg.unknowns cfg.pats x = .stop y → Q.vp y
  item1 : ∀ x l, Q.vp x → rangeOf cfg.unknowns cfg.pats x = .items l →
    ∀ it ∈ l, Q.vp (item1 cfg.unknowns cfg.pats x.t it)
  item2 : ∀ x l, Q.vp x → rangeOf cfg.unknowns cfg.pats x = .items l →
    ∀ it ∈ l, Q.vp (item2 cfg.unknowns cfg.pats x.t it).1 ∧ Q.vp (item2 cfg.unknowns cfg.pats x.t it).2
  condStop : ∀ x y, Q.vp x → condOf cfg.shortCircuit x = .stop y → Q.vp y
  tickOk : ∀ h n n', Q.sp h n → tick cfg.maxIter n = some n' → Q.sp h n'
  tickErr : ∀ h n, Q.sp h n → tick cfg.maxIter n = none → Q.ep budgetError h

/-- The whole state is fine. -/
def Pres.st {σ : Type} (Q : Pres σ) (s : SS σ) : Prop :=
  Q.sp s.host s.count ∧ ∀ x, some x ∈ s.heap → Q.vp x

/-- An outcome is fine, and the memo cells in scope are still there. -/
def Pres.out {σ : Type} (Q : Pres σ) {α : Type} (ap : α → Prop) (L : Nat) (o : Out σ α) : Prop :=
  match o with
  | .ok a s => ap a ∧ Q.st s ∧ s.heap.length = L
  | .err e h => Q.ep e h
  | .ub => Q.up

/-- Environments are fine. -/
def Pres.env {σ : Type} (Q : Pres σ) (ρ : Env σ) (L : Nat) : Prop :=
  ∀ p ∈ ρ, match p.2 with
    | .val a => Q.vp a
    | .delayed c th => c < L ∧ ∀ s, Q.st s → L ≤ s.heap.length → Q.out Q.vp s.heap.length (th s)

section
variable {σ : Type} {cfg : Cfg σ} {Q : Pres σ}

theorem Pres.env_mono {ρ : Env σ} {L L' : Nat} (h : Q.env ρ L) (hl : L ≤ L') : Q.env ρ L' := by
  intro p hp
  have := h p hp
  cases hb : p.2 with
  | val a => rw [hb] at this; exact this
  | delayed c th =>
    rw [hb] at this
    exact ⟨by have := this.1; omega, fun s hs hle => this.2 s hs (by omega)⟩

theorem Pres.out_bind {α β : Type} {ap : α → Prop} {bp : β → Prop} {L : Nat} {o : Out σ α}
    {f : α → SS σ → Out σ β} (h1 : Q.out ap L o)
    (h2 : ∀ a s, ap a → Q.st s → s.heap.length = L → Q.out bp L (f a s)) : Q.out bp L (o.bind f) := by
  cases o with
  | ok a s => exact h2 a s h1.1 h1.2.1 h1.2.2
  | err e h => exact h1
  | ub => exact h1

theorem Pres.out_lift {r : Res VA × σ} {s : SS σ} (hs : Q.st s) (h : Q.res s.count r) :
    Q.out Q.vp s.heap.length (lift r s) := by
  obtain ⟨r, h'⟩ := r
  cases r with
  | ok a => exact ⟨h.1, ⟨h.2, hs.2⟩, rfl⟩
  | err e => exact h
  | ub => exact h

theorem envGet_mem {ρ : Env σ} {x : String} {b : Binding σ} (h : envGet ρ x = some b) : ∃ p ∈ ρ, p.2 = b := by
  induction ρ with
  | nil => cases h
  | cons p ρ ih =>
    obtain ⟨y, b'⟩ := p
    unfold envGet at h
    split at h
    · cases h; exact ⟨_, List.mem_cons_self, rfl⟩
    · obtain ⟨q, hq, hb⟩ := ih h
      exact ⟨q, List.mem_cons_of_mem _ hq, hb⟩

theorem Pres.loop_ok (hcl : Closed cfg Q) {L : Nat} {condF stepF : Item → VA → SS σ → Out σ VA}
    {all : List Item}
    (hc : ∀ it ∈ all, ∀ a s, Q.vp a → Q.st s → s.heap.length = L → Q.out Q.vp L (condF it a s))
    (hs : ∀ it ∈ all, ∀ a s, Q.vp a → Q.st s → s.heap.length = L → Q.out Q.vp L (stepF it a s)) :
    ∀ (l : List Item), (∀ it ∈ l, it ∈ all) → ∀ (a : VA) (s : SS σ), Q.vp a → Q.st s → s.heap.length = L →
      Q.out (fun e => match e with | .accu x => Q.vp x | .stop x => Q.vp x) L (loop cfg condF stepF l a s) := by
  intro l
  induction l with
  | nil => intro _ a s ha hst hl; exact ⟨ha, hst, hl⟩
  | cons it l ih =>
    intro hsub a s ha hst hl
    unfold loop
    cases ht : tick cfg.maxIter s.count with
    | none => exact hcl.tickErr _ _ hst.1 ht
    | some n =>
      have hst' : Q.st { s with count := n } := ⟨hcl.tickOk _ _ _ hst.1 ht, hst.2⟩
      refine Pres.out_bind (hc it (hsub it List.mem_cons_self) a _ ha hst' hl) ?_
      intro c s1 hcv hs1 hl1
      cases hco : condOf cfg.shortCircuit c with
      | stop x => exact ⟨hcl.condStop _ _ hcv hco, hs1, hl1⟩
      | brk => exact ⟨ha, hs1, hl1⟩
      | go =>
        refine Pres.out_bind (hs it (hsub it List.mem_cons_self) a s1 ha hs1 hl1) ?_
        intro a' s2 ha' hs2 hl2
        exact ih (fun i hi => hsub i (List.mem_cons_of_mem _ hi)) a' s2 ha' hs2 hl2

theorem Pres.env_cons_val {ρ : Env σ} {L : Nat} {x : String} {a : VA} (h : Q.env ρ L) (ha : Q.vp a) :
    Q.env ((x, .val a) :: ρ) L := by
  intro p hp
  rcases List.mem_cons.1 hp with hp | hp
  · subst hp; exact ha
  · exact h p hp

mutual
theorem den_ok (hcl : Closed cfg Q) (e : Expr σ) (ho : OpsOK Q e) : ∀ (ρ : Env σ) (s : SS σ),
    Q.env ρ s.heap.length → Q.st s → Q.out Q.vp s.heap.length (den cfg e ρ s) := by
  cases e with
  | const v => intro ρ s he hs; exact ⟨ho, hs, rfl⟩
  | ident x abs =>
    intro ρ s he hs
    simp only [den]
    cases hx : (if abs = true then none else envGet ρ x) with
    | none => exact Pres.out_lift hs (hcl.global _ _ _ hs.1)
    | some b =>
      have hb : envGet ρ x = some b := by
        cases abs with
        | true => cases hx
        | false => exact hx
      obtain ⟨p, hp, hpb⟩ := envGet_mem hb
      have := he p hp
      rw [hpb] at this
      cases b with
      | val a => exact ⟨this, hs, rfl⟩
      | delayed c th =>
        have hlt := this.1
        simp only [readBinding]
        cases hc : s.heap[c]? with
        | none => have := List.getElem?_eq_none_iff.1 hc; omega
        | some o =>
          cases o with
          | some a => exact ⟨hs.2 a (List.mem_of_getElem? hc), hs, rfl⟩
          | none =>
            simp only []
            refine Pres.out_bind (this.2 s hs (Nat.le_refl _)) ?_
            intro a s' ha hs' hl'
            refine ⟨ha, ⟨hs'.1, fun y hy => ?_⟩, by simpa using hl'⟩
            rcases List.mem_or_eq_of_mem_set hy with hy | hy
            · exact hs'.2 y hy
            · cases hy; exact ha
  | op f args =>
    intro ρ s he hs
    simp only [den]
    have hA := denArgs_ok hcl args ho.2 ρ s he hs
    refine Pres.out_bind hA ?_
    intro xs s1 hxs hs1 hl1
    rw [← hl1]
    exact Pres.out_lift hs1 (ho.1 xs _ _ hxs.1 hxs.2 hs1.1)
  | logic o a b =>
    intro ρ s he hs
    simp only [den]
    refine Pres.out_bind (den_ok hcl a ho.1 ρ s he hs) ?_
    intro x s1 hx hs1 hl1
    have hgo : Q.out Q.vp s.heap.length
        ((den cfg b ρ s1).bind fun z s => .ok ⟨calcLogic o cfg.unknowns x.v z.v, none⟩ s) := by
      have hB := den_ok hcl b ho.2 ρ s1 (by rw [hl1]; exact he) hs1
      rw [hl1] at hB
      exact Pres.out_bind hB (fun z s2 hz hs2 hl2 => ⟨hcl.logic _ _ _ hx hz, hs2, hl2⟩)
    split
    · split
      · exact ⟨hx, hs1, hl1⟩
      · exact hgo
    · exact hgo
  | cond c t f =>
    intro ρ s he hs
    simp only [den]
    refine Pres.out_bind (den_ok hcl c ho.1 ρ s he hs) ?_
    intro x s1 hx hs1 hl1
    have hT : ∀ s2 : SS σ, Q.st s2 → s2.heap.length = s.heap.length → Q.out Q.vp s.heap.length (den cfg t ρ s2) :=
      fun s2 h2 hl => by rw [← hl]; exact den_ok hcl t ho.2.1 ρ s2 (by rw [hl]; exact he) h2
    have hF : ∀ s2 : SS σ, Q.st s2 → s2.heap.length = s.heap.length → Q.out Q.vp s.heap.length (den cfg f ρ s2) :=
      fun s2 h2 hl => by rw [← hl]; exact den_ok hcl f ho.2.2 ρ s2 (by rw [hl]; exact he) h2
    split
    · cases ht : ternOf x with
      | stop y => exact ⟨hcl.ternStop _ _ hx ht, hs1, hl1⟩
      | yes => exact hT s1 hs1 hl1
      | no => exact hF s1 hs1 hl1
    · refine Pres.out_bind (hT s1 hs1 hl1) ?_
      intro y s2 hy hs2 hl2
      refine Pres.out_bind (hF s2 hs2 hl2) ?_
      intro z s3 hz hs3 hl3
      exact ⟨hcl.tern _ _ _ hx hy hz, hs3, hl3⟩
  | comp iter iter2 accu range init cnd stp res =>
    intro ρ s he hs
    simp only [den]
    refine Pres.out_bind (den_ok hcl range ho.1 ρ s he hs) ?_
    intro r s1 hr hs1 hl1
    cases hrg : rangeOf cfg.unknowns cfg.pats r with
    | stop x => exact ⟨hcl.rangeStop _ _ hr hrg, hs1, hl1⟩
    | items l =>
      simp only
      have hI := den_ok hcl init ho.2.1 ρ s1 (by rw [hl1]; exact he) hs1
      rw [hl1] at hI
      refine Pres.out_bind hI ?_
      intro a s2 ha hs2 hl2
      have henv : ∀ it ∈ l, ∀ a, Q.vp a → Q.env (iterBinds cfg iter iter2 r.t it ++ (accu, .val a) :: ρ) s.heap.length := by
        intro it hit a ha
        cases iter2 with
        | none => exact Pres.env_cons_val (Pres.env_cons_val he ha) (hcl.item1 r l hr hrg it hit)
        | some y =>
          have := hcl.item2 r l hr hrg it hit
          exact Pres.env_cons_val (Pres.env_cons_val (Pres.env_cons_val he ha) this.2) this.1
      have hL := Pres.loop_ok hcl (L := s.heap.length) (all := l)
        (condF := fun it a s => den cfg cnd (iterBinds cfg iter iter2 r.t it ++ (accu, .val a) :: ρ) s)
        (stepF := fun it a s => den cfg stp (iterBinds cfg iter iter2 r.t it ++ (accu, .val a) :: ρ) s)
        (fun it hit a s' ha hs' hl' => by
          rw [← hl']; exact den_ok hcl cnd ho.2.2.1 _ s' (by rw [hl']; exact henv it hit a ha) hs')
        (fun it hit a s' ha hs' hl' => by
          rw [← hl']; exact den_ok hcl stp ho.2.2.2.1 _ s' (by rw [hl']; exact henv it hit a ha) hs')
        l (fun _ h => h) a s2 ha hs2 hl2
      refine Pres.out_bind hL ?_
      intro le s3 hle hs3 hl3
      cases le with
      | stop x => exact ⟨hle, hs3, hl3⟩
      | accu a' =>
        simp only
        rw [← hl3]
        exact den_ok hcl res ho.2.2.2.2 _ s3 (Pres.env_cons_val (by rw [hl3]; exact he) hle) hs3
  | bind x init body =>
    intro ρ s he hs
    simp only [den]
    have hB := den_ok hcl body ho.2 ((x, .delayed s.heap.length (fun s => den cfg init ρ s)) :: ρ)
      { s with heap := s.heap ++ [none] }
      (by
        intro p hp
        rcases List.mem_cons.1 hp with hp | hp
        · subst hp
          refine ⟨by simp, fun s' hs' hle => ?_⟩
          simp at hle
          exact den_ok hcl init ho.1 ρ s' (Pres.env_mono he (by omega)) hs'
        · exact (Pres.env_mono he (by simp : s.heap.length ≤ (s.heap ++ [none]).length)) p hp)
      ⟨hs.1, fun y hy => by
        rcases List.mem_append.1 hy with hy | hy
        · exact hs.2 y hy
        · simp at hy⟩
    cases hd : den cfg body ((x, .delayed s.heap.length (fun s => den cfg init ρ s)) :: ρ)
      { s with heap := s.heap ++ [none] } with
    | err e h => rw [hd] at hB; exact hB
    | ub => rw [hd] at hB; exact hB
    | ok y s' =>
      rw [hd] at hB
      refine ⟨hB.1, ⟨hB.2.1.1, fun z hz => hB.2.1.2 z (List.mem_of_mem_take hz)⟩, ?_⟩
      have := hB.2.2
      simp at this
      simp [this]
theorem denArgs_ok (hcl : Closed cfg Q) (es : Exprs σ) (ho : OpsOKs Q es) : ∀ (ρ : Env σ) (s : SS σ),
    Q.env ρ s.heap.length → Q.st s →
    Q.out (fun xs => (∀ x ∈ xs, Q.vp x) ∧ xs.length = es.len) s.heap.length (denArgs cfg es ρ s) := by
  cases es with
  | nil => intro ρ s he hs; exact ⟨⟨by simp, rfl⟩, hs, rfl⟩
  | cons e es =>
    intro ρ s he hs
    simp only [denArgs]
    refine Pres.out_bind (den_ok hcl e ho.1 ρ s he hs) ?_
    intro x s1 hx hs1 hl1
    have hA := denArgs_ok hcl es ho.2 ρ s1 (by rw [hl1]; exact he) hs1
    rw [hl1] at hA
    refine Pres.out_bind hA ?_
    intro xs s2 hxs hs2 hl2
    refine ⟨⟨?_, by simp [Exprs.len, hxs.2]⟩, hs2, hl2⟩
    intro y hy
    rcases List.mem_cons.1 hy with hy | hy
    · subst hy; exact hx
    · exact hxs.1 y hy
end

end

end Cel.Eval
