import Verif.Direct.Lit
import Verif.Eval.CorrectParts

/-!
# Simulation of the meaning by the recursive evaluator: invariants and bookkeeping
-/

set_option linter.unusedSimpArgs false
set_option linter.unusedVariables false

namespace Cel.Direct
open Cel Cel.Num Cel.Eval Cel.Data

/-! ## Writing through a reference to a slot -/

/-- The step reads slot `k`. -/
def DStep.isSlot {σ : Type} (k : Nat) : DStep σ → Bool
  | .slot _ j => decide (j = k)
  | _ => false

/-- Evaluating the step into a reference to slot `k` leaves the value in that slot alone until the
step is done: where a step writes its reference before it is done (the left operand of `==`, `in`,
`&&`, `||`, and elements of a list), the value written is the one already there. -/
def spineSafe {σ : Type} (k : Nat) : DStep σ → Bool
  | .const _ => true
  | .ident _ => true
  | .slot _ _ => true
  | .lazyInit _ sub => spineSafe k sub
  | .call _ _ => true
  | .not a => spineSafe k a
  | .nsf a => spineSafe k a
  | .bin _ a _ => a.isSlot k
  | .index _ _ => true
  | .select _ _ a => spineSafe k a
  | .list _ .nil => true
  | .list _ (.cons d .nil) => spineSafe k d
  | .list _ _ => false
  | .map _ _ => true
  | .logic _ a _ => a.isSlot k
  | .cond _ t f => spineSafe k t && spineSafe k f
  | .comp _ _ _ _ _ _ _ res => spineSafe k res
  | .bind _ _ body => spineSafe k body

mutual
/-- Every loop step of the tree can be evaluated into its accumulator. -/
def aliasSafe {σ : Type} : DStep σ → Bool
  | .const _ => true
  | .ident _ => true
  | .slot _ _ => true
  | .lazyInit _ _ => true
  | .call _ args => aliasSafes args
  | .not a => aliasSafe a
  | .nsf a => aliasSafe a
  | .bin _ a b => aliasSafe a && aliasSafe b
  | .index a b => aliasSafe a && aliasSafe b
  | .select _ _ a => aliasSafe a
  | .list _ args => aliasSafes args
  | .map _ args => aliasSafes args
  | .logic _ a b => aliasSafe a && aliasSafe b
  | .cond c t f => aliasSafe c && (aliasSafe t && aliasSafe f)
  | .comp _ _ ka range init cnd stp res =>
    spineSafe ka stp && (aliasSafe range && (aliasSafe init && (aliasSafe cnd && (aliasSafe stp && aliasSafe res))))
  | .bind _ sub body => aliasSafe sub && aliasSafe body
def aliasSafes {σ : Type} : DSteps σ → Bool
  | .nil => true
  | .cons d ds => aliasSafe d && aliasSafes ds
end

/-- The values in slots, without their trails. -/
def sv (sl : Slots) (j : Nat) : Option Value := (sl j).map VA.v

theorem sv_upd (sl : Slots) (k : Nat) (x : Option VA) (j : Nat) :
    sv (upd sl k x) j = if j = k then x.map VA.v else sv sl j := by
  unfold sv upd
  split <;> rfl

theorem sv_upd_ne {sl : Slots} {k j : Nat} {x : Option VA} (h : j ≠ k) : sv (upd sl k x) j = sv sl j := by
  rw [sv_upd, if_neg h]

theorem sv_upd_eq {sl : Slots} {k j : Nat} {x : Option VA} (h : j = k) : sv (upd sl k x) j = x.map VA.v := by
  rw [sv_upd, if_pos h]

theorem sv_none {sl : Slots} {j : Nat} : sv sl j = none ↔ sl j = none := by
  unfold sv; cases sl j <;> simp

theorem sv_some {sl : Slots} {j : Nat} {v : Value} (h : sv sl j = some v) : ∃ a, sl j = some a ∧ a.v = v := by
  unfold sv at h
  cases hs : sl j with
  | none => rw [hs] at h; cases h
  | some a => rw [hs] at h; cases h; exact ⟨a, rfl, rfl⟩

theorem sv_wrT (a : Option Nat) (t : Trail) (sl : Slots) : sv (wrT a t sl) = sv sl := by
  cases a with
  | none => rfl
  | some k =>
    funext j
    unfold wrT
    cases hk : sl k with
    | none => simp only [hk]
    | some a =>
      simp only [hk]
      rw [sv_upd]
      split
      · rename_i h; subst h; unfold sv; rw [hk]; rfl
      · rfl

theorem sv_wrV {a : Option Nat} {v : Value} {sl : Slots} (h : ∀ k, a = some k → sv sl k = some v) :
    sv (wrV a v sl) = sv sl := by
  cases a with
  | none => rfl
  | some k =>
    have hv := h k rfl
    funext j
    unfold wrV
    cases hk : sl k with
    | none => simp only [hk]
    | some a =>
      simp only [hk]
      rw [sv_upd]
      split
      · rename_i h; subst h; exact hv.symm
      · rfl

/-! ## Relation between slots and environments -/

section
variable {σ : Type}

/-- The scope without the trees. -/
def sc : DScope σ → Scope
  | [] => []
  | (x, .val k) :: Γ => (x, .val k) :: sc Γ
  | (x, .delayed k w _) :: Γ => (x, .delayed k w 0) :: sc Γ

/-- A slot against a memo cell. -/
def CellR (unk : Bool) : Option Value → Option (Option VA) → Prop
  | none, some none => True
  | some v, some (some a) => VR unk v a.v
  | _, _ => False

/-- Slots hold values corresponding to those of the variables; the slot of a delayed variable
corresponds to its memo cell. -/
def RelD (unk : Bool) : DScope σ → Env σ → Slots → List (Option VA) → Prop
  | [], [], _, _ => True
  | (x, .val k) :: Γ, (y, .val a) :: ρ, sl, h =>
    x = y ∧ (∃ v, sv sl k = some v ∧ VR unk v a.v) ∧ RelD unk Γ ρ sl h
  | (x, .delayed k w _) :: Γ, (y, .delayed c _) :: ρ, sl, h =>
    x = y ∧ CellR unk (sv sl k) h[c]? ∧ (∀ j, k + 1 ≤ j → j < k + 1 + w → sv sl j = none) ∧ RelD unk Γ ρ sl h
  | _, _, _, _ => False

theorem RelD.cells {unk : Bool} {Γ : DScope σ} {ρ : Env σ} {sl : Slots}
    {h : List (Option VA)} (hr : RelD unk Γ ρ sl h) {c : Nat} (hc : Cells ρ c) : c < h.length := by
  induction Γ generalizing ρ with
  | nil => cases ρ with
    | nil => exact hc.elim
    | cons _ _ => exact hr.elim
  | cons p Γ ih =>
    obtain ⟨x, e⟩ := p
    cases ρ with
    | nil => cases e <;> exact hr.elim
    | cons q ρ =>
      obtain ⟨y, b⟩ := q
      cases e <;> cases b
      · exact ih hr.2.2 hc
      · exact hr.elim
      · exact hr.elim
      · rcases hc with hc | hc
        · subst hc
          have := hr.2.1
          cases hh : h[c]? with
          | some o => exact (List.getElem?_eq_some_iff.1 hh).1
          | none => rw [hh] at this; unfold CellR at this; split at this <;> simp_all
        · exact ih hr.2.2.2 hc

theorem RelD.frame {unk : Bool} {Γ : DScope σ} {ρ : Env σ} {sl sl' : Slots}
    {h h' : List (Option VA)} {n : Nat} (wf : WF (sc Γ) n) (hr : RelD unk Γ ρ sl h)
    (hs : ∀ j, j < n → sv sl' j = sv sl j) (hh : ∀ c, Cells ρ c → h'[c]? = h[c]?) : RelD unk Γ ρ sl' h' := by
  induction Γ generalizing ρ n with
  | nil => cases ρ with
    | nil => trivial
    | cons _ _ => exact hr.elim
  | cons p Γ ih =>
    obtain ⟨x, e⟩ := p
    cases ρ with
    | nil => cases e <;> exact hr.elim
    | cons q ρ =>
      obtain ⟨y, b⟩ := q
      cases e <;> cases b
      · exact ⟨hr.1, by rw [hs _ wf.1]; exact hr.2.1, ih wf.2.2 hr.2.2 hs hh⟩
      · exact hr.elim
      · exact hr.elim
      · rename_i k w s c th
        have hk := wf.1
        refine ⟨hr.1, ?_, ?_, ih wf.2 hr.2.2.2 (fun j hj => hs j (by omega)) (fun c hc => hh c (Or.inr hc))⟩
        · rw [hh _ (Or.inl rfl), hs _ (by omega)]; exact hr.2.1
        · intro j h1 h2
          rw [hs j (by omega)]; exact hr.2.2.1 j h1 h2

theorem RelD.svEq {unk : Bool} {Γ : DScope σ} {ρ : Env σ} {sl sl' : Slots} {h : List (Option VA)}
    (he : sv sl' = sv sl) (hr : RelD unk Γ ρ sl h) : RelD unk Γ ρ sl' h := by
  induction Γ generalizing ρ with
  | nil => cases ρ with
    | nil => trivial
    | cons _ _ => exact hr.elim
  | cons p Γ ih =>
    obtain ⟨x, e⟩ := p
    cases ρ with
    | nil => cases e <;> exact hr.elim
    | cons q ρ =>
      obtain ⟨y, b⟩ := q
      cases e <;> cases b
      · exact ⟨hr.1, by rw [he]; exact hr.2.1, ih hr.2.2⟩
      · exact hr.elim
      · exact hr.elim
      · exact ⟨hr.1, by rw [he]; exact hr.2.1, by rw [he]; exact hr.2.2.1, ih hr.2.2.2⟩

/-- The slots represent the environment, and the region `[n, N)` is unset. -/
def InvD (unk : Bool) (Γ : DScope σ) (ρ : Env σ) (n N : Nat) (sl : Slots) (h : List (Option VA)) : Prop :=
  RelD unk Γ ρ sl h ∧ ∀ j, n ≤ j → j < N → sv sl j = none

/-- Only slots in `[n, N)` and those of delayed variables in scope changed. -/
def ChgD (Γ : DScope σ) (ρ : Env σ) (n N : Nat) (sl : Slots) (h : List (Option VA))
    (sl' : Slots) (h' : List (Option VA)) : Prop :=
  (∀ j, ¬ (n ≤ j ∧ j < N) → ¬ FP (sc Γ) j → sv sl' j = sv sl j) ∧ h'.length = h.length ∧
  ∀ c, ¬ Cells ρ c → h'[c]? = h[c]?

variable {unk : Bool} {Γ : DScope σ} {ρ : Env σ} {n n' N : Nat}
  {sl sl' sl'' : Slots} {h h' h'' : List (Option VA)}

theorem ChgD.refl : ChgD Γ ρ n N sl h sl h := ⟨fun _ _ _ => rfl, rfl, fun _ _ => rfl⟩

theorem ChgD.trans (h1 : ChgD Γ ρ n N sl h sl' h') (h2 : ChgD Γ ρ n N sl' h' sl'' h'') :
    ChgD Γ ρ n N sl h sl'' h'' :=
  ⟨fun j a b => (h2.1 j a b).trans (h1.1 j a b), h2.2.1.trans h1.2.1,
   fun c a => (h2.2.2 c a).trans (h1.2.2 c a)⟩

theorem ChgD.mono (hn : n ≤ n') (h1 : ChgD Γ ρ n' N sl h sl' h') : ChgD Γ ρ n N sl h sl' h' :=
  ⟨fun j a b => h1.1 j (by omega) b, h1.2⟩

theorem ChgD.upd {j : Nat} (x : Option VA) (h1 : n ≤ j) (h2 : j < N)
    (hc : ChgD Γ ρ n N sl h sl' h') : ChgD Γ ρ n N sl h (upd sl' j x) h' :=
  ⟨fun i a b => by
    rw [sv_upd_ne (by omega)]
    exact hc.1 i a b, hc.2⟩

theorem ChgD.svEq {sl0 : Slots} (he : sv sl0 = sv sl) (hc : ChgD Γ ρ n N sl h sl' h') : ChgD Γ ρ n N sl0 h sl' h' :=
  ⟨fun j a b => by rw [he]; exact hc.1 j a b, hc.2⟩

theorem InvD.mono (hn : n ≤ n') (h1 : InvD unk Γ ρ n N sl h) : InvD unk Γ ρ n' N sl h :=
  ⟨h1.1, fun j b c => h1.2 j (by omega) c⟩

theorem InvD.svEq {sl0 : Slots} (he : sv sl0 = sv sl) (h1 : InvD unk Γ ρ n N sl h) : InvD unk Γ ρ n N sl0 h :=
  ⟨h1.1.svEq he, fun j b c => by rw [he]; exact h1.2 j b c⟩

theorem InvD.after (hn : n ≤ n') (wf : WF (sc Γ) n) (h0 : InvD unk Γ ρ n N sl h)
    (h1 : InvD unk Γ ρ n' N sl' h') (hc : ChgD Γ ρ n' N sl h sl' h') : InvD unk Γ ρ n N sl' h' := by
  refine ⟨h1.1, fun j b c => ?_⟩
  by_cases hj : n' ≤ j
  · exact h1.2 j hj c
  · rw [hc.1 j (by omega) (fun hf => by have := wf.fp hf; omega)]
    exact h0.2 j b c

/-! ## Simulation -/

/-- The recursive evaluation's outcome against the meaning's. -/
def ConclD {α β : Type} (unk : Bool) (Γ : DScope σ) (ρ : Env σ) (n N : Nat) (R : α → β → Prop)
    (sl : Slots) (h : List (Option VA)) (o : DOut σ α) (o' : Out σ β) : Prop :=
  match o, o' with
  | .ok a s', .ok b s => R a b ∧ s'.host = s.host ∧ s'.count = s.count ∧
      InvD unk Γ ρ n N s'.slots s.heap ∧ ChgD Γ ρ n N sl h s'.slots s.heap
  | .err e x, .err e' y => StSim e e' ∧ x = y
  | .ub, .ub => True
  | _, _ => False

/-- Values with trails, compared by value. -/
def VAR (unk : Bool) (x y : VA) : Prop := VR unk x.v y.v

/-- The tree `d` computes `f`, whatever references it is given. -/
def SimD (r : RCfg σ) (Γ : DScope σ) (ρ : Env σ) (n N : Nat) (d : DStep σ) (f : SS σ → Out σ VA) : Prop :=
  ∀ (av at' : Option Nat) (cur : Trail) (sl : Slots) (s : SS σ),
    (∀ k, av = some k → spineSafe k d = true) → InvD r.c.unknowns Γ ρ n N sl s.heap →
    ConclD r.c.unknowns Γ ρ n N (VAR r.c.unknowns) sl s.heap (dev r d av at' cur ⟨s.host, s.count, sl⟩) (f s)

/-- The trees of the delayed variables compute their initializers. -/
def GoodD (r : RCfg σ) : DScope σ → Env σ → Prop
  | [], [] => True
  | (_, .val _) :: Γ, (_, .val _) :: ρ => GoodD r Γ ρ
  | (_, .delayed k w sub) :: Γ, (_, .delayed c th) :: ρ =>
    (∀ c', Cells ρ c' → c' < c) ∧ SimD r Γ ρ (k + 1) (k + 1 + w) sub th ∧ GoodD r Γ ρ
  | _, _ => False

variable {α β γ δ : Type} {R : α → β → Prop} {S : γ → δ → Prop}

/-- Sequencing. -/
theorem ConclD.bind {o : DOut σ α} {o' : Out σ β} {g : α → DS σ → DOut σ γ} {f : β → SS σ → Out σ δ}
    (hn : n ≤ n') (wf : WF (sc Γ) n) (hi : InvD unk Γ ρ n N sl h)
    (h1 : ConclD unk Γ ρ n' N R sl h o o')
    (h2 : ∀ a b s1 sl1, o = .ok a ⟨s1.host, s1.count, sl1⟩ → R a b → InvD unk Γ ρ n N sl1 s1.heap →
      ChgD Γ ρ n N sl h sl1 s1.heap →
      ConclD unk Γ ρ n N S sl1 s1.heap (g a ⟨s1.host, s1.count, sl1⟩) (f b s1)) :
    ConclD unk Γ ρ n N S sl h (o.bind g) (o'.bind f) := by
  cases o with
  | err e x =>
    cases o' with
    | err e' y => exact h1
    | ok _ _ => exact h1.elim
    | ub => exact h1.elim
  | ub =>
    cases o' with
    | err e' y => exact h1.elim
    | ok _ _ => exact h1.elim
    | ub => trivial
  | ok a s' =>
    cases o' with
    | err e' y => exact h1.elim
    | ub => exact h1.elim
    | ok b s =>
      obtain ⟨hr, hh, hc, hinv, hchg⟩ := h1
      obtain ⟨x, c, sl1⟩ := s'
      simp only at hh hc; subst hh; subst hc
      have hinv' := InvD.after hn wf hi hinv hchg
      have hchg' := hchg.mono hn
      have hcc := h2 a b s sl1 rfl hr hinv' hchg'
      show ConclD unk Γ ρ n N S sl h (g a ⟨s.host, s.count, sl1⟩) (f b s)
      revert hcc
      cases g a ⟨s.host, s.count, sl1⟩ with
      | err e x => cases f b s <;> exact id
      | ub => cases f b s <;> exact id
      | ok c s2 =>
        cases f b s with
        | err e x => exact id
        | ub => exact id
        | ok d s3 => exact fun hcc => ⟨hcc.1, hcc.2.1, hcc.2.2.1, hcc.2.2.2.1, hchg'.trans hcc.2.2.2.2⟩

/-- Base may be lowered. -/
theorem ConclD.mono {o : DOut σ α} {o' : Out σ β} (hn : n ≤ n') (wf : WF (sc Γ) n)
    (hi : InvD unk Γ ρ n N sl h) (h1 : ConclD unk Γ ρ n' N R sl h o o') : ConclD unk Γ ρ n N R sl h o o' := by
  cases o with
  | err e x => cases o' <;> exact h1
  | ub => cases o' <;> exact h1
  | ok a s' =>
    cases o' with
    | err e' y => exact h1
    | ub => exact h1
    | ok b s =>
      obtain ⟨hr, hh, hc, hinv, hchg⟩ := h1
      exact ⟨hr, hh, hc, InvD.after hn wf hi hinv hchg, hchg.mono hn⟩

/-- Slots may be replaced by slots with the same values. -/
theorem ConclD.svEq {sl0 : Slots} {o : DOut σ α} {o' : Out σ β} (he : sv sl0 = sv sl)
    (h1 : ConclD unk Γ ρ n N R sl0 h o o') : ConclD unk Γ ρ n N R sl h o o' := by
  cases o with
  | err e x => cases o' <;> exact h1
  | ub => cases o' <;> exact h1
  | ok a s' =>
    cases o' with
    | err e' y => exact h1
    | ub => exact h1
    | ok b s =>
      obtain ⟨hr, hh, hc, hinv, hchg⟩ := h1
      exact ⟨hr, hh, hc, hinv, hchg.svEq he.symm⟩

theorem ConclD.ok {a : α} {b : β} {s : SS σ} {c : Int} {x : σ} (hr : R a b) (hx : x = s.host) (hc : c = s.count)
    (hi : InvD unk Γ ρ n N sl' s.heap) (hch : ChgD Γ ρ n N sl h sl' s.heap) :
    ConclD unk Γ ρ n N R sl h (.ok a ⟨x, c, sl'⟩) (.ok b s) := ⟨hr, hx, hc, hi, hch⟩

/-- Lowering the trivial region `[0, 0)` to any region above the scope. -/
theorem ConclD.region {o : DOut σ α} {o' : Out σ β} (wf : WF (sc Γ) n)
    (hi : InvD unk Γ ρ n N sl h) (h1 : ConclD unk Γ ρ 0 0 R sl h o o') : ConclD unk Γ ρ n N R sl h o o' := by
  cases o with
  | err e x => cases o' <;> exact h1
  | ub => cases o' <;> exact h1
  | ok a s' =>
    cases o' with
    | err e' y => exact h1
    | ub => exact h1
    | ok b s =>
      obtain ⟨hr, hh, hc, hinv, hchg⟩ := h1
      refine ⟨hr, hh, hc, ⟨hinv.1, fun j h1 h2 => ?_⟩, ⟨fun j h1 h2 => hchg.1 j (by omega) h2, hchg.2⟩⟩
      rw [hchg.1 j (by omega) (fun hf => by have := wf.fp hf; omega)]
      exact hi.2 j h1 h2

/-- Results may be weakened. -/
theorem ConclD.imp {o : DOut σ α} {o' : Out σ β} {R' : α → β → Prop} (hR : ∀ a b, R a b → R' a b)
    (h1 : ConclD unk Γ ρ n N R sl h o o') : ConclD unk Γ ρ n N R' sl h o o' := by
  cases o with
  | err e x => cases o' <;> exact h1
  | ub => cases o' <;> exact h1
  | ok a s' =>
    cases o' with
    | err e' y => exact h1
    | ub => exact h1
    | ok b s => exact ⟨hR a b h1.1, h1.2⟩

end

/-! ## Variables -/

section
variable {σ : Type} {r : RCfg σ}

theorem relD_none {unk : Bool} {Γ : DScope σ} {ρ : Env σ} {sl : Slots} {h : List (Option VA)} {x : String}
    (hr : RelD unk Γ ρ sl h) (hx : dscopeGet Γ x = none) : envGet ρ x = none := by
  induction Γ generalizing ρ with
  | nil => cases ρ with
    | nil => rfl
    | cons _ _ => exact hr.elim
  | cons p Γ ih =>
    obtain ⟨y, e⟩ := p
    unfold dscopeGet at hx
    by_cases hxy : x = y
    · rw [if_pos hxy] at hx; cases hx
    · rw [if_neg hxy] at hx
      cases ρ with
      | nil => cases e <;> exact hr.elim
      | cons q ρ =>
        obtain ⟨z, b⟩ := q
        cases e <;> cases b
        · obtain ⟨h1, _, h3⟩ := hr
          subst h1
          unfold envGet; rw [if_neg hxy]; exact ih h3 hx
        · exact hr.elim
        · exact hr.elim
        · obtain ⟨h1, _, _, h3⟩ := hr
          subst h1
          unfold envGet; rw [if_neg hxy]; exact ih h3 hx

/-- The step a variable in scope is planned as. -/
def entStep (x : String) : DEnt σ → DStep σ
  | .val k => .slot x k
  | .delayed k _ sub => .lazyInit k sub

/-- A variable in scope: its step reads the binding (running the initializer if needed). -/
theorem simD_var {x : String} {av at' : Option Nat} {cur : Trail} {s : SS σ} {sl : Slots} :
    ∀ (Γ : DScope σ) (ρ : Env σ) (n : Nat) (e : DEnt σ), WF (sc Γ) n → GoodD r Γ ρ →
      RelD r.c.unknowns Γ ρ sl s.heap → dscopeGet Γ x = some e →
      (∀ k, av = some k → spineSafe k (entStep x e) = true) →
      ∃ b, envGet ρ x = some b ∧
        ConclD r.c.unknowns Γ ρ 0 0 (VAR r.c.unknowns) sl s.heap
          (dev r (entStep x e) av at' cur ⟨s.host, s.count, sl⟩) (readBinding b s) := by
  intro Γ
  induction Γ with
  | nil => intro ρ n e _ _ _ hx; cases hx
  | cons p Γ ih =>
    intro ρ n e wf hg hr hx hal
    obtain ⟨y, e0⟩ := p
    unfold dscopeGet at hx
    cases ρ with
    | nil => cases e0 <;> exact hr.elim
    | cons q ρ =>
      obtain ⟨z, b⟩ := q
      by_cases hxy : x = y
      · rw [if_pos hxy] at hx
        cases hx
        cases e with
        | val k =>
          cases b with
          | delayed c th => exact hr.elim
          | val a =>
            refine ⟨.val a, ?_, ?_⟩
            · unfold envGet; rw [if_pos (hxy.trans hr.1)]
            · obtain ⟨v, hv, hvr⟩ := hr.2.1
              obtain ⟨a', ha', hav⟩ := sv_some hv
              simp only [entStep, dev, ha', readBinding]
              refine ConclD.ok ?_ rfl rfl ⟨hr, fun j _ h2 => by omega⟩ ChgD.refl
              show VR _ a'.v a.v
              rw [hav]; exact hvr
        | delayed k w sub =>
          cases b with
          | val a => exact hr.elim
          | delayed c th =>
            refine ⟨.delayed c th, ?_, ?_⟩
            · unfold envGet; rw [if_pos (hxy.trans hr.1)]
            · obtain ⟨hr1, hr2, hr3, hr4⟩ := hr
              obtain ⟨hg1, hsim, hg3⟩ := hg
              unfold readBinding
              simp only [entStep, dev]
              cases hslk : sl k with
              | some a =>
                have hsv : sv sl k = some a.v := by unfold sv; rw [hslk]; rfl
                rw [hsv] at hr2
                cases hc : s.heap[c]? with
                | none => rw [hc] at hr2; exact hr2.elim
                | some o =>
                  cases o with
                  | none => rw [hc] at hr2; exact hr2.elim
                  | some a' =>
                    rw [hc] at hr2
                    simp only
                    refine ConclD.ok hr2 rfl rfl ⟨⟨hr1, ?_, hr3, hr4⟩, fun j _ h2 => by omega⟩ ChgD.refl
                    rw [hsv, hc]; exact hr2
              | none =>
                have hsv : sv sl k = none := sv_none.2 hslk
                rw [hsv] at hr2
                cases hc : s.heap[c]? with
                | none => rw [hc] at hr2; exact hr2.elim
                | some o =>
                  cases o with
                  | some a' => rw [hc] at hr2; exact hr2.elim
                  | none =>
                    simp only
                    have hcn := hsim av at' cur sl s hal ⟨hr4, hr3⟩
                    cases ho' : th s with
                    | err e h' =>
                      rw [ho'] at hcn
                      cases hod : dev r sub av at' cur ⟨s.host, s.count, sl⟩ with
                      | err e2 h2 => rw [hod] at hcn; exact hcn
                      | ok _ _ => rw [hod] at hcn; exact hcn.elim
                      | ub => rw [hod] at hcn; exact hcn.elim
                    | ub =>
                      rw [ho'] at hcn
                      cases hod : dev r sub av at' cur ⟨s.host, s.count, sl⟩ with
                      | err e2 h2 => rw [hod] at hcn; exact hcn.elim
                      | ok _ _ => rw [hod] at hcn; exact hcn.elim
                      | ub => trivial
                    | ok a s' =>
                      rw [ho'] at hcn
                      cases hod : dev r sub av at' cur ⟨s.host, s.count, sl⟩ with
                      | err e2 h2 => rw [hod] at hcn; exact hcn.elim
                      | ub => rw [hod] at hcn; exact hcn.elim
                      | ok a2 s2 =>
                        rw [hod] at hcn
                        obtain ⟨hva, hh, hcnt, hi', hc'⟩ := hcn
                        obtain ⟨x2, c2, sl2⟩ := s2
                        simp only at hh hcnt hi' hc'
                        have hclt : c < s.heap.length := (List.getElem?_eq_some_iff.1 hc).1
                        have hclt' : c < s'.heap.length := by rw [hc'.2.1]; exact hclt
                        simp only [DOut.bind, Out.bind]
                        refine ConclD.ok hva hh hcnt ⟨⟨hr1, ?_, ?_, ?_⟩, ?_⟩ ?_
                        · rw [sv_upd_eq rfl]
                          simp only [List.getElem?_set_self hclt']
                          exact hva
                        · intro j h1 h2
                          rw [sv_upd_ne (by omega)]
                          exact hi'.2 j h1 h2
                        · refine RelD.frame wf.2 hi'.1 (fun j hj => ?_) (fun c' hc'' => ?_)
                          · rw [sv_upd_ne (by omega)]
                          · have := hg1 c' hc''
                            exact List.getElem?_set_ne (by omega)
                        · intro j _ h2; omega
                        · refine ⟨fun j _ hf => ?_, ?_, fun c' hcc => ?_⟩
                          · have hjk : ¬ (k ≤ j ∧ j < k + 1 + w) := fun h => hf (Or.inl h)
                            rw [sv_upd_ne (by omega)]
                            exact hc'.1 j (by omega) (fun h => hf (Or.inr h))
                          · simp [hc'.2.1]
                          · have h1 : c ≠ c' := fun h => hcc (Or.inl h.symm)
                            rw [List.getElem?_set_ne h1]
                            exact hc'.2.2 c' (fun h => hcc (Or.inr h))
      · rw [if_neg hxy] at hx
        cases e0 with
        | val k =>
          cases b with
          | delayed c th => exact hr.elim
          | val a =>
            obtain ⟨hr1, hr2, hr3⟩ := hr
            obtain ⟨b, hb, hc⟩ := ih ρ n e wf.2.2 hg hr3 hx hal
            refine ⟨b, ?_, ?_⟩
            · subst hr1; unfold envGet; rw [if_neg hxy]; exact hb
            · revert hc
              cases dev r (entStep x e) av at' cur ⟨s.host, s.count, sl⟩ with
              | err e h => cases readBinding b s <;> exact id
              | ub => cases readBinding b s <;> exact id
              | ok a' s' =>
                cases readBinding b s with
                | err e h => exact id
                | ub => exact id
                | ok b' s2 =>
                  rintro ⟨h1, h2, h3, hi', hc'⟩
                  refine ⟨h1, h2, h3, ⟨⟨hr1, ?_, hi'.1⟩, hi'.2⟩, hc'⟩
                  rw [hc'.1 k (by omega) wf.2.1]; exact hr2
        | delayed k w sub =>
          cases b with
          | val a => exact hr.elim
          | delayed c th =>
            obtain ⟨hr1, hr2, hr3, hr4⟩ := hr
            obtain ⟨b, hb, hc⟩ := ih ρ k e wf.2 hg.2.2 hr4 hx hal
            refine ⟨b, ?_, ?_⟩
            · subst hr1; unfold envGet; rw [if_neg hxy]; exact hb
            · revert hc
              cases dev r (entStep x e) av at' cur ⟨s.host, s.count, sl⟩ with
              | err e h => cases readBinding b s <;> exact id
              | ub => cases readBinding b s <;> exact id
              | ok a' s' =>
                cases readBinding b s with
                | err e h => exact id
                | ub => exact id
                | ok b' s2 =>
                  rintro ⟨h1, h2, h3, hi', hc'⟩
                  have hfp : ∀ j, k ≤ j → ¬ FP (sc Γ) j := fun j hj hf => by have := wf.2.fp hf; omega
                  have hnc : ¬ Cells ρ c := fun hcc => by have := hg.1 c hcc; omega
                  refine ⟨h1, h2, h3, ⟨⟨hr1, ?_, ?_, hi'.1⟩, hi'.2⟩, ⟨?_, hc'.2.1, ?_⟩⟩
                  · rw [hc'.1 k (by omega) (hfp k (by omega)), hc'.2.2 c hnc]; exact hr2
                  · intro j h1 h2
                    rw [hc'.1 j (by omega) (hfp j (by omega))]
                    exact hr3 j h1 h2
                  · intro j h1 h2
                    exact hc'.1 j h1 (fun h => h2 (Or.inr h))
                  · intro c' hcc
                    exact hc'.2.2 c' (fun h => hcc (Or.inr h))

/-- Writing the value of a step that reads the slot the reference points to changes nothing. -/
theorem wrV_slot {d : DStep σ} {av at' : Option Nat} {cur : Trail} {s s1 : DS σ} {x : VA}
    (h : ∀ k, av = some k → d.isSlot k = true) (ho : dev r d av at' cur s = .ok x s1) :
    sv (wrV av x.v s1.slots) = sv s1.slots := by
  refine sv_wrV fun k hk => ?_
  have := h k hk
  cases d with
  | slot y j =>
    simp only [DStep.isSlot, decide_eq_true_eq] at this
    subst this
    simp only [dev] at ho
    cases hs : s.slots j with
    | none => rw [hs] at ho; cases ho
    | some a =>
      rw [hs] at ho
      cases ho
      unfold sv; rw [hs]; rfl
  | _ => cases this

theorem isSlot_spine {d : DStep σ} {k : Nat} (h : d.isSlot k = true) : spineSafe k d = true := by
  cases d <;> first | rfl | cases h

end

end Cel.Direct
