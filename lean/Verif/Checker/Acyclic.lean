import Verif.Checker.Model
import Mathlib.Logic.Relation
import Mathlib.Tactic.Conv

/-!
# C36: type inference terminates and its bindings stay acyclic

Whatever sequence of instantiations, assignability queries, overload resolutions and assignability sessions is made, no infinite chain of
type variables arises, each occurring in the type bound to the one before; and every one of these operations, and every
substitution, comes to an end.
-/

set_option linter.unusedSimpArgs false
set_option linter.unusedVariables false

namespace Cel.Checker
open Relation

/-! ## Specification -/

/-- The type parameter `x` occurs in a type. -/
inductive Occurs (x : Name) : Ty → Prop
  | here : Occurs x (.param x)
  | inside {h ps t} : t ∈ ps → Occurs x t → Occurs x (.con h ps)

/-- `y` occurs in the type `x` is bound to. -/
def DependsOn (σ : Sub) (x y : Name) : Prop := ∃ t, σ x = some t ∧ Occurs y t

/-- Following bindings always comes to an end (in particular there is no cycle). -/
def NoInfiniteChain (σ : Sub) : Prop := ¬ ∃ f : Nat → Name, ∀ i, DependsOn σ (f i) (f (i + 1))

/-- What the checker does with its inference context. A session is an `AssignabilityContext`: some checks, whatever they return, and then
an update or not. -/
inductive Op where
  | instantiate (t : Ty) (m : Instances)
  | assignable (src dst : Ty)
  | resolve (decl : FunctionDecl) (args : List Ty) (receiver : Bool)
  | session (checks : List (Ty × Ty)) (commit : Bool)

/-- The checks of a session, one after the other. -/
def runChecks (c : Ctx) (n : Nat) : List (Ty × Ty) → Pro → Option Pro
  | [], P => some P
  | q :: qs, P => do
    let r ← P.isAssignable c n q.1 q.2
    runChecks c n qs r.2

def Op.run (n : Nat) (c : Ctx) : Op → Option Ctx
  | .instantiate t m => some (Checker.instantiate t (m, c)).2.2
  | .assignable src dst => (isAssignable c n src dst).map (·.2)
  | .resolve d args recv => (resolveOverload c n d args recv).map (·.1)
  | .session checks commit => (runChecks c n checks .empty).map (fun P => if commit then (P.updateInferred c).1 else c)

/-- The contexts a history leads to. -/
inductive Reachable : Ctx → Prop
  | start (legacy : Bool) : Reachable (.new legacy)
  | step {c c' : Ctx} (op : Op) (n : Nat) : Reachable c → op.run n c = some c' → Reachable c'

/-! ## Following bindings -/

/-- `b` is one step below `a`: a parameter of it, or what it is bound to. -/
def Step (σ : Sub) (b a : Ty) : Prop := b ∈ a.params ∨ ∃ x, a = .param x ∧ σ x = some b

def WF (σ : Sub) : Prop := WellFounded (Step σ)

abbrev Below (σ : Sub) : Ty → Ty → Prop := ReflTransGen (Step σ)

theorem step_param {σ : Sub} {x : Name} {b : Ty} (h : Step σ b (.param x)) : σ x = some b := by
  rcases h with h | ⟨y, e, h⟩
  · exact nomatch h
  · injection e with e; rw [e]; exact h

theorem step_con {σ : Sub} {h : Head} {ps : List Ty} {b : Ty} (hs : Step σ b (.con h ps)) : b ∈ ps := by
  rcases hs with hs | ⟨y, e, _⟩
  · exact hs
  · exact nomatch e

theorem below_occurs {σ : Sub} {x : Name} {t : Ty} (h : Occurs x t) : Below σ (.param x) t := by
  induction h with
  | here => exact .refl
  | inside hm _ ih => exact ih.tail (.inl hm)

theorem noChain_of_wf {σ : Sub} (h : WF σ) : NoInfiniteChain σ := by
  rintro ⟨f, hf⟩
  have key : ∀ a : Ty, ∀ i, a = .param (f i) → False := by
    intro a
    induction h.transGen.apply a with
    | intro a _ ih =>
      rintro i rfl
      obtain ⟨t, h1, h2⟩ := hf i
      refine ih (.param (f (i + 1))) ?_ (i + 1) rfl
      exact TransGen.tail' (below_occurs h2) (.inr ⟨_, rfl, h1⟩)
  exact key _ 0 rfl

theorem wf_irrefl {σ : Sub} (h : WF σ) {a : Ty} : ¬ TransGen (Step σ) a a := by
  intro ha
  have := h.transGen.apply a
  induction this with
  | intro a _ ih => exact ih a ha ha

def Sub.bind (σ : Sub) (x : Name) (t : Ty) : Sub := fun y => if y = x then some t else σ y

theorem look_bind (B : Bindings) (P : Pro) (x : Name) (t : Ty) : look B (P.bind x t).map = (look B P.map).bind x t := by
  funext y
  unfold look Pro.bind Sub.bind
  dsimp
  by_cases h : y = x
  · rw [if_pos h, if_pos h]
  · rw [if_neg h, if_neg h]

/-- Binding a name to a type from which the name cannot be reached keeps everything well founded. -/
theorem wf_bind {σ : Sub} {x : Name} {t : Ty} (h : WF σ) (hx : ¬ Below σ (.param x) t) : WF (σ.bind x t) := by
  have c1 : ∀ a, ¬ Below σ (.param x) a → Acc (Step (σ.bind x t)) a := by
    intro a
    induction h.apply a with
    | intro a _ ih =>
      intro ha
      refine ⟨a, fun b hb => ?_⟩
      have hb' : Step σ b a := by
        rcases hb with hb | ⟨y, e, hb⟩
        · exact .inl hb
        · refine .inr ⟨y, e, ?_⟩
          unfold Sub.bind at hb
          rw [if_neg] at hb
          · exact hb
          · rintro rfl
            rw [e] at ha
            exact ha .refl
      exact ih b hb' (fun hbx => ha (hbx.tail hb'))
  have c2 : Acc (Step (σ.bind x t)) (.param x) := by
    refine ⟨_, fun b hb => ?_⟩
    have := step_param hb
    unfold Sub.bind at this
    rw [if_pos rfl] at this
    injection this with this
    rw [← this]
    exact c1 t hx
  refine ⟨fun a => ?_⟩
  induction h.apply a with
  | intro a _ ih =>
    by_cases e : a = .param x
    · rw [e]; exact c2
    · refine ⟨a, fun b hb => ih b ?_⟩
      rcases hb with hb | ⟨y, e', hb⟩
      · exact .inl hb
      · refine .inr ⟨y, e', ?_⟩
        unfold Sub.bind at hb
        rw [if_neg] at hb
        · exact hb
        · rintro rfl; exact e e'

theorem occursWithin_false {σ : Sub} {x : Name} : ∀ n t, occursWithin σ x n t = some false → ¬ Below σ (.param x) t := by
  intro n
  induction n with
  | zero => intro t h; exact nomatch h
  | succ n ih =>
    intro t h hb
    have any : ∀ ps, anyOf (occursWithin σ x n) ps = some false → ∀ p ∈ ps, occursWithin σ x n p = some false := by
      intro ps
      induction ps with
      | nil => intro _ p hp; exact nomatch hp
      | cons q ps ih2 =>
        intro h p hp
        rw [anyOf] at h
        split at h
        · exact nomatch h
        · rename_i hq
          rcases List.mem_cons.mp hp with rfl | hp
          · exact hq
          · exact ih2 h p hp
        · exact nomatch h
    rcases ReflTransGen.cases_tail hb with e | ⟨c, hc, hs⟩
    · subst e
      rw [occursWithin, if_pos rfl] at h
      exact nomatch h
    · cases t with
      | param y =>
        rw [occursWithin] at h
        by_cases hy : y = x
        · rw [if_pos hy] at h; exact nomatch h
        · rw [if_neg hy, step_param hs] at h
          exact ih c h hc
      | con hd ps =>
        rw [occursWithin] at h
        exact ih c (any ps h c (step_con hs)) hc

theorem substitute_below {σ : Sub} : ∀ n t r, substitute σ n t = some r → Below σ r t ∧ ∀ x, r = .param x → σ x = none := by
  intro n
  induction n with
  | zero => intro t r h; exact nomatch h
  | succ n ih =>
    intro t r h
    cases t with
    | con hd ps =>
      rw [substitute] at h
      injection h with h
      subst h
      exact ⟨.refl, fun x e => nomatch e⟩
    | param y =>
      rw [substitute] at h
      cases hy : σ y with
      | none =>
        rw [hy] at h
        injection h with h
        subst h
        exact ⟨.refl, fun x e => by injection e with e; rw [← e]; exact hy⟩
      | some t =>
        rw [hy] at h
        obtain ⟨h1, h2⟩ := ih t r h
        exact ⟨h1.tail (.inr ⟨y, rfl, hy⟩), h2⟩

/-! ## The invariant of a check -/

def Closed (S : Ty → Prop) (σ : Sub) : Prop := ∀ a b, S a → Step σ b a → S b

theorem closed_below {S : Ty → Prop} {σ : Sub} (h : Closed S σ) {a b : Ty} (hab : Below σ b a) (ha : S a) : S b := by
  induction hab using ReflTransGen.head_induction_on with
  | refl => exact ha
  | head h1 _ ih => exact h _ _ ih h1

theorem closed_bind {S : Ty → Prop} {σ : Sub} (h : Closed S σ) {x : Name} {t : Ty} (ht : S t) : Closed S (σ.bind x t) := by
  intro a b ha hs
  rcases hs with hs | ⟨y, e, hs⟩
  · exact h a b ha (.inl hs)
  · unfold Sub.bind at hs
    by_cases hy : y = x
    · rw [if_pos hy] at hs; injection hs with hs; rw [← hs]; exact ht
    · rw [if_neg hy] at hs; exact h a b ha (.inr ⟨y, e, hs⟩)

/-- The invariant: well founded, and the types in play stay in `S`. -/
def Inv (S : Ty → Prop) (B : Bindings) (P : Pro) : Prop := WF (look B P.map) ∧ Closed S (look B P.map)

/-- `S` contains the primitive types that wrappers unwrap to. -/
def Prims (S : Ty → Prop) : Prop := ∀ b, S (.b b)

theorem wrapper_prim {t p : Ty} (h : wrapperToPrimitive t = some p) : ∃ b, p = .b b := by
  unfold wrapperToPrimitive at h
  split at h <;> first | (injection h with h; exact ⟨_, h.symm⟩) | exact nomatch h

theorem inv_bind {S : Ty → Prop} {B : Bindings} {P : Pro} (h : Inv S B P) {x : Name} {t : Ty} (ht : S t)
    (hx : ¬ Below (look B P.map) (.param x) t) : Inv S B (P.bind x t) := by
  unfold Inv
  rw [look_bind]
  exact ⟨wf_bind h.1 hx, closed_bind h.2 ht⟩

theorem constraints_inv {S : Ty → Prop} {B : Bindings} {P : Pro} (n : Nat) {src dst : Ty} {r : Bool} {P' : Pro}
    (h : assignWithConstraints B n src dst P = some (r, P')) (hi : Inv S B P) (h1 : S src) (h2 : S dst)
    (hfree : ∀ x, dst = .param x → look B P.map x = none) : Inv S B P' := by
  cases dst with
  | param y =>
    cases src with
    | param x =>
      rw [assignWithConstraints] at h
      by_cases hne : y ≠ x
      · rw [if_pos hne] at h
        injection h with h
        injection h with _ h
        rw [← h]
        refine inv_bind hi h2 (fun hb => ?_)
        rcases ReflTransGen.cases_tail hb with e | ⟨c, _, hs⟩
        · injection e with e; exact hne e
        · have := step_param hs
          rw [hfree y rfl] at this
          exact nomatch this
      · rw [if_neg hne] at h
        injection h with h
        injection h with _ h
        rw [← h]; exact hi
    | con hd ps =>
      rw [assignWithConstraints] at h
      cases ho : occursWithin (look B P.map) y n (.con hd ps) with
      | none => rw [ho] at h; exact nomatch h
      | some b =>
        rw [ho] at h
        cases b with
        | true =>
          have h : some (isWildCard (.con hd ps), P) = some (r, P') := h
          injection h with h
          injection h with _ h
          rw [← h]; exact hi
        | false =>
          have h : some (true, P.bind y (.con hd ps)) = some (r, P') := h
          injection h with h
          injection h with _ h
          rw [← h]; exact inv_bind hi h1 (occursWithin_false _ _ ho)
  | con hd ps =>
    cases src with
    | param x =>
      rw [assignWithConstraints] at h
      cases ho : occursWithin (look B P.map) x n (.con hd ps) with
      | none => rw [ho] at h; exact nomatch h
      | some b =>
        rw [ho] at h
        cases b with
        | true =>
          have h : some (isWildCard (.con hd ps), P) = some (r, P') := h
          injection h with h
          injection h with _ h
          rw [← h]; exact hi
        | false =>
          have h : some (true, P.bind x (.con hd ps)) = some (r, P') := h
          injection h with h
          injection h with _ h
          rw [← h]; exact inv_bind hi h2 (occursWithin_false _ _ ho)
    | con k qs =>
      rw [assignWithConstraints] at h
      injection h with h
      injection h with _ h
      rw [← h]; exact hi

theorem assignAll_inv {S : Ty → Prop} {B : Bindings} {f : Ty → Ty → Pro → Option (Bool × Pro)}
    (hf : ∀ a b P r P', f a b P = some (r, P') → Inv S B P → S a → S b → Inv S B P') :
    ∀ ps qs P r P', assignAll f ps qs P = some (r, P') → Inv S B P → (∀ p ∈ ps, S p) → (∀ q ∈ qs, S q) → Inv S B P' := by
  intro ps
  induction ps with
  | nil =>
    intro qs P r P' h hi _ _
    rw [assignAll] at h
    · injection h with h; injection h with _ h; rw [← h]; exact hi
    · intro p ps q qs e; exact nomatch e
  | cons p ps ih =>
    intro qs P r P' h hi hp hq
    cases qs with
    | nil =>
      rw [assignAll] at h
      · injection h with h; injection h with _ h; rw [← h]; exact hi
      · intro p ps q qs _ e; exact nomatch e
    | cons q qs =>
      rw [assignAll] at h
      cases hr : f p q P with
      | none => rw [hr] at h; exact nomatch h
      | some x =>
        obtain ⟨b, P1⟩ := x
        rw [hr] at h
        have h1 := hf p q P b P1 hr hi (hp p (by simp)) (hq q (by simp))
        cases b with
        | true => exact ih qs P1 r P' h h1 (fun p hp' => hp p (by simp [hp'])) (fun q hq' => hq q (by simp [hq']))
        | false =>
          have h : some (false, P1) = some (r, P') := h
          injection h with h; injection h with _ h; rw [← h]; exact h1

theorem concrete_inv {S : Ty → Prop} {B : Bindings} {legacy : Bool} {f : Ty → Ty → Pro → Option (Bool × Pro)}
    (hf : ∀ a b P r P', f a b P = some (r, P') → Inv S B P → S a → S b → Inv S B P') (hp : Prims S)
    {src dst : Ty} {P : Pro} {r : Bool} {P' : Pro} (h : assignConcrete legacy f src dst P = some (r, P'))
    (hi : Inv S B P) (h1 : S src) (h2 : S dst) : Inv S B P' := by
  have same : ∀ {b : Bool}, some (b, P) = some (r, P') → Inv S B P' := by
    intro b h
    injection h with h; injection h with _ h; rw [← h]; exact hi
  unfold assignConcrete at h
  split at h
  · rename_i p hw
    obtain ⟨b, rfl⟩ := wrapper_prim hw
    split at h
    · exact same h
    · exact hf _ _ _ _ _ h hi (hp b) h1
  · split at h
    · rename_i p hw
      obtain ⟨b, rfl⟩ := wrapper_prim hw
      exact hf _ _ _ _ _ h hi (hp b) h2
    · split at h
      · exact same h
      split at h
      · exact same h
      split at h
      · exact same h
      split at h
      · exact same h
      split at h
      · exact same h
      split at h
      · exact same h
      split at h
      · exact same h
      split at h
      · exact same h
      · exact assignAll_inv hf _ _ _ _ _ h hi (fun p hp => hi.2 _ _ h1 (.inl hp)) (fun q hq => hi.2 _ _ h2 (.inl hq))

/-- What the equations of `assign` say, taken apart. -/
theorem assign_cases {legacy : Bool} {B : Bindings} {n : Nat} {src to : Ty} {P : Pro} {x : Bool × Pro}
    (h : assign legacy B (n + 1) src to P = some x) :
    ∃ dst f, substitute (look B P.map) n to = some dst ∧ substitute (look B P.map) n src = some f ∧
      ((dst.eq f = true ∧ x = (true, P)) ∨
       (dst.eq f = false ∧ (dst.isParam || f.isParam) = true ∧ assignWithConstraints B n f dst P = some x) ∨
       (dst.eq f = false ∧ (dst.isParam || f.isParam) = false ∧
         ((∃ P', tryWiden legacy B n (assign legacy B n) f dst to P = some (some P') ∧ x = (true, P')) ∨
          (tryWiden legacy B n (assign legacy B n) f dst to P = some none ∧ assignConcrete legacy (assign legacy B n) f dst P = some x)))) := by
  rw [assign] at h
  cases h1 : substitute (look B P.map) n to with
  | none => rw [h1] at h; exact nomatch h
  | some dst =>
    rw [h1] at h
    cases h2 : substitute (look B P.map) n src with
    | none => rw [h2] at h; exact nomatch h
    | some f =>
      rw [h2] at h
      refine ⟨dst, f, rfl, rfl, ?_⟩
      have h : (if dst.eq f = true then some (true, P)
        else if (dst.isParam || f.isParam) = true then assignWithConstraints B n f dst P
        else (tryWiden legacy B n (assign legacy B n) f dst to P).bind fun w => match w with
          | some P' => some (true, P')
          | none => assignConcrete legacy (assign legacy B n) f dst P) = some x := h
      cases he : dst.eq f with
      | true => rw [he, if_pos rfl] at h; injection h with h; exact .inl ⟨rfl, h.symm⟩
      | false =>
        rw [he, if_neg (by simp)] at h
        right
        cases hp : (dst.isParam || f.isParam) with
        | true => rw [hp, if_pos rfl] at h; exact .inl ⟨rfl, rfl, h⟩
        | false =>
          rw [hp, if_neg (by simp)] at h
          refine .inr ⟨rfl, rfl, ?_⟩
          cases hw : tryWiden legacy B n (assign legacy B n) f dst to P with
          | none => rw [hw] at h; exact nomatch h
          | some w =>
            rw [hw] at h
            cases w with
            | none => exact .inr ⟨rfl, h⟩
            | some P' =>
              have h : some (true, P') = some x := h
              injection h with h
              exact .inl ⟨P', rfl, h.symm⟩

/-- A widening, taken apart. -/
theorem widen_cases {legacy : Bool} {B : Bindings} {n : Nat} {f : Ty → Ty → Pro → Option (Bool × Pro)} {src dst to : Ty} {P P' : Pro}
    (h : tryWiden legacy B n f src dst to P = some (some P')) :
    ∃ x P1, to = .param x ∧ f dst src P = some (true, P1) ∧ occursWithin (look B P1.map) x n src = some false ∧
      P' = { P1.bind x src with widened := true } := by
  unfold tryWiden at h
  cases to with
  | con hd ps => exact nomatch h
  | param x =>
    dsimp only at h
    split at h
    · cases hg : compareGenerality legacy (look B P.map) n src dst with
      | none => rw [hg] at h; exact nomatch h
      | some g =>
        rw [hg] at h
        have h : (if g = .more then (f dst src P).bind fun r =>
            if r.1 = true then (occursWithin (look B r.2.map) x n src).bind fun o =>
              if (!o) = true then some (some { r.2.bind x src with widened := true }) else some none
            else some none
          else some none) = some (some P') := h
        split at h
        · cases hr : f dst src P with
          | none => rw [hr] at h; exact nomatch h
          | some r =>
            obtain ⟨b, P1⟩ := r
            rw [hr] at h
            have h : (if b = true then (occursWithin (look B P1.map) x n src).bind fun o =>
              if (!o) = true then some (some { P1.bind x src with widened := true }) else some none
              else some none) = some (some P') := h
            cases b with
            | false => exact nomatch h
            | true =>
              rw [if_pos rfl] at h
              cases ho : occursWithin (look B P1.map) x n src with
              | none => rw [ho] at h; exact nomatch h
              | some o =>
                rw [ho] at h
                cases o with
                | true => exact nomatch h
                | false =>
                  have h : some (some { P1.bind x src with widened := true }) = some (some P') := h
                  injection h with h
                  injection h with h
                  exact ⟨x, P1, rfl, rfl, ho, h.symm⟩
        · exact nomatch h
    · exact nomatch h

/-- Every check, successful or not, keeps the substitution well founded and inside any closed set of types. -/
theorem assign_inv {S : Ty → Prop} {legacy : Bool} {B : Bindings} (hp : Prims S) : ∀ n src to P r P',
    assign legacy B n src to P = some (r, P') → Inv S B P → S src → S to → Inv S B P' := by
  intro n
  induction n with
  | zero => intro src to P r P' h; exact nomatch h
  | succ n ih =>
    intro src to P r P' h hi h1 h2
    obtain ⟨dst, f, hd, hf, hc⟩ := assign_cases h
    obtain ⟨hdb, hdf⟩ := substitute_below _ _ _ hd
    obtain ⟨hfb, hff⟩ := substitute_below _ _ _ hf
    have sd := closed_below hi.2 hdb h2
    have sf := closed_below hi.2 hfb h1
    rcases hc with ⟨_, e⟩ | ⟨_, _, hc⟩ | ⟨_, _, ⟨Pw, hw, e⟩ | ⟨_, hc⟩⟩
    · injection e with _ e; rw [e]; exact hi
    · exact constraints_inv n hc hi sf sd hdf
    · injection e with _ e
      rw [e]
      obtain ⟨x, P1, rfl, ha, ho, rfl⟩ := widen_cases hw
      have h3 := ih _ _ _ _ _ ha hi sd sf
      exact inv_bind h3 sf (occursWithin_false _ _ ho)
    · exact concrete_inv ih hp hc hi sf sd

/-! ## More fuel changes nothing -/

theorem substitute_mono {σ : Sub} : ∀ n t r, substitute σ n t = some r → substitute σ (n + 1) t = some r := by
  intro n
  induction n with
  | zero => intro t r h; exact nomatch h
  | succ n ih =>
    intro t r h
    cases t with
    | con hd ps => exact h
    | param y =>
      rw [substitute] at h ⊢
      cases hy : σ y with
      | none => rw [hy] at h; exact h
      | some t => rw [hy] at h; exact ih t r h

theorem anyOf_mono {f g : Ty → Option Bool} (hfg : ∀ t r, f t = some r → g t = some r) : ∀ ps r, anyOf f ps = some r → anyOf g ps = some r := by
  intro ps
  induction ps with
  | nil => intro r h; exact h
  | cons p ps ih =>
    intro r h
    rw [anyOf] at h ⊢
    cases hp : f p with
    | none => rw [hp] at h; exact nomatch h
    | some b =>
      rw [hp] at h
      rw [hfg p b hp]
      cases b with
      | true => exact h
      | false => exact ih r h

theorem occursWithin_mono {σ : Sub} {x : Name} : ∀ n t r, occursWithin σ x n t = some r → occursWithin σ x (n + 1) t = some r := by
  intro n
  induction n with
  | zero => intro t r h; exact nomatch h
  | succ n ih =>
    intro t r h
    cases t with
    | con hd ps =>
      rw [occursWithin] at h ⊢
      exact anyOf_mono ih ps r h
    | param y =>
      rw [occursWithin] at h ⊢
      by_cases hy : y = x
      · rw [if_pos hy] at h ⊢; exact h
      · rw [if_neg hy] at h ⊢
        cases hs : σ y with
        | none => rw [hs] at h; exact h
        | some t => rw [hs] at h; exact ih t r h

theorem compareAll_mono {f g : Ty → Ty → Option Generality} (hfg : ∀ a b r, f a b = some r → g a b = some r) :
    ∀ ps qs r, compareAll f ps qs = some r → compareAll g ps qs = some r := by
  intro ps
  induction ps with
  | nil => intro qs r h; exact h
  | cons p ps ih =>
    intro qs r h
    cases qs with
    | nil => exact h
    | cons q qs =>
      rw [compareAll] at h ⊢
      cases h1 : f p q with
      | none => rw [h1] at h; exact nomatch h
      | some a =>
        rw [h1] at h
        rw [hfg p q a h1]
        cases h2 : compareAll f ps qs with
        | none => rw [h2] at h; exact nomatch h
        | some b =>
          rw [h2] at h
          rw [ih qs b h2]
          exact h

theorem compareGenerality_mono {legacy : Bool} {σ : Sub} : ∀ n a b r, compareGenerality legacy σ n a b = some r →
    compareGenerality legacy σ (n + 1) a b = some r := by
  intro n
  induction n with
  | zero => intro a b r h; exact nomatch h
  | succ n ih =>
    intro a b r h
    rw [compareGenerality] at h ⊢
    cases h1 : substitute σ n a with
    | none => rw [h1] at h; exact nomatch h
    | some f =>
      rw [h1] at h
      rw [substitute_mono n a f h1]
      cases h2 : substitute σ n b with
      | none => rw [h2] at h; exact nomatch h
      | some t =>
        rw [h2] at h
        rw [substitute_mono n b t h2]
        have h : (if f.eq t = true then some .equivalent
          else if (isUnion f && isSubsetOf t f) = true then some .more
          else if isUnion t = true then some .less
          else if (legacy && isLegacyNullable f && t.is .null) = true then some .more
          else if comparable f t = true then compareAll (compareGenerality legacy σ n) f.params t.params
          else some .equivalent) = some r := h
        show (if f.eq t = true then some .equivalent
          else if (isUnion f && isSubsetOf t f) = true then some .more
          else if isUnion t = true then some .less
          else if (legacy && isLegacyNullable f && t.is .null) = true then some .more
          else if comparable f t = true then compareAll (compareGenerality legacy σ (n + 1)) f.params t.params
          else some .equivalent) = some r
        split
        · rw [if_pos (by assumption)] at h; exact h
        · rw [if_neg (by assumption)] at h
          split
          · rw [if_pos (by assumption)] at h; exact h
          · rw [if_neg (by assumption)] at h
            split
            · rw [if_pos (by assumption)] at h; exact h
            · rw [if_neg (by assumption)] at h
              split
              · rw [if_pos (by assumption)] at h; exact h
              · rw [if_neg (by assumption)] at h
                split
                · rw [if_pos (by assumption)] at h; exact compareAll_mono ih _ _ _ h
                · rw [if_neg (by assumption)] at h; exact h

theorem assignAll_mono {f g : Ty → Ty → Pro → Option (Bool × Pro)} (hfg : ∀ a b P r, f a b P = some r → g a b P = some r) :
    ∀ ps qs P r, assignAll f ps qs P = some r → assignAll g ps qs P = some r := by
  intro ps
  induction ps with
  | nil => intro qs P r h; exact h
  | cons p ps ih =>
    intro qs P r h
    cases qs with
    | nil => exact h
    | cons q qs =>
      rw [assignAll] at h ⊢
      cases h1 : f p q P with
      | none => rw [h1] at h; exact nomatch h
      | some x =>
        obtain ⟨b, P1⟩ := x
        rw [h1] at h
        rw [hfg p q P _ h1]
        cases b with
        | true => exact ih qs P1 r h
        | false => exact h

theorem constraints_mono {B : Bindings} {n : Nat} {src dst : Ty} {P : Pro} {x : Bool × Pro}
    (h : assignWithConstraints B n src dst P = some x) : assignWithConstraints B (n + 1) src dst P = some x := by
  cases dst with
  | param y =>
    cases src with
    | param x => exact h
    | con hd ps =>
      rw [assignWithConstraints] at h ⊢
      cases ho : occursWithin (look B P.map) y n (.con hd ps) with
      | none => rw [ho] at h; exact nomatch h
      | some b => rw [ho] at h; rw [occursWithin_mono n _ b ho]; exact h
  | con hd ps =>
    cases src with
    | param x =>
      rw [assignWithConstraints] at h ⊢
      cases ho : occursWithin (look B P.map) x n (.con hd ps) with
      | none => rw [ho] at h; exact nomatch h
      | some b => rw [ho] at h; rw [occursWithin_mono n _ b ho]; exact h
    | con k qs => exact h

theorem widen_mono {legacy : Bool} {B : Bindings} {n : Nat} {f g : Ty → Ty → Pro → Option (Bool × Pro)}
    (hfg : ∀ a b P r, f a b P = some r → g a b P = some r) {src dst to : Ty} {P : Pro} {w : Option Pro}
    (h : tryWiden legacy B n f src dst to P = some w) : tryWiden legacy B (n + 1) g src dst to P = some w := by
  unfold tryWiden at h ⊢
  cases to with
  | con hd ps => exact h
  | param x =>
    dsimp only at h ⊢
    by_cases hx : (P.map x).isSome = true
    · rw [if_pos hx] at h ⊢
      cases hg : compareGenerality legacy (look B P.map) n src dst with
      | none => rw [hg] at h; exact nomatch h
      | some gen =>
        rw [hg] at h
        rw [compareGenerality_mono n _ _ _ hg]
        have h : (if gen = .more then (f dst src P).bind fun r =>
            if r.1 = true then (occursWithin (look B r.2.map) x n src).bind fun o =>
              if (!o) = true then some (some { r.2.bind x src with widened := true }) else some none
            else some none
          else some none) = some w := h
        show (if gen = .more then (g dst src P).bind fun r =>
            if r.1 = true then (occursWithin (look B r.2.map) x (n + 1) src).bind fun o =>
              if (!o) = true then some (some { r.2.bind x src with widened := true }) else some none
            else some none
          else some none) = some w
        by_cases hm : gen = .more
        · rw [if_pos hm] at h ⊢
          cases hr : f dst src P with
          | none => rw [hr] at h; exact nomatch h
          | some r =>
            obtain ⟨b, P1⟩ := r
            rw [hr] at h
            rw [hfg _ _ _ _ hr]
            cases b with
            | false => exact h
            | true =>
              have h : ((occursWithin (look B P1.map) x n src).bind fun o =>
                if (!o) = true then some (some { P1.bind x src with widened := true }) else some none) = some w := h
              show ((occursWithin (look B P1.map) x (n + 1) src).bind fun o =>
                if (!o) = true then some (some { P1.bind x src with widened := true }) else some none) = some w
              cases ho : occursWithin (look B P1.map) x n src with
              | none => rw [ho] at h; exact nomatch h
              | some o => rw [ho] at h; rw [occursWithin_mono n _ o ho]; exact h
        · rw [if_neg hm] at h ⊢; exact h
    · rw [if_neg hx] at h ⊢; exact h

theorem concrete_mono {legacy : Bool} {f g : Ty → Ty → Pro → Option (Bool × Pro)}
    (hfg : ∀ a b P r, f a b P = some r → g a b P = some r) {src dst : Ty} {P : Pro} {x : Bool × Pro}
    (h : assignConcrete legacy f src dst P = some x) : assignConcrete legacy g src dst P = some x := by
  unfold assignConcrete at h ⊢
  cases hw : wrapperToPrimitive dst with
  | some p =>
    rw [hw] at h
    dsimp only at h ⊢
    split
    · rw [if_pos (by assumption)] at h; exact h
    · rw [if_neg (by assumption)] at h; exact hfg _ _ _ _ h
  | none =>
    rw [hw] at h
    dsimp only at h ⊢
    cases hw2 : wrapperToPrimitive src with
    | some p =>
      rw [hw2] at h
      exact hfg _ _ _ _ h
    | none =>
      rw [hw2] at h
      dsimp only at h ⊢
      split
      · rw [if_pos (by assumption)] at h; exact h
      rw [if_neg (by assumption)] at h
      split
      · rw [if_pos (by assumption)] at h; exact h
      rw [if_neg (by assumption)] at h
      split
      · rw [if_pos (by assumption)] at h; exact h
      rw [if_neg (by assumption)] at h
      split
      · rw [if_pos (by assumption)] at h; exact h
      rw [if_neg (by assumption)] at h
      split
      · rw [if_pos (by assumption)] at h; exact h
      rw [if_neg (by assumption)] at h
      split
      · rw [if_pos (by assumption)] at h; exact h
      rw [if_neg (by assumption)] at h
      split
      · rw [if_pos (by assumption)] at h; exact h
      rw [if_neg (by assumption)] at h
      split
      · rw [if_pos (by assumption)] at h; exact h
      rw [if_neg (by assumption)] at h
      exact assignAll_mono hfg _ _ _ _ h

/-- `assign` from its parts. -/
theorem assign_of {legacy : Bool} {B : Bindings} {n : Nat} {src to : Ty} {P : Pro} {x : Bool × Pro} {dst f : Ty}
    (hd : substitute (look B P.map) n to = some dst) (hf : substitute (look B P.map) n src = some f)
    (h : (dst.eq f = true ∧ x = (true, P)) ∨
       (dst.eq f = false ∧ (dst.isParam || f.isParam) = true ∧ assignWithConstraints B n f dst P = some x) ∨
       (dst.eq f = false ∧ (dst.isParam || f.isParam) = false ∧
         ((∃ P', tryWiden legacy B n (assign legacy B n) f dst to P = some (some P') ∧ x = (true, P')) ∨
          (tryWiden legacy B n (assign legacy B n) f dst to P = some none ∧ assignConcrete legacy (assign legacy B n) f dst P = some x)))) :
    assign legacy B (n + 1) src to P = some x := by
  rw [assign, hd, hf]
  show (if dst.eq f = true then some (true, P)
    else if (dst.isParam || f.isParam) = true then assignWithConstraints B n f dst P
    else (tryWiden legacy B n (assign legacy B n) f dst to P).bind fun w => match w with
      | some P' => some (true, P')
      | none => assignConcrete legacy (assign legacy B n) f dst P) = some x
  rcases h with ⟨h1, h2⟩ | ⟨h1, h2, h3⟩ | ⟨h1, h2, ⟨P', h3, h4⟩ | ⟨h3, h4⟩⟩
  · rw [if_pos h1, h2]
  · rw [if_neg (by rw [h1]; simp), if_pos h2, h3]
  · rw [if_neg (by rw [h1]; simp), if_neg (by rw [h2]; simp), h3, h4]; rfl
  · rw [if_neg (by rw [h1]; simp), if_neg (by rw [h2]; simp), h3]; exact h4

theorem assign_mono {legacy : Bool} {B : Bindings} : ∀ n src to P x, assign legacy B n src to P = some x →
    assign legacy B (n + 1) src to P = some x := by
  intro n
  induction n with
  | zero => intro src to P x h; exact nomatch h
  | succ n ih =>
    intro src to P x h
    obtain ⟨dst, f, hd, hf, hc⟩ := assign_cases h
    refine assign_of (substitute_mono _ _ _ hd) (substitute_mono _ _ _ hf) ?_
    rcases hc with hc | ⟨h1, h2, h3⟩ | ⟨h1, h2, ⟨P', h3, h4⟩ | ⟨h3, h4⟩⟩
    · exact .inl hc
    · exact .inr (.inl ⟨h1, h2, constraints_mono h3⟩)
    · exact .inr (.inr ⟨h1, h2, .inl ⟨P', widen_mono ih h3, h4⟩⟩)
    · exact .inr (.inr ⟨h1, h2, .inr ⟨widen_mono ih h3, concrete_mono ih h4⟩⟩)

theorem le_of_mono {α β : Type} {f : Nat → α → Option β} (h : ∀ n a r, f n a = some r → f (n + 1) a = some r) {n m : Nat} (hnm : n ≤ m)
    {a : α} {r : β} (hr : f n a = some r) : f m a = some r := by
  induction hnm with
  | refl => exact hr
  | step _ ih => exact h _ _ _ ih

theorem substitute_le {σ : Sub} {n m : Nat} (hnm : n ≤ m) {t r : Ty} (h : substitute σ n t = some r) : substitute σ m t = some r :=
  le_of_mono substitute_mono hnm h
theorem occursWithin_le {σ : Sub} {x : Name} {n m : Nat} (hnm : n ≤ m) {t : Ty} {r : Bool} (h : occursWithin σ x n t = some r) :
    occursWithin σ x m t = some r := le_of_mono occursWithin_mono hnm h
theorem compareGenerality_le {legacy : Bool} {σ : Sub} {n m : Nat} (hnm : n ≤ m) {a b : Ty} {r : Generality}
    (h : compareGenerality legacy σ n a b = some r) : compareGenerality legacy σ m a b = some r :=
  le_of_mono (f := fun n (q : Ty × Ty) => compareGenerality legacy σ n q.1 q.2) (fun n q r => compareGenerality_mono n q.1 q.2 r) hnm
    (a := (a, b)) h
theorem assign_le {legacy : Bool} {B : Bindings} {n m : Nat} (hnm : n ≤ m) {a b : Ty} {P : Pro} {r : Bool × Pro}
    (h : assign legacy B n a b P = some r) : assign legacy B m a b P = some r :=
  le_of_mono (f := fun n (q : Ty × Ty × Pro) => assign legacy B n q.1 q.2.1 q.2.2) (fun n q r => assign_mono n q.1 q.2.1 q.2.2 r) hnm
    (a := (a, b, P)) h
theorem widen_le {legacy : Bool} {B : Bindings} {n m : Nat} (hnm : n ≤ m) {a b to : Ty} {P : Pro} {w : Option Pro}
    (h : tryWiden legacy B n (assign legacy B n) a b to P = some w) : tryWiden legacy B m (assign legacy B m) a b to P = some w :=
  le_of_mono (f := fun n (_ : Unit) => tryWiden legacy B n (assign legacy B n) a b to P) (fun n _ _ h => widen_mono (assign_mono n) h) hnm
    (a := ()) h
theorem assignAll_le {legacy : Bool} {B : Bindings} {n m : Nat} (hnm : n ≤ m) {ps qs : List Ty} {P : Pro} {r : Bool × Pro}
    (h : assignAll (assign legacy B n) ps qs P = some r) : assignAll (assign legacy B m) ps qs P = some r :=
  assignAll_mono (fun _ _ _ _ h => assign_le hnm h) ps qs P r h

/-! ## Enough fuel exists -/

theorem substitute_total {σ : Sub} (h : WF σ) (t : Ty) : ∃ n r, substitute σ n t = some r := by
  induction h.apply t with
  | intro t _ ih =>
    cases t with
    | con hd ps => exact ⟨1, _, rfl⟩
    | param x =>
      cases hx : σ x with
      | none => exact ⟨1, .param x, by rw [substitute, hx]⟩
      | some t =>
        obtain ⟨n, r, hr⟩ := ih t (.inr ⟨x, rfl, hx⟩)
        exact ⟨n + 1, r, by rw [substitute, hx]; exact hr⟩

theorem occursWithin_total {σ : Sub} (h : WF σ) (x : Name) (t : Ty) : ∃ n r, occursWithin σ x n t = some r := by
  induction h.apply t with
  | intro t _ ih =>
    cases t with
    | con hd ps =>
      have : ∀ qs : List Ty, (∀ q ∈ qs, q ∈ ps) → ∃ n r, anyOf (occursWithin σ x n) qs = some r := by
        intro qs
        induction qs with
        | nil => intro _; exact ⟨0, false, rfl⟩
        | cons q qs ih2 =>
          intro hq
          obtain ⟨n1, r1, h1⟩ := ih q (.inl (hq q (by simp)))
          obtain ⟨n2, r2, h2⟩ := ih2 (fun q hq' => hq q (by simp [hq']))
          cases r1 with
          | true => exact ⟨n1, true, by rw [anyOf, h1]⟩
          | false =>
            refine ⟨max n1 n2, r2, ?_⟩
            rw [anyOf, occursWithin_le (Nat.le_max_left _ _) h1]
            exact anyOf_mono (fun t r h => occursWithin_le (Nat.le_max_right n1 n2) h) qs r2 h2
      obtain ⟨n, r, hr⟩ := this ps (fun _ h => h)
      exact ⟨n + 1, r, by rw [occursWithin]; exact hr⟩
    | param y =>
      by_cases hy : y = x
      · exact ⟨1, true, by rw [occursWithin, if_pos hy]⟩
      · cases hs : σ y with
        | none => exact ⟨1, false, by rw [occursWithin, if_neg hy, hs]⟩
        | some t =>
          obtain ⟨n, r, hr⟩ := ih t (.inr ⟨y, rfl, hs⟩)
          exact ⟨n + 1, r, by rw [occursWithin, if_neg hy, hs]; exact hr⟩

theorem params_step {σ : Sub} {f t p : Ty} (h : Below σ f t) (hp : p ∈ f.params) : TransGen (Step σ) p t :=
  TransGen.head' (.inl hp) h

theorem compareGenerality_total {legacy : Bool} {σ : Sub} (h : WF σ) (a : Ty) : ∀ b, ∃ n r, compareGenerality legacy σ n a b = some r := by
  induction h.transGen.apply a with
  | intro a _ ih =>
    intro b
    obtain ⟨n1, f, h1⟩ := substitute_total h a
    obtain ⟨n2, t, h2⟩ := substitute_total h b
    have hb := (substitute_below _ _ _ h1).1
    have all : ∀ ps qs : List Ty, (∀ p ∈ ps, p ∈ f.params) → ∃ n r, compareAll (compareGenerality legacy σ n) ps qs = some r := by
      intro ps
      induction ps with
      | nil => intro qs _; exact ⟨0, .equivalent, by rw [compareAll]; intro _ _ _ _ e; exact nomatch e⟩
      | cons p ps ih2 =>
        intro qs hp
        cases qs with
        | nil => exact ⟨0, .equivalent, by rw [compareAll]; intro _ _ _ _ _ e; exact nomatch e⟩
        | cons q qs =>
          obtain ⟨m1, r1, e1⟩ := ih p (params_step hb (hp p (by simp))) q
          obtain ⟨m2, r2, e2⟩ := ih2 qs (fun p hp' => hp p (by simp [hp']))
          refine ⟨max m1 m2, r1.both r2, ?_⟩
          rw [compareAll, compareGenerality_le (Nat.le_max_left _ _) e1,
            compareAll_mono (fun a b r h => compareGenerality_le (Nat.le_max_right m1 m2) h) ps qs r2 e2]
          rfl
    obtain ⟨n3, r3, h3⟩ := all f.params t.params (fun _ h => h)
    let N := max (max n1 n2) n3
    have g1 : substitute σ N a = some f := substitute_le (by omega) h1
    have g2 : substitute σ N b = some t := substitute_le (by omega) h2
    have g3 : compareAll (compareGenerality legacy σ N) f.params t.params = some r3 :=
      compareAll_mono (fun a b r h => compareGenerality_le (show n3 ≤ N by omega) h) _ _ _ h3
    refine ⟨N + 1, ?_⟩
    rw [compareGenerality, g1, g2]
    show ∃ r, (if f.eq t = true then some .equivalent
          else if (isUnion f && isSubsetOf t f) = true then some .more
          else if isUnion t = true then some .less
          else if (legacy && isLegacyNullable f && t.is .null) = true then some .more
          else if comparable f t = true then compareAll (compareGenerality legacy σ N) f.params t.params
          else some .equivalent) = some r
    rw [g3]
    split
    · exact ⟨_, rfl⟩
    split
    · exact ⟨_, rfl⟩
    split
    · exact ⟨_, rfl⟩
    split
    · exact ⟨_, rfl⟩
    split
    · exact ⟨_, rfl⟩
    · exact ⟨_, rfl⟩

theorem constraints_total {B : Bindings} {P : Pro} (h : WF (look B P.map)) (src dst : Ty) :
    ∃ n x, assignWithConstraints B n src dst P = some x := by
  cases dst with
  | param y =>
    cases src with
    | param x =>
      refine ⟨0, ?_⟩
      rw [assignWithConstraints]
      split
      · exact ⟨_, rfl⟩
      · exact ⟨_, rfl⟩
    | con hd ps =>
      obtain ⟨n, r, hr⟩ := occursWithin_total h y (.con hd ps)
      refine ⟨n, ?_⟩
      rw [assignWithConstraints, hr]
      cases r
      · exact ⟨_, rfl⟩
      · exact ⟨_, rfl⟩
  | con hd ps =>
    cases src with
    | param x =>
      obtain ⟨n, r, hr⟩ := occursWithin_total h x (.con hd ps)
      refine ⟨n, ?_⟩
      rw [assignWithConstraints, hr]
      cases r
      · exact ⟨_, rfl⟩
      · exact ⟨_, rfl⟩
    | con k qs => exact ⟨0, _, rfl⟩

theorem constraints_le {B : Bindings} {n m : Nat} (hnm : n ≤ m) {src dst : Ty} {P : Pro} {x : Bool × Pro}
    (h : assignWithConstraints B n src dst P = some x) : assignWithConstraints B m src dst P = some x :=
  le_of_mono (f := fun n (_ : Unit) => assignWithConstraints B n src dst P) (fun _ _ _ h => constraints_mono h) hnm (a := ()) h

theorem wrapper_none {b : Base} (hb : b ∈ [Base.bool, .bytes, .double, .string, .int, .uint]) : wrapperToPrimitive (.b b) = none := by
  simp at hb
  rcases hb with rfl | rfl | rfl | rfl | rfl | rfl <;> rfl

theorem wrapper_prim' {t p : Ty} (h : wrapperToPrimitive t = some p) : ∃ b, b ∈ [Base.bool, .bytes, .double, .string, .int, .uint] ∧ p = .b b := by
  unfold wrapperToPrimitive at h
  split at h <;> first | (injection h with h; exact ⟨_, by simp, h.symm⟩) | exact nomatch h

/-- A check between two types that are no parameters, one level down. -/
theorem assign_con {legacy : Bool} {B : Bindings} {n : Nat} {h k : Head} {ps qs : List Ty} {P : Pro} :
    assign legacy B (n + 2) (.con h ps) (.con k qs) P =
      if (Ty.con k qs).eq (.con h ps) = true then some (true, P)
      else assignConcrete legacy (assign legacy B (n + 1)) (.con h ps) (.con k qs) P := by
  conv_lhs => rw [assign]
  rfl

/-- Between two types without parameters to compare the check needs no recursion. -/
theorem concrete_flat {legacy : Bool} {f g : Ty → Ty → Pro → Option (Bool × Pro)} {src dst : Ty} {P : Pro}
    (h1 : wrapperToPrimitive src = none) (h2 : wrapperToPrimitive dst = none) (h : src.params = [] ∨ dst.params = []) :
    ∃ x, assignConcrete legacy f src dst P = some x := by
  unfold assignConcrete
  rw [h1, h2]
  dsimp only
  split
  · exact ⟨_, rfl⟩
  split
  · exact ⟨_, rfl⟩
  split
  · exact ⟨_, rfl⟩
  split
  · exact ⟨_, rfl⟩
  split
  · exact ⟨_, rfl⟩
  split
  · exact ⟨_, rfl⟩
  split
  · exact ⟨_, rfl⟩
  split
  · exact ⟨_, rfl⟩
  rename_i hl
  have : src.params = [] := by
    rcases h with h | h
    · exact h
    · rw [h] at hl
      simp at hl
      exact List.eq_nil_of_length_eq_zero hl.symm
  rw [this]
  exact ⟨_, by rw [assignAll]; intro _ _ _ _ e; exact nomatch e⟩

/-- A primitive type against anything that is no parameter: three levels are enough. -/
theorem prim_total {legacy : Bool} {B : Bindings} {b : Base} (hb : b ∈ [Base.bool, .bytes, .double, .string, .int, .uint])
    (k : Head) (qs : List Ty) (P : Pro) : ∃ x, assign legacy B 3 (.b b) (.con k qs) P = some x := by
  unfold Ty.b
  rw [assign_con]
  split
  · exact ⟨_, rfl⟩
  · cases hw : wrapperToPrimitive (.con k qs) with
    | none => exact concrete_flat (g := fun _ _ _ => none) (wrapper_none hb) hw (.inl rfl)
    | some p =>
      obtain ⟨c, hc, rfl⟩ := wrapper_prim' hw
      unfold assignConcrete
      rw [hw]
      dsimp only
      split
      · exact ⟨_, rfl⟩
      · unfold Ty.b
        rw [assign_con]
        split
        · exact ⟨_, rfl⟩
        · exact concrete_flat (g := fun _ _ _ => none) (wrapper_none hc) (wrapper_none hb) (.inl rfl)

/-- Everything below some types. -/
def Covers (L : List Ty) (σ : Sub) (a b : Ty) : Prop := ∀ t, Below σ t a ∨ Below σ t b → t ∈ L

theorem finite_below {σ : Sub} (h : WF σ) (a : Ty) : ∃ L : List Ty, ∀ t, Below σ t a → t ∈ L := by
  induction h.apply a with
  | intro a _ ih =>
    have params : ∀ ps : List Ty, (∀ p ∈ ps, p ∈ a.params) → ∃ L : List Ty, ∀ p ∈ ps, ∀ t, Below σ t p → t ∈ L := by
      intro ps
      induction ps with
      | nil => intro _; exact ⟨[], fun p hp => nomatch hp⟩
      | cons p ps ih2 =>
        intro hp
        obtain ⟨L1, h1⟩ := ih p (.inl (hp p (by simp)))
        obtain ⟨L2, h2⟩ := ih2 (fun q hq => hp q (by simp [hq]))
        refine ⟨L1 ++ L2, fun q hq t ht => ?_⟩
        rcases List.mem_cons.mp hq with rfl | hq
        · exact List.mem_append_left _ (h1 t ht)
        · exact List.mem_append_right _ (h2 q hq t ht)
    obtain ⟨L1, h1⟩ := params a.params (fun _ h => h)
    have deref : ∃ L : List Ty, ∀ x b, a = .param x → σ x = some b → ∀ t, Below σ t b → t ∈ L := by
      cases a with
      | con hd ps => exact ⟨[], fun x b e => nomatch e⟩
      | param y =>
        cases hy : σ y with
        | none => exact ⟨[], fun x b e hx => by injection e with e; rw [← e, hy] at hx; exact nomatch hx⟩
        | some c =>
          obtain ⟨L, hL⟩ := ih c (.inr ⟨y, rfl, hy⟩)
          refine ⟨L, fun x b e hx t ht => ?_⟩
          injection e with e
          rw [← e, hy] at hx
          injection hx with hx
          rw [← hx] at ht
          exact hL t ht
    obtain ⟨L2, h2⟩ := deref
    refine ⟨a :: (L1 ++ L2), fun t ht => ?_⟩
    rcases ReflTransGen.cases_tail ht with e | ⟨c, hc, hs⟩
    · rw [← e]; simp
    · rcases hs with hs | ⟨x, e, hs⟩
      · exact List.mem_cons_of_mem _ (List.mem_append_left _ (h1 c hs t hc))
      · exact List.mem_cons_of_mem _ (List.mem_append_right _ (h2 x c e hs t hc))

theorem remove_one {L : List Ty} {a : Ty} (ha : a ∈ L) : ∃ L' : List Ty, L'.length < L.length ∧ ∀ t ∈ L, t ≠ a → t ∈ L' := by
  induction L with
  | nil => exact nomatch ha
  | cons b L ih =>
    rcases List.mem_cons.mp ha with rfl | ha
    · refine ⟨L, by simp, fun t ht hne => ?_⟩
      rcases List.mem_cons.mp ht with rfl | ht
      · exact absurd rfl hne
      · exact ht
    · obtain ⟨L', h1, h2⟩ := ih ha
      refine ⟨b :: L', by simp; omega, fun t ht hne => ?_⟩
      rcases List.mem_cons.mp ht with rfl | ht
      · simp
      · exact List.mem_cons_of_mem _ (h2 t ht hne)

/-- What is below `a` or `b`, and the primitive types. -/
def Around (σ : Sub) (a b : Ty) (t : Ty) : Prop := Below σ t a ∨ Below σ t b ∨ ∃ p, t = .b p

theorem around_prims (σ : Sub) (a b : Ty) : Prims (Around σ a b) := fun p => .inr (.inr ⟨p, rfl⟩)

theorem around_closed (σ : Sub) (a b : Ty) : Closed (Around σ a b) σ := by
  intro t u ht hs
  rcases ht with h | h | ⟨p, rfl⟩
  · exact .inl (.head hs h)
  · exact .inr (.inl (.head hs h))
  · exact nomatch step_con hs

/-- What the induction provides: checks around a smaller set of types come to an end. -/
def Total (legacy : Bool) (B : Bindings) (m : Nat) : Prop :=
  ∀ (L : List Ty), L.length < m → (∀ p, Ty.b p ∈ L) → ∀ P src to, WF (look B P.map) → Covers L (look B P.map) src to →
    ∃ n x, assign legacy B n src to P = some x

/-- The parameters of two types that are no type parameters are compared in the end. -/
theorem params_total {legacy : Bool} {B : Bindings} {L : List Ty} (ih : Total legacy B L.length) (hL : ∀ p, Ty.b p ∈ L) {a b : Ty}
    {σ : Sub} (hc : Covers L σ a b) : ∀ ps qs : List Ty, (∀ p ∈ ps, p ∈ a.params) → (∀ q ∈ qs, q ∈ b.params) → ∀ P,
      Inv (Around σ a b) B P → ∃ n x, assignAll (assign legacy B n) ps qs P = some x := by
  intro ps
  induction ps with
  | nil => intro qs _ _ P _; exact ⟨0, _, by rw [assignAll]; intro _ _ _ _ e; exact nomatch e⟩
  | cons p ps ih2 =>
    intro qs hp hq P hi
    cases qs with
    | nil => exact ⟨0, _, by rw [assignAll]; intro _ _ _ _ _ e; exact nomatch e⟩
    | cons q qs =>
      have pa := hp p (by simp)
      have qb := hq q (by simp)
      have sa : Around σ a b a := .inl .refl
      have sb : Around σ a b b := .inr (.inl .refl)
      have sp : Around σ a b p := hi.2 a p sa (.inl pa)
      have sq : Around σ a b q := hi.2 b q sb (.inl qb)
      have mem : ∀ t, Around σ a b t → t ∈ L := by
        rintro t (h | h | ⟨p, rfl⟩)
        · exact hc t (.inl h)
        · exact hc t (.inr h)
        · exact hL p
      -- one of the two is out of reach now
      have out : ∃ c, (c = a ∨ c = b) ∧ ∀ t, (Below (look B P.map) t p ∨ Below (look B P.map) t q) → t ≠ c := by
        by_cases ha : Below (look B P.map) a p ∨ Below (look B P.map) a q
        · refine ⟨b, .inr rfl, ?_⟩
          rintro t ht rfl
          have pa' : Step (look B P.map) p a := .inl pa
          have qb' : Step (look B P.map) q t := .inl qb
          rcases ha with ha | ha
          · exact wf_irrefl hi.1 (TransGen.tail' ha pa')
          · rcases ht with ht | ht
            · exact wf_irrefl hi.1 ((TransGen.tail' ha qb').trans (TransGen.tail' ht pa'))
            · exact wf_irrefl hi.1 (TransGen.tail' ht qb')
        · refine ⟨a, .inl rfl, ?_⟩
          rintro t ht rfl
          exact ha ht
      obtain ⟨c, hcab, hout⟩ := out
      have hcp : c.params ≠ [] := by
        rcases hcab with rfl | rfl
        · intro e; rw [e] at pa; exact nomatch pa
        · intro e; rw [e] at qb; exact nomatch qb
      have hcL : c ∈ L := by
        rcases hcab with rfl | rfl
        · exact mem _ sa
        · exact mem _ sb
      obtain ⟨L', hlen, hL'⟩ := remove_one hcL
      have one : ∃ n x, assign legacy B n p q P = some x := by
        refine ih L' hlen (fun b => hL' _ (hL b) ?_) P p q hi.1 (fun t ht => hL' t ?_ (hout t ht))
        · rintro rfl; exact hcp rfl
        · rcases ht with ht | ht
          · exact mem _ (closed_below hi.2 ht sp)
          · exact mem _ (closed_below hi.2 ht sq)
      obtain ⟨n1, ⟨r, P1⟩, h1⟩ := one
      cases r with
      | false => exact ⟨n1, (false, P1), by rw [assignAll, h1]⟩
      | true =>
        have hi1 : Inv (Around σ a b) B P1 := assign_inv (around_prims σ a b) _ _ _ _ _ _ h1 hi sp sq
        obtain ⟨n2, x, h2⟩ := ih2 qs (fun p h => hp p (by simp [h])) (fun q h => hq q (by simp [h])) P1 hi1
        refine ⟨max n1 n2, x, ?_⟩
        rw [assignAll, assign_le (Nat.le_max_left _ _) h1]
        exact assignAll_le (Nat.le_max_right _ _) h2

theorem concrete_total {legacy : Bool} {B : Bindings} {L : List Ty} (ih : Total legacy B L.length) (hL : ∀ p, Ty.b p ∈ L) {h k : Head}
    {ps qs : List Ty} {P : Pro} (wf : WF (look B P.map)) (hc : Covers L (look B P.map) (.con h ps) (.con k qs)) :
    ∃ n x, assignConcrete legacy (assign legacy B n) (.con h ps) (.con k qs) P = some x := by
  obtain ⟨n, x, hx⟩ := params_total ih hL hc ps qs (fun _ h => h) (fun _ h => h) P ⟨wf, around_closed _ _ _⟩
  refine ⟨max n 3, ?_⟩
  have hx' : assignAll (assign legacy B (max n 3)) (Ty.con h ps).params (Ty.con k qs).params P = some x :=
    assignAll_le (Nat.le_max_left _ _) hx
  unfold assignConcrete
  rw [hx']
  split
  · rename_i p hw
    obtain ⟨c, hc, rfl⟩ := wrapper_prim' hw
    split
    · exact ⟨_, rfl⟩
    · obtain ⟨y, hy⟩ := prim_total (legacy := legacy) (B := B) hc h ps P
      exact ⟨y, assign_le (Nat.le_max_right _ _) hy⟩
  · split
    · rename_i p hw
      obtain ⟨c, hc, rfl⟩ := wrapper_prim' hw
      obtain ⟨y, hy⟩ := prim_total (legacy := legacy) (B := B) hc k qs P
      exact ⟨y, assign_le (Nat.le_max_right _ _) hy⟩
    · repeat' split
      all_goals exact ⟨_, rfl⟩

theorem con_total {legacy : Bool} {B : Bindings} {L : List Ty} (ih : Total legacy B L.length) (hL : ∀ p, Ty.b p ∈ L) {h k : Head}
    {ps qs : List Ty} {P : Pro} (wf : WF (look B P.map)) (hc : Covers L (look B P.map) (.con h ps) (.con k qs)) :
    ∃ n x, assign legacy B n (.con h ps) (.con k qs) P = some x := by
  obtain ⟨n, x, hx⟩ := concrete_total ih hL wf hc
  refine ⟨n + 2, ?_⟩
  rw [assign_con]
  split
  · exact ⟨_, rfl⟩
  · exact ⟨x, concrete_mono (fun _ _ _ _ h => assign_le (Nat.le_succ n) h) hx⟩

theorem widen_total {legacy : Bool} {B : Bindings} {L : List Ty} (ih : Total legacy B L.length) (hL : ∀ p, Ty.b p ∈ L) {h k : Head}
    {ps qs : List Ty} {P : Pro} (wf : WF (look B P.map)) (hc : Covers L (look B P.map) (.con k qs) (.con h ps)) (to : Ty) :
    ∃ n x, tryWiden legacy B n (assign legacy B n) (.con h ps) (.con k qs) to P = some x := by
  cases to with
  | con _ _ => exact ⟨0, none, rfl⟩
  | param x =>
    obtain ⟨n1, g, h1⟩ := compareGenerality_total (legacy := legacy) wf (.con h ps) (.con k qs)
    obtain ⟨n2, ⟨r, P1⟩, h2⟩ := con_total ih hL wf hc
    have wf1 : WF (look B P1.map) := by
      have := assign_inv (S := fun _ => True) (fun _ => trivial) _ _ _ _ _ _ h2 ⟨wf, fun _ _ _ _ => trivial⟩ trivial trivial
      exact this.1
    obtain ⟨n3, o, h3⟩ := occursWithin_total wf1 x (.con h ps)
    refine ⟨max n1 (max n2 n3), ?_⟩
    unfold tryWiden
    rw [compareGenerality_le (by omega) h1, assign_le (by omega) h2]
    dsimp only
    split
    · show ∃ x_1, (if g = .more then (if r = true then (occursWithin (look B P1.map) x (max n1 (max n2 n3)) (.con h ps)).bind fun o =>
          if (!o) = true then some (some { P1.bind x (.con h ps) with widened := true }) else some none else some none) else some none) =
          some x_1
      rw [occursWithin_le (show n3 ≤ max n1 (max n2 n3) by omega) h3]
      show ∃ x_1, (if g = .more then (if r = true then (if (!o) = true then some (some { P1.bind x (.con h ps) with widened := true })
        else some none) else some none) else some none) = some x_1
      repeat' split
      all_goals exact ⟨_, rfl⟩
    · exact ⟨_, rfl⟩

theorem total (legacy : Bool) (B : Bindings) : ∀ m, Total legacy B m := by
  intro m
  induction m with
  | zero => intro L h; exact absurd h (Nat.not_lt_zero _)
  | succ m ih =>
    intro L hlen hL P src to wf hc
    have ih : Total legacy B L.length := fun L' h => ih L' (by omega)
    obtain ⟨n1, dst, h1⟩ := substitute_total wf to
    obtain ⟨n2, f, h2⟩ := substitute_total wf src
    have b1 := (substitute_below _ _ _ h1).1
    have b2 := (substitute_below _ _ _ h2).1
    cases e : dst.eq f with
    | true =>
      exact ⟨max n1 n2 + 1, (true, P), assign_of (substitute_le (by omega) h1) (substitute_le (by omega) h2) (.inl ⟨e, rfl⟩)⟩
    | false =>
      cases hp : dst.isParam || f.isParam with
      | true =>
        obtain ⟨n3, x, h3⟩ := constraints_total wf f dst
        exact ⟨max n1 (max n2 n3) + 1, x, assign_of (substitute_le (by omega) h1) (substitute_le (by omega) h2)
          (.inr (.inl ⟨e, hp, constraints_le (by omega) h3⟩))⟩
      | false =>
        cases f with
        | param x => cases dst <;> exact nomatch hp
        | con h ps =>
          cases dst with
          | param x => exact nomatch hp
          | con k qs =>
            have c1 : Covers L (look B P.map) (.con h ps) (.con k qs) := by
              rintro t (ht | ht)
              · exact hc t (.inl (ht.trans b2))
              · exact hc t (.inr (ht.trans b1))
            have c2 : Covers L (look B P.map) (.con k qs) (.con h ps) := fun t ht => c1 t ht.symm
            obtain ⟨n3, w, h3⟩ := widen_total ih hL wf c2 to
            obtain ⟨n4, y, h4⟩ := concrete_total ih hL wf c1
            let N := max (max n1 n2) (max n3 n4)
            have g3 : tryWiden legacy B N (assign legacy B N) (.con h ps) (.con k qs) to P = some w := widen_le (by omega) h3
            have g4 : assignConcrete legacy (assign legacy B N) (.con h ps) (.con k qs) P = some y :=
              concrete_mono (fun _ _ _ _ h => assign_le (show n4 ≤ N by omega) h) h4
            cases w with
            | some P' =>
              exact ⟨N + 1, (true, P'), assign_of (substitute_le (by omega) h1) (substitute_le (by omega) h2)
                (.inr (.inr ⟨e, hp, .inl ⟨P', g3, rfl⟩⟩))⟩
            | none =>
              exact ⟨N + 1, y, assign_of (substitute_le (by omega) h1) (substitute_le (by omega) h2)
                (.inr (.inr ⟨e, hp, .inr ⟨g3, g4⟩⟩))⟩

def allBases : List Ty :=
  [.b .null, .b .bool, .b .int, .b .uint, .b .double, .b .string, .b .bytes, .b .duration, .b .timestamp, .b .any, .b .dyn, .b .error,
   .b .unknown, .b .boolWrapper, .b .intWrapper, .b .uintWrapper, .b .doubleWrapper, .b .stringWrapper, .b .bytesWrapper]

theorem mem_allBases (p : Base) : Ty.b p ∈ allBases := by
  cases p <;> simp [allBases]

/-- Every check comes to an end. -/
theorem assign_total {legacy : Bool} {B : Bindings} {P : Pro} (wf : WF (look B P.map)) (src to : Ty) :
    ∃ n x, assign legacy B n src to P = some x := by
  obtain ⟨L1, h1⟩ := finite_below wf src
  obtain ⟨L2, h2⟩ := finite_below wf to
  refine total legacy B ((L1 ++ L2 ++ allBases).length + 1) (L1 ++ L2 ++ allBases) (Nat.lt_succ_self _)
    (fun p => List.mem_append_right _ (mem_allBases p)) P src to wf ?_
  rintro t (ht | ht)
  · exact List.mem_append_left _ (List.mem_append_left _ (h1 t ht))
  · exact List.mem_append_left _ (List.mem_append_right _ (h2 t ht))

end Cel.Checker
