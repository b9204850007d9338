import Verif.Checker.Assign

/-!
# C37: the theorems
-/

set_option linter.unusedSimpArgs false
set_option linter.unusedVariables false

namespace Cel.Checker
open Relation

/-! ## Histories of the checker

What the checker hands to its inference context: types as it builds them, over type variables it has instantiated. -/

/-- A type from a declaration: no type variables in it. -/
def Declared (t : Ty) : Prop := Shaped t ∧ ∀ x, Occurs x t → isTypeVar x = false

def Good (c : Ctx) (t : Ty) : Prop := Shaped t ∧ Known c t

def Op.Ok (c : Ctx) : Op → Prop
  | .instantiate t m => Shaped t ∧ (∀ x, Occurs x t → isTypeVar x = true → c.bindings x ≠ none) ∧ ∀ x y, m x = some y → c.bindings y ≠ none
  | .assignable src dst => Good c src ∧ Good c dst
  | .resolve d args _ => (∀ a ∈ args, Good c a) ∧ ∀ o ∈ d.overloads, Declared o.result ∧ ∀ a ∈ o.args, Declared a
  | .session checks _ => ∀ q ∈ checks, Good c q.1 ∧ Good c q.2

inductive Built : Ctx → Prop
  | start (legacy : Bool) : Built (.new legacy)
  | step {c c' : Ctx} (op : Op) (n : Nat) : Built c → op.Ok c → op.run n c = some c' → Built c'

theorem Built.reachable {c : Ctx} (h : Built c) : Reachable c := by
  induction h with
  | start legacy => exact .start legacy
  | step op n _ _ h ih => exact .step op n ih h

/-- No instantiated variable is forgotten. -/
def Keeps (c c' : Ctx) : Prop := ∀ x, c.bindings x ≠ none → c'.bindings x ≠ none

theorem good_keeps {c c' : Ctx} (hk : Keeps c c') {t : Ty} (h : Good c t) : Good c' t := ⟨h.1, fun x hx => hk x (h.2 x hx)⟩

theorem keeps_trans {a b c : Ctx} (h1 : Keeps a b) (h2 : Keeps b c) : Keeps a c := fun x h => h2 x (h1 x h)

theorem newVar_keeps (c : Ctx) : Keeps c c.newVar.2 := by
  intro x hx
  unfold Ctx.newVar
  dsimp
  split
  · cases hb : c.bindings x <;> simp
  · exact hx

theorem newVar_known (c : Ctx) : c.newVar.2.bindings c.newVar.1 ≠ none := by
  unfold Ctx.newVar
  dsimp
  rw [if_pos rfl]
  cases hb : c.bindings (Name.var (c.nextId + 1)) <;> simp

/-- The state of an instantiation is in order. -/
def InstOk (s : Instances × Ctx) : Prop := ∀ x y, s.1 x = some y → s.2.bindings y ≠ none

theorem known_param {c : Ctx} {x : Name} (h : c.bindings x ≠ none) : Good c (.param x) :=
  ⟨.param x, fun y hy => by cases hy; exact h⟩

theorem good_leaf (c : Ctx) (h : Head) : Good c (.con h []) := ⟨.leaf h, fun x hx => by cases hx with | inside hm _ => exact nomatch hm⟩

theorem good_node {c : Ctx} {h : Head} {ps : List Ty} (hh : hasTypeParams h = true) (hps : ∀ p ∈ ps, Good c p) : Good c (.con h ps) :=
  ⟨.node hh (fun p hp => (hps p hp).1), fun x hx => by cases hx with | inside hm ho => exact (hps _ hm).2 x ho⟩

theorem instantiateParam_good (x : Name) (s : Instances × Ctx) (hi : InstOk s) (hx : isTypeVar x = true → s.2.bindings x ≠ none) :
    Good (instantiateParam x s).2.2 (instantiateParam x s).1 ∧ InstOk (instantiateParam x s).2 ∧ Keeps s.2 (instantiateParam x s).2.2 := by
  unfold instantiateParam
  split
  · rename_i hv
    exact ⟨known_param (hx hv), hi, fun _ h => h⟩
  · split
    · rename_i y hy
      exact ⟨known_param (hi x y hy), hi, fun _ h => h⟩
    · refine ⟨known_param (newVar_known s.2), ?_, newVar_keeps s.2⟩
      intro a b hab
      dsimp at hab
      split at hab
      · injection hab with hab; rw [← hab]; exact newVar_known s.2
      · exact newVar_keeps s.2 b (hi a b hab)

mutual
theorem instantiate_good (t : Ty) (s : Instances × Ctx) (hs : Shaped t) (hi : InstOk s)
    (hx : ∀ x, Occurs x t → isTypeVar x = true → s.2.bindings x ≠ none) :
    Good (instantiate t s).2.2 (instantiate t s).1 ∧ InstOk (instantiate t s).2 ∧ Keeps s.2 (instantiate t s).2.2 := by
  cases t with
  | param x => rw [instantiate]; exact instantiateParam_good x s hi (hx x .here)
  | con h ps =>
    obtain ⟨h1, h2⟩ := shaped_params hs
    have err : Good s.2 (.b .error) ∧ InstOk s ∧ Keeps s.2 s.2 := ⟨good_leaf _ _, hi, fun _ h => h⟩
    have leaf : hasTypeParams h = false → Good s.2 (.con h ps) ∧ InstOk s ∧ Keeps s.2 s.2 := by
      intro hh
      rw [h2 hh]; exact ⟨good_leaf _ _, hi, fun _ h => h⟩
    have all := instantiateAll_good ps s h1 hi (fun x p hp ho => hx x (.inside hp ho))
    cases h with
    | base b => cases b <;> (unfold instantiate; first | exact leaf rfl | exact err)
    | struct n => rw [instantiate]; exact leaf rfl
    | enum n => rw [instantiate]; exact err
    | function => rw [instantiate]; exact err
    | type =>
      rw [instantiate]
      dsimp only
      split
      · exact err
      · exact ⟨good_node rfl all.1, all.2⟩
    | list => rw [instantiate]; exact ⟨good_node rfl all.1, all.2⟩
    | map => rw [instantiate]; exact ⟨good_node rfl all.1, all.2⟩
    | «opaque» n => rw [instantiate]; exact ⟨good_node rfl all.1, all.2⟩

theorem instantiateAll_good (ts : List Ty) (s : Instances × Ctx) (hs : ∀ t ∈ ts, Shaped t) (hi : InstOk s)
    (hx : ∀ x, ∀ t ∈ ts, Occurs x t → isTypeVar x = true → s.2.bindings x ≠ none) :
    (∀ t ∈ (instantiateAll ts s).1, Good (instantiateAll ts s).2.2 t) ∧ InstOk (instantiateAll ts s).2 ∧
      Keeps s.2 (instantiateAll ts s).2.2 := by
  cases ts with
  | nil => rw [instantiateAll]; exact ⟨fun t ht => by simp at ht, hi, fun _ h => h⟩
  | cons t ts =>
    obtain ⟨g1, g2, g3⟩ := instantiate_good t s (hs t (by simp)) hi (fun x => hx x t (by simp))
    obtain ⟨a1, a2, a3⟩ := instantiateAll_good ts (instantiate t s).2 (fun t ht => hs t (by simp [ht])) g2
      (fun x t ht ho hv => g3 x (hx x t (by simp [ht]) ho hv))
    rw [instantiateAll]
    refine ⟨fun u hu => ?_, a2, keeps_trans g3 a3⟩
    rcases List.mem_cons.mp hu with rfl | hu
    · exact good_keeps a3 g1
    · exact a1 u hu
end

theorem update_keeps (c : Ctx) (P : Pro) : Keeps c (c.update P) := by
  intro x hx
  unfold Ctx.update
  dsimp
  cases hb : c.bindings x with
  | none => exact absurd hb hx
  | some t => dsimp only; cases hp : P.map x <;> simp

theorem good_closed {c : Ctx} (hp : Proper c) : Closed (Good c) c.sub := by
  intro a b ha hs
  rcases hs with hs | ⟨x, rfl, hs⟩
  · cases a with
    | param x => exact nomatch hs
    | con h ps => exact ⟨(shaped_params ha.1).1 b hs, fun x hx => ha.2 x (.inside hs hx)⟩
  · exact hp x b hs

theorem good_prims (c : Ctx) : Prims (Good c) := fun b => good_leaf c _

theorem proper_update {c : Ctx} {P : Pro} (hi : Inv (Good c) c.bindings P) (hk : ∀ x, P.map x ≠ none → c.bindings x ≠ none) :
    Proper (c.update P) := by
  intro x t h
  have hx : c.bindings x ≠ none := by
    intro e
    unfold Ctx.sub look Ctx.update at h
    dsimp at h
    rw [e] at h
    exact nomatch h
  exact good_keeps (update_keeps c P) (hi.2 (.param x) t (known_param hx) (.inr ⟨x, rfl, sub_update h⟩))

/-- What a series of checks preserves. -/
def Sane (c : Ctx) (P : Pro) : Prop := Inv (Good c) c.bindings P ∧ ∀ x, P.map x ≠ none → c.bindings x ≠ none

theorem sane_empty {c : Ctx} (wf : WF c.sub) (hp : Proper c) : Sane c .empty := ⟨⟨wf, good_closed hp⟩, fun x h => absurd rfl h⟩

theorem assign_sane {c : Ctx} {n : Nat} {src dst : Ty} {P P' : Pro} {r : Bool} (h : assign c.legacyNull c.bindings n src dst P = some (r, P'))
    (hs : Sane c P) (h1 : Good c src) (h2 : Good c dst) : Sane c P' := by
  refine ⟨assign_inv (good_prims c) _ _ _ _ _ _ h hs.1 h1 h2, fun x hx => ?_⟩
  rcases assign_keys (good_prims c) h hs.1 h1 h2 x hx with h | h
  · exact hs.2 x h
  · exact h.2 x .here

theorem assignAll_sane {c : Ctx} {n : Nat} : ∀ ps qs P r P', assignAll (assign c.legacyNull c.bindings n) ps qs P = some (r, P') →
    Sane c P → (∀ p ∈ ps, Good c p) → (∀ q ∈ qs, Good c q) → Sane c P' := by
  intro ps
  induction ps with
  | nil =>
    intro qs P r P' h hs _ _
    rw [assignAll] at h
    · injection h with h; injection h with _ h; rw [← h]; exact hs
    · intro p ps q qs e; exact nomatch e
  | cons p ps ih =>
    intro qs P r P' h hs hp hq
    cases qs with
    | nil =>
      rw [assignAll] at h
      · injection h with h; injection h with _ h; rw [← h]; exact hs
      · intro p ps q qs _ e; exact nomatch e
    | cons q qs =>
      rw [assignAll] at h
      cases hr : assign c.legacyNull c.bindings n p q P with
      | none => rw [hr] at h; exact nomatch h
      | some x =>
        obtain ⟨b, P1⟩ := x
        rw [hr] at h
        have h1 := assign_sane hr hs (hp p (by simp)) (hq q (by simp))
        cases b with
        | true => exact ih qs P1 r P' h h1 (fun p hp' => hp p (by simp [hp'])) (fun q hq' => hq q (by simp [hq']))
        | false =>
          have h : some (false, P1) = some (r, P') := h
          injection h with h; injection h with _ h; rw [← h]; exact h1

theorem runChecks_sane {c : Ctx} {n : Nat} : ∀ qs P P', runChecks c n qs P = some P' → Sane c P → (∀ q ∈ qs, Good c q.1 ∧ Good c q.2) →
    Sane c P' := by
  intro qs
  induction qs with
  | nil => intro P P' h hs _; rw [runChecks] at h; injection h with h; rw [← h]; exact hs
  | cons q qs ih =>
    intro P P' h hs hq
    rw [runChecks] at h
    cases hr : P.isAssignable c n q.1 q.2 with
    | none => rw [hr] at h; exact nomatch h
    | some r =>
      rw [hr] at h
      obtain ⟨b, P1⟩ := r
      exact ih P1 P' h (assign_sane hr hs (hq q (by simp)).1 (hq q (by simp)).2) (fun q hq' => hq q (by simp [hq']))

theorem proper_keeps {c c' : Ctx} (hk : Keeps c c') (hs : c'.sub = c.sub) (hp : Proper c) : Proper c' := by
  intro x t h
  rw [hs] at h
  exact good_keeps hk (hp x t h)

theorem overload_good {c : Ctx} {o : Overload} (ho : Declared o.result ∧ ∀ a ∈ o.args, Declared a) :
    Good (instantiateOverload c o).2.2 (instantiateOverload c o).1 ∧
      (∀ p ∈ (instantiateOverload c o).2.1, Good (instantiateOverload c o).2.2 p) ∧ Keeps c (instantiateOverload c o).2.2 ∧
      (instantiateOverload c o).2.2.sub = c.sub ∧ (instantiateOverload c o).2.2.legacyNull = c.legacyNull := by
  unfold instantiateOverload
  dsimp only
  have i0 : InstOk (fun _ => none, c) := fun x y h => nomatch h
  obtain ⟨g1, g2, g3⟩ := instantiate_good o.result (fun _ => none, c) ho.1.1 i0 (fun x hx hv => by rw [ho.1.2 x hx] at hv; exact nomatch hv)
  obtain ⟨a1, a2, a3⟩ := instantiateAll_good o.args (instantiate o.result (fun _ => none, c)).2 (fun a ha => (ho.2 a ha).1) g2
    (fun x t ht hx hv => by rw [(ho.2 t ht).2 x hx] at hv; exact nomatch hv)
  exact ⟨good_keeps a3 g1, a1, keeps_trans g3 a3, (instantiateAll_same _ _).1.trans (instantiate_same _ _).1,
    (instantiateAll_same _ _).2.trans (instantiate_same _ _).2⟩

theorem argTypes_good {c : Ctx} {l : Bool} {args params : List Ty} (hp : ∀ p ∈ params, Good c p) :
    ∀ q ∈ (if l then List.replicate args.length (params.headD dyn) else params), Good c q := by
  intro q hq
  split at hq
  · rw [List.mem_replicate] at hq
    rw [hq.2]
    cases params with
    | nil => exact good_leaf c _
    | cons p ps => exact hp p (by simp)
  · exact hp q hq

/-- One overload: the context stays in order, and the arguments stay good. -/
theorem resolveOne_proper {c : Ctx} {n : Nat} {l : Bool} {args : List Ty} {recv : Bool} {o : Overload} {found : Option Ty × List Overload}
    {r : Ctx × Option Ty × List Overload} (h : resolveOne c n l args recv o found = some r) (wf : WF c.sub) (hp : Proper c)
    (ha : ∀ a ∈ args, Good c a) (ho : Declared o.result ∧ ∀ a ∈ o.args, Declared a) (hf : ∀ t, found.1 = some t → Good c t) :
    Proper r.1 ∧ Keeps c r.1 ∧ ∀ t, r.2.1 = some t → Good r.1 t := by
  unfold resolveOne at h
  split at h
  · injection h with h; rw [← h]; exact ⟨hp, fun _ h => h, hf⟩
  · obtain ⟨g1, g2, g3, g4, g5⟩ := overload_good (c := c) ho
    generalize instantiateOverload c o = q at h g1 g2 g3 g4 g5
    obtain ⟨result, params, c'⟩ := q
    dsimp only at h g1 g2 g3 g4 g5
    have hp' := proper_keeps g3 g4 hp
    have wf' : WF c'.sub := by rw [g4]; exact wf
    cases hr : assignArgs (assign c'.legacyNull c'.bindings n) l args params .empty with
    | none => rw [hr] at h; exact nomatch h
    | some x =>
      obtain ⟨b, P⟩ := x
      rw [hr] at h
      cases b with
      | false =>
        have h : some (c', found) = some r := h
        injection h with h; rw [← h]; exact ⟨hp', g3, fun t ht => good_keeps g3 (hf t ht)⟩
      | true =>
        have hs : Sane c' P := assignAll_sane _ _ _ _ _ hr (sane_empty wf' hp') (fun a h => good_keeps g3 (ha a h)) (argTypes_good g2)
        have h : some (c'.update P, some (match found.1 with
            | none => result
            | some t => if t.eq result then t else dyn), found.2 ++ [o]) = some r := h
        injection h with h
        rw [← h]
        refine ⟨proper_update hs.1 hs.2, keeps_trans g3 (update_keeps c' P), fun t ht => ?_⟩
        dsimp only at ht
        injection ht with ht
        have hk := update_keeps c' P
        rw [← ht]
        cases hfo : found.1 with
        | none => exact good_keeps hk g1
        | some u =>
          dsimp only
          split
          · exact good_keeps (keeps_trans g3 hk) (hf u hfo)
          · exact good_leaf _ _

theorem resolveLoop_proper {n : Nat} {l : Bool} {args : List Ty} {recv : Bool} : ∀ os c found r,
    resolveLoop n l args recv os c found = some r → WF c.sub → Proper c → (∀ a ∈ args, Good c a) →
    (∀ o ∈ os, Declared o.result ∧ ∀ a ∈ o.args, Declared a) → (∀ t, found.1 = some t → Good c t) →
    Proper r.1 ∧ Keeps c r.1 ∧ ∀ t, r.2.1 = some t → Good r.1 t := by
  intro os
  induction os with
  | nil => intro c found r h wf hp ha ho hf; rw [resolveLoop] at h; injection h with h; rw [← h]; exact ⟨hp, fun _ h => h, hf⟩
  | cons o os ih =>
    intro c found r h wf hp ha ho hf
    rw [resolveLoop] at h
    cases h1 : resolveOne c n l args recv o found with
    | none => rw [h1] at h; exact nomatch h
    | some x =>
      rw [h1] at h
      obtain ⟨g1, g2, g3⟩ := resolveOne_proper h1 wf hp ha (ho o (by simp)) hf
      obtain ⟨k1, k2, k3⟩ := ih _ _ _ h (resolveOne_wf h1 wf) g1 (fun a h => good_keeps g2 (ha a h)) (fun o h => ho o (by simp [h])) g3
      exact ⟨k1, keeps_trans g2 k2, k3⟩

theorem resolve_parts {c : Ctx} {n : Nat} {d : FunctionDecl} {args : List Ty} {recv : Bool} {r : Ctx × Option (Ty × List Overload)}
    (h : resolveOverload c n d args recv = some r) :
    ∃ x, resolveLoop n (isLogicalOp d.name args) args recv d.overloads c (none, []) = some x ∧ r.1 = x.1 ∧
      ((x.2.1 = none ∧ r.2 = none) ∨ ∃ t t', x.2.1 = some t ∧ x.1.fullySubstitute n t = some t' ∧ r.2 = some (t', x.2.2)) := by
  unfold resolveOverload at h
  cases h1 : resolveLoop n (isLogicalOp d.name args) args recv d.overloads c (none, []) with
  | none => rw [h1] at h; exact nomatch h
  | some x =>
    rw [h1] at h
    obtain ⟨c1, ot, os⟩ := x
    refine ⟨_, rfl, ?_⟩
    cases ot with
    | none =>
      have h : some (c1, none) = some r := h
      injection h with h; rw [← h]; exact ⟨rfl, .inl ⟨rfl, rfl⟩⟩
    | some t =>
      have h : ((c1.fullySubstitute n t).bind fun t' => some (c1, some (t', os))) = some r := h
      cases h2 : c1.fullySubstitute n t with
      | none => rw [h2] at h; exact nomatch h
      | some t' =>
        rw [h2] at h
        have h : some (c1, some (t', os)) = some r := h
        injection h with h; rw [← h]; exact ⟨rfl, .inr ⟨t, t', rfl, h2, rfl⟩⟩

theorem Built.proper {c : Ctx} (h : Built c) : Proper c := by
  induction h with
  | start legacy => intro x t h; exact nomatch h
  | @step c c' op n hb hok h ih =>
    have wf := reachable_wf hb.reachable
    cases op with
    | instantiate t m =>
      unfold Op.run at h
      injection h with h
      obtain ⟨h1, h2, h3⟩ := hok
      obtain ⟨_, _, hk⟩ := instantiate_good t (m, c) h1 h3 h2
      rw [← h]
      exact proper_keeps hk (instantiate_same t _).1 ih
    | assignable src dst =>
      unfold Op.run at h
      dsimp only at h
      unfold isAssignable at h
      cases ha : assign c.legacyNull c.bindings n src dst .empty with
      | none => rw [ha] at h; exact nomatch h
      | some x =>
        obtain ⟨b, P⟩ := x
        rw [ha] at h
        have h : some (if b = true then c.update P else c) = some c' := h
        injection h with h
        rw [← h]
        split
        · have := assign_sane ha (sane_empty wf ih) hok.1 hok.2
          exact proper_update this.1 this.2
        · exact ih
    | resolve d args recv =>
      unfold Op.run at h
      dsimp only at h
      cases hr : resolveOverload c n d args recv with
      | none => rw [hr] at h; exact nomatch h
      | some x =>
        rw [hr] at h
        have h : some x.1 = some c' := h
        injection h with h
        obtain ⟨y, h1, h2, _⟩ := resolve_parts hr
        rw [← h, h2]
        exact (resolveLoop_proper _ _ _ _ h1 wf ih hok.1 hok.2 (fun t ht => nomatch ht)).1
    | session checks commit =>
      unfold Op.run at h
      dsimp only at h
      cases hr : runChecks c n checks .empty with
      | none => rw [hr] at h; exact nomatch h
      | some P =>
        rw [hr] at h
        have h : some (if commit = true then (P.updateInferred c).1 else c) = some c' := h
        injection h with h
        rw [← h]
        split
        · have := runChecks_sane _ _ _ hr (sane_empty wf ih) hok
          exact proper_update this.1 this.2
        · exact ih

/-! ## Soundness -/

theorem sub_update_eq {c : Ctx} {P : Pro} (hk : ∀ x, P.map x ≠ none → c.bindings x ≠ none) : (c.update P).sub = look c.bindings P.map := by
  funext x
  unfold Ctx.sub look Ctx.update
  dsimp
  cases hb : c.bindings x with
  | none =>
    cases hp : P.map x with
    | none => rfl
    | some t => exact absurd hb (hk x (by rw [hp]; simp))
  | some o =>
    cases hp : P.map x with
    | none => rfl
    | some t => rfl

/-- **C37** (missing: checks that widen a binding, for which it fails, see `C37_widening_unsound`): after a successful check that did
not widen, the two types, fully substituted or finalized, fit. -/
theorem C37_sound_partial {c : Ctx} (hb : Built c) {src dst : Ty} (h1 : Good c src) (h2 : Good c dst) {n : Nat} {P : Pro}
    (h : Pro.empty.isAssignable c n src dst = some (true, P)) (hw : P.widened = false) :
    isAssignable c n src dst = some (true, c.update P) ∧
      ∀ toDyn m s t, fullySubstitute (c.update P).sub toDyn m src = some s → fullySubstitute (c.update P).sub toDyn m dst = some t →
        Fits c.legacyNull s t := by
  have wf := reachable_wf hb.reachable
  have hp := hb.proper
  have hs := assign_sane h (sane_empty wf hp) h1 h2
  refine ⟨?_, fun d m s t e1 e2 => ?_⟩
  · unfold isAssignable
    have h : assign c.legacyNull c.bindings n src dst .empty = some (true, P) := h
    rw [h]; rfl
  · have hf := (assign_fits n src dst .empty P h wf hw).2.1
    have hsub := sub_update_eq hs.2
    rw [← hsub] at hf
    have hpu : Proper (c.update P) := proper_update hs.1 hs.2
    exact fits_full (fun x t h => (hpu x t h).1) hf h1.1 h2.1 s t ⟨m, e1⟩ ⟨m, e2⟩

theorem substitute_ground {σ : Sub} {n : Nat} {t r : Ty} (hg : Ground t) (h : substitute σ n t = some r) : r = t := by
  cases n with
  | zero => exact nomatch h
  | succ n =>
    cases t with
    | param x => exact absurd .here (hg x)
    | con hh ps => rw [substitute] at h; injection h with h; exact h.symm

theorem ground_params {h : Head} {ps : List Ty} (hg : Ground (.con h ps)) : ∀ p ∈ ps, Ground p := fun p hp x hx => hg x (.inside hp hx)

/-- Against a type without parameters nothing is widened. -/
theorem ground_no_widening {legacy : Bool} {B : Bindings} : ∀ n src dst P r P', assign legacy B n src dst P = some (r, P') → Ground dst →
    P'.widened = P.widened := by
  intro n
  induction n with
  | zero => intro src dst P r P' h; exact nomatch h
  | succ n ih =>
    intro src dst P r P' h hg
    obtain ⟨d, f, hd, hf, hc⟩ := assign_cases h
    have := substitute_ground hg hd
    subst this
    cases d with
    | param x => exact absurd .here (hg x)
    | con k qs =>
      rcases hc with ⟨e, e2⟩ | ⟨_, _, hc⟩ | ⟨_, hp, ⟨Pw, hw, e⟩ | ⟨_, hc⟩⟩
      · injection e2 with _ e2; rw [e2]
      · exact constraints_rel (S := fun _ => True) (R := fun P P' => P'.widened = P.widened) (fun _ => rfl) (fun _ _ _ _ => rfl) hc
          trivial trivial
      · exact nomatch hw
      · cases f with
        | param x => simp [Ty.isParam] at hp
        | con hh ps =>
          rcases concrete_cases hc with e | ⟨b, hb, h | h⟩ | ⟨_, h⟩
          · have e : P' = P := e
            rw [e]
          · rw [(prim_any hb h).1]
          · rw [(prim_any hb h).1]
          · have all : ∀ ps qs P r P', assignAll (assign legacy B n) ps qs P = some (r, P') → (∀ q ∈ qs, Ground q) → P'.widened = P.widened := by
              intro ps
              induction ps with
              | nil =>
                intro qs P r P' h _
                rw [assignAll] at h
                · injection h with h; injection h with _ h; rw [← h]
                · intro p ps q qs e; exact nomatch e
              | cons p ps ih2 =>
                intro qs P r P' h hq
                cases qs with
                | nil =>
                  rw [assignAll] at h
                  · injection h with h; injection h with _ h; rw [← h]
                  · intro p ps q qs _ e; exact nomatch e
                | cons q qs =>
                  rw [assignAll] at h
                  cases hr : assign legacy B n p q P with
                  | none => rw [hr] at h; exact nomatch h
                  | some x =>
                    obtain ⟨b, P1⟩ := x
                    rw [hr] at h
                    have h1 := ih p q P b P1 hr (hq q (by simp))
                    cases b with
                    | true => rw [ih2 qs P1 r P' h (fun q h => hq q (by simp [h])), h1]
                    | false =>
                      have h : some (false, P1) = some (r, P') := h
                      injection h with h; injection h with _ h; rw [← h]; exact h1
            exact all _ _ _ _ _ h (ground_params hg)

theorem full_ground {σ : Sub} {d : Bool} {t r : Ty} (hs : Shaped t) (hg : Ground t) (h : Full σ d t r) : r = t := by
  induction hs generalizing r with
  | param x => exact absurd .here (hg x)
  | leaf hh =>
    obtain ⟨rs, rfl, h1, h2⟩ := full_con h
    cases hp : hasTypeParams hh with
    | false => rw [h1 hp]
    | true => rw [List.eq_nil_of_length_eq_zero (h2 hp).1]
  | @node hh ps hp _ ih =>
    obtain ⟨rs, rfl, _, h2⟩ := full_con h
    obtain ⟨hl, hz⟩ := h2 hp
    have : ∀ (ps rs : List Ty), rs.length = ps.length → (∀ q ∈ ps.zip rs, q.2 = q.1) → rs = ps := by
      intro ps
      induction ps with
      | nil => intro rs hl _; exact List.eq_nil_of_length_eq_zero hl
      | cons p ps ih =>
        intro rs hl hz
        cases rs with
        | nil => exact nomatch hl
        | cons r rs =>
          have := hz (p, r) (by simp)
          rw [ih rs (by simpa using hl) (fun q hq => hz q (by simp [hq]))]
          rw [show r = p from this]
    rw [this ps rs hl (fun q hq => ih q.1 (List.of_mem_zip hq).1 (ground_params hg _ (List.of_mem_zip hq).1) (hz q hq))]

/-- **C37**: a successful check against a type without type parameters is sound: whatever the source type, once its parameters are
replaced by what was inferred it fits. -/
theorem C37_sound_ground_target {c c' : Ctx} (hb : Built c) {src dst : Ty} (h1 : Good c src) (h2 : Shaped dst) (hg : Ground dst) {n : Nat}
    (h : isAssignable c n src dst = some (true, c')) :
    ∀ toDyn m s, fullySubstitute c'.sub toDyn m src = some s → Fits c.legacyNull s dst := by
  intro d m s hs
  unfold isAssignable at h
  cases ha : assign c.legacyNull c.bindings n src dst .empty with
  | none => rw [ha] at h; exact nomatch h
  | some x =>
    obtain ⟨b, P⟩ := x
    rw [ha] at h
    have h : some (b, if b = true then c.update P else c) = some (true, c') := h
    injection h with h
    injection h with e h
    rw [e] at h ha
    have h : c.update P = c' := h
    have hw := ground_no_widening _ _ _ _ _ _ ha hg
    obtain ⟨_, hsound⟩ := C37_sound_partial hb h1 ⟨h2, fun x hx => absurd hx (hg x)⟩ ha hw
    rw [h] at hsound
    have wf' : WF c'.sub := by rw [← h]; exact wf_update (assign_wf ha (reachable_wf hb.reachable))
    obtain ⟨k, r, hk⟩ := fullySubstitute_total wf' d dst
    have := hsound d (max m k) s r (fullySubstitute_le (Nat.le_max_left _ _) hs) (fullySubstitute_le (Nat.le_max_right _ _) hk)
    rw [full_ground h2 hg ⟨k, hk⟩] at this
    exact this

/-! ## Types without parameters: the check decides `Fits` -/

theorem fits_of_ground {legacy : Bool} {σ : Sub} {a b : Ty} (h : FitsIn legacy σ a b) : Ground a → Ground b → Fits legacy a b := by
  induction h with
  | derefL => intro ha; exact absurd .here (ha _)
  | derefR => intro _ hb; exact absurd .here (hb _)
  | same x => intro _ _; exact .same x
  | wildL b h => intro _ _; exact .wildL b h
  | wildR a h => intro _ _; exact .wildR a h
  | flat h => intro _ _; exact h _ _
  | params hl _ ih =>
    intro ha hb
    exact .params hl (fun q hq => ih q hq (ground_params ha _ (List.of_mem_zip hq).1) (ground_params hb _ (List.of_mem_zip hq).2))

theorem ground_same_state {legacy : Bool} {B : Bindings} {n : Nat} {src dst : Ty} {P P' : Pro} {r : Bool}
    (h : assign legacy B n src dst P = some (r, P')) (wf : WF (look B P.map)) (h1 : Ground src) (h2 : Ground dst) : P' = P := by
  have := assign_rel (S := Ground) (B := B) (R := fun P P' => P' = P) (fun b x hx => by cases hx with | inside hm _ => exact nomatch hm)
    (fun _ => rfl) (fun _ _ _ h1 h2 => h2.trans h1) (fun P x t hs => absurd .here (hs x)) (fun P x t hs => absurd .here (hs x)) n src dst P r P' h
    ⟨wf, ?_⟩ h1 h2
  · exact this
  · intro a b ha hs
    rcases hs with hs | ⟨x, rfl, _⟩
    · cases a with
      | param x => exact nomatch hs
      | con k ps => exact ground_params ha b hs
    · exact absurd .here (ha x)

theorem wild_shaped {t : Ty} (h : isWildCard t = true) (hs : Shaped t) : t.params = [] := by
  cases wild_of h <;> exact (shaped_params hs).2 rfl

theorem concrete_wild {legacy : Bool} {B : Bindings} {n : Nat} {h k : Head} {ps qs : List Ty} {P P' : Pro} {r : Bool}
    (hw : (isWildCard (.con h ps) || isWildCard (.con k qs)) = true) (h1 : Shaped (.con h ps)) (h2 : Shaped (.con k qs))
    (hc : assignConcrete legacy (assign legacy B n) (.con h ps) (.con k qs) P = some (r, P')) : r = true := by
  have done : some (true, P) = some (r, P') → r = true := by intro h; injection h with h; injection h with h; exact h.symm
  have prim : ∀ {b : Base} {k : Head} {qs : List Ty}, isWildCard (.con k qs) = true → PrimFits b k := by
    intro b k qs hw
    cases wild_of hw
    · exact .any b
    · exact .dyn b
    · exact .error b
  unfold assignConcrete at hc
  split at hc
  · rename_i p hp
    obtain ⟨b, hb, rfl⟩ := wrapper_prim' hp
    obtain ⟨w, rfl, hwr⟩ := wraps_of hp
    split at hc
    · exact done hc
    · have hw1 : isWildCard (.con h ps) = true := by cases hwr <;> simpa [isWildCard, Ty.is, Ty.head?] using hw
      exact (prim_any hb hc).2.2 (wild_shaped hw1 h1) (prim hw1)
  · split at hc
    · rename_i p hp
      obtain ⟨b, hb, rfl⟩ := wrapper_prim' hp
      obtain ⟨w, rfl, hwr⟩ := wraps_of hp
      have hw1 : isWildCard (.con k qs) = true := by cases hwr <;> simpa [isWildCard, Ty.is, Ty.head?] using hw
      exact (prim_any hb hc).2.2 (wild_shaped hw1 h2) (prim hw1)
    · rw [hw] at hc
      split at hc
      · exact done hc
      split at hc
      · exact done hc
      split at hc
      · exact done hc
      split at hc
      · exact done hc
      split at hc
      · exact done hc
      exact done hc

theorem assignAll_true {legacy : Bool} {B : Bindings} {n : Nat} : ∀ (ps qs : List Ty) (P P' : Pro) (r : Bool),
    assignAll (assign legacy B n) ps qs P = some (r, P') →
    (∀ q ∈ ps.zip qs, ∀ P r P', assign legacy B n q.1 q.2 P = some (r, P') → r = true) → r = true := by
  intro ps
  induction ps with
  | nil =>
    intro qs P P' r h _
    rw [assignAll] at h
    · injection h with h; injection h with h; exact h.symm
    · intro p ps q qs e; exact nomatch e
  | cons p ps ih =>
    intro qs P P' r h hq
    cases qs with
    | nil =>
      rw [assignAll] at h
      · injection h with h; injection h with h; exact h.symm
      · intro p ps q qs _ e; exact nomatch e
    | cons q qs =>
      rw [assignAll] at h
      cases hr : assign legacy B n p q P with
      | none => rw [hr] at h; exact nomatch h
      | some x =>
        obtain ⟨b, P1⟩ := x
        have := hq (p, q) (by simp) P b P1 hr
        subst this
        rw [hr] at h
        exact ih qs P1 P' r h (fun q h => hq q (by simp [h]))

theorem wrapperToPrimitive_of {w b : Base} {ps : List Ty} (h : Wraps w b) : wrapperToPrimitive (.con (.base w) ps) = some (.b b) := by
  cases h <;> rfl

theorem wrapper_none' {b : Base} {ps : List Ty} (hb : b ∈ [Base.bool, .bytes, .double, .string, .int, .uint]) :
    wrapperToPrimitive (.con (.base b) ps) = none := by
  simp at hb
  rcases hb with rfl | rfl | rfl | rfl | rfl | rfl <;> rfl

theorem wraps_prim {w b : Base} (h : Wraps w b) : b ∈ [Base.bool, .bytes, .double, .string, .int, .uint] := by
  cases h <;> simp

theorem update_empty (c : Ctx) : c.update .empty = c := by
  have : (c.update .empty).bindings = c.bindings := by
    funext x
    unfold Ctx.update
    dsimp
    cases c.bindings x <;> rfl
  cases c
  unfold Ctx.update at this ⊢
  dsimp at this ⊢
  rw [Ctx.mk.injEq]
  exact ⟨this, rfl, rfl⟩

/-- Two types without parameters: already equal, or the rest of the check. -/
theorem ground_concrete {legacy : Bool} {B : Bindings} {a b : Ty} {n : Nat} {P P' : Pro} {r : Bool} (ha : Ground a) (hb : Ground b)
    (h : assign legacy B n a b P = some (r, P')) :
    r = true ∨ ∃ m, n = m + 1 ∧ b.eq a = false ∧ assignConcrete legacy (assign legacy B m) a b P = some (r, P') := by
  cases n with
  | zero => exact nomatch h
  | succ n =>
    obtain ⟨d, f, hd, hff, hc⟩ := assign_cases h
    have e1 := substitute_ground hb hd
    have e2 := substitute_ground ha hff
    subst e1 e2
    rcases hc with ⟨_, e⟩ | ⟨_, hp, hc⟩ | ⟨hne, hp, ⟨Pw, hw, e⟩ | ⟨_, hc⟩⟩
    · injection e with e; exact .inl e
    · exfalso
      cases f with
      | param x => exact ha x .here
      | con h ps =>
        cases d with
        | param x => exact hb x .here
        | con k qs => simp [Ty.isParam] at hp
    · injection e with e; exact .inl e
    · exact .inr ⟨n, rfl, hne, hc⟩

theorem fits_complete {legacy : Bool} {B : Bindings} {a b : Ty} (hf : Fits legacy a b) : ∀ n P r P', Shaped a → Shaped b → Ground a →
    Ground b → assign legacy B n a b P = some (r, P') → r = true := by
  have base : ∀ {x : Base} {ps : List Ty}, Shaped (.con (.base x) ps) → ps = [] := fun h => (shaped_params h).2 rfl
  have done : ∀ {P P' : Pro} {r : Bool}, some (true, P) = some (r, P') → r = true := by
    intro P P' r h; injection h with h; injection h with h; exact h.symm
  induction hf with
  | same x => intro n P r P' _ _ ha; exact absurd .here (ha x)
  | base =>
    intro n P r P' sa sb ha hb h
    rw [base sa, base sb] at h
    rcases ground_concrete (by rw [base sa] at ha; exact ha) (by rw [base sb] at hb; exact hb) h with h | ⟨m, _, hne, _⟩
    · exact h
    · rw [eq_refl] at hne; exact nomatch hne
  | wildL b hw =>
    intro n P r P' sa sb ha hb h
    rcases ground_concrete ha hb h with h | ⟨m, _, hne, hc⟩
    · exact h
    · cases b with
      | param x => exact absurd .here (hb x)
      | con k qs => cases hw <;> exact concrete_wild (by simp [isWildCard, Ty.is, Ty.head?]) sa sb hc
  | wildR a hw =>
    intro n P r P' sa sb ha hb h
    rcases ground_concrete ha hb h with h | ⟨m, _, hne, hc⟩
    · exact h
    · cases a with
      | param x => exact absurd .here (ha x)
      | con k qs => cases hw <;> exact concrete_wild (by simp [isWildCard, Ty.is, Ty.head?]) sa sb hc
  | nullToWrapper hw =>
    intro n P r P' sa sb ha hb h
    rcases ground_concrete ha hb h with h | ⟨m, _, hne, hc⟩
    · exact h
    · unfold assignConcrete at hc
      rw [wrapperToPrimitive_of hw] at hc
      exact done hc
  | wrap hw =>
    intro n P r P' sa sb ha hb h
    rcases ground_concrete ha hb h with h | ⟨m, _, hne, hc⟩
    · exact h
    · unfold assignConcrete at hc
      rw [wrapperToPrimitive_of hw] at hc
      dsimp only at hc
      split at hc
      · exact done hc
      · exact (prim_any (wraps_prim hw) hc).2.2 (base sa) (.same _)
  | unwrap hw =>
    intro n P r P' sa sb ha hb h
    rcases ground_concrete ha hb h with h | ⟨m, _, hne, hc⟩
    · exact h
    · unfold assignConcrete at hc
      rw [show wrapperToPrimitive (.con (.base _) _) = none from wrapper_none' (wraps_prim hw), wrapperToPrimitive_of hw] at hc
      exact (prim_any (wraps_prim hw) hc).2.2 (base sb) (.same _)
  | enumToInt =>
    intro n P r P' sa sb ha hb h
    rcases ground_concrete ha hb h with h | ⟨m, _, hne, hc⟩
    · exact h
    · simp [assignConcrete, wrapperToPrimitive, Ty.head?, Ty.is, isLegacyNullable, isStruct, isOpaque, isEnum] at hc
      exact hc.1
  | intToEnum =>
    intro n P r P' sa sb ha hb h
    rcases ground_concrete ha hb h with h | ⟨m, _, hne, hc⟩
    · exact h
    · simp [assignConcrete, wrapperToPrimitive, Ty.head?, Ty.is, isLegacyNullable, isStruct, isOpaque, isEnum] at hc
      exact hc.1
  | enumToWrapper =>
    intro n P r P' sa sb ha hb h
    rcases ground_concrete ha hb h with h | ⟨m, _, hne, hc⟩
    · exact h
    · unfold assignConcrete at hc
      rw [wrapperToPrimitive_of .int] at hc
      dsimp only at hc
      split at hc
      · exact done hc
      · exact (prim_any (wraps_prim .int) hc).2.2 ((shaped_params sa).2 rfl) (.enum _)
  | wrapperToEnum =>
    intro n P r P' sa sb ha hb h
    rcases ground_concrete ha hb h with h | ⟨m, _, hne, hc⟩
    · exact h
    · unfold assignConcrete at hc
      rw [show wrapperToPrimitive (.con (.enum _) _) = none from rfl, wrapperToPrimitive_of .int] at hc
      exact (prim_any (wraps_prim .int) hc).2.2 ((shaped_params sb).2 rfl) (.enum _)
  | nullTo hl hn =>
    intro n P r P' sa sb ha hb h
    rcases ground_concrete ha hb h with h | ⟨m, _, hne, hc⟩
    · exact h
    · cases hn <;> simp [assignConcrete, wrapperToPrimitive, Ty.head?, Ty.is, isLegacyNullable, isStruct, isOpaque, isEnum, hl] at hc <;>
        exact hc.1
  | toNull hl hn =>
    intro n P r P' sa sb ha hb h
    rcases ground_concrete ha hb h with h | ⟨m, _, hne, hc⟩
    · exact h
    · cases hn <;> simp [assignConcrete, wrapperToPrimitive, Ty.head?, Ty.is, isLegacyNullable, isStruct, isOpaque, isEnum, hl] at hc <;>
        exact hc.1
  | typeType =>
    intro n P r P' sa sb ha hb h
    rcases ground_concrete ha hb h with h | ⟨m, _, hne, hc⟩
    · exact h
    · simp [Ty.eq] at hne
  | @params h ps qs hl _ ih =>
    intro n P r P' sa sb ha hb hass
    rcases ground_concrete ha hb hass with h | ⟨m, _, hne, hc⟩
    · exact h
    · cases hh : hasTypeParams h with
      | false =>
        rw [(shaped_params sa).2 hh, (shaped_params sb).2 hh, eq_refl] at hne
        exact nomatch hne
      | true =>
        have hw : ∀ ps, wrapperToPrimitive (.con h ps) = none := by
          intro ps; cases h <;> first | rfl | exact nomatch hh
        unfold assignConcrete at hc
        rw [hw, hw] at hc
        dsimp only at hc
        split at hc
        · exact done hc
        split at hc
        · exact done hc
        split at hc
        · exact done hc
        split at hc
        · exact done hc
        split at hc
        · exact done hc
        split at hc
        · exact done hc
        rw [if_neg (show ¬ (Ty.con h qs).head? ≠ (Ty.con h ps).head? from fun e => e rfl),
          if_neg (show ¬ (Ty.con h qs).params.length ≠ (Ty.con h ps).params.length from fun e => e hl.symm)] at hc
        refine assignAll_true _ _ _ _ _ hc (fun q hq P r P' he => ?_)
        have hq : q ∈ ps.zip qs := hq
        exact ih q hq _ _ _ _ ((shaped_params sa).1 _ (List.of_mem_zip hq).1) ((shaped_params sb).1 _ (List.of_mem_zip hq).2)
          (ground_params ha _ (List.of_mem_zip hq).1) (ground_params hb _ (List.of_mem_zip hq).2) he

/-- **C37**: between types without type parameters the check decides exactly whether the one fits the other, and binds nothing. -/
theorem C37_ground_exact {c c' : Ctx} (hr : Reachable c) {src dst : Ty} (h1 : Shaped src) (h2 : Shaped dst) (g1 : Ground src)
    (g2 : Ground dst) {n : Nat} {r : Bool} (h : isAssignable c n src dst = some (r, c')) :
    (r = true ↔ Fits c.legacyNull src dst) ∧ c' = c := by
  unfold isAssignable at h
  cases ha : assign c.legacyNull c.bindings n src dst .empty with
  | none => rw [ha] at h; exact nomatch h
  | some x =>
    obtain ⟨b, P⟩ := x
    rw [ha] at h
    have h : some (b, if b = true then c.update P else c) = some (r, c') := h
    injection h with h
    injection h with e hcc
    subst e
    have wf := reachable_wf hr
    have hP : P = .empty := ground_same_state ha wf g1 g2
    subst hP
    refine ⟨⟨fun hb => ?_, fun hf => fits_complete hf _ _ _ _ h1 h2 g1 g2 ha⟩, ?_⟩
    · rw [hb] at ha
      exact fits_of_ground (assign_fits n src dst .empty .empty ha wf rfl).2.1 g1 g2
    · rw [← hcc]
      split
      · exact update_empty c
      · rfl

/-! ## Self, dyn, failure, finalization -/

theorem isAssignable_of {c : Ctx} {n : Nat} {src dst : Ty} {r : Bool} {P : Pro} (h : assign c.legacyNull c.bindings n src dst .empty = some (r, P)) :
    isAssignable c n src dst = some (r, if r then c.update P else c) := by
  unfold isAssignable; rw [h]; rfl

theorem isAssignable_parts {c c' : Ctx} {n : Nat} {src dst : Ty} {r : Bool} (h : isAssignable c n src dst = some (r, c')) :
    ∃ P, assign c.legacyNull c.bindings n src dst .empty = some (r, P) ∧ c' = if r then c.update P else c := by
  unfold isAssignable at h
  cases ha : assign c.legacyNull c.bindings n src dst .empty with
  | none => rw [ha] at h; exact nomatch h
  | some x =>
    obtain ⟨b, P⟩ := x
    rw [ha] at h
    have h : some (b, if b = true then c.update P else c) = some (r, c') := h
    injection h with h
    injection h with e hcc
    subst e
    exact ⟨P, rfl, hcc.symm⟩

/-- **C37**: every type, with or without parameters, is assignable to itself, in every context, and that binds nothing. -/
theorem C37_self {c : Ctx} (t : Ty) {n : Nat} {r : Bool × Ctx} (h : isAssignable c n t t = some r) : r = (true, c) := by
  obtain ⟨b, c'⟩ := r
  obtain ⟨P, ha, rfl⟩ := isAssignable_parts h
  cases n with
  | zero => exact nomatch ha
  | succ n =>
    obtain ⟨d, f, hd, hf, hc⟩ := assign_cases ha
    rw [hd] at hf
    injection hf with hf
    subst hf
    rcases hc with ⟨_, e⟩ | ⟨e, _⟩ | ⟨e, _⟩
    · injection e with e1 e2
      rw [e1, e2]
      show (true, c.update .empty) = _
      rw [update_empty]
    · rw [eq_refl] at e; exact nomatch e
    · rw [eq_refl] at e; exact nomatch e

/-- **C37**: every type is assignable to `dyn` and `dyn` to every type, in every reachable context. -/
theorem C37_dyn {c : Ctx} (hr : Reachable c) (t : Ty) (hs : Shaped t) (hp : Proper c) {n : Nat} {r : Bool × Ctx}
    (h : isAssignable c n t dyn = some r ∨ isAssignable c n dyn t = some r) : r.1 = true := by
  have wf := reachable_wf hr
  have gd : Ground dyn := fun x hx => by cases hx with | inside hm _ => exact nomatch hm
  have sd : Shaped dyn := .leaf _
  obtain ⟨b, c'⟩ := r
  have shaped : ∀ m f, substitute (look c.bindings Pro.empty.map) m t = some f → Shaped f := by
    intro m f hf
    have := closed_below (S := Shaped) (σ := c.sub) ?_ (substitute_below _ _ _ hf).1 hs
    · exact this
    · intro a b ha hb
      rcases hb with hb | ⟨x, rfl, hb⟩
      · cases a with
        | param x => exact nomatch hb
        | con k ps => exact (shaped_params ha).1 b hb
      · exact (hp x b hb).1
  rcases h with h | h
  · obtain ⟨P, ha, _⟩ := isAssignable_parts h
    cases n with
    | zero => exact nomatch ha
    | succ n =>
      obtain ⟨d, f, hd, hf, hc⟩ := assign_cases ha
      have := substitute_ground gd hd
      subst this
      have sf := shaped _ _ hf
      rcases hc with ⟨_, e⟩ | ⟨_, hpar, hc⟩ | ⟨_, hpar, ⟨Pw, hw, e⟩ | ⟨_, hc⟩⟩
      · injection e
      · cases f with
        | con h ps => simp [Ty.isParam, dyn, Ty.b] at hpar
        | param x =>
          rw [dyn, Ty.b, assignWithConstraints] at hc
          cases ho : occursWithin (look c.bindings Pro.empty.map) x n (.con (.base .dyn) []) with
          | none => rw [ho] at hc; exact nomatch hc
          | some o =>
            rw [ho] at hc
            cases o with
            | true => have hc : some (true, Pro.empty) = some (b, P) := hc; injection hc with hc; injection hc with hc; exact hc.symm
            | false =>
              have hc : some (true, Pro.empty.bind x (.con (.base .dyn) [])) = some (b, P) := hc
              injection hc with hc; injection hc with hc; exact hc.symm
      · injection e
      · cases f with
        | param x => simp [Ty.isParam] at hpar
        | con h ps => exact concrete_wild (by simp [isWildCard, Ty.is, Ty.head?]) sf sd hc
  · obtain ⟨P, ha, _⟩ := isAssignable_parts h
    cases n with
    | zero => exact nomatch ha
    | succ n =>
      obtain ⟨f, d, hf, hd, hc⟩ := assign_cases ha
      have := substitute_ground gd hd
      subst this
      have sf := shaped _ _ hf
      rcases hc with ⟨_, e⟩ | ⟨_, hpar, hc⟩ | ⟨_, hpar, ⟨Pw, hw, e⟩ | ⟨_, hc⟩⟩
      · injection e
      · cases f with
        | con h ps => simp [Ty.isParam, dyn, Ty.b] at hpar
        | param x =>
          rw [dyn, Ty.b, assignWithConstraints] at hc
          cases ho : occursWithin (look c.bindings Pro.empty.map) x n (.con (.base .dyn) []) with
          | none => rw [ho] at hc; exact nomatch hc
          | some o =>
            rw [ho] at hc
            cases o with
            | true => have hc : some (true, Pro.empty) = some (b, P) := hc; injection hc with hc; injection hc with hc; exact hc.symm
            | false =>
              have hc : some (true, Pro.empty.bind x (.con (.base .dyn) [])) = some (b, P) := hc
              injection hc with hc; injection hc with hc; exact hc.symm
      · injection e
      · cases f with
        | param x => simp [Ty.isParam] at hpar
        | con h ps => exact concrete_wild (by simp [isWildCard, Ty.is, Ty.head?]) sd sf hc

/-- **C37**: a failed check leaves the context as it was. -/
theorem C37_failure_unchanged {c c' : Ctx} {n : Nat} {src dst : Ty} (h : isAssignable c n src dst = some (false, c')) : c' = c := by
  obtain ⟨P, _, e⟩ := isAssignable_parts h
  exact e

/-- **C37**: a successful check binds only type variables that were instantiated. -/
theorem C37_binds_known {c c' : Ctx} {n : Nat} {src dst : Ty} {r : Bool} (h : isAssignable c n src dst = some (r, c')) (x : Name)
    (hx : c.bindings x = none) : c'.bindings x = none := by
  obtain ⟨P, _, rfl⟩ := isAssignable_parts h
  split
  · unfold Ctx.update
    dsimp
    rw [hx]
  · exact hx

theorem finalize_ground {σ : Sub} (hσ : ∀ x t, σ x = some t → Shaped t) : ∀ n t r, Shaped t → fullySubstitute σ true n t = some r → Ground r := by
  intro n
  induction n with
  | zero => intro t r _ h; exact nomatch h
  | succ n ih =>
    intro t r hs h
    cases t with
    | param x =>
      rw [fullySubstitute] at h
      cases hx : substitute σ n (.param x) with
      | none => rw [hx] at h; exact nomatch h
      | some u =>
        rw [hx] at h
        cases u with
        | param y =>
          have h : some dyn = some r := h
          injection h with h
          rw [← h]
          intro x hx
          cases hx with
          | inside hm _ => exact nomatch hm
        | con k ps =>
          refine ih _ r ?_ h
          have := closed_below (S := Shaped) (σ := σ) ?_ (substitute_below _ _ _ hx).1 (.param x)
          · exact this
          · intro a b ha hb
            rcases hb with hb | ⟨x, rfl, hb⟩
            · cases a with
              | param x => exact nomatch hb
              | con k ps => exact (shaped_params ha).1 b hb
            · exact hσ x b hb
    | con k ps =>
      obtain ⟨s1, s2⟩ := shaped_params hs
      rw [fullySubstitute] at h
      split at h
      · cases hm : mapAll (fullySubstitute σ true n) ps with
        | none => rw [hm] at h; exact nomatch h
        | some rs =>
          rw [hm] at h
          have h : some (Ty.con k rs) = some r := h
          injection h with h
          rw [← h]
          have all : ∀ ps rs, mapAll (fullySubstitute σ true n) ps = some rs → (∀ p ∈ ps, Shaped p) → ∀ r ∈ rs, Ground r := by
            intro ps
            induction ps with
            | nil => intro rs h _; rw [mapAll] at h; injection h with h; rw [← h]; intro r hr; exact nomatch hr
            | cons p ps ih2 =>
              intro rs h hs
              rw [mapAll] at h
              cases hp : fullySubstitute σ true n p with
              | none => rw [hp] at h; exact nomatch h
              | some r =>
                rw [hp] at h
                cases hq : mapAll (fullySubstitute σ true n) ps with
                | none => rw [hq] at h; exact nomatch h
                | some rs' =>
                  rw [hq] at h
                  have h : some (r :: rs') = some rs := h
                  injection h with h
                  rw [← h]
                  intro u hu
                  rcases List.mem_cons.mp hu with rfl | hu
                  · exact ih p u (hs p (by simp)) hp
                  · exact ih2 rs' hq (fun p hp => hs p (by simp [hp])) u hu
          intro x hx
          cases hx with
          | inside hmem ho => exact all ps rs hm s1 _ hmem x ho
      · rename_i hh
        injection h with h
        rw [← h, s2 (by simpa using hh)]
        intro x hx
        cases hx with
        | inside hm _ => exact nomatch hm

/-- **C37**: the types the checker reports in the end contain no type parameter. -/
theorem C37_finalized_ground {c : Ctx} (hb : Built c) {t r : Ty} (hs : Shaped t) {n : Nat} (h : c.finalizeType n t = some r) : Ground r :=
  finalize_ground (fun x t h => (hb.proper x t h).1) n t r hs h

/-! ## What does not hold -/

/-- An opaque type. -/
def op (ps : List Ty) : Ty := .con (.opaque "o") ps

/-- A context in which one type variable has been instantiated. -/
def oneVar (legacy : Bool) : Ctx := (instantiate (.param (.other "A")) (fun _ => none, .new legacy)).2.2

theorem oneVar_built (legacy : Bool) : Built (oneVar legacy) :=
  .step (.instantiate (.param (.other "A")) (fun _ => none)) 0 (.start legacy)
    ⟨.param _, fun x hx hv => (by cases hx; simp [isTypeVar] at hv; exact absurd hv (by decide)), fun x y h => nomatch h⟩ rfl

theorem not_wild {b : Base} (h : b ∉ [Base.any, .dyn, .error]) {ps : List Ty} : ¬ Wild (.con (.base b) ps) := by
  intro hw; cases hw <;> simp at h

/-- A wrapper type does not fit `null`. -/
theorem wrapper_null {legacy : Bool} : ¬ Fits legacy (.b .intWrapper) (.b .null) := by
  intro h
  cases h with
  | wildL _ hw => exact not_wild (by simp) hw
  | wildR _ hw => exact not_wild (by simp) hw
  | wrap hw => cases hw
  | unwrap hw => cases hw
  | toNull _ hn => cases hn

theorem duration_timestamp {legacy : Bool} : ¬ Fits legacy (.b .duration) (.b .timestamp) := by
  intro h
  cases h with
  | wildL _ hw => exact not_wild (by simp) hw
  | wildR _ hw => exact not_wild (by simp) hw
  | wrap hw => cases hw
  | unwrap hw => cases hw

theorem fits_op {legacy : Bool} {ps qs : List Ty} (h : Fits legacy (op ps) (op qs)) : ∀ q ∈ ps.zip qs, Fits legacy q.1 q.2 := by
  unfold op at h
  cases h with
  | wildL _ hw => exact nomatch hw
  | wildR _ hw => exact nomatch hw
  | params _ h => exact h

theorem fits_map {legacy : Bool} {ps qs : List Ty} (h : Fits legacy (.con .map ps) (.con .map qs)) : ∀ q ∈ ps.zip qs, Fits legacy q.1 q.2 := by
  cases h with
  | wildL _ hw => exact nomatch hw
  | wildR _ hw => exact nomatch hw
  | params _ h => exact h

/-- **C37** fails when a binding is widened: `o(T, wrapper(int))` is found assignable to `o(null, T)`, with `T` first bound to `null` and
then widened to `wrapper(int)`; but `o(wrapper(int), wrapper(int))` does not fit `o(null, wrapper(int))`. -/
theorem C37_widening_unsound (legacy : Bool) : ∃ c', isAssignable (oneVar legacy) 9 (op [tv 1, .b .intWrapper]) (op [.b .null, tv 1]) = some (true, c') ∧
    c'.fullySubstitute 9 (op [tv 1, .b .intWrapper]) = some (op [.b .intWrapper, .b .intWrapper]) ∧
    c'.fullySubstitute 9 (op [.b .null, tv 1]) = some (op [.b .null, .b .intWrapper]) ∧
    ¬ Fits legacy (op [.b .intWrapper, .b .intWrapper]) (op [.b .null, .b .intWrapper]) := by
  refine ⟨((isAssignable (oneVar legacy) 9 (op [tv 1, .b .intWrapper]) (op [.b .null, tv 1])).getD (true, oneVar legacy)).2, ?_, ?_, ?_, ?_⟩
  · cases legacy <;> rfl
  · cases legacy <;> rfl
  · cases legacy <;> rfl
  · intro h
    exact wrapper_null (fits_op h (.b .intWrapper, .b .null) (by simp))

/-- `map(a, b)`. -/
def mp (a b : Ty) : Ty := .con .map [a, b]

/-- **C37** fails through widening even for a source type without parameters, under legacy null assignment: `o(T, T, T)` accepts
`map(null, dyn)`, `map(duration, int)` and `map(timestamp, any)` and ends with `T = map(timestamp, any)`, which `map(duration, int)`
does not fit. -/
theorem C37_widening_unsound_ground : ∃ c',
    isAssignable (oneVar true) 9 (op [mp (.b .null) dyn, mp (.b .duration) (.b .int), mp (.b .timestamp) (.b .any)]) (op [tv 1, tv 1, tv 1]) =
      some (true, c') ∧
    c'.fullySubstitute 9 (tv 1) = some (mp (.b .timestamp) (.b .any)) ∧
    ¬ Fits true (mp (.b .duration) (.b .int)) (mp (.b .timestamp) (.b .any)) := by
  refine ⟨((isAssignable (oneVar true) 9 (op [mp (.b .null) dyn, mp (.b .duration) (.b .int), mp (.b .timestamp) (.b .any)])
    (op [tv 1, tv 1, tv 1])).getD (true, oneVar true)).2, rfl, rfl, ?_⟩
  intro h
  exact duration_timestamp (fits_map h (.b .duration, .b .timestamp) (by simp))

/-- **C37** fails inside an `AssignabilityContext`: a failed check keeps what it had bound before it failed, and a later check sees it.
`map(string, int)` is not assignable to `map(T, bool)`; afterwards `int` is not assignable to `T` although nothing was committed. -/
theorem C37_session_failure_leaks : ∃ P, Pro.empty.isAssignable (oneVar true) 9 (mp (.b .string) (.b .int)) (mp (tv 1) (.b .bool)) =
      some (false, P) ∧
    (P.isAssignable (oneVar true) 9 (.b .int) (tv 1)).map (·.1) = some false ∧
    (Pro.empty.isAssignable (oneVar true) 9 (.b .int) (tv 1)).map (·.1) = some true :=
  ⟨_, rfl, rfl, rfl⟩

/-- A concrete case of `C37_sound_partial`: `list(T)` against `list(int)` binds `T` to `int`. -/
example : ∃ P, Pro.empty.isAssignable (oneVar true) 9 (.con .list [tv 1]) (.con .list [.b .int]) = some (true, P) ∧ P.widened = false ∧
    Good (oneVar true) (.con .list [tv 1]) ∧ Good (oneVar true) (.con .list [.b .int]) := by
  refine ⟨_, rfl, rfl, good_node rfl ?_, good_node rfl ?_⟩
  · intro p hp; simp at hp; subst hp; exact known_param (by simp [oneVar, instantiate, instantiateParam, isTypeVar, Ctx.newVar, Ctx.new]; decide)
  · intro p hp; simp at hp; subst hp; exact good_leaf _ _

end Cel.Checker
