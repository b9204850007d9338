import Verif.Checker.Acyclic

/-!
# C36: the theorems

The invariant is that following bindings is well founded; every operation keeps it and, under it, comes to an end.
-/

set_option linter.unusedSimpArgs false
set_option linter.unusedVariables false

namespace Cel.Checker
open Relation

theorem wf_mono {σ τ : Sub} (h : WF τ) (hle : ∀ x t, σ x = some t → τ x = some t) : WF σ := by
  refine Subrelation.wf ?_ h
  rintro a b (hs | ⟨x, e, hs⟩)
  · exact .inl hs
  · exact .inr ⟨x, e, hle x a hs⟩

theorem sub_eq (c : Ctx) : look c.bindings Pro.empty.map = c.sub := rfl

theorem sub_update {c : Ctx} {P : Pro} {x : Name} {t : Ty} (h : (c.update P).sub x = some t) : look c.bindings P.map x = some t := by
  unfold Ctx.sub look Ctx.update at h
  unfold look
  dsimp at h
  cases hb : c.bindings x with
  | none => rw [hb] at h; exact nomatch h
  | some o =>
    rw [hb] at h
    cases hp : P.map x with
    | some u => rw [hp] at h; exact h
    | none =>
      rw [hp] at h
      exact h

theorem wf_update {c : Ctx} {P : Pro} (h : WF (look c.bindings P.map)) : WF (c.update P).sub := wf_mono h (fun _ _ => sub_update)

theorem sub_newVar (c : Ctx) : c.newVar.2.sub = c.sub := by
  funext y
  unfold Ctx.sub look Ctx.newVar
  dsimp
  by_cases hy : y = .var (c.nextId + 1)
  · rw [if_pos hy]
    cases c.bindings y with
    | none => rfl
    | some o => rfl
  · rw [if_neg hy]

mutual
theorem instantiate_same (t : Ty) (s : Instances × Ctx) :
    (instantiate t s).2.2.sub = s.2.sub ∧ (instantiate t s).2.2.legacyNull = s.2.legacyNull := by
  cases t with
  | param x =>
    rw [instantiate, instantiateParam]
    split
    · exact ⟨rfl, rfl⟩
    · split
      · exact ⟨rfl, rfl⟩
      · exact ⟨sub_newVar s.2, rfl⟩
  | con h ps =>
    have hi := instantiateAll_same ps s
    cases h with
    | base b =>
      cases b <;> (unfold instantiate; exact ⟨rfl, rfl⟩)
    | struct n => rw [instantiate]; exact ⟨rfl, rfl⟩
    | enum n => rw [instantiate]; exact ⟨rfl, rfl⟩
    | function => rw [instantiate]; exact ⟨rfl, rfl⟩
    | type =>
      rw [instantiate]
      dsimp only
      split
      · exact ⟨rfl, rfl⟩
      · exact hi
    | list => rw [instantiate]; exact hi
    | map => rw [instantiate]; exact hi
    | «opaque» n => rw [instantiate]; exact hi

theorem instantiateAll_same (ts : List Ty) (s : Instances × Ctx) :
    (instantiateAll ts s).2.2.sub = s.2.sub ∧ (instantiateAll ts s).2.2.legacyNull = s.2.legacyNull := by
  cases ts with
  | nil => rw [instantiateAll]; exact ⟨rfl, rfl⟩
  | cons t ts =>
    have h1 := instantiate_same t s
    have h2 := instantiateAll_same ts (instantiate t s).2
    rw [instantiateAll]
    exact ⟨h2.1.trans h1.1, h2.2.trans h1.2⟩
end

theorem assign_wf {legacy : Bool} {B : Bindings} {n : Nat} {src to : Ty} {P P' : Pro} {r : Bool}
    (h : assign legacy B n src to P = some (r, P')) (wf : WF (look B P.map)) : WF (look B P'.map) :=
  (assign_inv (S := fun _ => True) (fun _ => trivial) _ _ _ _ _ _ h ⟨wf, fun _ _ _ _ => trivial⟩ trivial trivial).1

theorem assignAll_wf {legacy : Bool} {B : Bindings} {n : Nat} {ps qs : List Ty} {P P' : Pro} {r : Bool}
    (h : assignAll (assign legacy B n) ps qs P = some (r, P')) (wf : WF (look B P.map)) : WF (look B P'.map) :=
  (assignAll_inv (S := fun _ => True) (B := B) (f := assign legacy B n)
    (fun a b P r P' h hi _ _ => ⟨assign_wf h hi.1, fun _ _ _ _ => trivial⟩) ps qs P r P' h ⟨wf, fun _ _ _ _ => trivial⟩
    (fun _ _ => trivial) (fun _ _ => trivial)).1

theorem assignAll_total {legacy : Bool} {B : Bindings} : ∀ (ps qs : List Ty) (P : Pro), WF (look B P.map) →
    ∃ n x, assignAll (assign legacy B n) ps qs P = some x := by
  intro ps
  induction ps with
  | nil => intro qs P _; exact ⟨0, _, by rw [assignAll]; intro _ _ _ _ e; exact nomatch e⟩
  | cons p ps ih =>
    intro qs P wf
    cases qs with
    | nil => exact ⟨0, _, by rw [assignAll]; intro _ _ _ _ _ e; exact nomatch e⟩
    | cons q qs =>
      obtain ⟨n1, ⟨r, P1⟩, h1⟩ := assign_total (legacy := legacy) wf p q
      cases r with
      | false => exact ⟨n1, (false, P1), by rw [assignAll, h1]⟩
      | true =>
        obtain ⟨n2, x, h2⟩ := ih qs P1 (assign_wf h1 wf)
        refine ⟨max n1 n2, x, ?_⟩
        rw [assignAll, assign_le (Nat.le_max_left _ _) h1]
        exact assignAll_le (Nat.le_max_right _ _) h2

/-! ## Full substitution -/

theorem mapAll_mono {f g : Ty → Option Ty} (hfg : ∀ t r, f t = some r → g t = some r) : ∀ ps rs, mapAll f ps = some rs → mapAll g ps = some rs := by
  intro ps
  induction ps with
  | nil => intro rs h; exact h
  | cons p ps ih =>
    intro rs h
    rw [mapAll] at h ⊢
    cases hp : f p with
    | none => rw [hp] at h; exact nomatch h
    | some r =>
      rw [hp] at h
      cases hq : mapAll f ps with
      | none => rw [hq] at h; exact nomatch h
      | some rs' => rw [hq] at h; rw [hfg _ _ hp, ih _ hq]; exact h

theorem fullySubstitute_mono {σ : Sub} {d : Bool} : ∀ n t r, fullySubstitute σ d n t = some r → fullySubstitute σ d (n + 1) t = some r := by
  intro n
  induction n with
  | zero => intro t r h; exact nomatch h
  | succ n ih =>
    intro t r h
    cases t with
    | param x =>
      rw [fullySubstitute] at h ⊢
      cases hs : substitute σ n (.param x) with
      | none => rw [hs] at h; exact nomatch h
      | some u =>
        rw [hs] at h
        rw [substitute_mono _ _ _ hs]
        cases u with
        | param y => exact h
        | con hd ps => exact ih _ _ h
    | con hd ps =>
      rw [fullySubstitute] at h ⊢
      split at h
      · rename_i hh
        rw [if_pos hh]
        cases hm : mapAll (fullySubstitute σ d n) ps with
        | none => rw [hm] at h; exact nomatch h
        | some rs => rw [hm] at h; rw [mapAll_mono ih _ _ hm]; exact h
      · rename_i hh
        rw [if_neg hh]; exact h

theorem fullySubstitute_le {σ : Sub} {d : Bool} {n m : Nat} (hnm : n ≤ m) {t r : Ty} (h : fullySubstitute σ d n t = some r) :
    fullySubstitute σ d m t = some r := le_of_mono fullySubstitute_mono hnm h

theorem fullySubstitute_total {σ : Sub} (wf : WF σ) (d : Bool) (t : Ty) : ∃ n r, fullySubstitute σ d n t = some r := by
  induction wf.transGen.apply t with
  | intro t _ ih =>
    have con : ∀ hd ps, (∀ p ∈ ps, ∃ n r, fullySubstitute σ d n p = some r) → ∃ n r, fullySubstitute σ d n (.con hd ps) = some r := by
      intro hd ps hps
      have all : ∀ qs : List Ty, (∀ q ∈ qs, q ∈ ps) → ∃ n rs, mapAll (fullySubstitute σ d n) qs = some rs := by
        intro qs
        induction qs with
        | nil => intro _; exact ⟨0, [], rfl⟩
        | cons q qs ih2 =>
          intro hq
          obtain ⟨n1, r1, h1⟩ := hps q (hq q (by simp))
          obtain ⟨n2, r2, h2⟩ := ih2 (fun q h => hq q (by simp [h]))
          refine ⟨max n1 n2, r1 :: r2, ?_⟩
          rw [mapAll, fullySubstitute_le (Nat.le_max_left _ _) h1,
            mapAll_mono (fun t r h => fullySubstitute_le (Nat.le_max_right n1 n2) h) _ _ h2]
          rfl
      obtain ⟨n, rs, h⟩ := all ps (fun _ h => h)
      refine ⟨n + 1, ?_⟩
      rw [fullySubstitute]
      split
      · rw [h]; exact ⟨_, rfl⟩
      · exact ⟨_, rfl⟩
    cases t with
    | con hd ps => exact con hd ps (fun p hp => ih p (.single (.inl (show p ∈ (Ty.con hd ps).params from hp))))
    | param x =>
      obtain ⟨n1, u, h1⟩ := substitute_total wf (.param x)
      cases u with
      | param y => exact ⟨n1 + 1, _, by rw [fullySubstitute, h1]; rfl⟩
      | con hd ps =>
        have hb := (substitute_below _ _ _ h1).1
        obtain ⟨n2, r, h2⟩ := con hd ps (fun p hp => ih p (params_step hb hp))
        refine ⟨max n1 n2 + 1, r, ?_⟩
        rw [fullySubstitute, substitute_le (Nat.le_max_left _ _) h1]
        exact fullySubstitute_le (Nat.le_max_right _ _) h2

/-! ## The operations -/

theorem runChecks_wf {c : Ctx} {n : Nat} : ∀ qs P P', runChecks c n qs P = some P' → WF (look c.bindings P.map) → WF (look c.bindings P'.map) := by
  intro qs
  induction qs with
  | nil => intro P P' h wf; rw [runChecks] at h; injection h with h; rw [← h]; exact wf
  | cons q qs ih =>
    intro P P' h wf
    rw [runChecks] at h
    cases hq : P.isAssignable c n q.1 q.2 with
    | none => rw [hq] at h; exact nomatch h
    | some r =>
      rw [hq] at h
      obtain ⟨b, P1⟩ := r
      exact ih P1 P' h (assign_wf hq wf)

theorem resolveOne_wf {c : Ctx} {n : Nat} {l : Bool} {args : List Ty} {recv : Bool} {o : Overload} {found : Option Ty × List Overload}
    {r : Ctx × Option Ty × List Overload} (h : resolveOne c n l args recv o found = some r) (wf : WF c.sub) : WF r.1.sub := by
  unfold resolveOne at h
  split at h
  · injection h with h; rw [← h]; exact wf
  · have hs : (instantiateOverload c o).2.2.sub = c.sub := by
      unfold instantiateOverload
      exact (instantiateAll_same _ _).1.trans (instantiate_same _ _).1
    generalize instantiateOverload c o = q at h hs
    obtain ⟨result, params, c'⟩ := q
    dsimp only at h hs
    cases ha : assignArgs (assign c'.legacyNull c'.bindings n) l args params .empty with
    | none => rw [ha] at h; exact nomatch h
    | some x =>
      obtain ⟨b, P⟩ := x
      rw [ha] at h
      have wf' : WF c'.sub := by rw [hs]; exact wf
      cases b with
      | false =>
        have h : some (c', found) = some r := h
        injection h with h; rw [← h]; exact wf'
      | true =>
        have hw : WF (look c'.bindings P.map) := assignAll_wf ha wf'
        have h := congrArg (Option.map (·.1)) h
        have h : some (c'.update P) = some r.1 := h
        injection h with h; rw [← h]; exact wf_update hw

theorem resolveLoop_wf {n : Nat} {l : Bool} {args : List Ty} {recv : Bool} : ∀ os c found r,
    resolveLoop n l args recv os c found = some r → WF c.sub → WF r.1.sub := by
  intro os
  induction os with
  | nil => intro c found r h wf; rw [resolveLoop] at h; injection h with h; rw [← h]; exact wf
  | cons o os ih =>
    intro c found r h wf
    rw [resolveLoop] at h
    cases h1 : resolveOne c n l args recv o found with
    | none => rw [h1] at h; exact nomatch h
    | some x => rw [h1] at h; exact ih _ _ _ h (resolveOne_wf h1 wf)

theorem resolve_wf {c : Ctx} {n : Nat} {d : FunctionDecl} {args : List Ty} {recv : Bool} {r : Ctx × Option (Ty × List Overload)}
    (h : resolveOverload c n d args recv = some r) (wf : WF c.sub) : WF r.1.sub := by
  unfold resolveOverload at h
  cases h1 : resolveLoop n (isLogicalOp d.name args) args recv d.overloads c (none, []) with
  | none => rw [h1] at h; exact nomatch h
  | some x =>
    rw [h1] at h
    have w := resolveLoop_wf _ _ _ _ h1 wf
    obtain ⟨c1, ot, os⟩ := x
    cases ot with
    | none =>
      have h : some (c1, none) = some r := h
      injection h with h; rw [← h]; exact w
    | some t =>
      have h : ((c1.fullySubstitute n t).bind fun t' => some (c1, some (t', os))) = some r := h
      cases h2 : c1.fullySubstitute n t with
      | none => rw [h2] at h; exact nomatch h
      | some t' =>
        rw [h2] at h
        have h : some (c1, some (t', os)) = some r := h
        injection h with h; rw [← h]; exact w

theorem run_wf {op : Op} {n : Nat} {c c' : Ctx} (h : op.run n c = some c') (wf : WF c.sub) : WF c'.sub := by
  cases op with
  | instantiate t m =>
    unfold Op.run at h
    injection h with h
    rw [← h, (instantiate_same t _).1]; exact wf
  | assignable src dst =>
    unfold Op.run at h
    dsimp only at h
    unfold isAssignable at h
    cases ha : assign c.legacyNull c.bindings n src dst .empty with
    | none => rw [ha] at h; exact nomatch h
    | some x =>
      obtain ⟨b, P⟩ := x
      rw [ha] at h
      have h : some (if b = true then c.update P else c) = some c' := h
      injection h with h
      rw [← h]
      split
      · exact wf_update (assign_wf ha wf)
      · exact wf
  | resolve d args recv =>
    unfold Op.run at h
    dsimp only at h
    cases hr : resolveOverload c n d args recv with
    | none => rw [hr] at h; exact nomatch h
    | some x =>
      rw [hr] at h
      have h : some x.1 = some c' := h
      injection h with h
      rw [← h]; exact resolve_wf hr wf
  | session checks commit =>
    unfold Op.run at h
    dsimp only at h
    cases hr : runChecks c n checks .empty with
    | none => rw [hr] at h; exact nomatch h
    | some P =>
      rw [hr] at h
      have h : some (if commit = true then (P.updateInferred c).1 else c) = some c' := h
      injection h with h
      rw [← h]
      split
      · exact wf_update (runChecks_wf _ _ _ hr wf)
      · exact wf

theorem wf_new (legacy : Bool) : WF (Ctx.new legacy).sub := by
  refine ⟨fun a => ?_⟩
  induction hn : sizeOf a using Nat.strongRecOn generalizing a with
  | _ n ih =>
    refine ⟨a, fun b hb => ?_⟩
    rcases hb with hb | ⟨x, _, hb⟩
    · cases a with
      | param x => exact nomatch hb
      | con h ps =>
        refine ih (sizeOf b) ?_ b rfl
        have := List.sizeOf_lt_of_mem (show b ∈ ps from hb)
        rw [← hn, Ty.con.sizeOf_spec]
        omega
    · exact nomatch hb

theorem reachable_wf {c : Ctx} (h : Reachable c) : WF c.sub := by
  induction h with
  | start legacy => exact wf_new legacy
  | step op n _ h ih => exact run_wf h ih

/-! ## Termination of the operations -/

theorem assignAll_le' {legacy : Bool} {B : Bindings} {n m : Nat} (hnm : n ≤ m) {l : Bool} {ps qs : List Ty} {P : Pro} {r : Bool × Pro}
    (h : assignArgs (assign legacy B n) l ps qs P = some r) : assignArgs (assign legacy B m) l ps qs P = some r := assignAll_le hnm h

theorem runChecks_total {c : Ctx} : ∀ qs P, WF (look c.bindings P.map) → ∃ n0 P', ∀ n ≥ n0, runChecks c n qs P = some P' := by
  intro qs
  induction qs with
  | nil => intro P _; exact ⟨0, P, fun _ _ => rfl⟩
  | cons q qs ih =>
    intro P wf
    obtain ⟨n1, ⟨b, P1⟩, h1⟩ := assign_total (legacy := c.legacyNull) wf q.1 q.2
    obtain ⟨n2, P2, h2⟩ := ih P1 (assign_wf h1 wf)
    refine ⟨max n1 n2, P2, fun n hn => ?_⟩
    have e : P.isAssignable c n q.1 q.2 = some (b, P1) := assign_le (show n1 ≤ n by omega) h1
    rw [runChecks, e]
    exact h2 n (by omega)

theorem resolveOne_total {c : Ctx} (wf : WF c.sub) (l : Bool) (args : List Ty) (recv : Bool) (o : Overload)
    (found : Option Ty × List Overload) : ∃ n0 r, ∀ n ≥ n0, resolveOne c n l args recv o found = some r := by
  unfold resolveOne
  split
  · exact ⟨0, _, fun _ _ => rfl⟩
  · have hs : (instantiateOverload c o).2.2.sub = c.sub := by
      unfold instantiateOverload
      exact (instantiateAll_same _ _).1.trans (instantiate_same _ _).1
    generalize instantiateOverload c o = q at hs
    obtain ⟨result, params, c'⟩ := q
    dsimp only at hs ⊢
    have wf' : WF (look c'.bindings Pro.empty.map) := by rw [sub_eq, hs]; exact wf
    obtain ⟨n1, ⟨b, P⟩, h1⟩ := assignAll_total (legacy := c'.legacyNull) args
      (if l then List.replicate args.length (params.headD dyn) else params) .empty wf'
    cases b with
    | false =>
      refine ⟨n1, (c', found), fun n hn => ?_⟩
      rw [assignAll_le' hn h1]; rfl
    | true =>
      refine ⟨n1, (c'.update P, some (match found.1 with
        | none => result
        | some t => if t.eq result then t else dyn), found.2 ++ [o]), fun n hn => ?_⟩
      rw [assignAll_le' hn h1]
      rfl

theorem resolveLoop_total {l : Bool} {args : List Ty} {recv : Bool} : ∀ os c found, WF c.sub →
    ∃ n0 r, ∀ n ≥ n0, resolveLoop n l args recv os c found = some r := by
  intro os
  induction os with
  | nil => intro c found _; exact ⟨0, (c, found), fun _ _ => rfl⟩
  | cons o os ih =>
    intro c found wf
    obtain ⟨n1, r1, h1⟩ := resolveOne_total wf l args recv o found
    obtain ⟨n2, r2, h2⟩ := ih r1.1 r1.2 (resolveOne_wf (h1 n1 (Nat.le_refl _)) wf)
    refine ⟨max n1 n2, r2, fun n hn => ?_⟩
    rw [resolveLoop, h1 n (by omega)]
    exact h2 n (by omega)

theorem resolve_total {c : Ctx} (wf : WF c.sub) (d : FunctionDecl) (args : List Ty) (recv : Bool) :
    ∃ n0 r, ∀ n ≥ n0, resolveOverload c n d args recv = some r := by
  obtain ⟨n1, ⟨c1, ot, os⟩, h1⟩ := resolveLoop_total (l := isLogicalOp d.name args) (args := args) (recv := recv) d.overloads c (none, []) wf
  have w := resolveLoop_wf _ _ _ _ (h1 n1 (Nat.le_refl _)) wf
  cases ot with
  | none =>
    refine ⟨n1, (c1, none), fun n hn => ?_⟩
    unfold resolveOverload
    rw [h1 n hn]; rfl
  | some t =>
    obtain ⟨n2, t', h2⟩ := fullySubstitute_total w false t
    refine ⟨max n1 n2, (c1, some (t', os)), fun n hn => ?_⟩
    unfold resolveOverload
    rw [h1 n (by omega)]
    have e : c1.fullySubstitute n t = some t' := fullySubstitute_le (show n2 ≤ n by omega) h2
    show ((c1.fullySubstitute n t).bind fun t' => some (c1, some (t', os))) = _
    rw [e]; rfl

theorem run_total {c : Ctx} (wf : WF c.sub) (op : Op) : ∃ n0 c', ∀ n ≥ n0, op.run n c = some c' := by
  cases op with
  | instantiate t m => exact ⟨0, _, fun _ _ => rfl⟩
  | assignable src dst =>
    obtain ⟨n1, ⟨b, P⟩, h1⟩ := assign_total (legacy := c.legacyNull) (P := .empty) wf src dst
    refine ⟨n1, if b then c.update P else c, fun n hn => ?_⟩
    unfold Op.run
    dsimp only
    unfold isAssignable
    rw [assign_le hn h1]; rfl
  | resolve d args recv =>
    obtain ⟨n1, r, h1⟩ := resolve_total wf d args recv
    refine ⟨n1, r.1, fun n hn => ?_⟩
    unfold Op.run
    dsimp only
    rw [h1 n hn]; rfl
  | session checks commit =>
    obtain ⟨n1, P, h1⟩ := runChecks_total (c := c) checks .empty wf
    refine ⟨n1, if commit then (P.updateInferred c).1 else c, fun n hn => ?_⟩
    unfold Op.run
    dsimp only
    rw [h1 n hn]; rfl

/-! ## The theorems -/

/-- **C36**: whatever the history, following the bindings of type variables always comes to an end. -/
theorem C36_acyclic {c : Ctx} (h : Reachable c) : NoInfiniteChain c.sub := noChain_of_wf (reachable_wf h)

/-- **C36**: in every reachable context every operation terminates, with one result. -/
theorem C36_terminates {c : Ctx} (h : Reachable c) (op : Op) : ∃ n0 c', ∀ n ≥ n0, op.run n c = some c' := run_total (reachable_wf h) op

/-- **C36**: assignability queries terminate with one answer. -/
theorem C36_query_terminates {c : Ctx} (h : Reachable c) (src dst : Ty) : ∃ n0 r, ∀ n ≥ n0, isAssignable c n src dst = some r := by
  obtain ⟨n1, ⟨b, P⟩, h1⟩ := assign_total (legacy := c.legacyNull) (P := .empty) (reachable_wf h) src dst
  refine ⟨n1, (b, if b then c.update P else c), fun n hn => ?_⟩
  unfold isAssignable
  rw [assign_le hn h1]; rfl

/-- **C36**: overload resolution terminates with one answer. -/
theorem C36_resolve_terminates {c : Ctx} (h : Reachable c) (d : FunctionDecl) (args : List Ty) (recv : Bool) :
    ∃ n0 r, ∀ n ≥ n0, resolveOverload c n d args recv = some r := resolve_total (reachable_wf h) d args recv

/-- **C36**: substituting and finalizing a type terminate. -/
theorem C36_substitution_terminates {c : Ctx} (h : Reachable c) (t : Ty) :
    (∃ n0 t', ∀ n ≥ n0, c.fullySubstitute n t = some t') ∧ (∃ n0 t', ∀ n ≥ n0, c.finalizeType n t = some t') := by
  obtain ⟨n1, r1, h1⟩ := fullySubstitute_total (reachable_wf h) false t
  obtain ⟨n2, r2, h2⟩ := fullySubstitute_total (reachable_wf h) true t
  exact ⟨⟨n1, r1, fun n hn => fullySubstitute_le hn h1⟩, ⟨n2, r2, fun n hn => fullySubstitute_le hn h2⟩⟩

/-- **C36**: no variable depends on itself, through any number of bindings. -/
theorem C36_no_cycle {c : Ctx} (h : Reachable c) (x : Name) : ¬ TransGen (DependsOn c.sub) x x := by
  intro hx
  refine wf_irrefl (reachable_wf h) (a := .param x) ?_
  have key : ∀ a b, TransGen (DependsOn c.sub) a b → TransGen (Step c.sub) (.param b) (.param a) := by
    intro a b hab
    induction hab with
    | single hd => obtain ⟨t, h1, h2⟩ := hd; exact TransGen.tail' (below_occurs h2) (.inr ⟨_, rfl, h1⟩)
    | tail _ hd ih => obtain ⟨t, h1, h2⟩ := hd; exact (TransGen.tail' (below_occurs h2) (.inr ⟨_, rfl, h1⟩)).trans ih
  exact key x x hx

/-! ## Two assignability contexts at once -/

/-- The type variable `T%i`. -/
def tv (i : Nat) : Ty := .param (.var i)

/-- A context with two instantiated type variables. -/
def twoVars : Ctx := (instantiate (.con .map [.param (.other "A"), .param (.other "B")]) (fun _ => none, .new false)).2.2

theorem twoVars_reachable : Reachable twoVars := .step (.instantiate (.con .map [.param (.other "A"), .param (.other "B")]) _) 0 (.start false) rfl

/-- Two `AssignabilityContext`s of one inference context, used side by side: the one makes `T%1` assignable to `T%2`, the other `T%2` to
`T%1`, and both are committed. -/
def crossed (n : Nat) : Option Ctx := do
  let a ← Pro.empty.isAssignable twoVars n (tv 1) (tv 2)
  let b ← Pro.empty.isAssignable twoVars n (tv 2) (tv 1)
  some (b.2.updateInferred (a.2.updateInferred twoVars).1).1

/-- **C36** (why a session ends before the next begins): two contexts used side by side can make a cycle, after which a substitution never
ends. The checker never has two open at once. -/
theorem C36_side_by_side_cycle : ∃ c, crossed 2 = some c ∧ TransGen (DependsOn c.sub) (.var 1) (.var 1) ∧
    ∀ n, substitute c.sub n (tv 1) = none := by
  refine ⟨(crossed 2).getD twoVars, rfl, ?_, ?_⟩
  · refine TransGen.tail (b := .var 2) (.single ?_) ?_
    · exact ⟨tv 2, rfl, .here⟩
    · exact ⟨tv 1, rfl, .here⟩
  · intro n
    have : ∀ n, substitute ((crossed 2).getD twoVars).sub n (tv 1) = none ∧ substitute ((crossed 2).getD twoVars).sub n (tv 2) = none := by
      intro n
      induction n with
      | zero => exact ⟨rfl, rfl⟩
      | succ n ih => exact ⟨ih.2, ih.1⟩
    exact (this n).1

/-! ## A concrete history -/

/-- `T%1 := list(T%2)`, then `T%2 := map(string, T%1)` is refused, and `T%2 := int` makes `T%1` a list of `int`. -/
example : ∃ c1 c2, isAssignable twoVars 9 (.con .list [tv 2]) (tv 1) = some (true, c1) ∧
    isAssignable c1 9 (.con .map [.b .string, tv 1]) (tv 2) = some (false, c1) ∧
    isAssignable c1 9 (.b .int) (tv 2) = some (true, c2) ∧
    c2.finalizeType 9 (tv 1) = some (.con .list [.b .int]) := by
  refine ⟨_, _, rfl, ?_, rfl, rfl⟩
  rfl

end Cel.Checker
