import Verif.Types.Rename

/-!
# C60: bindings are never lost

Whatever is checked, accepted or not, a type variable that has been bound stays bound to the same type.
-/

set_option linter.unusedSimpArgs false
set_option linter.unusedVariables false

namespace Cel.Types
open Cel Cel.Eval Cel.Checker Relation

/-- No prospective substitution for a variable that is bound. -/
def Fresh (B : Bindings) (P : Pro) : Prop := ∀ x t, B x = some (some t) → P.map x = none

theorem fresh_empty (B : Bindings) : Fresh B .empty := fun _ _ _ => rfl

theorem look_none {B : Bindings} {P : Sub} {x : Name} (h : look B P x = none) (t : Ty) : B x ≠ some (some t) := by
  intro e
  unfold look at h
  cases hp : P x with
  | some u => rw [hp] at h; exact nomatch h
  | none => rw [hp, e] at h; exact nomatch h

theorem fresh_bind {B : Bindings} {P : Pro} (h : Fresh B P) {x : Name} {t : Ty} (hx : ∀ u, B x ≠ some (some u)) : Fresh B (P.bind x t) := by
  intro y u hy
  unfold Pro.bind
  dsimp only
  split
  · rename_i e; rw [e] at hy; exact absurd hy (hx u)
  · exact h y u hy

theorem substitute_param {σ : Sub} : ∀ n t x, substitute σ n t = some (.param x) → σ x = none := by
  intro n
  induction n with
  | zero => intro t x h; exact nomatch h
  | succ n ih =>
    intro t x h
    cases t with
    | con k ps => rw [substitute] at h; exact nomatch h
    | param y =>
      rw [substitute] at h
      cases hy : σ y with
      | none => rw [hy] at h; injection h with h; injection h with h; rw [← h]; exact hy
      | some u => rw [hy] at h; exact ih u x h

theorem constraints_fresh {B : Bindings} {n : Nat} {src dst : Ty} {P P' : Pro} {r : Bool} (h : assignWithConstraints B n src dst P = some (r, P'))
    (hs : ∀ x, src = .param x → look B P.map x = none) (hd : ∀ x, dst = .param x → look B P.map x = none) (hP : Fresh B P) : Fresh B P' := by
  have keep : ∀ {b : Bool}, some (b, P) = some (r, P') → Fresh B P' := by
    intro b h; injection h with h; injection h with _ h; rw [← h]; exact hP
  have bind : ∀ {x : Name} {t : Ty}, look B P.map x = none → some (true, P.bind x t) = some (r, P') → Fresh B P' := by
    intro x t hx h; injection h with h; injection h with _ h; rw [← h]; exact fresh_bind hP (look_none hx)
  cases dst with
  | param y =>
    cases src with
    | param x =>
      rw [assignWithConstraints] at h
      split at h
      · exact bind (hs x rfl) h
      · exact keep h
    | con hh ps =>
      rw [assignWithConstraints] at h
      cases ho : occursWithin (look B P.map) y n (.con hh ps) with
      | none => rw [ho] at h; exact nomatch h
      | some b =>
        rw [ho] at h
        cases b with
        | true => exact keep h
        | false => exact bind (hd y rfl) h
  | con k qs =>
    cases src with
    | param x =>
      rw [assignWithConstraints] at h
      cases ho : occursWithin (look B P.map) x n (.con k qs) with
      | none => rw [ho] at h; exact nomatch h
      | some b =>
        rw [ho] at h
        cases b with
        | true => exact keep h
        | false => exact bind (hs x rfl) h
    | con hh ps =>
      rw [assignWithConstraints] at h
      exact keep h

theorem assignAll_fresh {B : Bindings} {f : Ty → Ty → Pro → Option (Bool × Pro)}
    (hf : ∀ a b P r P', f a b P = some (r, P') → Fresh B P → Fresh B P') :
    ∀ ps qs P r P', assignAll f ps qs P = some (r, P') → Fresh B P → Fresh B P' := by
  intro ps
  induction ps with
  | nil =>
    intro qs P r P' h hP
    rw [assignAll] at h
    · injection h with h; injection h with _ h; rw [← h]; exact hP
    · intro p ps q qs e; exact nomatch e
  | cons p ps ih =>
    intro qs P r P' h hP
    cases qs with
    | nil =>
      rw [assignAll] at h
      · injection h with h; injection h with _ h; rw [← h]; exact hP
      · intro p ps q qs _ e; exact nomatch e
    | cons q qs =>
      rw [assignAll] at h
      cases hr : f p q P with
      | none => rw [hr] at h; exact nomatch h
      | some x =>
        obtain ⟨b, P1⟩ := x
        rw [hr] at h
        have h1 := hf p q P b P1 hr hP
        cases b with
        | true => exact ih qs P1 r P' h h1
        | false =>
          have h : some (false, P1) = some (r, P') := h
          injection h with h; injection h with _ h; rw [← h]; exact h1

theorem widen_fresh {l : Bool} {B : Bindings} {n : Nat} {f : Ty → Ty → Pro → Option (Bool × Pro)}
    (hf : ∀ a b P r P', f a b P = some (r, P') → Fresh B P → Fresh B P') {src dst tgt : Ty} {P P' : Pro} (hP : Fresh B P)
    (h : tryWiden l B n f src dst tgt P = some (some P')) : Fresh B P' := by
  unfold tryWiden at h
  cases tgt with
  | con k ps => exact nomatch h
  | param x =>
    dsimp only at h
    split at h
    · rename_i hx
      cases hg : compareGenerality l (look B P.map) n src dst with
      | none => rw [hg] at h; exact nomatch h
      | some g =>
        rw [hg] at h
        have h : (if g = .more then (do
            let r ← f dst src P
            if r.1 = true then (do
              if (!(← occursWithin (look B r.2.map) x n src)) = true then some (some { r.2.bind x src with widened := true })
              else some none)
            else some none) else some none) = some (some P') := h
        split at h
        · cases hr : f dst src P with
          | none => rw [hr] at h; exact nomatch h
          | some r =>
            obtain ⟨b, P1⟩ := r
            rw [hr] at h
            have h1 := hf _ _ _ _ _ hr hP
            cases b with
            | false => exact nomatch h
            | true =>
              cases ho : occursWithin (look B P1.map) x n src with
              | none => simp [ho] at h
              | some o =>
                cases o with
                | true => simp [ho] at h
                | false =>
                  simp [ho] at h
                  rw [← h]
                  refine fresh_bind h1 (fun u e => ?_)
                  rw [hP x u e] at hx
                  exact nomatch hx
        · exact nomatch h
    · exact nomatch h

theorem assign_fresh {l : Bool} {B : Bindings} : ∀ n src tgt P r P', assign l B n src tgt P = some (r, P') → Fresh B P → Fresh B P' := by
  intro n
  induction n with
  | zero => intro src tgt P r P' h; exact nomatch h
  | succ n ih =>
    intro src tgt P r P' h hP
    obtain ⟨dst, f, hd, hf, hc⟩ := assign_cases h
    rcases hc with ⟨_, e⟩ | ⟨_, _, hc⟩ | ⟨_, hp, ⟨Pw, hw, e⟩ | ⟨_, hc⟩⟩
    · injection e with _ e; rw [e]; exact hP
    · exact constraints_fresh hc (fun x e => substitute_param _ _ _ (e ▸ hf)) (fun x e => substitute_param _ _ _ (e ▸ hd)) hP
    · injection e with _ e; rw [e]; exact widen_fresh ih hP hw
    · rcases concrete_cases hc with e | ⟨b, _, h | h⟩ | ⟨_, h⟩
      · have e : P' = P := e
        rw [e]; exact hP
      · exact ih _ _ _ _ _ h hP
      · exact ih _ _ _ _ _ h hP
      · exact assignAll_fresh ih _ _ _ _ _ h hP

/-! ## Contexts -/

/-- From `c` to `c'`: a reachable context stays one, and nothing bound is lost. -/
structure Later (c c' : Ctx) : Prop where
  reach : Reachable c → Reachable c'
  sub : ∀ x t, c.sub x = some t → c'.sub x = some t
  legacy : c'.legacyNull = c.legacyNull

theorem Later.refl (c : Ctx) : Later c c := ⟨id, fun _ _ h => h, rfl⟩
theorem Later.trans {a b c : Ctx} (h1 : Later a b) (h2 : Later b c) : Later a c :=
  ⟨fun h => h2.reach (h1.reach h), fun x t h => h2.sub x t (h1.sub x t h), h2.legacy.trans h1.legacy⟩

theorem update_sub {c : Ctx} {P : Pro} (hf : Fresh c.bindings P) : ∀ x t, c.sub x = some t → (c.update P).sub x = some t := by
  intro x t h
  unfold Ctx.sub look at h
  dsimp only at h
  cases hb : c.bindings x with
  | none => rw [hb] at h; exact nomatch h
  | some o =>
    cases o with
    | none => rw [hb] at h; exact nomatch h
    | some u =>
      rw [hb] at h
      injection h with h
      subst h
      unfold Ctx.sub look Ctx.update
      dsimp only
      rw [hb, hf x u hb]

theorem later_inst (t : Ty) (c : Ctx) : Later c (inst t c).2 := by
  unfold inst
  dsimp only
  refine ⟨fun h => .step (.instantiate t (fun _ => none)) 0 h rfl, ?_, (instantiate_same t (fun _ => none, c)).2⟩
  intro x u hx
  rw [(instantiate_same t (fun _ => none, c)).1]
  exact hx

theorem later_assignable {c c' : Ctx} {n : Nat} {a b : Ty} {r : Bool} (h : isAssignable c n a b = some (r, c')) : Later c c' := by
  obtain ⟨P, hP, e⟩ := isAssignable_parts h
  refine ⟨fun hr => .step (.assignable a b) n hr (by simp only [Op.run, h, Option.map]), ?_, ?_⟩
  · rw [e]
    split
    · exact update_sub (assign_fresh _ _ _ _ _ _ hP (fresh_empty _))
    · exact fun _ _ h => h
  · rw [e]; split <;> rfl

/-- A session is a list of checks. -/
theorem joinLoop_run {c : Ctx} {n : Nat} : ∀ as t P r, joinLoop c n as t P = some r → Fresh c.bindings P →
    (∃ qs, runChecks c n qs P = some r.2) ∧ Fresh c.bindings r.2 := by
  intro as
  induction as with
  | nil => intro t P r h hP; rw [joinLoop] at h; injection h with h; rw [← h]; exact ⟨⟨[], rfl⟩, hP⟩
  | cons a as ih =>
    intro t P r h hP
    rw [joinLoop] at h
    cases hr : P.isAssignable c n a t with
    | none => rw [hr] at h; exact nomatch h
    | some x =>
      obtain ⟨b, P1⟩ := x
      rw [hr] at h
      have h : joinLoop c n as (if b then t else dyn) P1 = some r := h
      obtain ⟨⟨qs, hq⟩, hf⟩ := ih _ _ _ h (assign_fresh _ _ _ _ _ _ hr hP)
      refine ⟨⟨(a, t) :: qs, ?_⟩, hf⟩
      rw [runChecks, hr]
      exact hq

theorem later_session {c : Ctx} {n : Nat} {as : List Ty} {t : Ty} {r : Ty × Pro} (h : joinLoop c n as t .empty = some r) (b : Bool) :
    Later c (if b then c else c.update r.2) := by
  obtain ⟨⟨qs, hq⟩, hf⟩ := joinLoop_run _ _ _ _ h (fresh_empty _)
  cases b with
  | true => exact .refl c
  | false =>
    refine ⟨fun hr => .step (.session qs true) n hr (by simp [Op.run, hq, Pro.updateInferred]), update_sub hf, rfl⟩

theorem later_values {n : Nat} : ∀ as t c r, valuesLoop n as t c = some r → Later c r.2 := by
  intro as
  induction as with
  | nil => intro t c r h; rw [valuesLoop] at h; injection h with h; rw [← h]; exact .refl c
  | cons a as ih =>
    intro t c r h
    rw [valuesLoop] at h
    cases hr : isAssignable c n a t with
    | none => rw [hr] at h; exact nomatch h
    | some x =>
      obtain ⟨b, c1⟩ := x
      rw [hr] at h
      have h : valuesLoop n as (if b then t else dyn) c1 = some r := h
      exact (later_assignable hr).trans (ih _ _ _ h)

theorem resolveOne_sub {c : Ctx} {n : Nat} {l : Bool} {args : List Ty} {recv : Bool} {o : Checker.Overload} {found : Option Ty × List Checker.Overload}
    {r : Ctx × Option Ty × List Checker.Overload} (h : resolveOne c n l args recv o found = some r) :
    (∀ x t, c.sub x = some t → r.1.sub x = some t) ∧ r.1.legacyNull = c.legacyNull := by
  unfold resolveOne at h
  split at h
  · injection h with h; rw [← h]; exact ⟨fun _ _ h => h, rfl⟩
  · have hs : (instantiateOverload c o).2.2.sub = c.sub ∧ (instantiateOverload c o).2.2.legacyNull = c.legacyNull := by
      unfold instantiateOverload
      exact ⟨(instantiateAll_same _ _).1.trans (instantiate_same _ _).1, (instantiateAll_same _ _).2.trans (instantiate_same _ _).2⟩
    generalize instantiateOverload c o = q at h hs
    obtain ⟨result, params, c'⟩ := q
    dsimp only at h hs
    cases ha : assignArgs (assign c'.legacyNull c'.bindings n) l args params .empty with
    | none => rw [ha] at h; exact nomatch h
    | some x =>
      obtain ⟨b, P⟩ := x
      rw [ha] at h
      cases b with
      | false =>
        have h : some (c', found) = some r := h
        injection h with h; rw [← h]; exact ⟨fun x t hx => by (rw [hs.1]; exact hx), hs.2⟩
      | true =>
        have h : some (c'.update P, some (match found.1 with
            | none => result
            | some t => if t.eq result then t else dyn), found.2 ++ [o]) = some r := h
        injection h with h
        rw [← h]
        refine ⟨fun x t hx => update_sub (assignAll_fresh (fun a b P r P' h => assign_fresh _ _ _ _ _ _ h) _ _ _ _ _ ha (fresh_empty _)) x t ?_, hs.2⟩
        rw [hs.1]; exact hx

theorem resolveLoop_sub {n : Nat} {l : Bool} {args : List Ty} {recv : Bool} : ∀ os c found r,
    resolveLoop n l args recv os c found = some r → (∀ x t, c.sub x = some t → r.1.sub x = some t) ∧ r.1.legacyNull = c.legacyNull := by
  intro os
  induction os with
  | nil => intro c found r h; rw [resolveLoop] at h; injection h with h; rw [← h]; exact ⟨fun _ _ h => h, rfl⟩
  | cons o os ih =>
    intro c found r h
    rw [resolveLoop] at h
    cases h1 : resolveOne c n l args recv o found with
    | none => rw [h1] at h; exact nomatch h
    | some x =>
      rw [h1] at h
      have h : resolveLoop n l args recv os x.1 x.2 = some r := h
      obtain ⟨a1, a2⟩ := resolveOne_sub h1
      obtain ⟨b1, b2⟩ := ih _ _ _ h
      exact ⟨fun x t hx => b1 x t (a1 x t hx), b2.trans a2⟩

theorem later_resolve {c : Ctx} {n : Nat} {d : FunctionDecl} {args : List Ty} {recv : Bool} {r : Ctx × Option (Ty × List Checker.Overload)}
    (h : resolveOverload c n d args recv = some r) : Later c r.1 := by
  obtain ⟨x, h1, h2, _⟩ := resolve_parts h
  refine ⟨fun hr => .step (.resolve d args recv) n hr (by simp only [Op.run, h, Option.map]), ?_, ?_⟩
  · rw [h2]; exact (resolveLoop_sub _ _ _ _ h1).1
  · rw [h2]; exact (resolveLoop_sub _ _ _ _ h1).2

/-! ## Nodes -/

theorem bind_some {α β : Type} {o : Option α} {f : α → Option β} {b : β} (h : (o >>= f) = some b) : ∃ a, o = some a ∧ f a = some b := by
  cases o with
  | none => exact nomatch h
  | some a => exact ⟨a, rfl, h⟩

theorem later_ident {d : Decls} {Γ : Scope} {x : String} {abs : Bool} {c : Ctx} {r : Ty × Ctx} (h : identTy d Γ x abs c = some r) : Later c r.2 := by
  unfold identTy at h
  split at h
  · injection h with h; rw [← h]; exact later_inst _ _
  · split at h
    · injection h with h; rw [← h]; exact later_inst _ _
    · exact nomatch h

theorem later_join {x : String} {c : Ctx} {n : Nat} {as : List Ty} {r : Ty × Ctx} (h : join x c n as = some r) : Later c r.2 := by
  unfold join at h
  dsimp only at h
  obtain ⟨q, h1, h2⟩ := bind_some h
  have h2 : some (q.1, if q.1.is .dyn = true then (inst (.param (.other x)) c).2 else (inst (.param (.other x)) c).2.update q.2) = some r := h2
  injection h2 with h2
  rw [← h2]
  exact (later_inst _ _).trans (later_session h1 (q.1.is .dyn))

theorem later_list {c : Ctx} {n : Nat} {as : List Ty} {r : Ty × Ctx} (h : listTy c n as = some r) : Later c r.2 := by
  unfold listTy at h
  obtain ⟨q, h1, h2⟩ := bind_some h
  obtain ⟨t, h3, h4⟩ := bind_some h2
  injection h4 with h4
  have hj := later_join h1
  rw [← h4]
  exact hj

/-- What acceptance of a map literal consists of. -/
theorem mapTy_parts {c : Ctx} {n : Nat} {as : List Ty} {r : Ty × Ctx} (h : mapTy c n as = some r) :
    as.length % 2 = 0 ∧ ∃ k v j q t, k = inst (.param (.other "K")) c ∧ v = inst (.param (.other "V")) k.2 ∧
      joinLoop v.2 n (evens as) k.1 .empty = some j ∧
      valuesLoop n (odds as) v.1 (if j.1.is .dyn = true then v.2 else v.2.update j.2) = some q ∧
      q.2.fullySubstitute n (.con .map [j.1, q.1]) = some t ∧ r = (t, q.2) := by
  unfold mapTy at h
  by_cases hl : as.length % 2 = 0
  · refine ⟨hl, ?_⟩
    rw [if_neg (by simpa using hl)] at h
    dsimp only at h
    obtain ⟨j, h1, h2⟩ := bind_some h
    obtain ⟨q, h3, h4⟩ := bind_some h2
    obtain ⟨t, h5, h6⟩ := bind_some h4
    injection h6 with h6
    exact ⟨_, _, j, q, t, rfl, rfl, h1, h3, h5, h6.symm⟩
  · rw [if_pos hl] at h
    exact nomatch h

theorem later_map {c : Ctx} {n : Nat} {as : List Ty} {r : Ty × Ctx} (h : mapTy c n as = some r) : Later c r.2 := by
  obtain ⟨_, k, v, j, q, t, rfl, rfl, h1, h2, _, rfl⟩ := mapTy_parts h
  have hv := later_values _ _ _ _ h2
  exact ((later_inst _ _).trans (later_inst _ _)).trans ((later_session h1 (j.1.is .dyn)).trans hv)

theorem later_field {d : Decls} {c : Ctx} {n : Nat} {f : String} {t : Ty} {r : Ty × Ctx} (h : fieldTy d c n f t = some r) : Later c r.2 := by
  unfold fieldTy at h
  split at h
  · injection h with h; rw [← h]; exact .refl c
  · injection h with h; rw [← h]; exact .refl c
  · split at h
    · injection h with h; rw [← h]; exact .refl c
    · exact nomatch h
  · injection h with h; rw [← h]; exact .refl c
  · obtain ⟨q, h1, h2⟩ := bind_some h
    obtain ⟨b, c1⟩ := q
    dsimp only at h2
    split at h2
    · injection h2 with h2; rw [← h2]; exact later_assignable h1
    · exact nomatch h2
  · exact nomatch h

theorem later_select {d : Decls} {c : Ctx} {n : Nat} {f : String} {test : Bool} {t : Ty} {r : Ty × Ctx} (h : selectTy d c n f test t = some r) :
    Later c r.2 := by
  unfold selectTy at h
  split at h
  · obtain ⟨q, h1, h2⟩ := bind_some h
    have hv := later_field h1
    injection h2 with h2; rw [← h2]; exact hv
  · obtain ⟨q, h1, h2⟩ := bind_some h
    have hv := later_field h1
    injection h2 with h2; rw [← h2]; exact hv

/-- What acceptance of a call consists of. -/
theorem callTy_parts {d : Decls} {c : Ctx} {n : Nat} {fn : String} {recv : Bool} {as : List Ty} {r : Ty × Ctx} (h : callTy d c n fn recv as = some r) :
    ∃ fd os, d.funcs fn = some fd ∧ hasShape fd recv as.length = true ∧ resolveOverload c n fd as recv = some (r.2, some (r.1, os)) := by
  unfold callTy at h
  cases hf : d.funcs fn with
  | none => rw [hf] at h; exact nomatch h
  | some fd =>
    rw [hf] at h
    dsimp only at h
    split at h
    · rename_i hsh
      split at h
      · rename_i c' t os hr
        injection h with h
        rw [← h]
        exact ⟨fd, os, rfl, hsh, hr⟩
      · exact nomatch h
    · exact nomatch h

theorem later_call {d : Decls} {c : Ctx} {n : Nat} {fn : String} {recv : Bool} {as : List Ty} {r : Ty × Ctx} (h : callTy d c n fn recv as = some r) :
    Later c r.2 := by
  obtain ⟨fd, os, _, _, hr⟩ := callTy_parts h
  exact later_resolve hr

theorem later_fields {d : Decls} {name : String} {n : Nat} : ∀ fs as c c', assignFields d name n fs as c = some c' → Later c c' := by
  intro fs
  induction fs with
  | nil =>
    intro as c c' h
    cases as with
    | nil => rw [assignFields] at h; injection h with h; rw [← h]; exact .refl c
    | cons a as => rw [assignFields] at h; exact nomatch h; all_goals (intros; simp_all)
  | cons f fs ih =>
    intro as c c' h
    cases as with
    | nil => rw [assignFields] at h; exact nomatch h; all_goals (intros; simp_all)
    | cons a as =>
      rw [assignFields] at h
      split at h
      · exact nomatch h
      · obtain ⟨q, h1, h2⟩ := bind_some h
        obtain ⟨b, c1⟩ := q
        dsimp only at h2
        split at h2
        · exact (later_assignable h1).trans (ih _ _ _ h2)
        · exact nomatch h2

/-- What acceptance of a struct literal consists of. -/
theorem structTy_parts {d : Decls} {c : Ctx} {n : Nat} {name : String} {fs : List String} {as : List Ty} {r : Ty × Ctx}
    (h : structTy d c n name fs as = some r) : d.types name = some r.1 ∧ assignFields d name n fs as c = some r.2 := by
  unfold structTy at h
  split at h
  · exact nomatch h
  · rename_i t ht
    split at h
    · obtain ⟨q, h1, h2⟩ := bind_some h
      injection h2 with h2; rw [← h2]; exact ⟨ht, h1⟩
    · exact nomatch h

theorem later_struct {d : Decls} {c : Ctx} {n : Nat} {name : String} {fs : List String} {as : List Ty} {r : Ty × Ctx}
    (h : structTy d c n name fs as = some r) : Later c r.2 := later_fields _ _ _ _ (structTy_parts h).2

/-- What acceptance of a comprehension consists of. -/
theorem comp_parts {d : Decls} {n : Nat} {a : Unit} {iter : String} {iter2 : Option String} {accu : String} {range init cnd stp res : Ast Unit}
    {Γ : Scope} {c : Ctx} {r : Ast Ty × Ctx} (h : infer d n (.comp a iter iter2 accu range init cnd stp res) Γ c = some r) :
    ∃ g ts i k s q t, infer d n range Γ c = some g ∧ iterTys g.1.ann = some ts ∧ infer d n init Γ g.2 = some i ∧
      infer d n cnd ((accu, i.1.ann) :: Γ) i.2 = some k ∧ infer d n stp (iterScope iter iter2 ts ++ (accu, i.1.ann) :: Γ) k.2 = some s ∧
      infer d n res ((accu, i.1.ann) :: Γ) s.2 = some q ∧ q.2.fullySubstitute n q.1.ann = some t ∧
      r = (.comp t iter iter2 accu g.1 i.1 k.1 s.1 q.1, q.2) := by
  rw [infer] at h
  obtain ⟨g, h1, h⟩ := bind_some h
  obtain ⟨ts, h2, h⟩ := bind_some h
  obtain ⟨i, h3, h⟩ := bind_some h
  obtain ⟨k, h4, h⟩ := bind_some h
  obtain ⟨s, h5, h⟩ := bind_some h
  obtain ⟨q, h6, h⟩ := bind_some h
  obtain ⟨t, h7, h⟩ := bind_some h
  injection h with h
  exact ⟨g, ts, i, k, s, q, t, h1, h2, h3, h4, h5, h6, h7, h.symm⟩

mutual
/-- Checking an expression loses no binding. -/
theorem later_infer (d : Decls) (n : Nat) (e : Ast Unit) (Γ : Scope) (c : Ctx) (r : Ast Ty × Ctx) (h : infer d n e Γ c = some r) : Later c r.2 := by
  cases e with
  | const a v =>
    rw [infer] at h
    obtain ⟨t, _, h⟩ := bind_some h
    injection h with h; rw [← h]; exact .refl c
  | ident a x abs =>
    rw [infer] at h
    obtain ⟨t, h1, h⟩ := bind_some h
    injection h with h; rw [← h]; exact later_ident h1
  | select a e f test =>
    rw [infer] at h
    obtain ⟨q, h1, h⟩ := bind_some h
    obtain ⟨t, h2, h⟩ := bind_some h
    injection h with h; rw [← h]; exact (later_infer d n e Γ c q h1).trans (later_select h2)
  | call a fn recv args =>
    rw [infer] at h
    obtain ⟨q, h1, h⟩ := bind_some h
    obtain ⟨t, h2, h⟩ := bind_some h
    injection h with h; rw [← h]; exact (later_inferAll d n args Γ c q h1).trans (later_call h2)
  | list a es =>
    rw [infer] at h
    obtain ⟨q, h1, h⟩ := bind_some h
    obtain ⟨t, h2, h⟩ := bind_some h
    injection h with h; rw [← h]; exact (later_inferAll d n es Γ c q h1).trans (later_list h2)
  | map a es =>
    rw [infer] at h
    obtain ⟨q, h1, h⟩ := bind_some h
    obtain ⟨t, h2, h⟩ := bind_some h
    injection h with h; rw [← h]; exact (later_inferAll d n es Γ c q h1).trans (later_map h2)
  | struct a name fs vs =>
    rw [infer] at h
    obtain ⟨q, h1, h⟩ := bind_some h
    obtain ⟨t, h2, h⟩ := bind_some h
    injection h with h; rw [← h]; exact (later_inferAll d n vs Γ c q h1).trans (later_struct h2)
  | comp a iter iter2 accu range init cnd stp res =>
    obtain ⟨g, ts, i, k, s, q, t, h1, _, h3, h4, h5, h6, _, rfl⟩ := comp_parts h
    exact ((((later_infer d n range Γ c g h1).trans (later_infer d n init Γ g.2 i h3)).trans (later_infer d n cnd _ i.2 k h4)).trans
      (later_infer d n stp _ k.2 s h5)).trans (later_infer d n res _ s.2 q h6)
theorem later_inferAll (d : Decls) (n : Nat) (es : Asts Unit) (Γ : Scope) (c : Ctx) (r : Asts Ty × Ctx) (h : inferAll d n es Γ c = some r) :
    Later c r.2 := by
  cases es with
  | nil => rw [inferAll] at h; injection h with h; rw [← h]; exact .refl c
  | cons e es =>
    rw [inferAll] at h
    obtain ⟨q, h1, h⟩ := bind_some h
    obtain ⟨t, h2, h⟩ := bind_some h
    injection h with h; rw [← h]; exact (later_infer d n e Γ c q h1).trans (later_inferAll d n es Γ q.2 t h2)
end

end Cel.Types
