import Verif.Checker.Sound

/-!
# C37: overload resolution

Which overloads `ResolveOverload` reports, and that a call that matches nothing binds nothing.
-/

set_option linter.unusedSimpArgs false
set_option linter.unusedVariables false

namespace Cel.Checker
open Relation

/-- One turn: the overload is left out, and nothing is bound, or it is added. -/
theorem resolveOne_cases {c : Ctx} {n : Nat} {l : Bool} {args : List Ty} {recv : Bool} {o : Overload} {found : Option Ty × List Overload}
    {r : Ctx × Option Ty × List Overload} (h : resolveOne c n l args recv o found = some r) :
    (r.1.sub = c.sub ∧ r.2 = found) ∨
      (o.member = recv ∧ (l = false → args.length = o.args.length) ∧ r.2.2 = found.2 ++ [o] ∧ r.2.1 ≠ none) := by
  unfold resolveOne at h
  split at h
  · injection h with h; rw [← h]; exact .inl ⟨rfl, rfl⟩
  · rename_i hno
    have hs : (instantiateOverload c o).2.2.sub = c.sub := by
      unfold instantiateOverload
      exact (instantiateAll_same _ _).1.trans (instantiate_same _ _).1
    generalize instantiateOverload c o = q at h hs
    obtain ⟨result, params, c'⟩ := q
    dsimp only at h hs
    cases ha : assignArgs (assign c'.legacyNull c'.bindings n) l args params .empty with
    | none => rw [ha] at h; exact nomatch h
    | some x =>
      obtain ⟨b, P⟩ := x
      rw [ha] at h
      cases b with
      | false =>
        have h : some (c', found) = some r := h
        injection h with h; rw [← h]; exact .inl ⟨hs, rfl⟩
      | true =>
        have h : some (c'.update P, some (match found.1 with
            | none => result
            | some t => if t.eq result then t else dyn), found.2 ++ [o]) = some r := h
        injection h with h
        rw [← h]
        refine .inr ⟨?_, ?_, rfl, by simp⟩
        · exact Classical.byContradiction (fun e => hno (.inl e))
        · intro hl
          exact Classical.byContradiction (fun e => hno (.inr ⟨hl, e⟩))

/-- What the loop has found so far is consistent: a result type exactly if there is a match. -/
theorem resolveLoop_matches {n : Nat} {l : Bool} {args : List Ty} {recv : Bool} : ∀ os c found r,
    resolveLoop n l args recv os c found = some r → (found.1 = none ↔ found.2 = []) →
    (r.2.1 = none ↔ r.2.2 = []) ∧ (r.2.2 = found.2 → r.1.sub = c.sub) ∧ ∃ ms, r.2.2 = found.2 ++ ms ∧ ms.Sublist os ∧
      ∀ o ∈ ms, o.member = recv ∧ (l = false → args.length = o.args.length) := by
  intro os
  induction os with
  | nil =>
    intro c found r h hf
    rw [resolveLoop] at h; injection h with h; rw [← h]
    exact ⟨hf, fun _ => rfl, [], by simp, .slnil, fun o ho => nomatch ho⟩
  | cons o os ih =>
    intro c found r h hf
    rw [resolveLoop] at h
    cases h1 : resolveOne c n l args recv o found with
    | none => rw [h1] at h; exact nomatch h
    | some x =>
      rw [h1] at h
      have h : resolveLoop n l args recv os x.1 x.2 = some r := h
      rcases resolveOne_cases h1 with ⟨e1, e2⟩ | ⟨m1, m2, m3, m4⟩
      · rw [e2] at h
        obtain ⟨k1, k2, ms, k3, k4, k5⟩ := ih _ _ _ h hf
        exact ⟨k1, fun e => (k2 e).trans e1, ms, k3, k4.cons o, k5⟩
      · obtain ⟨k1, k2, ms, k3, k4, k5⟩ := ih _ _ _ h ⟨fun e => absurd e m4, fun e => by rw [m3] at e; simp at e⟩
        refine ⟨k1, fun e => ?_, o :: ms, by rw [k3, m3]; simp, k4.cons_cons o, ?_⟩
        · rw [e, m3] at k3
          have := congrArg List.length k3
          simp at this
        · intro u hu
          rcases List.mem_cons.mp hu with rfl | hu
          · exact ⟨m1, m2⟩
          · exact k5 u hu

/-- **C37**: the overloads reported are overloads of the function, in declaration order, none more often than declared, of the call's style
and (but for `&&` and `||` with several arguments) its number of arguments; there is at least one. -/
theorem C37_resolve_matches {c c' : Ctx} {n : Nat} {d : FunctionDecl} {args : List Ty} {recv : Bool} {t : Ty} {os : List Overload}
    (h : resolveOverload c n d args recv = some (c', some (t, os))) :
    os ≠ [] ∧ os.Sublist d.overloads ∧
      ∀ o ∈ os, o.member = recv ∧ (isLogicalOp d.name args = false → args.length = o.args.length) := by
  obtain ⟨x, h1, h2, hc⟩ := resolve_parts h
  obtain ⟨k1, _, ms, k3, k4, k5⟩ := resolveLoop_matches _ _ _ _ h1 ⟨fun _ => rfl, fun _ => rfl⟩
  rcases hc with ⟨_, e⟩ | ⟨t0, t1, e1, _, e2⟩
  · exact nomatch e
  · have e2 : some (t, os) = some (t1, x.2.2) := e2
    injection e2 with e2
    injection e2 with _ e2
    rw [e2]
    refine ⟨fun e => ?_, ?_, ?_⟩
    · rw [k1.mpr e] at e1; exact nomatch e1
    · rw [k3]; exact k4
    · rw [k3]; exact k5

/-- **C37**: a call that matches no overload leaves every binding as it was. -/
theorem C37_resolve_failure_unchanged {c c' : Ctx} {n : Nat} {d : FunctionDecl} {args : List Ty} {recv : Bool}
    (h : resolveOverload c n d args recv = some (c', none)) : c'.sub = c.sub := by
  obtain ⟨x, h1, h2, hc⟩ := resolve_parts h
  obtain ⟨k1, k2, _⟩ := resolveLoop_matches _ _ _ _ h1 ⟨fun _ => rfl, fun _ => rfl⟩
  have h2 : c' = x.1 := h2
  rcases hc with ⟨e1, _⟩ | ⟨t0, t1, _, _, e2⟩
  · rw [h2]; exact k2 (k1.mp e1)
  · exact nomatch e2

/-! ## Overloads without type parameters -/

/-- Types that instantiation leaves alone: no type parameters, no enum (which it turns into the error type), no function type. -/
inductive Plain : Ty → Prop
  | base {b} : b ≠ .unknown → Plain (.con (.base b) [])
  | struct (n) : Plain (.con (.struct n) [])
  | typeOf {t} : Plain t → Plain (.con .type [t])
  | type : Plain (.con .type [])
  | list {t} : Plain t → Plain (.con .list [t])
  | map {k v} : Plain k → Plain v → Plain (.con .map [k, v])
  | «opaque» {n ps} : (∀ p ∈ ps, Plain p) → Plain (.con (.opaque n) ps)

theorem Plain.shaped {t : Ty} (h : Plain t) : Shaped t := by
  induction h with
  | base => exact .leaf _
  | struct => exact .leaf _
  | typeOf _ ih => exact .node rfl (by simpa using ih)
  | type => exact .leaf _
  | list _ ih => exact .node rfl (by simpa using ih)
  | map _ _ ih1 ih2 => exact .node rfl (by simp [ih1, ih2])
  | «opaque» _ ih => exact .node rfl ih

theorem ground_node {h : Head} {ps : List Ty} (hp : ∀ p ∈ ps, Ground p) : Ground (.con h ps) := by
  intro x hx
  cases hx with
  | inside hm ho => exact hp _ hm x ho

theorem Plain.ground {t : Ty} (h : Plain t) : Ground t := by
  induction h with
  | base => exact ground_node (fun p hp => nomatch hp)
  | struct => exact ground_node (fun p hp => nomatch hp)
  | typeOf _ ih => exact ground_node (by simpa using ih)
  | type => exact ground_node (fun p hp => nomatch hp)
  | list _ ih => exact ground_node (by simpa using ih)
  | map _ _ ih1 ih2 => exact ground_node (by simp [ih1, ih2])
  | «opaque» _ ih => exact ground_node ih

theorem instantiateAll_plain : ∀ (ps : List Ty) (s : Instances × Ctx), (∀ p ∈ ps, ∀ s, instantiate p s = (p, s)) → instantiateAll ps s = (ps, s) := by
  intro ps
  induction ps with
  | nil => intro s _; rw [instantiateAll]
  | cons p ps ih =>
    intro s hp
    rw [instantiateAll, hp p (by simp)]
    dsimp only
    rw [ih s (fun p h => hp p (by simp [h]))]

theorem instantiate_plain {t : Ty} (h : Plain t) : ∀ s, instantiate t s = (t, s) := by
  induction h with
  | @base b hb => intro s; cases b <;> first | (unfold instantiate; rfl) | exact absurd rfl hb
  | struct => intro s; rw [instantiate]
  | typeOf _ ih =>
    intro s
    rw [instantiate, instantiateAll_plain _ s (by simpa using ih)]
    simp
  | type => intro s; rw [instantiate, instantiateAll_plain _ s (by simp)]; simp
  | list _ ih => intro s; rw [instantiate, instantiateAll_plain _ s (by simpa using ih)]
  | map _ _ ih1 ih2 => intro s; rw [instantiate, instantiateAll_plain _ s (by simp [ih1, ih2])]
  | «opaque» _ ih => intro s; rw [instantiate, instantiateAll_plain _ s ih]

theorem assignAll_ground {legacy : Bool} {B : Bindings} {n : Nat} : ∀ (ps qs : List Ty) (P P' : Pro) (r : Bool), WF (look B P.map) →
    (∀ p ∈ ps, Shaped p ∧ Ground p) → (∀ q ∈ qs, Shaped q ∧ Ground q) → P.widened = false →
    assignAll (assign legacy B n) ps qs P = some (r, P') → P' = P ∧ (r = true ↔ ∀ q ∈ ps.zip qs, Fits legacy q.1 q.2) := by
  intro ps
  induction ps with
  | nil =>
    intro qs P P' r _ _ _ _ h
    rw [assignAll] at h
    · injection h with h; injection h with e h; rw [← h, ← e]; exact ⟨rfl, by simp⟩
    · intro p ps q qs e; exact nomatch e
  | cons p ps ih =>
    intro qs P P' r wf hp hq hw h
    cases qs with
    | nil =>
      rw [assignAll] at h
      · injection h with h; injection h with e h; rw [← h, ← e]; exact ⟨rfl, by simp⟩
      · intro p ps q qs _ e; exact nomatch e
    | cons q qs =>
      rw [assignAll] at h
      cases hr : assign legacy B n p q P with
      | none => rw [hr] at h; exact nomatch h
      | some x =>
        obtain ⟨b, P1⟩ := x
        obtain ⟨sp, gp⟩ := hp p (by simp)
        obtain ⟨sq, gq⟩ := hq q (by simp)
        have e := ground_same_state hr wf gp gq
        subst e
        rw [hr] at h
        cases b with
        | true =>
          have hf : Fits legacy p q := fits_of_ground (assign_fits n p q _ _ hr wf hw).2.1 gp gq
          obtain ⟨h1, h2⟩ := ih qs _ P' r wf (fun p h => hp p (by simp [h])) (fun q h => hq q (by simp [h])) hw h
          refine ⟨h1, h2.trans ?_⟩
          rw [List.zip_cons_cons, List.forall_mem_cons]
          exact ⟨fun h => ⟨hf, h⟩, fun h => h.2⟩
        | false =>
          have h : some (false, P1) = some (r, P') := h
          injection h with h; injection h with e h
          rw [← h, ← e]
          refine ⟨rfl, ⟨fun e => by simp at e, fun ha => ?_⟩⟩
          have := ha (p, q) (by simp)
          have := fits_complete this _ _ _ _ sp sq gp gq hr
          exact nomatch this

/-- The overload takes these arguments. -/
def Takes (legacy : Bool) (args : List Ty) (recv : Bool) (o : Overload) : Prop :=
  o.member = recv ∧ args.length = o.args.length ∧ ∀ q ∈ args.zip o.args, Fits legacy q.1 q.2

def PlainOverload (o : Overload) : Prop := Plain o.result ∧ ∀ a ∈ o.args, Plain a

theorem instantiateOverload_plain {c : Ctx} {o : Overload} (h : PlainOverload o) : instantiateOverload c o = (o.result, o.args, c) := by
  unfold instantiateOverload
  dsimp only
  rw [instantiate_plain h.1, instantiateAll_plain _ _ (fun p hp => instantiate_plain (h.2 p hp))]

theorem resolveOne_plain {c : Ctx} (wf : WF c.sub) {n : Nat} {args : List Ty} {recv : Bool} {o : Overload}
    {found : Option Ty × List Overload} {r : Ctx × Option Ty × List Overload} (hargs : ∀ a ∈ args, Shaped a ∧ Ground a) (ho : PlainOverload o)
    (h : resolveOne c n false args recv o found = some r) :
    r.1 = c ∧ ((¬ Takes c.legacyNull args recv o ∧ r.2 = found) ∨
      (Takes c.legacyNull args recv o ∧ r.2 = (some (match found.1 with
            | none => o.result
            | some t => if t.eq o.result then t else dyn), found.2 ++ [o]))) := by
  unfold resolveOne at h
  split at h
  · rename_i hno
    injection h with h; rw [← h]
    refine ⟨rfl, .inl ⟨fun ht => ?_, rfl⟩⟩
    rcases hno with e | ⟨_, e⟩
    · exact e ht.1
    · exact e ht.2.1
  · rename_i hno
    rw [instantiateOverload_plain ho] at h
    dsimp only at h
    cases ha : assignArgs (assign c.legacyNull c.bindings n) false args o.args .empty with
    | none => rw [ha] at h; exact nomatch h
    | some x =>
      obtain ⟨b, P⟩ := x
      rw [ha] at h
      obtain ⟨e, hiff⟩ := assignAll_ground args o.args .empty P b wf hargs (fun q hq => ⟨(ho.2 q hq).shaped, (ho.2 q hq).ground⟩) rfl ha
      have hm : o.member = recv := Classical.byContradiction (fun e => hno (.inl e))
      have hl : args.length = o.args.length := Classical.byContradiction (fun e => hno (.inr ⟨rfl, e⟩))
      cases b with
      | false =>
        have h : some (c, found) = some r := h
        injection h with h; rw [← h]
        exact ⟨rfl, .inl ⟨fun ht => (by simpa using hiff.mpr ht.2.2), rfl⟩⟩
      | true =>
        have h : some (c.update P, some (match found.1 with
            | none => o.result
            | some t => if t.eq o.result then t else dyn), found.2 ++ [o]) = some r := h
        injection h with h; rw [← h, e]
        exact ⟨update_empty c, .inr ⟨⟨hm, hl, hiff.mp rfl⟩, rfl⟩⟩

/-- The result type of the matches found so far. -/
def joined : List Ty → Option Ty → Option Ty
  | [], t => t
  | r :: rs, none => joined rs (some r)
  | r :: rs, some t => joined rs (some (if t.eq r then t else dyn))

theorem resolveLoop_plain {n : Nat} {args : List Ty} {recv : Bool} {c : Ctx} (wf : WF c.sub) (hargs : ∀ a ∈ args, Shaped a ∧ Ground a)
    {p : Overload → Bool} : ∀ os found r, (∀ o ∈ os, PlainOverload o) → (∀ o ∈ os, p o = true ↔ Takes c.legacyNull args recv o) →
    resolveLoop n false args recv os c found = some r →
    r = (c, joined ((os.filter p).map (·.result)) found.1, found.2 ++ os.filter p) := by
  intro os
  induction os with
  | nil => intro found r _ _ h; rw [resolveLoop] at h; injection h with h; rw [← h]; simp [joined]
  | cons o os ih =>
    intro found r ho hpt h
    rw [resolveLoop] at h
    cases h1 : resolveOne c n false args recv o found with
    | none => rw [h1] at h; exact nomatch h
    | some x =>
      rw [h1] at h
      have h : resolveLoop n false args recv os x.1 x.2 = some r := h
      obtain ⟨e, hc⟩ := resolveOne_plain wf hargs (ho o (by simp)) h1
      rw [e] at h
      rcases hc with ⟨ht, e2⟩ | ⟨ht, e2⟩
      · have hp : p o = false := by
          cases hp : p o with
          | false => rfl
          | true => exact absurd ((hpt o (by simp)).mp hp) ht
        rw [e2] at h
        rw [ih found r (fun o h => ho o (by simp [h])) (fun o h => hpt o (by simp [h])) h, List.filter_cons_of_neg (by simp [hp])]
      · have hp : p o = true := (hpt o (by simp)).mpr ht
        rw [e2] at h
        rw [ih _ r (fun o h => ho o (by simp [h])) (fun o h => hpt o (by simp [h])) h, List.filter_cons_of_pos hp]
        cases hf : found.1 with
        | none => simp [joined]
        | some t => simp [joined]

theorem joined_same {t : Ty} : ∀ rs : List Ty, (∀ r ∈ rs, t.eq r = true) → joined rs (some t) = some t := by
  intro rs
  induction rs with
  | nil => intro _; rfl
  | cons r rs ih =>
    intro h
    rw [joined, if_pos (h r (by simp))]
    exact ih (fun r hr => h r (by simp [hr]))

theorem joined_dyn : ∀ rs : List Ty, joined rs (some dyn) = some dyn := by
  intro rs
  induction rs with
  | nil => rfl
  | cons r rs ih =>
    rw [joined]
    split
    · exact ih
    · exact ih

theorem joined_differ {t : Ty} : ∀ rs : List Ty, (∃ r ∈ rs, t.eq r = false) → joined rs (some t) = some dyn := by
  intro rs
  induction rs with
  | nil => rintro ⟨r, hr, _⟩; exact nomatch hr
  | cons r rs ih =>
    rintro ⟨u, hu, hne⟩
    rw [joined]
    cases he : t.eq r with
    | false => rw [if_neg (by simp)]; exact joined_dyn rs
    | true =>
      rw [if_pos rfl]
      refine ih ?_
      rcases List.mem_cons.mp hu with rfl | hu
      · rw [he] at hne; exact nomatch hne
      · exact ⟨u, hu, hne⟩

/-- **C37**: for argument types and overloads without type parameters, the overloads reported are exactly those that take the arguments, in
declaration order; the result type is theirs if they agree, and `dyn` otherwise; nothing is bound. -/
theorem C37_resolve_ground {c c' : Ctx} (hr : Reachable c) {n : Nat} {d : FunctionDecl} {args : List Ty} {recv : Bool}
    {res : Option (Ty × List Overload)} (hl : isLogicalOp d.name args = false) (hargs : ∀ a ∈ args, Shaped a ∧ Ground a)
    (ho : ∀ o ∈ d.overloads, PlainOverload o) {p : Overload → Bool} (hpt : ∀ o ∈ d.overloads, p o = true ↔ Takes c.legacyNull args recv o)
    (h : resolveOverload c n d args recv = some (c', res)) :
    c' = c ∧ (res = none ↔ d.overloads.filter p = []) ∧
      ∀ t os, res = some (t, os) → os = d.overloads.filter p ∧
        ∀ o0 rest, os = o0 :: rest →
          ((∀ o ∈ rest, o0.result.eq o.result = true) → t = o0.result) ∧ ((∃ o ∈ rest, o0.result.eq o.result = false) → t = dyn) := by
  obtain ⟨x, h1, h2, hc⟩ := resolve_parts h
  rw [hl] at h1
  have hx := resolveLoop_plain (reachable_wf hr) hargs _ _ _ ho hpt h1
  have h2 : c' = x.1 := h2
  rw [hx] at h2 hc
  dsimp only at h2 hc
  rw [List.nil_append] at hc
  refine ⟨h2, ?_, ?_⟩
  · cases hf : d.overloads.filter p with
    | nil =>
      rw [hf] at hc
      rcases hc with ⟨_, e⟩ | ⟨t0, t1, e, _⟩
      · exact ⟨fun _ => rfl, fun _ => e⟩
      · exact nomatch e
    | cons o os =>
      rw [hf] at hc
      rcases hc with ⟨e, _⟩ | ⟨t0, t1, _, _, e⟩
      · exfalso
        rw [List.map_cons, joined] at e
        by_cases hs : ∀ r ∈ os.map (·.result), o.result.eq r = true
        · rw [joined_same _ hs] at e; exact nomatch e
        · rw [joined_differ] at e
          · exact nomatch e
          · exact Classical.byContradiction (fun hn => hs (fun r hr => by
              cases he : o.result.eq r with
              | true => rfl
              | false => exact absurd ⟨r, hr, he⟩ hn))
      · have e : res = some _ := e
        exact ⟨fun e2 => (by rw [e] at e2; exact nomatch e2), fun e2 => (by simp at e2)⟩
  · intro t os hres
    rcases hc with ⟨_, e⟩ | ⟨t0, t1, e, hsub, e2⟩
    · have e : res = none := e
      rw [hres] at e; exact nomatch e
    · have e2 : res = _ := e2
      rw [hres] at e2
      injection e2 with e2
      injection e2 with et eos
      refine ⟨eos, fun o0 rest hos => ?_⟩
      have pl : ∀ o ∈ os, PlainOverload o := fun o h => ho o (by rw [eos] at h; exact (List.mem_filter.mp h).1)
      have p0 : Plain o0.result := (pl o0 (by rw [hos]; simp)).1
      rw [← eos, hos, List.map_cons, joined] at e
      refine ⟨fun hs => ?_, fun hd => ?_⟩
      · rw [joined_same _ (by intro r hr; obtain ⟨o, h1, rfl⟩ := List.mem_map.mp hr; exact hs o h1)] at e
        injection e with e
        rw [et]
        exact full_ground p0.shaped p0.ground ⟨n, by rw [e]; exact hsub⟩
      · rw [joined_differ _ (by obtain ⟨o, h1, h2⟩ := hd; exact ⟨o.result, List.mem_map.mpr ⟨o, h1, rfl⟩, h2⟩)] at e
        injection e with e
        have gd : Ground dyn := ground_node (fun p hp => nomatch hp)
        rw [et]
        exact full_ground (t := dyn) (.leaf _) gd ⟨n, by rw [e]; exact hsub⟩

/-- `size` of a string, of a list of `dyn`, and a member version: a call `size(list(int))` finds the second. -/
example : ∃ c', resolveOverload (.new true) 9 ⟨"size", [⟨"size_string", false, [.b .string], .b .int⟩, ⟨"size_list", false, [.con .list [dyn]], .b .int⟩,
      ⟨"list_size", true, [.con .list [dyn]], .b .int⟩]⟩ [.con .list [.b .int]] false =
    some (c', some (.b .int, [⟨"size_list", false, [.con .list [dyn]], .b .int⟩])) := ⟨_, rfl⟩

/-- With a `dyn` argument several match, and different results give `dyn`. -/
example : ∃ c', resolveOverload (.new true) 9 ⟨"_+_", [⟨"add_int", false, [.b .int, .b .int], .b .int⟩, ⟨"add_string", false, [.b .string, .b .string], .b .string⟩]⟩
      [dyn, dyn] false =
    some (c', some (dyn, [⟨"add_int", false, [.b .int, .b .int], .b .int⟩, ⟨"add_string", false, [.b .string, .b .string], .b .string⟩])) := ⟨_, rfl⟩

end Cel.Checker
