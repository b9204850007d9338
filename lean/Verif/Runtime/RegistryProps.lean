import Verif.Runtime.Registry

/-!
# C43: the registry stays unambiguous
-/

set_option linter.unusedSimpArgs false
set_option linter.unusedVariables false

namespace Cel.Runtime
open Cel

/-! ## Specification -/

/-- Kinds of actual arguments: `kAny` is a kind of parameters only. -/
def Concrete (args : List Kind) : Prop := ∀ k ∈ args, k ≠ kAny

/-- The overload takes a call of this style with arguments of these kinds. -/
def Accepts (d : Desc) (receiver : Bool) (args : List Kind) : Prop :=
  d.receiver = receiver ∧ d.types.length = args.length ∧ ∀ p ∈ d.types.zip args, p.1 = kAny ∨ p.1 = p.2

/-- Some call is taken by both overloads. -/
def Overlap (d e : Desc) : Prop := ∃ receiver args, Concrete args ∧ Accepts d receiver args ∧ Accepts e receiver args

/-- The registration operations. -/
inductive RegOp (F : Type) where
  | static (d : Desc) (f : F)
  | lazy (d : Desc)

def RegOp.run {F : Type} (r : Registry F) : RegOp F → Registry F
  | .static d f => (r.register d f).2
  | .lazy d => (r.registerLazy d).2

/-- A registry that some sequence of registrations, accepted or not, leads to. -/
def Registry.Reachable {F : Type} (r : Registry F) : Prop := ∃ ops : List (RegOp F), r = ops.foldl RegOp.run (fun _ => none)

/-! ## Shapes -/

theorem kindsMatch_iff (a : List Kind) : ∀ b : List Kind, a.length = b.length →
    (kindsMatch a b = true ↔ ∃ args, Concrete args ∧ args.length = a.length ∧
      (∀ p ∈ a.zip args, p.1 = kAny ∨ p.1 = p.2) ∧ ∀ p ∈ b.zip args, p.1 = kAny ∨ p.1 = p.2) := by
  induction a with
  | nil =>
    intro b hb
    cases b with
    | nil => exact ⟨fun _ => ⟨[], by intro k hk; simp at hk, rfl, by intro p hp; simp at hp, by intro p hp; simp at hp⟩, fun _ => rfl⟩
    | cons => simp at hb
  | cons x a ih =>
    intro b hb
    cases b with
    | nil => simp at hb
    | cons y b =>
      simp only [List.length_cons, Nat.add_right_cancel_iff] at hb
      simp only [kindsMatch]
      by_cases hxy : x ≠ kAny ∧ y ≠ kAny ∧ x ≠ y
      · rw [if_pos hxy]
        constructor
        · intro h; simp at h
        · rintro ⟨args, hc, hl, h1, h2⟩
          cases args with
          | nil => simp at hl
          | cons k args =>
            exfalso
            have e1 := h1 (x, k) (by simp)
            have e2 := h2 (y, k) (by simp)
            simp only [] at e1 e2
            rcases e1 with e1 | e1
            · exact hxy.1 e1
            · rcases e2 with e2 | e2
              · exact hxy.2.1 e2
              · exact hxy.2.2 (e1.trans e2.symm)
      · rw [if_neg hxy, ih b hb]
        constructor
        · rintro ⟨args, hc, hl, h1, h2⟩
          have hk : ∃ k, k ≠ kAny ∧ (x = kAny ∨ x = k) ∧ (y = kAny ∨ y = k) := by
            by_cases hx : x = kAny
            · by_cases hy : y = kAny
              · exact ⟨0, by decide, .inl hx, .inl hy⟩
              · exact ⟨y, hy, .inl hx, .inr rfl⟩
            · by_cases hy : y = kAny
              · exact ⟨x, hx, .inr rfl, .inl hy⟩
              · refine ⟨x, hx, .inr rfl, .inr ?_⟩
                exact Classical.byContradiction fun hne => hxy ⟨hx, hy, fun h => hne h.symm⟩
          obtain ⟨k, hk, hkx, hky⟩ := hk
          refine ⟨k :: args, ?_, by simp [hl], ?_, ?_⟩
          · intro z hz
            rcases List.mem_cons.1 hz with rfl | hz
            · exact hk
            · exact hc z hz
          · intro p hp
            rcases List.mem_cons.1 hp with rfl | hp
            · exact hkx
            · exact h1 p hp
          · intro p hp
            rcases List.mem_cons.1 hp with rfl | hp
            · exact hky
            · exact h2 p hp
        · rintro ⟨args, hc, hl, h1, h2⟩
          cases args with
          | nil => simp at hl
          | cons k args =>
            exact ⟨args, fun z hz => hc z (List.mem_cons_of_mem _ hz), by simpa using hl,
              fun p hp => h1 p (by simp [List.zip_cons_cons, hp]), fun p hp => h2 p (by simp [List.zip_cons_cons, hp])⟩

/-- Shapes match exactly if the overloads overlap. -/
theorem shapeMatches_iff (d e : Desc) : d.shapeMatches e.receiver e.types = true ↔ Overlap d e := by
  unfold Desc.shapeMatches
  by_cases hr : d.receiver ≠ e.receiver
  · rw [if_pos hr]
    constructor
    · intro h; simp at h
    · rintro ⟨r, args, -, h1, h2⟩; exact absurd (h1.1.trans h2.1.symm) hr
  · rw [if_neg hr]
    by_cases hl : d.types.length ≠ e.types.length
    · rw [if_pos hl]
      constructor
      · intro h; simp at h
      · rintro ⟨r, args, -, h1, h2⟩; exact absurd (h1.2.1.trans h2.2.1.symm) hl
    · rw [if_neg hl]
      simp only [ne_eq, Decidable.not_not] at hr hl
      rw [kindsMatch_iff _ _ hl]
      constructor
      · rintro ⟨args, hc, hlen, h1, h2⟩
        exact ⟨e.receiver, args, hc, ⟨hr, hlen.symm, h1⟩, ⟨rfl, by omega, h2⟩⟩
      · rintro ⟨r, args, hc, h1, h2⟩
        exact ⟨args, hc, h1.2.1.symm, h1.2.2, h2.2.2⟩

theorem Overlap.symm {d e : Desc} (h : Overlap d e) : Overlap e d := by
  obtain ⟨r, a, hc, h1, h2⟩ := h; exact ⟨r, a, hc, h2, h1⟩

/-! ## The invariant -/

/-- All overloads of a name. -/
abbrev overloads {F : Type} (e : Entry F) : List Desc := e.statics.map (·.1) ++ e.lazies

structure EntryOk {F : Type} (name : String) (e : Entry F) : Prop where
  named : ∀ d ∈ overloads e, d.name = name
  apart : (overloads e).Pairwise (fun a b => ¬ Overlap a b)
  nonempty : overloads e ≠ []
  single : ∀ d ∈ overloads e, d.strict = false → overloads e = [d]

def RegistryOk {F : Type} (r : Registry F) : Prop := ∀ name e, r name = some e → EntryOk name e

theorem not_registered {F : Type} {r : Registry F} {d : Desc} (h : r.descriptorRegistered d = false) {e : Entry F}
    (he : r d.name = some e) : ∀ o ∈ overloads e, ¬ Overlap o d := by
  unfold Registry.descriptorRegistered at h
  rw [he] at h
  simp only [Bool.or_eq_false_iff, List.any_eq_false, Bool.not_eq_true] at h
  intro o ho hov
  have := (shapeMatches_iff o d).2 hov
  rcases List.mem_append.1 ho with ho | ho
  · obtain ⟨p, hp, rfl⟩ := List.mem_map.1 ho
    rw [h.1 p hp] at this; simp at this
  · rw [h.2 o ho] at this; simp at this

theorem all_strict {F : Type} {r : Registry F} (hr : RegistryOk r) {d : Desc} (h : r.validateNonStrict d = true) {e : Entry F}
    (he : r d.name = some e) : d.strict = true ∧ ∀ o ∈ overloads e, o.strict = true := by
  unfold Registry.validateNonStrict at h
  rw [he] at h
  simp only [] at h
  have hok := hr _ _ he
  cases hd : d.strict with
  | false => rw [hd] at h; simp at h
  | true =>
    rw [hd] at h
    simp only [Bool.not_true, Bool.false_eq_true, if_false, Bool.and_eq_true] at h
    refine ⟨rfl, fun o ho => ?_⟩
    cases hs : o.strict with
    | true => rfl
    | false =>
      exfalso
      have hone := hok.single o ho hs
      unfold overloads at hone
      cases hst : e.statics with
      | nil =>
        rw [hst] at hone
        simp only [List.map_nil, List.nil_append] at hone
        rw [hone] at h
        simp only [] at h
        rw [hs] at h; simp at h
      | cons p ps =>
        rw [hst] at hone h
        simp only [List.map_cons, List.cons_append, List.cons.injEq] at hone
        simp only [] at h
        rw [hone.1, hs] at h; simp at h

theorem pairwise_insert {S L : List Desc} {d : Desc} (h : (S ++ L).Pairwise (fun a b => ¬ Overlap a b))
    (hd : ∀ o ∈ S ++ L, ¬ Overlap o d) : (S ++ [d] ++ L).Pairwise (fun a b => ¬ Overlap a b) := by
  obtain ⟨h1, h2, h3⟩ := List.pairwise_append.1 h
  rw [List.append_assoc]
  refine List.pairwise_append.2 ⟨h1, ?_, ?_⟩
  · refine List.pairwise_append.2 ⟨by simp, h2, ?_⟩
    intro a ha b hb
    simp only [List.mem_singleton] at ha; subst ha
    exact fun hov => hd b (by simp [hb]) hov.symm
  · intro a ha b hb
    rcases List.mem_append.1 hb with hb | hb
    · simp only [List.mem_singleton] at hb; subst hb
      exact hd a (by simp [ha])
    · exact h3 a ha b hb

theorem set_ok {F : Type} {r : Registry F} (hr : RegistryOk r) {name : String} {e : Entry F} (he : EntryOk name e) :
    RegistryOk (r.set name e) := by
  intro n e' h
  unfold Registry.set at h
  split at h
  · rename_i hn; subst hn; simp only [Option.some.injEq] at h; subst h; exact he
  · exact hr n e' h

/-- The entry with `d` inserted among its overloads. -/
theorem insert_ok {F : Type} {r : Registry F} (hr : RegistryOk r) {d : Desc} (h1 : r.descriptorRegistered d = false)
    (h2 : r.validateNonStrict d = true) {e' : Entry F} {S L : List Desc}
    (hold : overloads ((r d.name).getD {}) = S ++ L) (hnew : overloads e' = S ++ [d] ++ L) : EntryOk d.name e' := by
  have hmem : ∀ o, o ∈ overloads e' ↔ o = d ∨ o ∈ S ++ L := by
    intro o; rw [hnew]; simp only [List.mem_append, List.mem_singleton]
    constructor
    · rintro ((h | h) | h)
      · exact .inr (.inl h)
      · exact .inl h
      · exact .inr (.inr h)
    · rintro (h | h | h)
      · exact .inl (.inr h)
      · exact .inl (.inl h)
      · exact .inr h
  cases he : r d.name with
  | none =>
    rw [he] at hold
    have hS : S ++ L = [] := by rw [← hold]; rfl
    have hS' : S = [] ∧ L = [] := by simpa using hS
    refine ⟨?_, ?_, by rw [hnew]; simp, ?_⟩
    · intro o ho
      rcases (hmem o).1 ho with rfl | ho
      · rfl
      · rw [hS] at ho; simp at ho
    · rw [hnew, hS'.1, hS'.2]; simp
    · intro o ho _
      rcases (hmem o).1 ho with rfl | ho
      · rw [hnew, hS'.1, hS'.2]; simp
      · rw [hS] at ho; simp at ho
  | some e =>
    rw [he] at hold
    simp only [Option.getD_some] at hold
    have hok := hr _ _ he
    have hap := not_registered h1 he
    have hst := all_strict hr h2 he
    rw [hold] at hap hst
    refine ⟨?_, ?_, by rw [hnew]; simp, ?_⟩
    · intro o ho
      rcases (hmem o).1 ho with rfl | ho
      · rfl
      · exact hok.named o (by rw [hold]; exact ho)
    · rw [hnew]; exact pairwise_insert (by rw [← hold]; exact hok.apart) hap
    · intro o ho hs
      exfalso
      rcases (hmem o).1 ho with rfl | ho
      · rw [hst.1] at hs; simp at hs
      · rw [hst.2 o ho] at hs; simp at hs

theorem register_cases {F : Type} (r : Registry F) (d : Desc) :
    (r.descriptorRegistered d = true ∨ r.validateNonStrict d = false) ∨
      (r.descriptorRegistered d = false ∧ r.validateNonStrict d = true) := by
  cases r.descriptorRegistered d <;> cases r.validateNonStrict d <;> simp

theorem register_ok {F : Type} {r : Registry F} (hr : RegistryOk r) (d : Desc) (f : F) : RegistryOk (r.register d f).2 := by
  unfold Registry.register
  cases h1 : r.descriptorRegistered d with
  | true => exact hr
  | false =>
    simp only [Bool.false_eq_true, if_false]
    cases h2 : r.validateNonStrict d with
    | false => exact hr
    | true =>
      simp only [Bool.not_true, Bool.false_eq_true, if_false]
      exact set_ok hr (insert_ok hr h1 h2 rfl (by simp [overloads]))

theorem registerLazy_ok {F : Type} {r : Registry F} (hr : RegistryOk r) (d : Desc) : RegistryOk (r.registerLazy d).2 := by
  unfold Registry.registerLazy
  cases h1 : r.descriptorRegistered d with
  | true => exact hr
  | false =>
    simp only [Bool.false_eq_true, if_false]
    cases h2 : r.validateNonStrict d with
    | false => exact hr
    | true =>
      simp only [Bool.not_true, Bool.false_eq_true, if_false]
      refine set_ok hr (insert_ok hr h1 h2 (S := overloads ((r d.name).getD {})) (L := []) (by simp) ?_)
      simp [overloads]

theorem reachable_ok {F : Type} {r : Registry F} (h : r.Reachable) : RegistryOk r := by
  obtain ⟨ops, rfl⟩ := h
  have : ∀ (ops : List (RegOp F)) (r : Registry F), RegistryOk r → RegistryOk (ops.foldl RegOp.run r) := by
    intro ops
    induction ops with
    | nil => exact fun r h => h
    | cons o ops ih =>
      intro r h
      refine ih _ ?_
      cases o with
      | static d f => exact register_ok h d f
      | lazy d => exact registerLazy_ok h d
  exact this ops _ (by intro n e h; simp at h)

theorem list_eq {F : Type} {r : Registry F} {name : String} {e : Entry F} (h : r name = some e) : r.list name = overloads e := by
  unfold Registry.list; rw [h]

/-- **C43 (no ambiguity).** Whatever was registered, no two overloads of one name take the same call. -/
theorem C43_unambiguous {F : Type} {r : Registry F} (h : r.Reachable) (name : String) :
    (r.list name).Pairwise (fun a b => ¬ Overlap a b) := by
  cases he : r name with
  | none => unfold Registry.list; rw [he]; simp
  | some e => rw [list_eq he]; exact (reachable_ok h name e he).apart

/-- **C43 (non-strict functions).** A function with a non-strict overload has no other overload. -/
theorem C43_nonstrict_alone {F : Type} {r : Registry F} (h : r.Reachable) (name : String) (d : Desc) (hd : d ∈ r.list name)
    (hs : d.strict = false) : r.list name = [d] := by
  cases he : r name with
  | none => unfold Registry.list at hd; rw [he] at hd; simp at hd
  | some e => rw [list_eq he] at hd ⊢; exact (reachable_ok h name e he).single d hd hs

/-- **C43 (what is accepted).** In a reachable registry a registration is accepted exactly if its overload overlaps none
of its name's, and it and all of those are strict (or there are none); statically and lazily alike. -/
theorem C43_accepted_iff {F : Type} {r : Registry F} (h : r.Reachable) (d : Desc) (f : F) :
    ((r.register d f).1 = true ↔ (∀ o ∈ r.list d.name, ¬ Overlap o d) ∧
      (r.list d.name = [] ∨ (d.strict = true ∧ ∀ o ∈ r.list d.name, o.strict = true))) ∧
    ((r.registerLazy d).1 = (r.register d f).1) := by
  have hr := reachable_ok h
  constructor
  · unfold Registry.register
    cases he : r d.name with
    | none =>
      have h1 : r.descriptorRegistered d = false := by unfold Registry.descriptorRegistered; rw [he]
      have h2 : r.validateNonStrict d = true := by unfold Registry.validateNonStrict; rw [he]
      have h3 : r.list d.name = [] := by unfold Registry.list; rw [he]
      rw [h1, h2, h3]; simp
    | some e =>
      rw [list_eq he]
      have hne := (hr _ _ he).nonempty
      cases h1 : r.descriptorRegistered d with
      | true =>
        simp only [if_true]
        constructor
        · intro h; simp at h
        · rintro ⟨hno, -⟩
          exfalso
          unfold Registry.descriptorRegistered at h1
          rw [he] at h1
          simp only [Bool.or_eq_true, List.any_eq_true] at h1
          rcases h1 with ⟨p, hp, hm⟩ | ⟨o, ho, hm⟩
          · exact hno p.1 (by simp only [overloads, List.mem_append, List.mem_map]; exact .inl ⟨p, hp, rfl⟩) ((shapeMatches_iff _ _).1 hm)
          · exact hno o (by simp [ho]) ((shapeMatches_iff _ _).1 hm)
      | false =>
        have hap := not_registered h1 he
        simp only [Bool.false_eq_true, if_false]
        cases h2 : r.validateNonStrict d with
        | true =>
          have := all_strict hr h2 he
          simp only [Bool.not_true, Bool.false_eq_true, if_false]
          exact ⟨fun _ => ⟨hap, .inr this⟩, fun _ => trivial⟩
        | false =>
          simp only [Bool.not_false, if_true]
          constructor
          · intro h; simp at h
          · rintro ⟨-, h | ⟨hd, hall⟩⟩
            · exact absurd h hne
            · exfalso
              unfold Registry.validateNonStrict at h2
              rw [he, hd] at h2
              simp only [Bool.not_true, Bool.false_eq_true, if_false] at h2
              have t1 : (match e.statics with | [] => true | o :: _ => o.1.strict) = true := by
                cases hs : e.statics with
                | nil => rfl
                | cons p ps => exact hall p.1 (by simp [overloads, hs])
              have t2 : (match e.lazies with | [] => true | o :: _ => o.strict) = true := by
                cases hs : e.lazies with
                | nil => rfl
                | cons p ps => exact hall p (by simp [overloads, hs])
              cases hs : e.statics <;> cases hl : e.lazies <;> rw [hs] at t1 h2 <;> rw [hl] at t2 h2 <;> simp_all
  · unfold Registry.register Registry.registerLazy
    cases r.descriptorRegistered d <;> cases r.validateNonStrict d <;> rfl

/-- **C43 (effect).** A rejected registration changes nothing; an accepted one adds the overload to its name and changes
no other name. -/
theorem C43_register_effect {F : Type} (r : Registry F) (d : Desc) (f : F) :
    ((r.register d f).1 = false → (r.register d f).2 = r) ∧
    ((r.register d f).1 = true → (∀ n, n ≠ d.name → (r.register d f).2 n = r n) ∧
      (r.register d f).2 d.name = some { (r d.name).getD {} with statics := ((r d.name).getD {}).statics ++ [(d, f)] }) ∧
    ((r.registerLazy d).1 = false → (r.registerLazy d).2 = r) ∧
    ((r.registerLazy d).1 = true → (∀ n, n ≠ d.name → (r.registerLazy d).2 n = r n) ∧
      (r.registerLazy d).2 d.name = some { (r d.name).getD {} with lazies := ((r d.name).getD {}).lazies ++ [d] }) := by
  unfold Registry.register Registry.registerLazy
  cases r.descriptorRegistered d <;> cases r.validateNonStrict d <;> simp [Registry.set] <;>
    exact ⟨fun n h1 h2 => absurd h2 h1, fun n h1 h2 => absurd h2 h1⟩

/-- **C43 (lookup).** Looking up by shape returns exactly the overloads that overlap the shape, by arity exactly those of
that style and number of parameters, in the order of registration. -/
theorem C43_lookup {F : Type} {r : Registry F} {name : String} {e : Entry F} (he : r name = some e) (q : Desc) (o : Desc × F)
    (l : Desc) (arity : Nat) :
    (o ∈ r.findStatic name q.receiver q.types ↔ o ∈ e.statics ∧ Overlap o.1 q) ∧
    (l ∈ r.findLazy name q.receiver q.types ↔ l ∈ e.lazies ∧ Overlap l q) ∧
    (o ∈ r.findStaticByArity name q.receiver arity ↔ o ∈ e.statics ∧ o.1.receiver = q.receiver ∧ o.1.types.length = arity) ∧
    (l ∈ r.findLazyByArity name q.receiver arity ↔ l ∈ e.lazies ∧ l.receiver = q.receiver ∧ l.types.length = arity) ∧
    (r.findStatic name q.receiver q.types).Sublist e.statics ∧ (r.findStaticByArity name q.receiver arity).Sublist e.statics := by
  unfold Registry.findStatic Registry.findLazy Registry.findStaticByArity Registry.findLazyByArity
  simp only [he, List.mem_filter, shapeMatches_iff, Bool.and_eq_true, beq_iff_eq]
  simp [List.filter_sublist]

/-! ## Dispatch -/

theorem argumentKindsMatch_iff (d : Desc) (args : List Kind) : argumentKindsMatch d args = true ↔ Accepts d d.receiver args := by
  unfold argumentKindsMatch Accepts
  by_cases h : d.types.length ≠ args.length
  · rw [if_pos h]
    constructor
    · intro h'; simp at h'
    · rintro ⟨-, h2, -⟩; exact absurd h2 h
  · rw [if_neg h]
    simp only [ne_eq, Decidable.not_not] at h
    simp only [List.all_eq_true, h, true_and]
    constructor
    · intro h' p hp
      have := h' p hp
      cases hk : (p.1 != kAny) with
      | false => left; simpa using hk
      | true => right; simp only [hk, Bool.and_true, Bool.not_eq_true', bne_eq_false_iff_eq] at this; exact this.symm
    · intro h' p hp
      rcases h' p hp with h1 | h1
      · simp [h1]
      · simp [h1]

theorem pairwise_mem {α : Type} {R : α → α → Prop} (hsym : ∀ a b, R a b → R b a) {l : List α} (h : l.Pairwise R) {i j : Nat}
    (hi : i < l.length) (hj : j < l.length) (hne : i ≠ j) : R l[i] l[j] := by
  rw [List.pairwise_iff_getElem] at h
  by_cases hlt : i < j
  · exact h i j hi hj hlt
  · exact hsym _ _ (h j i hj hi (by omega))

/-- At most one element of a pairwise non-overlapping list takes a call. -/
theorem unique_accept {F : Type} {l : List (Desc × F)} (h : (l.map (·.1)).Pairwise (fun a b => ¬ Overlap a b)) {receiver : Bool}
    {args : List Kind} (hc : Concrete args) {a b : Desc × F} (ha : a ∈ l) (hb : b ∈ l) (h1 : Accepts a.1 receiver args)
    (h2 : Accepts b.1 receiver args) : a = b := by
  obtain ⟨i, hi, rfl⟩ := List.mem_iff_getElem.1 ha
  obtain ⟨j, hj, rfl⟩ := List.mem_iff_getElem.1 hb
  by_cases hij : i = j
  · subst hij; rfl
  · exfalso
    have := pairwise_mem (fun a b hab hba => hab hba.symm) h (by simpa using hi) (by simpa using hj) hij
    simp only [List.getElem_map] at this
    exact this ⟨receiver, args, hc, h1, h2⟩

theorem statics_apart {F : Type} {name : String} {e : Entry F} (h : EntryOk name e) :
    (e.statics.map (·.1)).Pairwise (fun a b => ¬ Overlap a b) := (List.pairwise_append.1 h.apart).1

/-- **C43 (static dispatch).** In a reachable registry, a call with arguments of given kinds goes to the static overload
that takes it, if there is one, and it is the only one: registration order does not matter. -/
theorem C43_static_dispatch {F : Type} {r : Registry F} (h : r.Reachable) (name : String) (receiver : Bool) {args : List Kind}
    (hc : Concrete args) (o : Desc × F) :
    resolveStatic (r.findStaticByArity name receiver args.length) args = some o ↔
      ∃ e, r name = some e ∧ o ∈ e.statics ∧ Accepts o.1 receiver args := by
  cases he : r name with
  | none =>
    unfold Registry.findStaticByArity resolveStatic
    rw [he]; simp
  | some e =>
    have hok := reachable_ok h name e he
    have hlk : ∀ o, o ∈ r.findStaticByArity name receiver args.length ↔
        o ∈ e.statics ∧ o.1.receiver = receiver ∧ o.1.types.length = args.length := by
      intro o
      unfold Registry.findStaticByArity
      simp only [he, List.mem_filter, Bool.and_eq_true, beq_iff_eq]
    unfold resolveStatic
    constructor
    · intro hf
      have hm := List.mem_of_find?_eq_some hf
      have hp := List.find?_some hf
      have hm' := (hlk o).1 hm
      rw [argumentKindsMatch_iff, hm'.2.1] at hp
      exact ⟨e, rfl, hm'.1, hp⟩
    · rintro ⟨e', he', hm, hacc⟩
      simp only [Option.some.injEq] at he'; subst he'
      have hmem := (hlk o).2 ⟨hm, hacc.1, hacc.2.1⟩
      have hsome : (r.findStaticByArity name receiver args.length).find? (fun o => argumentKindsMatch o.1 args) ≠ none := by
        intro hn
        rw [List.find?_eq_none] at hn
        apply hn o hmem
        rw [argumentKindsMatch_iff, hacc.1]; exact hacc
      cases hf : (r.findStaticByArity name receiver args.length).find? (fun o => argumentKindsMatch o.1 args) with
      | none => exact absurd hf hsome
      | some x =>
        have hx := (hlk x).1 (List.mem_of_find?_eq_some hf)
        have hp := List.find?_some hf
        rw [argumentKindsMatch_iff, hx.2.1] at hp
        rw [unique_accept (statics_apart hok) hc hx.1 hm hp hacc]

/-- Functions bound in an activation, by any sequence of insertions. -/
def ActFuns.Reachable {F : Type} (a : ActFuns F) : Prop :=
  ∃ ops : List (Desc × F), a = ops.foldl (fun a o => (ActFuns.insert a o.1 o.2).2) (fun _ => [])

theorem actfuns_ok {F : Type} {a : ActFuns F} (h : a.Reachable) (name : String) :
    ((a name).map (·.1)).Pairwise (fun x y => ¬ Overlap x y) ∧ ∀ o ∈ a name, o.1.name = name := by
  obtain ⟨ops, rfl⟩ := h
  have : ∀ (ops : List (Desc × F)) (a : ActFuns F),
      (∀ n, ((a n).map (·.1)).Pairwise (fun x y => ¬ Overlap x y) ∧ ∀ o ∈ a n, o.1.name = n) →
      ∀ n, (((ops.foldl (fun a o => (ActFuns.insert a o.1 o.2).2) a) n).map (·.1)).Pairwise (fun x y => ¬ Overlap x y) ∧
        ∀ o ∈ (ops.foldl (fun a o => (ActFuns.insert a o.1 o.2).2) a) n, o.1.name = n := by
    intro ops
    induction ops with
    | nil => exact fun a h => h
    | cons o ops ih =>
      intro a h
      refine ih _ ?_
      intro n
      show (((ActFuns.insert a o.1 o.2).2 n).map (·.1)).Pairwise (fun x y => ¬ Overlap x y) ∧
        ∀ p ∈ (ActFuns.insert a o.1 o.2).2 n, p.1.name = n
      unfold ActFuns.insert
      by_cases hno : (a o.1.name).any (fun x => x.1.shapeMatches o.1.receiver o.1.types) = true
      · rw [if_pos hno]; exact h n
      · rw [if_neg hno]
        by_cases hn : n = o.1.name
        · simp only [if_pos hn]
          constructor
          · rw [List.map_append]
            refine List.pairwise_append.2 ⟨(h n).1, by simp, ?_⟩
            intro x hx y hy
            simp at hy; subst hy
            obtain ⟨p, hp, rfl⟩ := List.mem_map.1 hx
            intro hov
            apply hno
            rw [List.any_eq_true]
            exact ⟨p, by rw [← hn]; exact hp, (shapeMatches_iff _ _).2 hov⟩
          · intro p hp
            rcases List.mem_append.1 hp with hp | hp
            · exact (h n).2 p hp
            · simp at hp; subst hp; exact hn.symm
        · simp only [if_neg hn]; exact h n
  exact this ops _ (by intro n; simp) name

theorem accepts_overlap {d q : Desc} (hq : Concrete q.types) : Overlap d q ↔ Accepts d q.receiver q.types := by
  constructor
  · rintro ⟨r, args, hc, h1, h2⟩
    have : q.types = args := by
      have hl := h2.2.1
      have hall := h2.2.2
      clear h1 h2
      revert hl hall hq
      generalize q.types = ts
      intro hq hl hall
      induction ts generalizing args with
      | nil => cases args with
        | nil => rfl
        | cons => simp at hl
      | cons t ts ih => cases args with
        | nil => simp at hl
        | cons k args =>
          have h1 := hall (t, k) (by simp)
          simp only [] at h1
          have htk : t = k := by
            rcases h1 with h1 | h1
            · exact absurd h1 (hq t (by simp))
            · exact h1
          rw [htk, ih args (fun k hk => hc k (List.mem_cons_of_mem _ hk)) (fun k hk => hq k (List.mem_cons_of_mem _ hk))
            (by simpa using hl) (fun p hp => hall p (by simp [List.zip_cons_cons, hp]))]
    rw [this, h2.1]; exact h1
  · intro h
    refine ⟨q.receiver, q.types, hq, h, rfl, rfl, ?_⟩
    intro p hp
    right
    have : ∀ (l : List Kind), ∀ p ∈ l.zip l, p.1 = p.2 := by
      intro l
      induction l with
      | nil => intro p hp; simp at hp
      | cons a l ih =>
        intro p hp
        rcases List.mem_cons.1 hp with rfl | hp
        · rfl
        · exact ih p hp
    exact this _ p hp

theorem getFunction_go {F : Type} {m : Desc} (hm : Concrete m.types) : ∀ (l : List (Desc × F)),
    (l.map (·.1)).Pairwise (fun a b => ¬ Overlap a b) →
    getFunction.go m l none = .ok (l.find? (fun o => o.1.shapeMatches m.receiver m.types)) := by
  have hrest : ∀ (l : List (Desc × F)) (r : Option (Desc × F)), (∀ o ∈ l, o.1.shapeMatches m.receiver m.types = false) →
      getFunction.go m l r = .ok r := by
    intro l
    induction l with
    | nil => intro r _; cases r <;> rfl
    | cons o l ih =>
      intro r h
      rw [getFunction.go.eq_def]
      simp only [h o (by simp)]
      simp only [Bool.false_eq_true, if_false]
      exact ih r fun x hx => h x (List.mem_cons_of_mem _ hx)
  intro l
  induction l with
  | nil => intro _; rfl
  | cons o l ih =>
    intro h
    rw [List.map_cons, List.pairwise_cons] at h
    rw [getFunction.go, List.find?_cons]
    cases hs : o.1.shapeMatches m.receiver m.types with
    | false => simp only [Bool.false_eq_true, if_false]; exact ih h.2
    | true =>
      simp only [if_true]
      refine hrest l _ ?_
      intro x hx
      cases hx' : x.1.shapeMatches m.receiver m.types with
      | false => rfl
      | true =>
        exfalso
        have a1 := (accepts_overlap hm).1 ((shapeMatches_iff o.1 m).1 hs)
        have a2 := (accepts_overlap hm).1 ((shapeMatches_iff x.1 m).1 hx')
        exact h.1 x.1 (List.mem_map_of_mem hx) ⟨m.receiver, m.types, hm, a1, a2⟩

/-- The function an activation provides for a call: the one that takes it, if any; the provider never fails. -/
theorem getFunction_eq {F : Type} {a : ActFuns F} (h : a.Reachable) (name : String) (receiver : Bool) {args : List Kind}
    (hc : Concrete args) :
    ∃ r, getFunction a ⟨name, receiver, args, true⟩ = .ok r ∧
      ∀ o, r = some o ↔ o ∈ a name ∧ Accepts o.1 receiver args := by
  have hap := actfuns_ok h name
  refine ⟨_, getFunction_go (m := ⟨name, receiver, args, true⟩) hc _ hap.1, ?_⟩
  intro o
  simp only []
  have hsm : ∀ x : Desc, x.shapeMatches receiver args = true ↔ Accepts x receiver args := by
    intro x
    rw [show x.shapeMatches receiver args = x.shapeMatches (⟨name, receiver, args, true⟩ : Desc).receiver
      (⟨name, receiver, args, true⟩ : Desc).types from rfl, shapeMatches_iff]
    exact accepts_overlap (q := ⟨name, receiver, args, true⟩) hc
  constructor
  · intro hf
    exact ⟨List.mem_of_find?_eq_some hf, (hsm _).1 (by have := List.find?_some hf; simpa using this)⟩
  · rintro ⟨hm, hacc⟩
    cases hf : (a name).find? (fun o => o.1.shapeMatches receiver args) with
    | none =>
      rw [List.find?_eq_none] at hf
      exact absurd ((hsm _).2 hacc) (hf o hm)
    | some x =>
      have hp := List.find?_some hf
      rw [unique_accept hap.1 hc (List.mem_of_find?_eq_some hf) hm ((hsm _).1 hp) hacc]

/-- **C43 (lazy dispatch).** In a reachable registry and activation a lazily bound call never fails as ambiguous: it goes
to the function the activation binds for it, if a lazy overload takes the call too. -/
theorem C43_lazy_dispatch {F : Type} {r : Registry F} (h : r.Reachable) {a : ActFuns F} (ha : a.Reachable) (name : String)
    (receiver : Bool) {args : List Kind} (hc : Concrete args) :
    ∃ res, resolveLazy a name receiver (r.findLazyByArity name receiver args.length) args = .ok res ∧
      ∀ o, res = some o ↔ (∃ d ∈ r.findLazyByArity name receiver args.length, Accepts d receiver args) ∧
        o ∈ a name ∧ Accepts o.1 receiver args := by
  obtain ⟨g, hg, hgo⟩ := getFunction_eq ha name receiver hc
  have hps : ((r.findLazyByArity name receiver args.length)).Pairwise (fun a b => ¬ Overlap a b) ∧
      ∀ d ∈ r.findLazyByArity name receiver args.length, d.receiver = receiver := by
    unfold Registry.findLazyByArity
    cases he : r name with
    | none => simp
    | some e =>
      constructor
      · exact ((List.pairwise_append.1 (reachable_ok h name e he).apart).2.1).filter _
      · intro d hd
        simp only [List.mem_filter, Bool.and_eq_true, beq_iff_eq] at hd
        exact hd.2.1
  generalize r.findLazyByArity name receiver args.length = ps at hps
  have hskip : ∀ (ps : List Desc) (res : Option (Desc × F)), (∀ d ∈ ps, argumentKindsMatch d args = false) →
      resolveLazy.go a name receiver args ps res = .ok res := by
    intro ps
    induction ps with
    | nil => intro res _; rfl
    | cons d ps ih =>
      intro res hn
      rw [resolveLazy.go, hn d (by simp)]
      simp only [Bool.not_false, if_true]
      exact ih res fun x hx => hn x (List.mem_cons_of_mem _ hx)
  unfold resolveLazy
  induction ps with
  | nil => exact ⟨none, rfl, by intro o; simp⟩
  | cons d ps ih =>
    obtain ⟨hpw, hrec⟩ := hps
    rw [List.pairwise_cons] at hpw
    have hrecd := hrec d (by simp)
    rw [resolveLazy.go]
    cases hm : argumentKindsMatch d args with
    | false =>
      simp only [Bool.not_false, if_true]
      obtain ⟨res, h1, h2⟩ := ih ⟨hpw.2, fun x hx => hrec x (List.mem_cons_of_mem _ hx)⟩
      refine ⟨res, h1, fun o => ?_⟩
      rw [h2 o]
      have hd : ¬ Accepts d receiver args := by
        intro hacc
        have := (argumentKindsMatch_iff d args).2 (by rw [hrecd]; exact hacc)
        rw [hm] at this; simp at this
      simp [hd]
    | true =>
      have hacc : Accepts d receiver args := by
        have := (argumentKindsMatch_iff d args).1 hm
        rwa [hrecd] at this
      simp only [Bool.not_true, Bool.false_eq_true, if_false, hg, Res.bind]
      have hnone : ∀ x ∈ ps, argumentKindsMatch x args = false := by
        intro x hx
        cases hx' : argumentKindsMatch x args with
        | false => rfl
        | true =>
          exfalso
          have h2 := (argumentKindsMatch_iff x args).1 hx'
          rw [hrec x (List.mem_cons_of_mem _ hx)] at h2
          exact hpw.1 x hx ⟨receiver, args, hc, hacc, h2⟩
      refine ⟨g, ?_, ?_⟩
      · cases g with
        | none => exact hskip ps none hnone
        | some o => exact hskip ps (some o) hnone
      · intro o
        rw [hgo o]
        simp [hacc]

/-- **C43 (dispatch).** For every history of registrations and insertions, dispatch never fails as ambiguous. -/
theorem C43_dispatch_never_ambiguous {F : Type} {r : Registry F} (h : r.Reachable) {a : ActFuns F} (ha : a.Reachable)
    (name : String) (receiver : Bool) {args : List Kind} (hc : Concrete args) :
    ∃ res, dispatch r a name receiver args = .ok res := by
  unfold dispatch
  split
  · obtain ⟨res, h1, -⟩ := C43_lazy_dispatch h ha name receiver hc
    exact ⟨res, h1⟩
  · exact ⟨_, rfl⟩

/-- Full statement of dispatch to static overloads: a static overload that takes a call is called.  It is false, ... -/
def StaticAlwaysReached : Prop :=
  ∀ (r : Registry Nat) (a : ActFuns Nat), r.Reachable → a.Reachable → ∀ name receiver args, Concrete args →
    ∀ o e, r name = some e → o ∈ e.statics → Accepts o.1 receiver args → dispatch r a name receiver args = .ok (some o)

/-- ... since one lazy overload hides every static overload with the same number of parameters, whatever their kinds:
`f(int)` registered statically is not found once `f(string)` is registered lazily. -/
theorem C43_lazy_hides_static : ¬ StaticAlwaysReached := by
  intro h
  let d1 : Desc := ⟨"f", false, [2], true⟩
  let d2 : Desc := ⟨"f", false, [5], true⟩
  have := h ([RegOp.static d1 0, RegOp.lazy d2].foldl RegOp.run (fun _ => none)) (fun _ => []) ⟨_, rfl⟩ ⟨[], rfl⟩ "f" false [2]
    (by intro k hk; simp at hk; subst hk; decide) (d1, 0) ⟨[(d1, 0)], [d2]⟩ rfl (by simp) ⟨rfl, rfl, by intro p hp; simp [d1] at hp; simp [hp]⟩
  have e : dispatch ([RegOp.static d1 0, RegOp.lazy d2].foldl RegOp.run (fun _ => none)) (fun _ => []) "f" false [2] =
    .ok (none : Option (Desc × Nat)) := rfl
  rw [e] at this
  simp at this

/-- Without a lazy overload of the call's style and number of parameters, the static overload is called. -/
theorem C43_static_reached_partial {F : Type} {r : Registry F} (h : r.Reachable) (a : ActFuns F) (name : String)
    (receiver : Bool) {args : List Kind} (hc : Concrete args) (hno : r.findLazyByArity name receiver args.length = [])
    {o : Desc × F} {e : Entry F} (he : r name = some e) (ho : o ∈ e.statics) (hacc : Accepts o.1 receiver args) :
    dispatch r a name receiver args = .ok (some o) := by
  unfold dispatch
  rw [if_neg (by simp [hno]), (C43_static_dispatch h name receiver hc o).2 ⟨e, he, ho, hacc⟩]

/-! ## Concrete cases -/

def exOps : List (RegOp Nat) :=
  [.static ⟨"f", false, [2, kAny], true⟩ 0, .static ⟨"f", false, [5, 5], true⟩ 1, .static ⟨"f", false, [kAny, 3], true⟩ 2,
   .static ⟨"g", true, [2], false⟩ 3, .static ⟨"g", true, [5], true⟩ 4]

/-- The third registration overlaps the first (`f(int, uint)`), and `g` is non-strict: both are rejected. -/
example : (exOps.foldl RegOp.run (fun _ => none)).list "f" = [⟨"f", false, [2, kAny], true⟩, ⟨"f", false, [5, 5], true⟩] ∧
    (exOps.foldl RegOp.run (fun _ => none)).list "g" = [⟨"g", true, [2], false⟩] := by decide

example : (exOps.foldl RegOp.run (fun _ => none)).Reachable := ⟨exOps, rfl⟩

example : resolveStatic ((exOps.foldl RegOp.run (fun _ => none)).findStaticByArity "f" false 2) [2, 3]
    = some (⟨"f", false, [2, kAny], true⟩, 0) := by decide

example : Overlap ⟨"f", false, [2, kAny], true⟩ ⟨"f", false, [kAny, 3], true⟩ := (shapeMatches_iff _ _).1 rfl

end Cel.Runtime
