import Verif.Sig.Decl
import Mathlib.Data.List.Perm.Basic
import Mathlib.Data.List.Pairwise

/-!
# C59: the overloads of a function declaration

Specification first; it does not mention the loops, the maps or the option results of the model
except through `add` and `findById`, the two calls being described.
-/

namespace Cel.Sig

set_option linter.unusedSimpArgs false
set_option linter.unusedVariables false

open Cel.Checker

/-- The id an overload has once it is in a declaration of a function called `name`: its own, or
its signature. -/
def FinalId (name : Text) (o : Overload) (id : Text) : Prop :=
  (o.id ≠ [] ∧ id = o.id) ∨ (o.id = [] ∧ signature name o.args o.member = some id)

/-- Two overloads collide: both members or both not, the same number of arguments, and at every
position one argument type is assignable to the other. -/
def Collide (a b : Overload) : Prop :=
  a.member = b.member ∧ a.args.length = b.args.length ∧
  ∀ (i : Nat) (x y : Ty), a.args[i]? = some x → b.args[i]? = some y →
    assignable x y = true ∨ assignable y x = true

/-- The declarations a program can build: any sequence of `AddOverload` calls, successful or not,
on a new declaration. -/
inductive Built (name : Text) : Decl → Prop
  | new : Built name (Decl.empty name)
  | call {d} (o : Overload) : Built name d → Built name (addTo d o)

theorem argsOverlap_iff : ∀ (as bs : List Ty), as.length = bs.length →
    (argsOverlap as bs = true ↔ ∀ (i : Nat) (x y : Ty), as[i]? = some x → bs[i]? = some y →
      assignable x y = true ∨ assignable y x = true)
  | [], [], _ => by simp [argsOverlap]
  | [], _ :: _, h => by simp at h
  | _ :: _, [], h => by simp at h
  | a :: as, b :: bs, h => by
    rw [argsOverlap, Bool.and_eq_true, Bool.or_eq_true,
      argsOverlap_iff as bs (by simpa using h)]
    constructor
    · rintro ⟨h1, h2⟩ i x y hx hy
      cases i with
      | zero => simp at hx hy; subst hx hy; exact h1
      | succ i => exact h2 i x y (by simpa using hx) (by simpa using hy)
    · intro h
      exact ⟨h 0 a b rfl rfl, fun i x y hx hy => h (i + 1) x y (by simpa using hx) (by simpa using hy)⟩

theorem overlap_iff (a b : Overload) : overlap a b = true ↔ Collide a b := by
  rw [overlap, Collide]
  by_cases h1 : a.member = b.member
  · rw [if_neg (by simp [h1])]
    by_cases h2 : a.args.length = b.args.length
    · rw [if_neg (by simp [h2]), argsOverlap_iff _ _ h2]; simp [h1, h2]
    · rw [if_pos h2]; simp [h2]
  · rw [if_pos h1]; simp [h1]

theorem collide_symm {a b} (h : Collide a b) : Collide b a :=
  ⟨h.1.symm, h.2.1.symm, fun i x y hx hy => (h.2.2 i y x hy hx).symm⟩

theorem withId_id {name o sig} (h : signature name o.args o.member = some sig) :
    FinalId name o (withId o sig).id := by
  rw [FinalId, withId]
  by_cases he : o.id = []
  · right; rw [if_pos (by simp [he])]; exact ⟨he, h⟩
  · left; rw [if_neg (by simp [he])]; exact ⟨he, rfl⟩

theorem withId_args (o sig) : (withId o sig).args = o.args := by rw [withId]; split <;> rfl
theorem withId_member (o sig) : (withId o sig).member = o.member := by rw [withId]; split <;> rfl

theorem collide_withId {o sig e} : Collide (withId o sig) e ↔ Collide o e := by
  rw [Collide, Collide, withId_args, withId_member]

/-- What holds of every declaration. -/
structure Inv (name : Text) (d : Decl) : Prop where
  name_eq : d.name = name
  byId_of : ∀ (i : Nat) (o : Overload), d.overloads[i]? = some o → d.byId o.id = some i
  of_byId : ∀ k i, d.byId k = some i → ∃ o, d.overloads[i]? = some o ∧ o.id = k
  of_bySig : ∀ k i, d.bySig k = some i → ∃ o, d.overloads[i]? = some o ∧
    signature name o.args o.member = some k
  sig_of : ∀ o ∈ d.overloads, ∃ s i, signature name o.args o.member = some s ∧
    d.bySig s = some i
  apart : d.overloads.Pairwise fun a b => ¬ Collide a b

theorem add_eq_some {d : Decl} {o : Overload} {d' : Decl} : add d o = some d' ↔
    ∃ sig, signature d.name o.args o.member = some sig ∧
      d.byId (withId o sig).id = none ∧
      (∀ e ∈ d.overloads, ¬ Collide o e) ∧
      d' = { d with
        overloads := d.overloads ++ [withId o sig]
        byId := put d.byId (withId o sig).id d.overloads.length
        bySig := put d.bySig sig d.overloads.length } := by
  rw [add]
  cases hs : signature d.name o.args o.member with
  | none => simp
  | some sig =>
    dsimp only
    have hany : (d.overloads.any (fun e => overlap (withId o sig) e) = true) ↔
        ∃ e ∈ d.overloads, Collide o e := by
      simp only [List.any_eq_true, overlap_iff, collide_withId]
    constructor
    · intro h
      by_cases h1 : (d.byId (withId o sig).id).isSome = true
      · rw [if_pos h1] at h; cases h
      · rw [if_neg h1] at h
        by_cases h2 : d.overloads.any (fun e => overlap (withId o sig) e) = true
        · rw [if_pos h2] at h; cases h
        · rw [if_neg h2] at h
          injection h with h
          refine ⟨sig, rfl, by simpa using h1, ?_, h.symm⟩
          intro e he hc
          exact h2 (hany.mpr ⟨e, he, hc⟩)
    · rintro ⟨s, hs', h1, h2, rfl⟩
      injection hs' with hs'; subst hs'
      rw [if_neg (by simp [h1]), if_neg]
      rw [hany]; rintro ⟨e, he, hc⟩; exact h2 e he hc

theorem inv_empty (name) : Inv name (Decl.empty name) :=
  ⟨rfl, by intro i o h; simp [Decl.empty] at h, by intro k i h; simp [Decl.empty] at h,
    by intro k i h; simp [Decl.empty] at h, by intro o h; simp [Decl.empty] at h,
    by simp [Decl.empty]⟩

theorem inv_add {name d o d'} (hI : Inv name d) (h : add d o = some d') : Inv name d' := by
  obtain ⟨sig, hsig, hid, hno, rfl⟩ := add_eq_some.mp h
  have hn := hI.name_eq
  have hlt : ∀ {i : Nat} {o : Overload}, d.overloads[i]? = some o → i < d.overloads.length := by
    intro i o h; exact (List.getElem?_eq_some_iff.mp h).1
  constructor
  · exact hn
  · intro i x hx
    dsimp only at hx ⊢
    rw [put]
    by_cases hi : i < d.overloads.length
    · rw [List.getElem?_append_left hi] at hx
      have := hI.byId_of i x hx
      rw [if_neg]
      · exact this
      · intro he; rw [he] at this; rw [this] at hid; cases hid
    · rw [List.getElem?_append_right (by omega)] at hx
      have hi' : i - d.overloads.length = 0 := by
        cases hk : i - d.overloads.length with
        | zero => rfl
        | succ n => rw [hk] at hx; simp at hx
      rw [hi'] at hx; simp at hx; subst hx
      rw [if_pos rfl]; congr 1; omega
  · intro k i hk
    dsimp only at hk ⊢
    rw [put] at hk
    by_cases he : k = (withId o sig).id
    · rw [if_pos he] at hk; injection hk with hk; subst hk
      exact ⟨withId o sig, by simp, he.symm⟩
    · rw [if_neg he] at hk
      obtain ⟨x, hx, hxk⟩ := hI.of_byId k i hk
      exact ⟨x, by rw [List.getElem?_append_left (hlt hx)]; exact hx, hxk⟩
  · intro k i hk
    dsimp only at hk ⊢
    rw [put] at hk
    by_cases he : k = sig
    · rw [if_pos he] at hk; injection hk with hk; subst hk
      exact ⟨withId o sig, by simp, by rw [withId_args, withId_member, ← hn, hsig, he]⟩
    · rw [if_neg he] at hk
      obtain ⟨x, hx, hxk⟩ := hI.of_bySig k i hk
      exact ⟨x, by rw [List.getElem?_append_left (hlt hx)]; exact hx, hxk⟩
  · intro x hx
    dsimp only at hx ⊢
    rcases List.mem_append.mp hx with hx | hx
    · obtain ⟨s, i, h1, h2⟩ := hI.sig_of x hx
      by_cases he : s = sig
      · exact ⟨s, d.overloads.length, h1, by rw [put, if_pos he]⟩
      · exact ⟨s, i, h1, by rw [put, if_neg he]; exact h2⟩
    · rw [List.mem_singleton] at hx; subst hx
      exact ⟨sig, d.overloads.length, by rw [withId_args, withId_member, ← hn, hsig],
        by rw [put, if_pos rfl]⟩
  · dsimp only
    rw [List.pairwise_append]
    refine ⟨hI.apart, by simp, ?_⟩
    intro a ha b hb
    rw [List.mem_singleton] at hb; subst hb
    intro hc
    exact hno a ha (collide_withId.mp (collide_symm hc))

theorem Built.inv {name d} (h : Built name d) : Inv name d := by
  induction h with
  | new => exact inv_empty name
  | @call d o _ ih =>
    rw [addTo]
    cases ha : add d o with
    | none => exact ih
    | some d' => exact inv_add ih ha

/-- **C59.**  In every declaration a program can build, looking an overload up by its id gives
that overload (so no two have the same id); whatever a lookup returns is an overload of the
declaration with that id, or, if there is none, with that signature; and every overload's
signature finds something. -/
theorem C59_lookup (name : Text) (d : Decl) (h : Built name d) :
    (∀ o ∈ d.overloads, findById d o.id = some o) ∧
    (∀ (i j : Nat) (o o' : Overload), d.overloads[i]? = some o → d.overloads[j]? = some o' → o.id = o'.id → i = j) ∧
    (∀ k o, findById d k = some o → o ∈ d.overloads ∧
      (o.id = k ∨ (signature name o.args o.member = some k ∧ ∀ e ∈ d.overloads, e.id ≠ k))) ∧
    (∀ o ∈ d.overloads, ∃ s o', signature name o.args o.member = some s ∧
      findById d s = some o') ∧
    (∀ k, findById d k = none → ∀ e ∈ d.overloads, e.id ≠ k) := by
  have hI := h.inv
  have byId : ∀ o ∈ d.overloads, findById d o.id = some o := by
    intro o ho
    obtain ⟨i, hi⟩ := List.getElem?_of_mem ho
    rw [findById, hI.byId_of i o hi]
    exact hi
  refine ⟨byId, ?_, ?_, ?_, ?_⟩
  · intro i j o o' hi hj he
    have a := hI.byId_of i o hi
    have b := hI.byId_of j o' hj
    rw [he, b] at a
    injection a with a; exact a.symm
  · intro k o hk
    rw [findById] at hk
    cases hb : d.byId k with
    | some i =>
      rw [hb] at hk
      obtain ⟨x, hx, hxk⟩ := hI.of_byId k i hb
      dsimp only at hk
      rw [hx] at hk; injection hk with hk; subst hk
      exact ⟨List.mem_of_getElem? hx, .inl hxk⟩
    | none =>
      rw [hb] at hk
      cases hs : d.bySig k with
      | none => rw [hs] at hk; cases hk
      | some i =>
        rw [hs] at hk
        obtain ⟨x, hx, hxk⟩ := hI.of_bySig k i hs
        dsimp only at hk
        rw [hx] at hk; injection hk with hk; subst hk
        refine ⟨List.mem_of_getElem? hx, .inr ⟨hxk, ?_⟩⟩
        intro e he hek
        obtain ⟨j, hj⟩ := List.getElem?_of_mem he
        have := hI.byId_of j e hj
        rw [hek, hb] at this; cases this
  · intro o ho
    obtain ⟨s, i, h1, h2⟩ := hI.sig_of o ho
    refine ⟨s, ?_⟩
    rw [findById]
    cases hb : d.byId s with
    | some j =>
      obtain ⟨x, hx, _⟩ := hI.of_byId s j hb
      exact ⟨x, h1, hx⟩
    | none =>
      obtain ⟨x, hx, _⟩ := hI.of_bySig s i h2
      refine ⟨x, h1, ?_⟩
      rw [h2]; exact hx
  · intro k hk e he hek
    have := byId e he
    rw [hek, hk] at this; cases this

/-- **C59.**  No two overloads of a declaration collide, whatever calls were made on it. -/
theorem C59_no_collision (name : Text) (d : Decl) (h : Built name d) :
    ∀ (i j : Nat) (a b : Overload), d.overloads[i]? = some a → d.overloads[j]? = some b → i ≠ j → ¬ Collide a b := by
  have hp := h.inv.apart
  rw [List.pairwise_iff_getElem] at hp
  intro i j a b hi hj hij hc
  obtain ⟨hi', rfl⟩ := List.getElem?_eq_some_iff.mp hi
  obtain ⟨hj', rfl⟩ := List.getElem?_eq_some_iff.mp hj
  rcases Nat.lt_or_gt_of_ne hij with h | h
  · exact hp i j hi' hj' h hc
  · exact hp j i hj' hi' h (collide_symm hc)

/-- **C59.**  Exactly when an overload is accepted, and what changes: it needs a signature, its id
must not be taken, and it must not collide with an overload already there.  It is then appended;
otherwise the declaration is as before. -/
theorem C59_accepted_iff (name : Text) (d : Decl) (h : Built name d) (o : Overload) :
    ((∃ d', add d o = some d') ↔
      ∃ id sig, signature name o.args o.member = some sig ∧ FinalId name o id ∧
        (∀ e ∈ d.overloads, e.id ≠ id) ∧ ∀ e ∈ d.overloads, ¬ Collide o e) ∧
    (∀ d', add d o = some d' → addTo d o = d' ∧ ∃ id, FinalId name o id ∧
      d'.overloads = d.overloads ++ [{ o with id := id }]) ∧
    (add d o = none → addTo d o = d) := by
  have hI := h.inv
  have fresh : ∀ id, (∀ e ∈ d.overloads, e.id ≠ id) ↔ d.byId id = none := by
    intro id
    constructor
    · intro hf
      cases hb : d.byId id with
      | none => rfl
      | some i =>
        obtain ⟨x, hx, hxk⟩ := hI.of_byId id i hb
        exact absurd hxk (hf x (List.mem_of_getElem? hx))
    · intro hb e he hek
      obtain ⟨j, hj⟩ := List.getElem?_of_mem he
      have := hI.byId_of j e hj
      rw [hek, hb] at this; cases this
  have uniq : ∀ id sig, signature name o.args o.member = some sig → FinalId name o id →
      id = (withId o sig).id := by
    intro id sig hs hf
    rw [withId]
    rcases hf with ⟨h1, h2⟩ | ⟨h1, h2⟩
    · rw [if_neg (by simp [h1])]; exact h2
    · rw [if_pos (by simp [h1])]
      rw [hs] at h2; injection h2 with h2; exact h2.symm
  refine ⟨?_, ?_, ?_⟩
  · constructor
    · rintro ⟨d', hd'⟩
      obtain ⟨sig, h1, h2, h3, _⟩ := add_eq_some.mp hd'
      rw [hI.name_eq] at h1
      exact ⟨_, sig, h1, withId_id h1, (fresh _).mpr h2, h3⟩
    · rintro ⟨id, sig, h1, h2, h3, h4⟩
      refine ⟨_, add_eq_some.mpr ⟨sig, by rw [hI.name_eq]; exact h1, ?_, h4, rfl⟩⟩
      rw [← uniq id sig h1 h2]; exact (fresh id).mp h3
  · intro d' hd'
    refine ⟨by rw [addTo, hd']; rfl, ?_⟩
    obtain ⟨sig, h1, h2, h3, rfl⟩ := add_eq_some.mp hd'
    rw [hI.name_eq] at h1
    refine ⟨_, withId_id h1, ?_⟩
    dsimp only
    congr 2
    rw [withId]; split <;> rfl
  · intro hn; rw [addTo, hn]; rfl

/-! ## The order of the overloads does not matter -/

/-- The overload with the id it gets. -/
def finalized (name : Text) (o : Overload) : Option Overload :=
  (signature name o.args o.member).map (withId o)

/-- Two overloads that can be in one declaration. -/
def Apart (a b : Overload) : Prop := a.id ≠ b.id ∧ ¬ Collide a b

theorem apart_symm {a b} (h : Apart a b) : Apart b a :=
  ⟨fun e => h.1 e.symm, fun c => h.2 (collide_symm c)⟩

theorem makeDecl_iff {name} : ∀ (l : List Overload) (d : Decl), Inv name d →
    ((∃ d', makeDecl d l = some d') ↔
      ∃ fs, l.mapM (finalized name) = some fs ∧ (∀ f ∈ fs, ∀ e ∈ d.overloads, Apart f e) ∧
        fs.Pairwise Apart)
  | [], d, _ => by simp [makeDecl]
  | o :: r, d, hI => by
    have fresh : ∀ id, (∀ e ∈ d.overloads, id ≠ e.id) ↔ d.byId id = none := by
      intro id
      constructor
      · intro hf
        cases hb : d.byId id with
        | none => rfl
        | some i =>
          obtain ⟨x, hx, hxk⟩ := hI.of_byId id i hb
          exact absurd hxk.symm (hf x (List.mem_of_getElem? hx))
      · intro hb e he hek
        obtain ⟨j, hj⟩ := List.getElem?_of_mem he
        have := hI.byId_of j e hj
        rw [← hek, hb] at this; cases this
    rw [makeDecl]
    constructor
    · rintro ⟨d', h⟩
      obtain ⟨d1, h1, h2⟩ := Option.bind_eq_some_iff.mp h
      have hI1 := inv_add hI h1
      obtain ⟨sig, a1, a2, a3, rfl⟩ := add_eq_some.mp h1
      obtain ⟨fs, b1, b2, b3⟩ := (makeDecl_iff r _ hI1).mp ⟨d', h2⟩
      rw [hI.name_eq] at a1
      refine ⟨withId o sig :: fs, ?_, ?_, ?_⟩
      · rw [List.mapM_cons, finalized, a1, b1]; rfl
      · intro f hf e he
        rcases List.mem_cons.mp hf with hf | hf
        · subst hf
          exact ⟨(fresh _).mpr a2 e he, fun c => a3 e he (collide_withId.mp c)⟩
        · exact b2 f hf e (by simp [he])
      · rw [List.pairwise_cons]
        exact ⟨fun f hf => apart_symm (b2 f hf _ (by simp)), b3⟩
    · rintro ⟨fs, h1, h2, h3⟩
      rw [List.mapM_cons] at h1
      obtain ⟨f, hf, h1⟩ := Option.bind_eq_some_iff.mp h1
      obtain ⟨fr, hfr, h1⟩ := Option.bind_eq_some_iff.mp h1
      injection h1 with h1; subst h1
      rw [finalized] at hf
      obtain ⟨sig, hs, rfl⟩ := Option.map_eq_some_iff.mp hf
      have hadd := add_eq_some (d := d) (o := o) |>.mpr ⟨sig, by rw [hI.name_eq]; exact hs,
        (fresh _).mp (fun e he => (h2 (withId o sig) (by simp) e he).1),
        fun e he c => (h2 (withId o sig) (by simp) e he).2 (collide_withId.mpr c), rfl⟩
      rw [hadd, Option.bind_some]
      rw [List.pairwise_cons] at h3
      refine (makeDecl_iff r _ (inv_add hI hadd)).mpr ⟨fr, hfr, ?_, h3.2⟩
      intro g hg e he
      rcases List.mem_append.mp he with he | he
      · exact h2 g (by simp [hg]) e he
      · rw [List.mem_singleton] at he; subst he
        exact apart_symm (h3.1 g hg)

theorem mapM_perm {α β} (f : α → Option β) {l l' : List α} (h : l.Perm l') :
    ∀ fs, l.mapM f = some fs → ∃ fs', l'.mapM f = some fs' ∧ fs.Perm fs' := by
  induction h with
  | nil => intro fs h; exact ⟨fs, h, List.Perm.refl _⟩
  | @cons x l1 l2 _ ih =>
    intro fs h
    rw [List.mapM_cons] at h
    obtain ⟨a, ha, h⟩ := Option.bind_eq_some_iff.mp h
    obtain ⟨b, hb, h⟩ := Option.bind_eq_some_iff.mp h
    injection h with h; subst h
    obtain ⟨b', hb', hp⟩ := ih b hb
    exact ⟨a :: b', by rw [List.mapM_cons, ha, hb']; rfl, hp.cons a⟩
  | swap x y l =>
    intro fs h
    rw [List.mapM_cons] at h
    obtain ⟨a, ha, h⟩ := Option.bind_eq_some_iff.mp h
    obtain ⟨b, hb, h⟩ := Option.bind_eq_some_iff.mp h
    rw [List.mapM_cons] at hb
    obtain ⟨a', ha', hb⟩ := Option.bind_eq_some_iff.mp hb
    obtain ⟨b', hb', hb⟩ := Option.bind_eq_some_iff.mp hb
    injection hb with hb; subst hb
    injection h with h; subst h
    exact ⟨a' :: a :: b', by rw [List.mapM_cons, ha', List.mapM_cons, ha, hb']; rfl,
      List.Perm.swap a' a b'⟩
  | trans _ _ ih1 ih2 =>
    intro fs h
    obtain ⟨f1, h1, p1⟩ := ih1 fs h
    obtain ⟨f2, h2, p2⟩ := ih2 f1 h1
    exact ⟨f2, h2, p1.trans p2⟩

/-- **C59.**  Whether a set of overloads can be declared together does not depend on the order in
which they are given. -/
theorem C59_order_irrelevant (name : Text) (l l' : List Overload) (h : l.Perm l') :
    (∃ d, makeDecl (Decl.empty name) l = some d) ↔
    (∃ d, makeDecl (Decl.empty name) l' = some d) := by
  have one : ∀ {l l' : List Overload}, l.Perm l' → (∃ d, makeDecl (Decl.empty name) l = some d) →
      (∃ d, makeDecl (Decl.empty name) l' = some d) := by
    intro l l' h hd
    obtain ⟨fs, h1, _, h3⟩ := (makeDecl_iff l _ (inv_empty name)).mp hd
    obtain ⟨fs', h1', hp⟩ := mapM_perm _ h fs h1
    refine (makeDecl_iff l' _ (inv_empty name)).mpr ⟨fs', h1', ?_, ?_⟩
    · intro f _ e he; simp [Decl.empty] at he
    · exact h3.perm hp apart_symm
  exact ⟨one h, one h.symm⟩

/-! ## Does "no collision" mean "no call matches two overloads"? -/

/-- A call with arguments of types `xs` matches an overload: the types are assignable to its
argument types, one by one. -/
def Accepts (o : Overload) (xs : List Ty) : Prop :=
  o.args.length = xs.length ∧ ∀ (i : Nat) (t x : Ty), o.args[i]? = some t → xs[i]? = some x → assignable t x = true

mutual
/-- Neither `dyn` nor a wrapper type occurs in the type. -/
def Rigid : Ty → Prop
  | .param _ => True
  | .con h ps => h ≠ .base .dyn ∧ wrapped h = none ∧ Rigids ps
/-- Each type of the list is rigid. -/
def Rigids : List Ty → Prop
  | [] => True
  | t :: r => Rigid t ∧ Rigids r
end

/-- A type whose *parameters* are rigid: `dyn` and wrappers only at the top. -/
def RigidInside (t : Ty) : Prop := Rigids t.params

/-- A wrapper type. -/
def IsWrapper (t : Ty) : Prop := ∃ h b, t.head? = some h ∧ wrapped h = some b

mutual
theorem eq_symm : ∀ (a b : Ty), Ty.eq a b = true → Ty.eq b a = true
  | .param x, .param y, h => by
    rw [Ty.eq] at h ⊢; simp at h ⊢; exact h.symm
  | .param x, .con k qs, h => by unfold Ty.eq at h; exact nomatch h
  | .con h ps, .param y, e => by unfold Ty.eq at e; exact nomatch e
  | .con h ps, .con k qs, e => by
    rw [Ty.eq] at e ⊢
    by_cases hh : h = .type
    · rw [if_pos hh] at e; have := of_decide_eq_true e; rw [if_pos this]; simp [hh]
    · rw [if_neg hh, Bool.and_eq_true] at e
      have e1 := of_decide_eq_true e.1
      rw [if_neg (by rw [← e1]; exact hh), eqAll_symm ps qs e.2]; simp [e1]
theorem eqAll_symm : ∀ (a b : List Ty), Ty.eqAll a b = true → Ty.eqAll b a = true
  | [], [], _ => by rw [Ty.eqAll]
  | [], _ :: _, h => by unfold Ty.eqAll at h; exact nomatch h
  | _ :: _, [], h => by unfold Ty.eqAll at h; exact nomatch h
  | a :: as, b :: bs, h => by
    rw [Ty.eqAll, Bool.and_eq_true] at h ⊢
    exact ⟨eq_symm a b h.1, eqAll_symm as bs h.2⟩
end

mutual
theorem eq_trans : ∀ (a b c : Ty), Ty.eq a b = true → Ty.eq b c = true → Ty.eq a c = true
  | .param x, .param y, .param z, h1, h2 => by
    rw [Ty.eq] at h1 h2 ⊢; simp at h1 h2 ⊢; exact h1.trans h2
  | .param x, .con k qs, _, h, _ => by unfold Ty.eq at h; exact nomatch h
  | .con h ps, .param y, _, e, _ => by unfold Ty.eq at e; exact nomatch e
  | .param x, .param y, .con _ _, _, h => by unfold Ty.eq at h; exact nomatch h
  | .con h ps, .con k qs, .param z, _, e => by unfold Ty.eq at e; exact nomatch e
  | .con h ps, .con k qs, .con m rs, e1, e2 => by
    rw [Ty.eq] at e1 e2 ⊢
    by_cases hh : h = .type
    · rw [if_pos hh] at e1 ⊢
      have := of_decide_eq_true e1
      rw [if_pos this] at e2; exact e2
    · rw [if_neg hh, Bool.and_eq_true] at e1
      rw [if_neg hh]
      have e3 := of_decide_eq_true e1.1
      rw [if_neg (by rw [← e3]; exact hh), Bool.and_eq_true] at e2
      rw [eqAll_trans ps qs rs e1.2 e2.2, Bool.and_true]
      have := of_decide_eq_true e2.1
      simp [e3, this]
theorem eqAll_trans : ∀ (a b c : List Ty), Ty.eqAll a b = true → Ty.eqAll b c = true →
    Ty.eqAll a c = true
  | [], [], [], _, _ => by rw [Ty.eqAll]
  | [], _ :: _, _, h, _ => by unfold Ty.eqAll at h; exact nomatch h
  | _ :: _, [], _, h, _ => by unfold Ty.eqAll at h; exact nomatch h
  | [], [], _ :: _, _, h => by unfold Ty.eqAll at h; exact nomatch h
  | _ :: _, _ :: _, [], _, h => by unfold Ty.eqAll at h; exact nomatch h
  | a :: as, b :: bs, c :: cs, h1, h2 => by
    rw [Ty.eqAll, Bool.and_eq_true] at h1 h2 ⊢
    exact ⟨eq_trans a b c h1.1 h2.1, eqAll_trans as bs cs h1.2 h2.2⟩
end

theorem assignable_con (h : Head) (ps : List Ty) (x : Ty) : assignable (.con h ps) x =
    if Ty.eq (.con h ps) x then true
    else if h = .base .dyn then true
    else
      match wrapped h with
      | some b => Ty.eq (.b .null) x || Ty.eq (.b b) x
      | none =>
        match x with
        | .param _ => false
        | .con k qs => decide (h = k) && assignableAll ps qs := by
  rw [assignable.eq_def]
  cases x <;> rfl

mutual
theorem assignable_rigid : ∀ (a x : Ty), Rigid a → assignable a x = true → Ty.eq a x = true
  | .param n, .param m, _, h => by rw [assignable] at h; rw [Ty.eq]; exact h
  | .param n, .con _ _, _, h => by rw [assignable] at h; cases h
  | .con k ps, x, hr, h => by
    rw [Rigid] at hr
    rw [assignable_con] at h
    by_cases he : Ty.eq (.con k ps) x = true
    · exact he
    · rw [if_neg he, if_neg hr.1, hr.2.1] at h
      cases x with
      | param m => cases h
      | con k' qs =>
        dsimp only at h
        rw [Bool.and_eq_true] at h
        have e := of_decide_eq_true h.1
        rw [Ty.eq]
        by_cases hk : k = .type
        · rw [if_pos hk]; simp [← e, hk]
        · rw [if_neg hk, assignableAll_rigid ps qs hr.2.2 h.2]; simp [e]
theorem assignableAll_rigid : ∀ (as xs : List Ty), Rigids as → assignableAll as xs = true →
    Ty.eqAll as xs = true
  | [], [], _, _ => by rw [Ty.eqAll]
  | [], _ :: _, _, h => by rw [assignableAll] at h; cases h; all_goals simp
  | _ :: _, [], _, h => by rw [assignableAll] at h; cases h; all_goals simp
  | a :: as, x :: xs, hr, h => by
    rw [Rigids] at hr
    rw [assignableAll, Bool.and_eq_true] at h
    rw [Ty.eqAll, Bool.and_eq_true]
    exact ⟨assignable_rigid a x hr.1 h.1, assignableAll_rigid as xs hr.2 h.2⟩
end

theorem assignable_of_eq {a b} (h : Ty.eq a b = true) : assignable a b = true := by
  cases a with
  | param x =>
    cases b with
    | param y => rw [Ty.eq] at h; rw [assignable]; exact h
    | con _ _ => unfold Ty.eq at h; exact nomatch h
  | con k ps => rw [assignable_con, if_pos h]

theorem assignable_dyn (ps x) : assignable (.con (.base .dyn) ps) x = true := by
  rw [assignable_con]
  split
  · rfl
  · rw [if_pos rfl]

/-- What a type accepts, if `dyn` and wrappers occur only at its top. -/
theorem assignable_cases {a x} (hr : RigidInside a) (h : assignable a x = true) :
    Ty.eq a x = true ∨ (∃ ps, a = .con (.base .dyn) ps) ∨
    (∃ k ps b, a = .con k ps ∧ wrapped k = some b ∧
      (Ty.eq (.b .null) x = true ∨ Ty.eq (.b b) x = true)) := by
  cases a with
  | param n =>
    left
    exact assignable_rigid _ _ (by rw [Rigid]; exact True.intro) h
  | con k ps =>
    by_cases hd : k = .base .dyn
    · subst hd; exact .inr (.inl ⟨ps, rfl⟩)
    · cases hw : wrapped k with
      | none =>
        left
        exact assignable_rigid _ _ (by rw [Rigid]; exact ⟨hd, hw, hr⟩) h
      | some b =>
        rw [assignable_con] at h
        by_cases he : Ty.eq (.con k ps) x = true
        · exact .inl he
        · rw [if_neg he, if_neg hd, hw] at h
          dsimp only at h
          rw [Bool.or_eq_true] at h
          exact .inr (.inr ⟨k, ps, b, rfl, hw, h⟩)

theorem assignable_wrapped {k ps b y} (hk : k ≠ .base .dyn) (hw : wrapped k = some b)
    (h : Ty.eq (.b .null) y = true ∨ Ty.eq (.b b) y = true) : assignable (.con k ps) y = true := by
  rw [assignable_con]
  by_cases he : Ty.eq (.con k ps) y = true
  · rw [if_pos he]
  · rw [if_neg he, if_neg hk, hw]
    dsimp only
    rw [Bool.or_eq_true]; exact h

theorem wrapped_ne_dyn {k b} (h : wrapped k = some b) : k ≠ .base .dyn := by
  rintro rfl; simp [wrapped] at h

/-- At one position: if some type is assignable to both, one of the two is assignable to the
other, unless both are wrapper types. -/
theorem common_source {a b x} (ha : RigidInside a) (hb : RigidInside b)
    (hw : ¬ (IsWrapper a ∧ IsWrapper b)) (h1 : assignable a x = true) (h2 : assignable b x = true) :
    assignable a b = true ∨ assignable b a = true := by
  rcases assignable_cases ha h1 with e1 | ⟨ps, rfl⟩ | ⟨k, ps, c, rfl, hk, e1⟩
  · rcases assignable_cases hb h2 with e2 | ⟨qs, rfl⟩ | ⟨m, qs, e, rfl, hm, e2⟩
    · exact .inl (assignable_of_eq (eq_trans _ _ _ e1 (eq_symm _ _ e2)))
    · exact .inr (assignable_dyn _ _)
    · right
      refine assignable_wrapped (wrapped_ne_dyn hm) hm ?_
      rcases e2 with e2 | e2
      · exact .inl (eq_trans _ _ _ e2 (eq_symm _ _ e1))
      · exact .inr (eq_trans _ _ _ e2 (eq_symm _ _ e1))
  · exact .inl (assignable_dyn _ _)
  · rcases assignable_cases hb h2 with e2 | ⟨qs, rfl⟩ | ⟨m, qs, e, rfl, hm, e2⟩
    · left
      refine assignable_wrapped (wrapped_ne_dyn hk) hk ?_
      rcases e1 with e1 | e1
      · exact .inl (eq_trans _ _ _ e1 (eq_symm _ _ e2))
      · exact .inr (eq_trans _ _ _ e1 (eq_symm _ _ e2))
    · exact .inr (assignable_dyn _ _)
    · exact absurd ⟨⟨k, c, rfl, hk⟩, ⟨m, e, rfl, hm⟩⟩ hw

/-- **C59 (partial).**  If `dyn` and wrapper types occur only at the top of argument types, and no
position has wrapper types in both overloads, then no call matches two overloads of a declaration.
What is missing is shown false by `C59_ambiguous`. -/
theorem C59_unambiguous_partial (name : Text) (d : Decl) (h : Built name d) (i j : Nat)
    (a b : Overload) (hi : d.overloads[i]? = some a) (hj : d.overloads[j]? = some b) (hij : i ≠ j)
    (hm : a.member = b.member)
    (hr : ∀ t ∈ a.args ++ b.args, RigidInside t)
    (hw : ∀ (n : Nat) (s t : Ty), a.args[n]? = some s → b.args[n]? = some t → ¬ (IsWrapper s ∧ IsWrapper t))
    (xs : List Ty) : ¬ (Accepts a xs ∧ Accepts b xs) := by
  rintro ⟨ha, hb⟩
  refine C59_no_collision name d h i j a b hi hj hij ⟨hm, ha.1.trans hb.1.symm, ?_⟩
  intro n s t hs ht
  have hn : n < xs.length := by rw [← ha.1]; exact (List.getElem?_eq_some_iff.mp hs).1
  have hx : xs[n]? = some xs[n] := List.getElem?_eq_getElem hn
  exact common_source (hr s (by simp [List.mem_of_getElem? hs]))
    (hr t (by simp [List.mem_of_getElem? ht])) (hw n s t hs ht) (ha.2 n s _ hs hx)
    (hb.2 n t _ ht hx)

/-- `map<k, v>`. -/
def mapTy (k v : Ty) : Ty := .con .map [k, v]

/-- **C59, where it fails.**  Declarations that are accepted although one call matches both
overloads: `f(map<dyn, int>)` and `f(map<string, dyn>)` with a `map<string, int>`;
`f(int_wrapper)` and `f(string_wrapper)` with `null`; and the collision test does not treat a type
parameter as standing for other types: `f(~A)` next to `f(int)`. -/
theorem C59_ambiguous :
    (∃ d a b, makeDecl (Decl.empty ['f'])
        [⟨[], [mapTy (.b .dyn) (.b .int)], false⟩, ⟨[], [mapTy (.b .string) (.b .dyn)], false⟩] = some d ∧
      d.overloads = [a, b] ∧ Accepts a [mapTy (.b .string) (.b .int)] ∧
      Accepts b [mapTy (.b .string) (.b .int)]) ∧
    (∃ d a b, makeDecl (Decl.empty ['f'])
        [⟨[], [.b .intWrapper], false⟩, ⟨[], [.b .stringWrapper], false⟩] = some d ∧
      d.overloads = [a, b] ∧ Accepts a [.b .null] ∧ Accepts b [.b .null]) ∧
    (∃ d, makeDecl (Decl.empty ['f'])
        [⟨[], [.param (.other "A")], false⟩, ⟨[], [.b .int], false⟩] = some d ∧
      d.overloads.length = 2) := by
  have acc : ∀ {o : Overload} {t x : Ty}, o.args = [t] → assignable t x = true → Accepts o [x] := by
    intro o t x ho h
    refine ⟨by rw [ho]; rfl, ?_⟩
    intro i t' x' h1 h2
    rw [ho] at h1
    cases i with
    | zero => simp at h1 h2; subst h1 h2; exact h
    | succ i => simp at h1
  refine ⟨⟨_, _, _, rfl, rfl, ?_, ?_⟩, ⟨_, _, _, rfl, rfl, ?_, ?_⟩, ⟨_, rfl, rfl⟩⟩
  · exact acc rfl (by rfl)
  · exact acc rfl (by rfl)
  · exact acc rfl (by rfl)
  · exact acc rfl (by rfl)

end Cel.Sig
