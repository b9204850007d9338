import Verif.Mask.Model

set_option linter.unusedSimpArgs false
set_option linter.unusedVariables false

/-!
# C89
-/

namespace Cel.Mask

/-! ### Specification -/

/-- The path from type `t` goes through field `f` of type `u`. -/
inductive Through (pool : Pool) : String → List String → String → String → Prop where
  | here (t f : String) (rest : List String) : Through pool t (f :: rest) t f
  | there {t g t' : String} {rest : List String} {u f : String} (h : pool.field t g = some (some t'))
      (h' : Through pool t' rest u f) : Through pool t (g :: rest) u f

/-- Every name of the path is a field of the message the names before it lead to. -/
inductive Leads (pool : Pool) : String → List String → Prop where
  | nil (t : String) : Leads pool t []
  | last {t f : String} {k : Option String} (h : pool.field t f = some k) : Leads pool t [f]
  | step {t f t' : String} {rest : List String} (h : pool.field t f = some (some t')) (h' : Leads pool t' rest) :
      Leads pool t (f :: rest)

/-- Some mask hides all of `t`. -/
def Hidden (ks : List Mask) (t : String) : Prop := ∃ k ∈ ks, k.type = t ∧ k.paths = []

/-- Some path of some mask goes through `f` of `t`. -/
def Shown (pool : Pool) (ks : List Mask) (t f : String) : Prop := ∃ k ∈ ks, ∃ p ∈ k.paths, Through pool k.type p t f

/-- Masks say something about `t`. -/
def Masked (pool : Pool) (ks : List Mask) (t : String) : Prop := Hidden ks t ∨ ∃ f, Shown pool ks t f

/-! ### Proofs -/

/-- The map says: `H` hidden, `S` visible. -/
def Rep (m : TypeMap) (H : String → Prop) (S : String → String → Prop) : Prop :=
  ∀ t, (∀ s, m t = some s → (∀ f, f ∈ s ↔ S t f) ∧ (s = [] ↔ H t)) ∧ (m t = none → ¬ H t ∧ ∀ f, ¬ S t f)

theorem Rep.congr {m : TypeMap} {H H' : String → Prop} {S S' : String → String → Prop} (h : Rep m H S)
    (hH : ∀ t, H t ↔ H' t) (hS : ∀ t f, S t f ↔ S' t f) : Rep m H' S' := by
  intro t
  obtain ⟨h1, h2⟩ := h t
  exact ⟨fun s hs => ⟨fun f => ((h1 s hs).1 f).trans (hS t f), (h1 s hs).2.trans (hH t)⟩,
    fun hn => ⟨fun x => (h2 hn).1 ((hH t).2 x), fun f x => (h2 hn).2 f ((hS t f).2 x)⟩⟩

theorem Rep.apart {m : TypeMap} {H : String → Prop} {S : String → String → Prop} (h : Rep m H S) {t f : String}
    (h1 : H t) (h2 : S t f) : False := by
  cases hm : m t with
  | none => exact ((h t).2 hm).1 h1
  | some s =>
    have := ((h t).1 s hm).2.2 h1
    have h3 := (((h t).1 s hm).1 f).2 h2
    rw [this] at h3
    cases h3

theorem hide {m : TypeMap} {H : String → Prop} {S : String → String → Prop} (h : Rep m H S) (t : String) :
    (addAllHidden m t = none ∧ ∃ f, S t f) ∨
    (∃ m', addAllHidden m t = some m' ∧ Rep m' (fun u => H u ∨ u = t) S) := by
  unfold addAllHidden
  cases hm : m t with
  | none =>
    right
    refine ⟨_, rfl, fun u => ?_⟩
    unfold TypeMap.set
    by_cases hu : u = t
    · subst hu
      simp only [if_true, Option.some.injEq]
      refine ⟨fun s hs => ?_, fun hn => by cases hn⟩
      subst hs
      exact ⟨fun f => ⟨fun x => (List.not_mem_nil x).elim, fun x => absurd x (((h u).2 hm).2 f)⟩, by simp⟩
    · simp only [if_neg hu]
      refine ⟨fun s hs => ?_, fun hn => ?_⟩
      · have := (h u).1 s hs
        exact ⟨this.1, by simp [this.2, hu]⟩
      · have := (h u).2 hn
        exact ⟨by simp [this.1, hu], this.2⟩
  | some s =>
    have h1 := (h t).1 s hm
    cases s with
    | nil =>
      right
      refine ⟨m, by simp, h.congr (fun u => ?_) fun _ _ => Iff.rfl⟩
      constructor
      · exact Or.inl
      · rintro (x | rfl)
        · exact x
        · exact h1.2.1 rfl
    | cons f s =>
      left
      exact ⟨by simp, f, (h1.1 f).1 (by simp)⟩

theorem show_ {m : TypeMap} {H : String → Prop} {S : String → String → Prop} (h : Rep m H S) (t f : String) :
    (addVisible m t f = none ∧ H t) ∨
    (∃ m', addVisible m t f = some m' ∧ Rep m' H (fun u g => S u g ∨ (u = t ∧ g = f))) := by
  unfold addVisible
  have hset : ∀ s, (∀ g, g ∈ s ↔ S t g ∨ g = f) → ¬ H t → Rep (m.set t s) H (fun u g => S u g ∨ (u = t ∧ g = f)) := by
    intro s hs hn u
    unfold TypeMap.set
    by_cases hu : u = t
    · subst hu
      simp only [if_true, Option.some.injEq]
      refine ⟨fun s' hs' => ?_, fun hn => by cases hn⟩
      subst hs'
      refine ⟨fun g => by simp [hs], fun x => ?_, fun x => absurd x hn⟩
      have := (hs f).2 (Or.inr rfl)
      rw [x] at this
      cases this
    · simp only [if_neg hu]
      refine ⟨fun s' hs' => ?_, fun hn' => ?_⟩
      · have := (h u).1 s' hs'
        exact ⟨fun g => by simp [this.1, hu], this.2⟩
      · have := (h u).2 hn'
        exact ⟨this.1, fun g => by simp [this.2, hu]⟩
  cases hm : m t with
  | none =>
    right
    have := (h t).2 hm
    exact ⟨_, rfl, hset _ (fun g => by simp [this.2]) this.1⟩
  | some s =>
    have h1 := (h t).1 s hm
    by_cases hs : s = []
    · left
      exact ⟨by simp [hs], h1.2.1 hs⟩
    · right
      refine ⟨_, if_neg hs, hset _ (fun g => ?_) fun x => hs (h1.2.2 x)⟩
      rw [List.mem_cons, h1.1, or_comm]

theorem path_ok (pool : Pool) : ∀ (p : List String) (t : String) (m : TypeMap) (H : String → Prop) (S : String → String → Prop),
    Rep m H S →
    (addPath pool t p m = none ∧ (¬ Leads pool t p ∨ ∃ u f, H u ∧ Through pool t p u f)) ∨
    (∃ m', addPath pool t p m = some m' ∧ Leads pool t p ∧ Rep m' H (fun u f => S u f ∨ Through pool t p u f))
  | [], t, m, H, S, h => by
    right
    refine ⟨m, rfl, .nil t, h.congr (fun _ => Iff.rfl) fun u f => ?_⟩
    constructor
    · exact Or.inl
    · rintro (x | x)
      · exact x
      · cases x
  | f :: rest, t, m, H, S, h => by
    rw [addPath]
    cases hf : pool.field t f with
    | none =>
      left
      refine ⟨rfl, Or.inl ?_⟩
      intro hl
      cases hl with
      | last h' => rw [hf] at h'; cases h'
      | step h' _ => rw [hf] at h'; cases h'
    | some target =>
      rcases show_ h t f with ⟨e, hH⟩ | ⟨m1, e, h1⟩
      · left
        simp only [e]
        exact ⟨trivial, Or.inr ⟨t, f, hH, .here t f rest⟩⟩
      · simp only [e]
        by_cases hr : rest = []
        · subst hr
          right
          refine ⟨m1, by simp, .last hf, h1.congr (fun _ => Iff.rfl) fun u g => ?_⟩
          constructor
          · rintro (x | ⟨rfl, rfl⟩)
            · exact Or.inl x
            · exact Or.inr (.here _ _ _)
          · rintro (x | x)
            · exact Or.inl x
            · cases x with
              | here => exact Or.inr ⟨rfl, rfl⟩
              | there _ x => cases x
        · simp only [if_neg hr]
          cases target with
          | none =>
            left
            refine ⟨rfl, Or.inl ?_⟩
            intro hl
            cases hl with
            | last h' => exact hr rfl
            | step h' _ => rw [hf] at h'; cases h'
          | some t' =>
            rcases path_ok pool rest t' m1 H _ h1 with ⟨e2, x⟩ | ⟨m2, e2, hl, h2⟩
            · left
              refine ⟨e2, ?_⟩
              rcases x with x | ⟨u, g, hu, x⟩
              · left
                intro hl
                cases hl with
                | last h' => exact hr rfl
                | step h' hl => rw [hf] at h'; cases h'; exact x hl
              · exact Or.inr ⟨u, g, hu, .there hf x⟩
            · right
              refine ⟨m2, e2, .step hf hl, h2.congr (fun _ => Iff.rfl) fun u g => ?_⟩
              constructor
              · rintro ((x | ⟨rfl, rfl⟩) | x)
                · exact Or.inl x
                · exact Or.inr (.here _ _ _)
                · exact Or.inr (.there hf x)
              · rintro (x | x)
                · exact Or.inl (Or.inl x)
                · cases x with
                  | here => exact Or.inl (Or.inr ⟨rfl, rfl⟩)
                  | there h' x => rw [hf] at h'; cases h'; exact Or.inr x

theorem paths_ok (pool : Pool) (t : String) : ∀ (ps : List (List String)) (m : TypeMap) (H : String → Prop)
    (S : String → String → Prop), Rep m H S →
    (addPaths pool t ps m = none ∧ ((∃ p ∈ ps, ¬ Leads pool t p) ∨ ∃ p ∈ ps, ∃ u f, H u ∧ Through pool t p u f)) ∨
    (∃ m', addPaths pool t ps m = some m' ∧ (∀ p ∈ ps, Leads pool t p) ∧
      Rep m' H (fun u f => S u f ∨ ∃ p ∈ ps, Through pool t p u f))
  | [], m, H, S, h => by
    right
    exact ⟨m, rfl, by simp, h.congr (fun _ => Iff.rfl) fun u f => by simp⟩
  | p :: ps, m, H, S, h => by
    rw [addPaths]
    rcases path_ok pool p t m H S h with ⟨e, x⟩ | ⟨m1, e, hl, h1⟩
    · left
      rw [e]
      refine ⟨rfl, ?_⟩
      rcases x with x | x
      · exact Or.inl ⟨p, by simp, x⟩
      · exact Or.inr ⟨p, by simp, x⟩
    · rw [e, Option.bind_some]
      rcases paths_ok pool t ps m1 H _ h1 with ⟨e2, x⟩ | ⟨m2, e2, hl2, h2⟩
      · left
        refine ⟨e2, ?_⟩
        rcases x with ⟨q, hq, x⟩ | ⟨q, hq, x⟩
        · exact Or.inl ⟨q, by simp [hq], x⟩
        · exact Or.inr ⟨q, by simp [hq], x⟩
      · right
        refine ⟨m2, e2, ?_, h2.congr (fun _ => Iff.rfl) fun u f => ?_⟩
        · intro q hq
          rcases List.mem_cons.1 hq with rfl | hq
          · exact hl
          · exact hl2 q hq
        · simp [or_assoc]

/-- A mask that names a type and leads. -/
def Good (pool : Pool) (k : Mask) : Prop := pool.message k.type = true ∧ ∀ p ∈ k.paths, Leads pool k.type p

theorem masks_ok (pool : Pool) : ∀ (ks : List Mask) (m : TypeMap) (H : String → Prop) (S : String → String → Prop), Rep m H S →
    (addMasks pool ks m = none ∧ ((∃ k ∈ ks, ¬ Good pool k) ∨
      ∃ u f, (H u ∨ Hidden ks u) ∧ (S u f ∨ Shown pool ks u f))) ∨
    (∃ m', addMasks pool ks m = some m' ∧ (∀ k ∈ ks, Good pool k) ∧
      Rep m' (fun u => H u ∨ Hidden ks u) (fun u f => S u f ∨ Shown pool ks u f))
  | [], m, H, S, h => by
    right
    exact ⟨m, rfl, by simp, h.congr (fun u => by simp [Hidden]) fun u f => by simp [Shown]⟩
  | k :: ks, m, H, S, h => by
    have hHid : ∀ u, Hidden (k :: ks) u ↔ (k.type = u ∧ k.paths = []) ∨ Hidden ks u := fun u => by simp [Hidden]
    have hSh : ∀ u f, Shown pool (k :: ks) u f ↔ (∃ p ∈ k.paths, Through pool k.type p u f) ∨ Shown pool ks u f :=
      fun u f => by simp [Shown]
    have one : (addMask pool k m = none ∧ (¬ Good pool k ∨
          ∃ u f, (H u ∨ (k.type = u ∧ k.paths = [])) ∧ (S u f ∨ ∃ p ∈ k.paths, Through pool k.type p u f))) ∨
        (∃ m', addMask pool k m = some m' ∧ Good pool k ∧
          Rep m' (fun u => H u ∨ (k.type = u ∧ k.paths = [])) (fun u f => S u f ∨ ∃ p ∈ k.paths, Through pool k.type p u f)) := by
      unfold addMask
      by_cases hm : pool.message k.type = true
      · simp only [hm, if_true]
        by_cases hp : k.paths = []
        · simp only [hp, if_true]
          rcases hide h k.type with ⟨e, f, hf⟩ | ⟨m', e, h'⟩
          · left
            exact ⟨e, Or.inr ⟨k.type, f, Or.inr ⟨rfl, trivial⟩, Or.inl hf⟩⟩
          · right
            exact ⟨m', e, ⟨hm, by simp [hp]⟩, h'.congr (fun u => by simp [eq_comm]) fun u f => by simp⟩
        · simp only [if_neg hp]
          rcases paths_ok pool k.type k.paths m H S h with ⟨e, x⟩ | ⟨m', e, hl, h'⟩
          · left
            refine ⟨e, ?_⟩
            rcases x with ⟨p, hp', x⟩ | ⟨p, hp', u, f, hu, x⟩
            · exact Or.inl fun g => x (g.2 p hp')
            · exact Or.inr ⟨u, f, Or.inl hu, Or.inr ⟨p, hp', x⟩⟩
          · right
            exact ⟨m', e, ⟨hm, hl⟩, h'.congr (fun u => by simp [hp]) fun u f => Iff.rfl⟩
      · left
        simp only [hm, Bool.false_eq_true, if_false]
        exact ⟨trivial, Or.inl fun g => hm g.1⟩
    rw [addMasks]
    rcases one with ⟨e, x⟩ | ⟨m1, e, hg, h1⟩
    · left
      rw [e]
      refine ⟨rfl, ?_⟩
      rcases x with x | ⟨u, f, hu, hs⟩
      · exact Or.inl ⟨k, by simp, x⟩
      · exact Or.inr ⟨u, f, hu.imp id fun y => (hHid u).2 (Or.inl y), hs.imp id fun y => (hSh u f).2 (Or.inl y)⟩
    · rw [e, Option.bind_some]
      rcases masks_ok pool ks m1 _ _ h1 with ⟨e2, x⟩ | ⟨m2, e2, hg2, h2⟩
      · left
        refine ⟨e2, ?_⟩
        rcases x with ⟨j, hj, x⟩ | ⟨u, f, hu, hs⟩
        · exact Or.inl ⟨j, by simp [hj], x⟩
        · refine Or.inr ⟨u, f, ?_, ?_⟩
          · rw [hHid, ← or_assoc]; exact hu
          · rw [hSh, ← or_assoc]; exact hs
      · right
        refine ⟨m2, e2, ?_, h2.congr (fun u => by rw [hHid, or_assoc]) fun u f => by rw [hSh, or_assoc]⟩
        intro j hj
        rcases List.mem_cons.1 hj with rfl | hj
        · exact hg
        · exact hg2 j hj

theorem rep_empty : Rep (fun _ => none) (fun _ => False) (fun _ _ => False) := by
  intro t
  exact ⟨fun s hs => by simp at hs, fun _ => ⟨id, fun _ => id⟩⟩

theorem create_ok (pool : Pool) (ks : List Mask) :
    (create pool ks = none ∧ ((∃ k ∈ ks, ¬ Good pool k) ∨ ∃ u f, Hidden ks u ∧ Shown pool ks u f)) ∨
    (∃ m, create pool ks = some m ∧ (∀ k ∈ ks, Good pool k) ∧ Rep m (Hidden ks) (Shown pool ks)) := by
  rcases masks_ok pool ks _ _ _ rep_empty with ⟨e, x⟩ | ⟨m, e, hg, h⟩
  · left
    exact ⟨e, by simpa using x⟩
  · right
    exact ⟨m, e, hg, h.congr (fun u => by simp) fun u f => by simp⟩

/-! ### The theorems -/

/-- **C89 (accepted).** Masks are accepted exactly if each names a message type of the pool, every
path leads somewhere, and no type is both hidden and on a path. -/
theorem C89_accepted (pool : Pool) (ks : List Mask) :
    (create pool ks).isSome = true ↔
      (∀ k ∈ ks, pool.message k.type = true ∧ ∀ p ∈ k.paths, Leads pool k.type p) ∧
      ¬ ∃ t f, Hidden ks t ∧ Shown pool ks t f := by
  rcases create_ok pool ks with ⟨e, x⟩ | ⟨m, e, hg, h⟩
  · rw [e]
    constructor
    · intro y; cases y
    · rintro ⟨h1, h2⟩
      rcases x with ⟨k, hk, x⟩ | x
      · exact absurd (h1 k hk) x
      · exact absurd x h2
  · rw [e]
    exact ⟨fun _ => ⟨hg, fun ⟨t, f, h1, h2⟩ => h.apart h1 h2⟩, fun _ => rfl⟩

/-- **C89 (visible).** A field is visible exactly if a path goes through it or no mask says anything
about its type. -/
theorem C89_visible {pool : Pool} {ks : List Mask} {m : TypeMap} (hm : create pool ks = some m) (t f : String) :
    visible m t f = true ↔ (Shown pool ks t f ∨ ¬ Masked pool ks t) := by
  rcases create_ok pool ks with ⟨e, x⟩ | ⟨m', e, hg, h⟩
  · rw [hm] at e; cases e
  · rw [hm] at e
    cases e
    unfold visible
    cases ht : m t with
    | none =>
      have := (h t).2 ht
      simp only [true_iff]
      right
      rintro (x | ⟨g, x⟩)
      · exact this.1 x
      · exact this.2 g x
    | some s =>
      have := (h t).1 s ht
      simp only [List.contains_iff_mem, this.1]
      constructor
      · exact Or.inl
      · rintro (x | x)
        · exact x
        · exfalso
          apply x
          cases s with
          | nil => exact Or.inl (this.2.1 rfl)
          | cons g s => exact Or.inr ⟨g, (this.1 g).1 (by simp)⟩

/-- **C89 (order).** Neither the order nor the repetition of masks matters: the same masks are
accepted or not, and show the same fields. -/
theorem C89_order {pool : Pool} {ks ks' : List Mask} (h : ∀ k, k ∈ ks ↔ k ∈ ks') :
    (create pool ks).isSome = (create pool ks').isSome ∧
    ∀ m m', create pool ks = some m → create pool ks' = some m' → ∀ t f, visible m t f = visible m' t f := by
  have hH : ∀ t, Hidden ks t ↔ Hidden ks' t := fun t => by simp only [Hidden, h]
  have hS : ∀ t f, Shown pool ks t f ↔ Shown pool ks' t f := fun t f => by simp only [Shown, h]
  constructor
  · rw [Bool.eq_iff_iff, C89_accepted, C89_accepted]
    simp only [h, hH, hS]
  · intro m m' e e' t f
    rw [Bool.eq_iff_iff, C89_visible e, C89_visible e']
    simp only [Masked, hH, hS]

/-- **C89 (more masks).** A further mask takes away only fields of types no mask said anything
about before, and shows only fields on its own paths. -/
theorem C89_more {pool : Pool} {ks more : List Mask} {m m' : TypeMap} (e : create pool ks = some m)
    (e' : create pool (ks ++ more) = some m') (t f : String) :
    (visible m t f = true → visible m' t f = false → ¬ Masked pool ks t ∧ Masked pool more t) ∧
    (visible m t f = false → visible m' t f = true → Shown pool more t f) := by
  have hH : Hidden (ks ++ more) t ↔ Hidden ks t ∨ Hidden more t := by
    simp only [Hidden, List.mem_append, or_and_right, exists_or]
  have hS : ∀ f, Shown pool (ks ++ more) t f ↔ Shown pool ks t f ∨ Shown pool more t f := fun f => by
    simp only [Shown, List.mem_append, or_and_right, exists_or]
  have hM : Masked pool (ks ++ more) t ↔ Masked pool ks t ∨ Masked pool more t := by
    simp only [Masked, hH, hS, exists_or]
    constructor
    · rintro ((x | x) | (x | x)) <;> simp [x]
    · rintro ((x | x) | (x | x)) <;> simp [x]
  rw [← Bool.not_eq_true, ← Bool.not_eq_true, C89_visible e, C89_visible e', hS, hM]
  constructor
  · rintro h1 h2
    rw [not_or, not_or, Classical.not_not] at h2
    rcases h1 with x | x
    · exact absurd x h2.1.1
    · exact ⟨x, h2.2.resolve_left x⟩
  · rintro h1 h2
    rw [not_or, Classical.not_not] at h1
    rcases h2 with (x | x) | x
    · exact absurd x h1.1
    · exact x
    · exact absurd (Or.inl h1.2) x

/-- **C89 (lookup).** What the checker finds of a field of a message: what the first type provider
that has the field says, if the field is shown or no mask says anything about its type; nothing
otherwise – also without masks. -/
theorem C89_lookup {F : Type} {pool : Pool} {ks : List Mask} {m : TypeMap} (e : create pool ks = some m)
    (providers : List (String → String → Option F)) (t f : String) (d : F) :
    (lookupField (some m) providers t f = some d ↔
      (Shown pool ks t f ∨ ¬ Masked pool ks t) ∧ lookupField none providers t f = some d) ∧
    (lookupField none providers t f = some d ↔
      ∃ before p after, providers = before ++ p :: after ∧ p t f = some d ∧ ∀ q ∈ before, q t f = none) := by
  constructor
  · rw [← C89_visible e]
    simp only [lookupField]
    by_cases hv : visible m t f = true
    · simp [hv]
    · simp [hv]
  · simp only [lookupField, Bool.false_eq_true, if_false]
    exact List.findSome?_eq_some_iff

/-- A pool: `A` has the fields `b`, `c` of type `B` and `n`, not a message; `B` has `x` and `y`. -/
def poolEx : Pool where
  message t := t == "A" || t == "B"
  field t f :=
    if t = "A" then (if f = "b" ∨ f = "c" then some (some "B") else if f = "n" then some none else none)
    else if t = "B" then (if f = "x" ∨ f = "y" then some none else none)
    else none

/-- **C89, what the comment does not say.** "All descendent fields after the last element in the
path are visible" (`proto_type_mask.h:95`) holds of a path alone; another path through the type the
path ends in takes them away: with `b` and `c.x`, the field `y` of `b` is hidden. -/
theorem C89_boundary :
    (create poolEx [⟨"A", [["b"]]⟩]).map (visible · "B" "y") = some true ∧
    (create poolEx [⟨"A", [["b"], ["c", "x"]]⟩]).map (visible · "B" "y") = some false := by
  decide +kernel

/-- Cases: what is accepted and refused. -/
theorem C89_example :
    (create poolEx [⟨"A", [["b", "x"], ["n"]]⟩]).map (fun m => (visible m "A" "b", visible m "A" "c", visible m "B" "x", visible m "B" "y", visible m "C" "z"))
      = some (true, false, true, false, true) ∧
    (create poolEx [⟨"A", []⟩, ⟨"A", [["b"]]⟩]).isSome = false ∧
    (create poolEx [⟨"A", [["b", "x"]]⟩, ⟨"B", []⟩]).isSome = false ∧
    (create poolEx [⟨"A", [["b"]]⟩, ⟨"B", []⟩]).map (visible · "B" "x") = some false ∧
    (create poolEx [⟨"A", [["n", "x"]]⟩]).isSome = false ∧ (create poolEx [⟨"C", []⟩]).isSome = false := by
  decide +kernel

end Cel.Mask
