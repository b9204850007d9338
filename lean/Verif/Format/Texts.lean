import Verif.Format.Template
import Mathlib.Data.List.Perm.Basic

/-!
# C66: the texts of arguments
-/

set_option linter.unusedSimpArgs false
set_option linter.unusedVariables false
set_option exponentiation.threshold 3000

namespace Cel.Format
open Cel Cel.Num Cel.Conv

/-! ### Lists -/

/-- Texts separated by `, `. -/
def commaJoin : List (List Nat) → List Nat
  | [] => []
  | [t] => t
  | t :: u :: r => t ++ asc ", " ++ commaJoin (u :: r)

theorem trailing_join : ∀ (ts : List (List Nat)) (pre : List Nat), pre.length = 1 →
    dropTail (pre ++ ts.flatMap (fun t => t ++ asc ", ")) = pre ++ commaJoin ts := by
  have key : ∀ (t : List Nat) (ts : List (List Nat)),
      (t :: ts).flatMap (fun t => t ++ asc ", ") = commaJoin (t :: ts) ++ asc ", " := by
    intro t ts
    induction ts generalizing t with
    | nil => simp [commaJoin]
    | cons u r ih =>
      rw [List.flatMap_cons, ih u]
      simp [commaJoin]
  intro ts pre hpre
  cases ts with
  | nil =>
    simp only [List.flatMap_nil, List.append_nil, commaJoin]
    unfold dropTail
    rw [if_neg (by omega)]
  | cons t ts =>
    rw [key]
    unfold dropTail
    have hl : (asc ", ").length = 2 := by decide
    rw [if_pos (by simp only [List.length_append, hl]; omega)]
    rw [← List.append_assoc, List.length_append, hl]
    exact List.take_left' (by simp)

theorem formatItems_iff : ∀ (l : List FVal) (scratch out : List Nat),
    formatItems l scratch = .ok out ↔ ∃ ts, List.Forall₂ (fun v t => formatString v = .ok t) l ts ∧
      out = scratch ++ ts.flatMap (fun t => t ++ asc ", ")
  | [], scratch, out => by
    unfold formatItems
    constructor
    · intro h; injection h with h; exact ⟨[], .nil, by simp [h]⟩
    · rintro ⟨ts, h, rfl⟩; cases h; simp
  | v :: vs, scratch, out => by
    unfold formatItems
    cases hv : formatString v with
    | ok t =>
      simp only
      rw [formatItems_iff vs]
      constructor
      · rintro ⟨ts, h, rfl⟩; exact ⟨t :: ts, .cons hv h, by simp⟩
      · rintro ⟨ts, h, rfl⟩
        cases h with
        | cons h1 h2 =>
          rw [hv] at h1; injection h1 with h1; subst h1
          exact ⟨_, h2, by simp⟩
    | err s =>
      simp only
      constructor
      · intro h; cases h
      · rintro ⟨ts, h, _⟩; cases h with | cons h1 _ => rw [hv] at h1; cases h1
    | ub =>
      simp only
      constructor
      · intro h; cases h
      · rintro ⟨ts, h, _⟩; cases h with | cons h1 _ => rw [hv] at h1; cases h1

theorem formatString_list (l : List FVal) : formatString (.list l) = (do
    let scratch ← formatItems l [91]
    .ok (dropTail scratch ++ [93])) := by rw [formatString]

theorem formatString_map (m : List (FVal × FVal)) : formatString (.map m) = (do
    let tree ← collect (entryTexts m) []
    let scratch ← appendEntries tree [123]
    .ok (dropTail scratch ++ [125])) := by rw [formatString]

theorem bytesLt_cons (x y : Nat) (xs ys : List Nat) : bytesLt (x :: xs) (y :: ys) =
    if x < y then true else if y < x then false else bytesLt xs ys := by rw [bytesLt]

/-- **C66** The text of a list is the texts of its elements, in order, separated by `, `, in
brackets; it exists exactly when every element has a text. -/
theorem C66_list (l : List FVal) (out : List Nat) : formatString (.list l) = .ok out ↔
    ∃ ts, List.Forall₂ (fun v t => formatString v = .ok t) l ts ∧ out = 91 :: (commaJoin ts ++ [93]) := by
  rw [formatString_list]
  constructor
  · intro h
    cases hi : formatItems l [91] with
    | ok s =>
      rw [hi] at h
      simp only [Res.mbind_ok] at h
      obtain ⟨ts, h1, rfl⟩ := (formatItems_iff l _ _).1 hi
      injection h with h
      refine ⟨ts, h1, ?_⟩
      rw [← h, trailing_join ts [91] rfl]; simp
    | err s => rw [hi] at h; cases h
    | ub => rw [hi] at h; cases h
  · rintro ⟨ts, h1, rfl⟩
    rw [(formatItems_iff l [91] _).2 ⟨ts, h1, rfl⟩]
    simp only [Res.mbind_ok]
    rw [trailing_join ts [91] rfl]; simp

/-! ### Maps -/

theorem bytesLt_irrefl : ∀ a, bytesLt a a = false
  | [] => rfl
  | x :: xs => by rw [bytesLt_cons, if_neg (by omega), if_neg (by omega)]; exact bytesLt_irrefl xs

theorem bytesLt_trans : ∀ a b c, bytesLt a b = true → bytesLt b c = true → bytesLt a c = true
  | a, [], c, h, _ => by cases a <;> simp [bytesLt] at h
  | [], _ :: _, [], _, h => by simp [bytesLt] at h
  | [], _ :: _, _ :: _, _, _ => rfl
  | _ :: _, _ :: _, [], _, h => by simp [bytesLt] at h
  | x :: xs, y :: ys, z :: zs, h1, h2 => by
    rw [bytesLt_cons] at h1 h2 ⊢
    by_cases a1 : x < y
    · by_cases a2 : y < z
      · rw [if_pos (by omega)]
      · rw [if_neg a2] at h2
        by_cases a3 : z < y
        · rw [if_pos a3] at h2; cases h2
        · rw [if_pos (by omega)]
    · rw [if_neg a1] at h1
      by_cases a2 : y < x
      · rw [if_pos a2] at h1; cases h1
      · rw [if_neg a2] at h1
        by_cases a3 : y < z
        · rw [if_pos (by omega)]
        · rw [if_neg a3] at h2
          by_cases a4 : z < y
          · rw [if_pos a4] at h2; cases h2
          · rw [if_neg a4] at h2
            rw [if_neg (by omega), if_neg (by omega)]
            exact bytesLt_trans xs ys zs h1 h2

theorem bytesLt_total : ∀ a b, bytesLt a b = true ∨ a = b ∨ bytesLt b a = true
  | [], [] => .inr (.inl rfl)
  | [], _ :: _ => .inl rfl
  | _ :: _, [] => .inr (.inr rfl)
  | x :: xs, y :: ys => by
    rw [bytesLt_cons, bytesLt_cons]
    rcases Nat.lt_trichotomy x y with h | h | h
    · left; rw [if_pos h]
    · subst h
      have hn : ¬ x < x := by omega
      simp only [if_neg hn]
      rcases bytesLt_total xs ys with h | h | h
      · exact .inl h
      · exact .inr (.inl (by rw [h]))
      · exact .inr (.inr h)
    · right; right; rw [if_pos h]

/-- Keys strictly increasing in byte order. -/
def Sorted {α : Type} (l : List (List Nat × α)) : Prop := l.Pairwise fun a b => bytesLt a.1 b.1 = true

/-- What `emplace` does to a sorted tree: nothing if the key is there, otherwise it adds the entry. -/
theorem emplace_spec {α : Type} (k : List Nat) (v : α) : ∀ (tree : List (List Nat × α)), Sorted tree →
    Sorted (emplace k v tree) ∧
    (∀ k' v', (k', v') ∈ emplace k v tree ↔
      (k', v') ∈ tree ∨ (k' = k ∧ v' = v ∧ ∀ w, (k, w) ∉ tree)) := by
  intro tree
  induction tree with
  | nil =>
    intro _
    refine ⟨List.pairwise_singleton _ _, ?_⟩
    intro k' v'
    simp [emplace]
  | cons e r ih =>
    obtain ⟨ke, ve⟩ := e
    intro hs
    obtain ⟨h1, h2⟩ := List.pairwise_cons.1 hs
    have hlt : ∀ p ∈ r, bytesLt ke p.1 = true := h1
    unfold emplace
    by_cases hk : bytesLt k ke = true
    · rw [if_pos hk]
      have hno : ∀ w, (k, w) ∉ (ke, ve) :: r := by
        intro w hw
        rcases List.mem_cons.1 hw with h | h
        · injection h with h _; rw [h, bytesLt_irrefl] at hk; cases hk
        · have := bytesLt_trans _ _ _ hk (hlt _ h)
          rw [bytesLt_irrefl] at this; cases this
      refine ⟨List.pairwise_cons.2 ⟨?_, hs⟩, ?_⟩
      · intro p hp
        rcases List.mem_cons.1 hp with rfl | hp
        · exact hk
        · exact bytesLt_trans _ _ _ hk (hlt _ hp)
      · intro k' v'
        constructor
        · intro h
          rcases List.mem_cons.1 h with h | h
          · injection h with a b; exact .inr ⟨a, b, hno⟩
          · exact .inl h
        · rintro (h | ⟨rfl, rfl, _⟩)
          · exact List.mem_cons_of_mem _ h
          · exact List.mem_cons_self ..
    · rw [if_neg hk]
      by_cases hk2 : bytesLt ke k = true
      · rw [if_pos hk2]
        obtain ⟨i1, i2⟩ := ih h2
        refine ⟨List.pairwise_cons.2 ⟨?_, i1⟩, ?_⟩
        · intro p hp
          obtain ⟨kp, vp⟩ := p
          rcases (i2 kp vp).1 hp with h | ⟨rfl, rfl, _⟩
          · exact hlt _ h
          · exact hk2
        · intro k' v'
          constructor
          · intro h
            rcases List.mem_cons.1 h with h | h
            · exact .inl (h ▸ List.mem_cons_self ..)
            · rcases (i2 k' v').1 h with h | ⟨a, b, hno⟩
              · exact .inl (List.mem_cons_of_mem _ h)
              · refine .inr ⟨a, b, ?_⟩
                intro w hw
                rcases List.mem_cons.1 hw with h | h
                · injection h with h _; rw [h, bytesLt_irrefl] at hk2; cases hk2
                · exact hno w h
          · rintro (h | ⟨a, b, hno⟩)
            · rcases List.mem_cons.1 h with h | h
              · exact h ▸ List.mem_cons_self ..
              · exact List.mem_cons_of_mem _ ((i2 k' v').2 (.inl h))
            · exact List.mem_cons_of_mem _ ((i2 k' v').2 (.inr ⟨a, b, fun w hw => hno w (List.mem_cons_of_mem _ hw)⟩))
      · rw [if_neg hk2]
        have heq : k = ke := by
          rcases bytesLt_total k ke with h | h | h
          · exact absurd h hk
          · exact h
          · exact absurd h hk2
        subst heq
        refine ⟨hs, ?_⟩
        intro k' v'
        constructor
        · exact .inl
        · rintro (h | ⟨_, _, hno⟩)
          · exact h
          · exact absurd (List.mem_cons_self ..) (hno ve)

/-- The first entry of a map whose key has text `k`. -/
def FirstEntry (m : List (FVal × FVal)) (k : List Nat) (v : FVal) : Prop :=
  ∃ pre key post, m = pre ++ (key, v) :: post ∧ formatString key = .ok k ∧
    ∀ p ∈ pre, formatString p.1 ≠ .ok k

theorem keyKindOk_text {key : FVal} (h : keyKindOk key = true) : ∃ k, formatString key = .ok k := by
  cases key <;> simp [keyKindOk] at h <;> exact ⟨_, by unfold formatString; rfl⟩

theorem collect_spec : ∀ (m : List (FVal × FVal)) (tree : List (List Nat × Res (List Nat))), Sorted tree →
    ((∃ p ∈ m, keyKindOk p.1 = false) → ∃ s, collect (entryTexts m) tree = .err s) ∧
    ((∀ p ∈ m, keyKindOk p.1 = true) → ∃ tree', collect (entryTexts m) tree = .ok tree' ∧ Sorted tree' ∧
      ∀ k t, (k, t) ∈ tree' ↔ (k, t) ∈ tree ∨ ((∀ w, (k, w) ∉ tree) ∧ ∃ v, FirstEntry m k v ∧ t = formatString v))
  | [], tree, hs => by
    refine ⟨(by rintro ⟨p, h, _⟩; simp at h), fun _ => ⟨tree, by simp [entryTexts, collect], hs, ?_⟩⟩
    intro k t
    constructor
    · exact .inl
    · rintro (h | ⟨_, v, ⟨pre, key, post, h, _⟩, _⟩)
      · exact h
      · simp at h
  | (key, v) :: r, tree, hs => by
    unfold entryTexts collect
    by_cases hk : keyKindOk key = true
    · rw [if_pos hk]
      obtain ⟨k0, hk0⟩ := keyKindOk_text hk
      rw [hk0]
      simp only [Res.mbind_ok]
      obtain ⟨e1, e2⟩ := emplace_spec k0 (formatString v) tree hs
      obtain ⟨c1, c2⟩ := collect_spec r (emplace k0 (formatString v) tree) e1
      refine ⟨?_, ?_⟩
      · rintro ⟨p, hp, hbad⟩
        rcases List.mem_cons.1 hp with rfl | hp
        · simp only at hbad; rw [hk] at hbad; cases hbad
        · exact c1 ⟨p, hp, hbad⟩
      · intro hall
        obtain ⟨tree', h1, h2, h3⟩ := c2 fun p hp => hall p (List.mem_cons_of_mem _ hp)
        refine ⟨tree', h1, h2, ?_⟩
        intro k t
        rw [h3]
        constructor
        · rintro (h | ⟨hno, v', ⟨pre, key', post, hm, hkk, hpre⟩, ht⟩)
          · rcases (e2 k t).1 h with h | ⟨rfl, rfl, hno⟩
            · exact .inl h
            · exact .inr ⟨hno, v, ⟨[], key, r, rfl, hk0, by simp⟩, rfl⟩
          · have hnt : ∀ w, (k, w) ∉ tree := fun w hw => hno w ((e2 k w).2 (.inl hw))
            have hne : k ≠ k0 := by
              rintro rfl
              exact hno _ ((e2 k _).2 (.inr ⟨rfl, rfl, hnt⟩))
            refine .inr ⟨hnt, v', ⟨(key, v) :: pre, key', post, by rw [hm]; rfl, hkk, ?_⟩, ht⟩
            intro p hp
            rcases List.mem_cons.1 hp with rfl | hp
            · intro h; rw [hk0] at h; injection h with h; exact hne h.symm
            · exact hpre p hp
        · rintro (h | ⟨hno, v', ⟨pre, key', post, hm, hkk, hpre⟩, ht⟩)
          · exact .inl ((e2 k t).2 (.inl h))
          · cases pre with
            | nil =>
              injection hm with h4 h5
              injection h4 with h4 h6
              subst h4 h5 h6
              rw [hk0] at hkk; injection hkk with hkk; subst hkk
              exact .inl ((e2 _ _).2 (.inr ⟨rfl, ht, hno⟩))
            | cons p pre =>
              injection hm with h4 h5
              subst h4
              have hne : k ≠ k0 := by
                rintro rfl
                exact hpre _ (List.mem_cons_self ..) hk0
              refine .inr ⟨?_, v', ⟨pre, key', post, h5, hkk, fun q hq => hpre q (List.mem_cons_of_mem _ hq)⟩, ht⟩
              intro w hw
              rcases (e2 k w).1 hw with h | ⟨h, _⟩
              · exact hno w h
              · exact hne h
    · have hk' : keyKindOk key = false := by simpa using hk
      rw [if_neg hk]
      refine ⟨fun _ => ⟨_, rfl⟩, fun hall => ?_⟩
      have := hall _ (List.mem_cons_self ..)
      simp only at this; rw [hk'] at this; cases this

/-- An entry of a map's text. -/
def entryText (e : List Nat × List Nat) : List Nat := e.1 ++ asc ": " ++ e.2

theorem appendEntries_iff : ∀ (tree : List (List Nat × Res (List Nat))) (scratch out : List Nat),
    appendEntries tree scratch = .ok out ↔ ∃ es : List (List Nat × List Nat),
      tree = es.map (fun e => (e.1, Res.ok e.2)) ∧ out = scratch ++ (es.map entryText).flatMap (fun t => t ++ asc ", ")
  | [], scratch, out => by
    unfold appendEntries
    constructor
    · intro h; injection h with h; exact ⟨[], rfl, by simp [h]⟩
    · rintro ⟨es, h, rfl⟩
      have : es = [] := by simpa using h.symm
      subst this; simp
  | (k, vt) :: r, scratch, out => by
    unfold appendEntries
    cases vt with
    | ok v =>
      simp only [Res.mbind_ok]
      rw [appendEntries_iff r]
      constructor
      · rintro ⟨es, rfl, rfl⟩; exact ⟨(k, v) :: es, rfl, by simp [entryText]⟩
      · rintro ⟨es, h, rfl⟩
        cases es with
        | nil => simp at h
        | cons e es =>
          rw [List.map_cons] at h
          injection h with h1 h2
          injection h1 with h1 h3
          injection h3 with h3
          exact ⟨es, h2, by simp [entryText, h1, h3]⟩
    | err s =>
      constructor
      · intro h; cases h
      · rintro ⟨es, h, _⟩
        cases es with
        | nil => simp at h
        | cons e es => rw [List.map_cons] at h; injection h with h1 _; injection h1 with _ h1; cases h1
    | ub =>
      constructor
      · intro h; cases h
      · rintro ⟨es, h, _⟩
        cases es with
        | nil => simp at h
        | cons e es => rw [List.map_cons] at h; injection h with h1 _; injection h1 with _ h1; cases h1

/-- **C66** The text of a map: every key must be a string, bool, int or uint; there is one entry
`key: value` for every key text, with the value of the first entry that has this key text; entries are
in byte order of the key texts, separated by `, `, in braces. -/
theorem C66_map (m : List (FVal × FVal)) (out : List Nat) : formatString (.map m) = .ok out ↔
    (∀ p ∈ m, keyKindOk p.1 = true) ∧ ∃ es : List (List Nat × List Nat), Sorted es ∧
      (∀ k v, FirstEntry m k v → ∃ t, formatString v = .ok t ∧ (k, t) ∈ es) ∧
      (∀ k t, (k, t) ∈ es → ∃ v, FirstEntry m k v ∧ formatString v = .ok t) ∧
      out = 123 :: (commaJoin (es.map entryText) ++ [125]) := by
  obtain ⟨c1, c2⟩ := collect_spec m [] List.Pairwise.nil
  rw [formatString_map]
  by_cases hall : ∀ p ∈ m, keyKindOk p.1 = true
  · obtain ⟨tree, h1, h2, h3⟩ := c2 hall
    have hmem : ∀ k t, (k, t) ∈ tree ↔ ∃ v, FirstEntry m k v ∧ t = formatString v := by
      intro k t; rw [h3]; simp
    rw [h1]
    simp only [Res.mbind_ok]
    constructor
    · intro h
      cases ha : appendEntries tree [123] with
      | ok s =>
        rw [ha] at h
        simp only [Res.mbind_ok] at h
        injection h with h
        obtain ⟨es, rfl, rfl⟩ := (appendEntries_iff _ _ _).1 ha
        refine ⟨hall, es, ?_, ?_, ?_, ?_⟩
        · unfold Sorted at h2 ⊢
          rw [List.pairwise_map] at h2
          exact h2
        · intro k v hf
          have := (hmem k (formatString v)).2 ⟨v, hf, rfl⟩
          obtain ⟨e, he, heq⟩ := List.mem_map.1 this
          injection heq with a b
          exact ⟨e.2, b.symm, by rw [← a]; exact he⟩
        · intro k t hkt
          obtain ⟨v, hv, ht⟩ := (hmem k (.ok t)).1 (List.mem_map.2 ⟨(k, t), hkt, rfl⟩)
          exact ⟨v, hv, ht.symm⟩
        · rw [← h, trailing_join _ [123] rfl]; simp
      | err s => rw [ha] at h; cases h
      | ub => rw [ha] at h; cases h
    · rintro ⟨_, es, hs, hto, hfrom, rfl⟩
      have htree : tree = es.map (fun e => (e.1, Res.ok e.2)) := by
        have hs' : Sorted (es.map (fun e => (e.1, Res.ok e.2))) := by
          unfold Sorted at hs ⊢; rw [List.pairwise_map]; exact hs
        have hmm : ∀ p, p ∈ tree ↔ p ∈ es.map (fun e => (e.1, Res.ok e.2)) := by
          rintro ⟨k, t⟩
          constructor
          · intro h
            obtain ⟨v, hv, rfl⟩ := (hmem k t).1 h
            obtain ⟨t, ht, hin⟩ := hto k v hv
            rw [ht]; exact List.mem_map.2 ⟨(k, t), hin, rfl⟩
          · intro h
            obtain ⟨⟨k', t'⟩, he, heq⟩ := List.mem_map.1 h
            injection heq with a b
            subst a b
            obtain ⟨v, hv, ht⟩ := hfrom _ _ he
            exact (hmem _ _).2 ⟨v, hv, ht.symm⟩
        have nd : ∀ l : List (List Nat × Res (List Nat)), Sorted l → l.Nodup := by
          intro l hl
          exact hl.imp fun {a b} hab e => by rw [e, bytesLt_irrefl] at hab; cases hab
        exact List.Perm.eq_of_pairwise
          (fun a b _ _ h1 h2 => by
            have := bytesLt_trans _ _ _ h1 h2
            rw [bytesLt_irrefl] at this; cases this)
          h2 hs' ((List.perm_ext_iff_of_nodup (nd _ h2) (nd _ hs')).2 hmm)
      rw [(appendEntries_iff tree [123] _).2 ⟨es, htree, rfl⟩]
      simp only [Res.mbind_ok]
      rw [trailing_join _ [123] rfl]; simp
  · constructor
    · intro h
      have : ∃ p ∈ m, keyKindOk p.1 = false := by
        by_contra hno
        exact hall fun p hp => by
          cases hk : keyKindOk p.1 with
          | true => rfl
          | false => exact absurd ⟨p, hp, hk⟩ hno
      obtain ⟨s, hs⟩ := c1 this
      rw [hs] at h; cases h
    · rintro ⟨h, _⟩; exact absurd h hall

/-- Different keys of the map have different texts. -/
def KeysDistinct (m : List (FVal × FVal)) : Prop :=
  m.Pairwise fun a b => ∀ k, formatString a.1 = .ok k → formatString b.1 ≠ .ok k

theorem firstEntry_of_distinct {m : List (FVal × FVal)} (h : KeysDistinct m) (k : List Nat) (v : FVal) :
    FirstEntry m k v ↔ ∃ key, (key, v) ∈ m ∧ formatString key = .ok k := by
  constructor
  · rintro ⟨pre, key, post, rfl, hk, _⟩; exact ⟨key, by simp, hk⟩
  · rintro ⟨key, hm, hk⟩
    obtain ⟨pre, post, rfl⟩ := List.append_of_mem hm
    refine ⟨pre, key, post, rfl, hk, ?_⟩
    intro p hp hpk
    unfold KeysDistinct at h
    rw [List.pairwise_append] at h
    exact h.2.2 p hp (key, v) (List.mem_cons_self ..) k hpk hk

/-- **C66** The text of a map does not depend on the order in which its entries are iterated, as long
as different keys have different texts. -/
theorem C66_map_order_partial (m m' : List (FVal × FVal)) (hp : m.Perm m') (hd : KeysDistinct m) (out : List Nat)
    (h : formatString (.map m) = .ok out) : formatString (.map m') = .ok out := by
  have hd' : KeysDistinct m' := by
    unfold KeysDistinct at hd ⊢
    exact (hp.pairwise_iff (fun {a b} h k h1 h2 => h k h2 h1)).1 hd
  have hfe : ∀ k v, FirstEntry m k v ↔ FirstEntry m' k v := by
    intro k v
    rw [firstEntry_of_distinct hd, firstEntry_of_distinct hd']
    simp only [hp.mem_iff]
  rw [C66_map] at h ⊢
  obtain ⟨h1, es, h2, h3, h4, h5⟩ := h
  refine ⟨fun p hpm => h1 p (hp.mem_iff.2 hpm), es, h2, fun k v hf => h3 k v ((hfe k v).2 hf), ?_, h5⟩
  intro k t hkt
  obtain ⟨v, hv, ht⟩ := h4 k t hkt
  exact ⟨v, (hfe k v).1 hv, ht⟩

/-- Without that hypothesis the claim is false of the code: `{1: 2, "1": 3}` loses an entry, and which
one depends on the iteration order. -/
theorem C66_map_collision_witness : ∃ m m' : List (FVal × FVal), m.Perm m' ∧
    formatString (.map m) = .ok (asc "{1: 2}") ∧ formatString (.map m') = .ok (asc "{1: 3}") :=
  ⟨[(.int 1, .int 2), (.str (asc "1"), .int 3)], [(.str (asc "1"), .int 3), (.int 1, .int 2)],
    List.Perm.swap .., by decide, by decide⟩

example : KeysDistinct [(.str (asc "b"), .int 1), (.int 2, .null)] := by
  unfold KeysDistinct
  simp only [List.pairwise_cons, List.mem_cons, List.not_mem_nil, or_false, forall_eq, List.Pairwise.nil, and_true,
    false_imp_iff, implies_true]
  intro k h1 h2
  have e1 : formatString (.str (asc "b")) = .ok (asc "b") := by decide
  have e2 : formatString (.int 2) = .ok (asc "2") := by decide
  rw [e1] at h1; rw [e2] at h2
  injection h1 with h1; injection h2 with h2
  rw [← h1] at h2
  exact absurd h2 (by decide)

end Cel.Format
