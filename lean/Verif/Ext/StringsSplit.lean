import Verif.Ext.Strings

/-!
# C46, continued: join, split and replace

`split` and `replace` cut a string at the first occurrences of the delimiter, from left to right, up to a number of cuts.  `Cuts` is
the specification; it determines the pieces (`C46_cuts_unique`).
-/

set_option linter.unusedSimpArgs false
set_option linter.unusedVariables false

namespace Cel.Ext.Strings
open Cel Cel.Text Cel.Text.Spec

/-! ## Specification -/

/-- `s` is cut at occurrences of `d`, into `pieces`, each followed by `d`, and `last`: each cut is at the first occurrence of `d`
in what is left, there are at most `max` cuts (`none`: no limit), and fewer only if no occurrence is left. -/
structure Cuts (d s : List Nat) (max : Option Nat) (pieces : List (List Nat)) (last : List Nat) : Prop where
  whole : s = pieces.flatMap (fun p => p ++ d) ++ last
  first : ∀ p ∈ pieces, ∀ j, OccursAt d (p ++ d) j → j = p.length
  few : ∀ m, max = some m → pieces.length ≤ m
  done : max = some pieces.length ∨ ∀ j, ¬ OccursAt d last j

/-- `limit` as a number of cuts. -/
def cutsFor (limit : Int) : Option Nat := if limit < 0 then none else some limit.toNat

/-- The elements with `sep` between them. -/
def between (sep : List Nat) : List (List Nat) → List Nat
  | [] => []
  | [e] => e
  | e :: f :: r => e ++ sep ++ between sep (f :: r)

/-! ## join -/

theorem joinLoop_spec (sep : List Nat) : ∀ (es : List (List Nat)) (e : List Nat),
    joinLoop sep (es.map some) e = .ok (between sep (e :: es)) := by
  intro es
  induction es with
  | nil => intro e; rfl
  | cons f es ih =>
    intro e
    show joinLoop sep (es.map some) (e ++ sep ++ f) = _
    rw [ih]
    cases es with
    | nil => rfl
    | cons g es =>
      show Res.ok ((e ++ sep ++ f) ++ sep ++ between sep (g :: es)) = Res.ok (e ++ sep ++ (f ++ sep ++ between sep (g :: es)))
      simp

theorem joinLoop_err (sep : List Nat) : ∀ (es : List (Option (List Nat))) (e : List Nat), none ∈ es → joinLoop sep es e = .err noJoin := by
  intro es
  induction es with
  | nil => intro e h; simp at h
  | cons f es ih =>
    intro e h
    cases f with
    | none => rfl
    | some f => exact ih _ (by simpa using h)

/-- C46: `list.join(sep)` is the elements with the separator between them, and an error if some element is no string. -/
theorem C46_join (sep : List Nat) (es : List (List Nat)) :
    join sep (es.map some) = .ok (between sep es) ∧
    ∀ xs : List (Option (List Nat)), none ∈ xs → join sep xs = .err noJoin := by
  constructor
  · cases es with
    | nil => rfl
    | cons e es => exact joinLoop_spec sep es e
  · intro xs h
    cases xs with
    | nil => simp at h
    | cons x xs =>
      cases x with
      | none => rfl
      | some x => exact joinLoop_err sep xs x (by simpa using h)

theorem between_flatMap (sep : List Nat) (ps : List (List Nat)) (last : List Nat) :
    between sep (ps ++ [last]) = ps.flatMap (fun p => p ++ sep) ++ last := by
  induction ps with
  | nil => rfl
  | cons p ps ih =>
    rw [List.cons_append]
    have : ∃ f r, ps ++ [last] = f :: r := by
      cases ps with
      | nil => exact ⟨_, _, rfl⟩
      | cons q ps => exact ⟨_, _, rfl⟩
    obtain ⟨f, r, e⟩ := this
    rw [e]
    show p ++ sep ++ between sep (f :: r) = _
    rw [← e, ih]
    simp

/-! ## The first occurrence -/

theorem isPrefixOf_iff (a b : List Nat) : a.isPrefixOf b = true ↔ a <+: b := List.isPrefixOf_iff_prefix

theorem firstOcc_least (n : List Nat) : ∀ l, Least (OccursAt n l) (firstOcc n l) := by
  intro l
  induction l with
  | nil =>
    unfold firstOcc
    split
    · rename_i h; subst h
      exact ⟨⟨Nat.le_refl _, List.nil_prefix⟩, fun j hj => by omega⟩
    · rename_i h
      rintro j ⟨h1, h2⟩
      rw [List.drop_nil] at h2
      exact h (List.prefix_nil.mp h2)
  | cons b r ih =>
    unfold firstOcc
    by_cases hp : n.isPrefixOf (b :: r) = true
    · rw [if_pos hp]
      exact ⟨⟨by simp, (isPrefixOf_iff _ _).mp hp⟩, fun j hj => by omega⟩
    · rw [if_neg hp]
      have h0 : ¬ OccursAt n (b :: r) 0 := fun h => hp ((isPrefixOf_iff _ _).mpr h.2)
      have hs : ∀ j, OccursAt n (b :: r) (j + 1) ↔ OccursAt n r j := by
        intro j
        unfold OccursAt
        rw [List.drop_succ_cons, List.length_cons, Nat.add_le_add_iff_right]
      cases hr : firstOcc n r with
      | none =>
        rw [hr] at ih
        intro j hj
        cases j with
        | zero => exact h0 hj
        | succ j => exact ih j ((hs j).mp hj)
      | some i =>
        rw [hr] at ih
        refine ⟨(hs i).mpr ih.1, fun j hj => ?_⟩
        cases j with
        | zero => exact h0
        | succ j =>
          have hj : j + 1 < i + 1 := hj
          exact fun h => ih.2 j (by omega) ((hs j).mp h)

theorem least_unique {P : Nat → Prop} {a b : Option Nat} (ha : Least P a) (hb : Least P b) : a = b := by
  cases a with
  | none =>
    cases b with
    | none => rfl
    | some j => exact absurd hb.1 (ha j)
  | some i =>
    cases b with
    | none => exact absurd ha.1 (hb i)
    | some j =>
      rcases Nat.lt_trichotomy i j with h | h | h
      · exact absurd ha.1 (hb.2 i h)
      · rw [h]
      · exact absurd hb.1 (ha.2 j h)

theorem occursAt_drop (n l : List Nat) (k i : Nat) (hk : k ≤ l.length) : OccursAt n (l.drop k) i ↔ OccursAt n l (k + i) := by
  unfold OccursAt
  rw [List.drop_drop, List.length_drop]
  constructor
  · rintro ⟨h1, h2⟩; exact ⟨by omega, h2⟩
  · rintro ⟨h1, h2⟩; exact ⟨by omega, h2⟩

theorem occursAt_le {n l : List Nat} {i : Nat} (h : OccursAt n l i) : i + n.length ≤ l.length := by
  have := h.2.length_le
  rw [List.length_drop] at this
  have := h.1
  omega

theorem findFrom_least (l n : List Nat) (pos : Nat) (h : pos ≤ l.length ∨ n ≠ []) :
    Least (fun i => pos ≤ i ∧ OccursAt n l i) (findFrom l n pos) := by
  unfold findFrom
  rcases Nat.lt_or_ge l.length pos with hgt | hle
  · have hn : n ≠ [] := by
      rcases h with h | h
      · omega
      · exact h
    rw [List.drop_of_length_le (by omega)]
    unfold firstOcc
    rw [if_neg hn]
    rintro j ⟨h1, h2⟩
    have := occursAt_le h2
    omega
  · have ih := firstOcc_least n (l.drop pos)
    cases hr : firstOcc n (l.drop pos) with
    | none =>
      rw [hr] at ih
      rintro j ⟨h1, h2⟩
      refine ih (j - pos) ((occursAt_drop n l pos _ hle).mpr ?_)
      rwa [show pos + (j - pos) = j by omega]
    | some i =>
      rw [hr] at ih
      refine ⟨⟨Nat.le_add_left _ _, ?_⟩, fun j hj => ?_⟩
      · have := (occursAt_drop n l pos _ hle).mp ih.1
        rwa [Nat.add_comm] at this
      · rintro ⟨h1, h2⟩
        have hj : j < i + pos := hj
        refine ih.2 (j - pos) (by omega) ((occursAt_drop n l pos _ hle).mpr ?_)
        rwa [show pos + (j - pos) = j by omega]

theorem occursAt_append (a b l : List Nat) (i : Nat) :
    OccursAt (a ++ b) l i ↔ OccursAt a l i ∧ (l.drop (i + a.length)).take b.length = b := by
  constructor
  · rintro ⟨h1, t, ht⟩
    refine ⟨⟨h1, b ++ t, by rw [← ht, List.append_assoc]⟩, ?_⟩
    rw [← List.drop_drop, ← ht, List.append_assoc, List.drop_left, List.take_left]
  · rintro ⟨⟨h1, t, ht⟩, h2⟩
    refine ⟨h1, t.drop b.length, ?_⟩
    rw [← List.drop_drop, ← ht, List.drop_left] at h2
    rw [← ht, List.append_assoc]
    congr 1
    conv_rhs => rw [← List.take_append_drop b.length t, h2]

theorem fragmentLoop_spec (lhs first rest : List Nat) (hf : first ≠ []) (hl : first.length + rest.length ≤ lhs.length) :
    ∀ fuel current, current ≤ lhs.length + 1 → lhs.length + 1 < fuel + current →
      ∃ r, fragmentLoop lhs first rest fuel current = .ok r ∧ Least (fun i => current ≤ i ∧ OccursAt (first ++ rest) lhs i) r := by
  intro fuel
  have hpos : 0 < first.length := List.length_pos_iff.mpr hf
  induction fuel with
  | zero =>
    intro current hc h
    omega
  | succ fuel ih =>
    intro current hc h
    have hm := findFrom_least lhs first current (.inr hf)
    rw [fragmentLoop]
    cases hr : findFrom lhs first current with
    | none =>
      rw [hr] at hm
      exact ⟨none, rfl, fun j hj => hm j ⟨hj.1, ((occursAt_append _ _ _ _).mp hj.2).1⟩⟩
    | some found =>
      rw [hr] at hm
      show ∃ r, (if found > lhs.length - (first.length + rest.length) then Res.ok none 
        else if (lhs.drop (found + first.length)).take rest.length = rest then Res.ok (some found)
        else fragmentLoop lhs first rest fuel (found + 1)) = Res.ok r ∧ Least (fun i => current ≤ i ∧ OccursAt (first ++ rest) lhs i) r
      by_cases h1 : found > lhs.length - (first.length + rest.length)
      · rw [if_pos h1]
        refine ⟨none, rfl, fun j hj => ?_⟩
        have h2 := occursAt_le hj.2
        rw [List.length_append] at h2
        exact hm.2 j (by omega) ⟨hj.1, ((occursAt_append _ _ _ _).mp hj.2).1⟩
      · rw [if_neg h1]
        by_cases h2 : (lhs.drop (found + first.length)).take rest.length = rest
        · rw [if_pos h2]
          refine ⟨some found, rfl, ⟨hm.1.1, (occursAt_append _ _ _ _).mpr ⟨hm.1.2, h2⟩⟩, fun j hj h3 => ?_⟩
          exact hm.2 j hj ⟨h3.1, ((occursAt_append _ _ _ _).mp h3.2).1⟩
        · rw [if_neg h2]
          obtain ⟨r, hr1, hr2⟩ := ih (found + 1) (by omega) (by have := hm.1.1; omega)
          refine ⟨r, hr1, ?_⟩
          have hiff : ∀ j, (found + 1 ≤ j ∧ OccursAt (first ++ rest) lhs j) ↔ (current ≤ j ∧ OccursAt (first ++ rest) lhs j) := by
            intro j
            constructor
            · rintro ⟨h3, h4⟩; exact ⟨by have := hm.1.1; omega, h4⟩
            · rintro ⟨h3, h4⟩
              refine ⟨?_, h4⟩
              obtain ⟨h5, h6⟩ := (occursAt_append _ _ _ _).mp h4
              rcases Nat.lt_trichotomy j found with h | h | h
              · exact absurd ⟨h3, h5⟩ (hm.2 j h)
              · subst h; exact absurd h6 h2
              · omega
          have : (fun i => found + 1 ≤ i ∧ OccursAt (first ++ rest) lhs i) = (fun i => current ≤ i ∧ OccursAt (first ++ rest) lhs i) := by
            funext j; exact propext (hiff j)
          rwa [this] at hr2

/-- `ByteString::Find` finds the first occurrence at or after the position, whatever the representations. -/
theorem find_spec (s d : Str) (hd : d.WF) (pos : Nat) (hp : pos ≤ s.size) :
    ∃ r, find s d pos = .ok r ∧ Least (fun i => pos ≤ i ∧ OccursAt d.bytes s.bytes i) r := by
  have plain : ∃ r, Res.ok (findFrom s.bytes d.bytes pos) = Res.ok r ∧ Least (fun i => pos ≤ i ∧ OccursAt d.bytes s.bytes i) r :=
    ⟨_, rfl, findFrom_least _ _ _ (.inl hp)⟩
  unfold find
  rw [if_neg (by omega)]
  cases s with
  | cord c => exact plain
  | flat lhs =>
    cases d with
    | flat n => exact plain
    | cord c =>
      match c, hd, plain with
      | [], _, plain => exact plain
      | [n], _, plain =>
        have e : (Str.cord [n]).bytes = n := by simp [Str.bytes]
        rw [e] at plain ⊢
        exact plain
      | first :: second :: rest, hd, plain =>
        show ∃ r, (if pos + (first ++ (second :: rest).flatten).length > lhs.length then Res.ok none
          else if (first ++ (second :: rest).flatten).length = 0 then Res.ok (some pos)
          else fragmentLoop lhs first (second :: rest).flatten (lhs.length + 2) pos) = _ ∧ _
        have e : (Str.cord (first :: second :: rest)).bytes = first ++ (second :: rest).flatten := by simp [Str.bytes]
        rw [e]
        generalize (second :: rest).flatten = tail
        have hf : first ≠ [] := hd.2 first (by simp)
        have hpos : 0 < first.length := List.length_pos_iff.mpr hf
        by_cases h1 : pos + (first ++ tail).length > lhs.length
        · rw [if_pos h1]
          refine ⟨none, rfl, fun j hj => ?_⟩
          have h2 : j + (first ++ tail).length ≤ lhs.length := occursAt_le hj.2
          have h3 := hj.1
          omega
        · rw [if_neg h1, if_neg (by rw [List.length_append]; omega)]
          rw [List.length_append] at h1
          exact fragmentLoop_spec lhs first tail hf (by omega) _ _ (by omega) (by omega)

/-! ## Occurrences in UTF-8 text are at code points -/

theorem boundary : ∀ (cs : List Nat), Scalars cs → ∀ (b x : Nat) (t : List Nat), x :: t <+: (encAll cs).drop b → ¬ (x &&& 0xC0 = 0x80) →
    ∃ i, i < cs.length ∧ b = off cs i := by
  intro cs
  induction cs with
  | nil =>
    intro _ b x t h _
    rw [encAll_nil, List.drop_nil] at h
    exact nomatch (List.prefix_nil.mp h)
  | cons c cs ih =>
    intro hs b x t h hx
    obtain ⟨y, u, he, hy, hu⟩ := enc_cont (hs c (by simp))
    rw [encAll_cons] at h
    rcases Nat.lt_or_ge b (enc c).length with hlt | hge
    · cases b with
      | zero => exact ⟨0, by simp, rfl⟩
      | succ b =>
        exfalso
        obtain ⟨w, hw⟩ := h
        have h1 : ((enc c ++ encAll cs).drop (b + 1))[0]? = some x := by rw [← hw]; rfl
        rw [List.getElem?_drop, List.getElem?_append_left (by omega), he, Nat.add_zero, List.getElem?_cons_succ] at h1
        exact hx (hu x (List.mem_of_getElem? h1))
    · obtain ⟨k, rfl⟩ : ∃ k, b = (enc c).length + k := ⟨b - (enc c).length, by omega⟩
      rw [← List.drop_drop, List.drop_left] at h
      obtain ⟨i, hi, e⟩ := ih (fun z hz => hs z (by simp [hz])) k x t h hx
      refine ⟨i + 1, by simp; omega, ?_⟩
      rw [e]
      unfold off
      rw [List.take_succ_cons, encAll_cons, List.length_append]

theorem off_strict {cs : List Nat} {i j : Nat} (h : i < j) (hi : i < cs.length) : off cs i < off cs j := by
  obtain ⟨k, rfl⟩ : ∃ k, j = i + (k + 1) := ⟨j - i - 1, by omega⟩
  rw [off_add]
  have hd : cs.drop i = cs[i] :: cs.drop (i + 1) := List.drop_eq_getElem_cons hi
  rw [hd]
  unfold off
  rw [List.take_succ_cons, encAll_cons, List.length_append]
  have := enc_pos cs[i]
  omega

theorem drop_off (cs : List Nat) (i : Nat) : (encAll cs).drop (off cs i) = encAll (cs.drop i) := by
  have e : encAll cs = encAll (cs.take i) ++ encAll (cs.drop i) := by rw [← encAll_append, List.take_append_drop]
  rw [e]; unfold off; rw [List.drop_left]

theorem occurs_enc {cs ns : List Nat} (hs : Scalars cs) (hn : Scalars ns) (hne : ns ≠ []) (b : Nat) :
    OccursAt (encAll ns) (encAll cs) b ↔ ∃ i, b = off cs i ∧ OccursAt ns cs i := by
  constructor
  · rintro ⟨h1, h2⟩
    obtain ⟨n, ns', rfl⟩ := List.exists_cons_of_ne_nil hne
    obtain ⟨y, u, he, hy, hu⟩ := enc_cont (hn n (by simp))
    have h3 : y :: (u ++ encAll ns') <+: (encAll cs).drop b := by
      rw [encAll_cons, he] at h2; exact h2
    obtain ⟨i, hi, rfl⟩ := boundary cs hs b _ _ h3 hy
    refine ⟨i, rfl, by omega, ?_⟩
    rw [drop_off] at h2
    exact (encAll_prefix hn (scalars_drop hs i)).mp h2
  · rintro ⟨i, rfl, h1, h2⟩
    refine ⟨?_, ?_⟩
    · have := off_mono cs h1
      rwa [off_len] at this
    · rw [drop_off]
      exact (encAll_prefix hn (scalars_drop hs i)).mpr h2

theorem find_scalars {s d : Str} {cs ds : List Nat} (hs : Holds s cs) (hd : Holds d ds) (hne : ds ≠ []) (k : Nat) (hk : k ≤ cs.length) :
    find s d (off cs k) = .ok ((firstOcc ds (cs.drop k)).map (fun i => off cs (k + i))) := by
  have hp : off cs k ≤ s.size := by
    rw [hs.size, ← off_len]; exact off_mono cs hk
  obtain ⟨r, h1, h2⟩ := find_spec s d hd.1 (off cs k) hp
  rw [h1]
  congr 1
  refine least_unique h2 ?_
  rw [hs.2.2, hd.2.2]
  have hm := firstOcc_least ds (cs.drop k)
  have conv : ∀ b, off cs k ≤ b ∧ OccursAt (encAll ds) (encAll cs) b → ∃ i, b = off cs (k + i) ∧ OccursAt ds (cs.drop k) i := by
    rintro b ⟨hb1, hb2⟩
    obtain ⟨i, rfl, hi⟩ := (occurs_enc hs.2.1 hd.2.1 hne b).mp hb2
    have hik : k ≤ i := by
      rcases Nat.lt_or_ge i k with h | h
      · have := off_strict (cs := cs) h (by omega)
        omega
      · exact h
    refine ⟨i - k, by rw [show k + (i - k) = i by omega], (occursAt_drop ds cs k _ hk).mpr ?_⟩
    rwa [show k + (i - k) = i by omega]
  cases hr : firstOcc ds (cs.drop k) with
  | none =>
    rw [hr] at hm
    intro b hb
    obtain ⟨i, _, hi⟩ := conv b hb
    exact hm i hi
  | some i =>
    rw [hr] at hm
    refine ⟨⟨off_mono cs (by omega), (occurs_enc hs.2.1 hd.2.1 hne _).mpr ⟨k + i, rfl, (occursAt_drop ds cs k _ hk).mp hm.1⟩⟩, fun b hb hb2 => ?_⟩
    obtain ⟨j, rfl, hj⟩ := conv b hb2
    have hji : j < i := by
      rcases Nat.lt_or_ge j i with h | h
      · exact h
      · have := off_mono cs (show k + i ≤ k + j by omega)
        dsimp at hb
        omega
    exact hm.2 j hji hj

/-! ## Cutting -/

/-- Up to `m` cuts, one at a time. -/
def cut (d : List Nat) : Nat → List Nat → List (List Nat) × List Nat
  | 0, s => ([], s)
  | m + 1, s =>
    match firstOcc d s with
    | none => ([], s)
    | some i =>
      let r := cut d m (s.drop (i + d.length))
      (s.take i :: r.1, r.2)

theorem cut_none {d s : List Nat} {m : Nat} (h : firstOcc d s = none) : cut d m s = ([], s) := by
  cases m with
  | zero => rfl
  | succ m => rw [cut, h]

theorem cut_some {d s : List Nat} {m i : Nat} (h : firstOcc d s = some i) :
    cut d (m + 1) s = (s.take i :: (cut d m (s.drop (i + d.length))).1, (cut d m (s.drop (i + d.length))).2) := by
  rw [cut, h]

theorem split_at {d s : List Nat} {i : Nat} (h : OccursAt d s i) : s = s.take i ++ d ++ s.drop (i + d.length) := by
  obtain ⟨h1, t, ht⟩ := h
  rw [← List.drop_drop, ← ht, List.drop_left, List.append_assoc, ht, List.take_append_drop]

/-- An occurrence inside the first part of a string is one in the string. -/
theorem occursAt_left {d a b : List Nat} {j : Nat} (h : OccursAt d a j) : OccursAt d (a ++ b) j := by
  refine ⟨by have := h.1; rw [List.length_append]; omega, ?_⟩
  rw [List.drop_append_of_le_length h.1]
  exact h.2.trans (List.prefix_append _ _)

theorem occursAt_left_iff {d a b : List Nat} {j : Nat} (hj : j + d.length ≤ a.length) : OccursAt d (a ++ b) j ↔ OccursAt d a j := by
  constructor
  · rintro ⟨h1, h2⟩
    refine ⟨by omega, ?_⟩
    rw [List.drop_append_of_le_length (by omega)] at h2
    exact List.prefix_of_prefix_length_le h2 (List.prefix_append _ _) (by rw [List.length_drop]; omega)
  · exact occursAt_left

theorem cut_cuts (d : List Nat) (hd : d ≠ []) : ∀ m s, Cuts d s (some m) (cut d m s).1 (cut d m s).2 := by
  intro m
  induction m with
  | zero =>
    intro s
    exact ⟨rfl, by simp [cut], fun m h => by simp [cut], .inl rfl⟩
  | succ m ih =>
    intro s
    have hl := firstOcc_least d s
    cases hr : firstOcc d s with
    | none =>
      rw [cut_none hr]
      rw [hr] at hl
      exact ⟨rfl, by simp, fun m h => by simp, .inr hl⟩
    | some i =>
      rw [hr] at hl
      rw [cut_some hr]
      have hi := ih (s.drop (i + d.length))
      have hlen : (s.take i).length = i := by rw [List.length_take]; have := hl.1.1; omega
      refine ⟨?_, ?_, ?_, ?_⟩
      · show s = (s.take i :: _).flatMap _ ++ _
        rw [List.flatMap_cons, List.append_assoc, ← hi.whole]
        exact split_at hl.1
      · intro p hp j hj
        rcases List.mem_cons.mp hp with rfl | hp
        · rw [hlen]
          have hjl := occursAt_le hj
          rw [List.length_append, hlen] at hjl
          rcases Nat.lt_or_ge j i with h | h
          · refine absurd ?_ (hl.2 j h)
            have := occursAt_left (b := s.drop (i + d.length)) hj
            rwa [← split_at hl.1] at this
          · omega
        · exact hi.first p hp j hj
      · intro k hk
        have := hi.few m rfl
        injection hk with hk
        show (_ :: _ : List (List Nat)).length ≤ k
        rw [List.length_cons]; omega
      · rcases hi.done with h | h
        · left
          injection h with h
          rw [List.length_cons, ← h]
        · exact .inr h

theorem cuts_count {d s : List Nat} {m : Option Nat} {ps : List (List Nat)} {last : List Nat} (h : Cuts d s m ps last) :
    ps.length * d.length ≤ s.length := by
  rw [h.whole, List.length_append]
  suffices ps.length * d.length ≤ (ps.flatMap (fun p => p ++ d)).length by omega
  clear h
  induction ps with
  | nil => simp
  | cons p ps ih =>
    rw [List.flatMap_cons, List.length_append, List.length_append, List.length_cons, Nat.succ_mul]; omega

/-- With more cuts allowed than the string has characters the limit does not matter. -/
theorem cuts_unlimited {d s : List Nat} (hd : d ≠ []) {m : Nat} (hm : s.length < m) {ps : List (List Nat)} {last : List Nat}
    (h : Cuts d s (some m) ps last) : Cuts d s none ps last := by
  refine ⟨h.whole, h.first, fun m h => by simp at h, .inr ?_⟩
  rcases h.done with e | e
  · injection e with e
    have h1 := cuts_count h
    have h2 : 0 < d.length := List.length_pos_iff.mpr hd
    have h3 : ps.length * 1 ≤ ps.length * d.length := Nat.mul_le_mul_left _ h2
    omega
  · exact e

/-- C46: the specification determines the pieces. -/
theorem C46_cuts_unique (d s : List Nat) (max : Option Nat) (ps qs : List (List Nat)) (l1 l2 : List Nat)
    (h1 : Cuts d s max ps l1) (h2 : Cuts d s max qs l2) : ps = qs ∧ l1 = l2 := by
  induction ps generalizing s max qs with
  | nil =>
    cases qs with
    | nil =>
      have e1 := h1.whole
      have e2 := h2.whole
      simp at e1 e2
      exact ⟨rfl, by rw [← e1, ← e2]⟩
    | cons q qs =>
      exfalso
      rcases h1.done with h | h
      · have := h2.few 0 h
        simp at this
      · have e1 := h1.whole
        have e2 := h2.whole
        rw [List.flatMap_nil, List.nil_append] at e1
        refine h q.length ?_
        rw [← e1, e2, List.flatMap_cons]
        refine ⟨by simp, ?_⟩
        rw [List.append_assoc, List.append_assoc, List.drop_left]
        exact List.prefix_append _ _
  | cons p ps ih =>
    cases qs with
    | nil =>
      exfalso
      rcases h2.done with h | h
      · have := h1.few 0 h
        simp at this
      · have e1 := h1.whole
        have e2 := h2.whole
        rw [List.flatMap_nil, List.nil_append] at e2
        refine h p.length ?_
        rw [← e2, e1, List.flatMap_cons]
        refine ⟨by simp, ?_⟩
        rw [List.append_assoc, List.append_assoc, List.drop_left]
        exact List.prefix_append _ _
    | cons q qs =>
      have e1 := h1.whole
      have e2 := h2.whole
      rw [List.flatMap_cons, List.append_assoc] at e1 e2
      have first_le : ∀ (a b : List Nat) (x y : List Nat), a ++ d ++ x = b ++ d ++ y →
          (∀ j, OccursAt d (b ++ d) j → j = b.length) → b.length ≤ a.length := by
        intro a b x y e hb
        rcases Nat.lt_or_ge a.length b.length with h | h
        · have occ : OccursAt d (a ++ d ++ x) a.length := by
            refine ⟨by simp, ?_⟩
            rw [List.append_assoc, List.drop_left]
            exact List.prefix_append _ _
          rw [e] at occ
          have := hb _ ((occursAt_left_iff (by rw [List.length_append]; omega)).mp occ)
          omega
        · exact h
      have hlen : p.length = q.length :=
        Nat.le_antisymm (first_le q p _ _ (e2.symm.trans e1) (h1.first p (by simp)))
          (first_le p q _ _ (e1.symm.trans e2) (h2.first q (by simp)))
      have e3 := e1.symm.trans e2
      rw [List.append_assoc, List.append_assoc] at e3
      obtain ⟨rfl, e4⟩ := List.append_inj e3 hlen
      have e5 := List.append_cancel_left e4
      have tail : ∀ (max : Option Nat) (rs : List (List Nat)) (l : List Nat), Cuts d s max (p :: rs) l →
          Cuts d (rs.flatMap (fun p => p ++ d) ++ l) (max.map (· - 1)) rs l := by
        intro max rs l h
        refine ⟨rfl, fun p hp => h.first p (by simp [hp]), fun m hm => ?_, ?_⟩
        · cases max with
          | none => simp at hm
          | some k =>
            have := h.few k rfl
            simp at hm this
            omega
        · rcases h.done with e | e
          · left; rw [e]; simp
          · exact .inr e
      obtain ⟨e6, e7⟩ := ih _ _ _ (tail _ _ _ h1) (e5 ▸ tail _ _ _ h2)
      exact ⟨by rw [e6], e7⟩

/-! ## split -/

theorem slices_append (b : List Nat) : ∀ (xs ys : List (Nat × Nat)) (us vs : List (List Nat)), slices b xs = .ok us → slices b ys = .ok vs →
    slices b (xs ++ ys) = .ok (us ++ vs) := by
  intro xs
  induction xs with
  | nil => intro ys us vs h1 h2; injection h1 with h1; subst h1; exact h2
  | cons x xs ih =>
    intro ys us vs h1 h2
    rw [List.cons_append, slices]
    rw [slices] at h1
    cases hx : slice b x.1 x.2 with
    | ok u =>
      rw [hx] at h1
      cases hxs : slices b xs with
      | ok us' =>
        rw [hxs] at h1
        injection h1 with h1
        rw [ih ys us' vs hxs h2, ← h1]
        rfl
      | err e => rw [hxs] at h1; exact nomatch h1
      | ub => rw [hxs] at h1; exact nomatch h1
    | err e => rw [hx] at h1; exact nomatch h1
    | ub => rw [hx] at h1; exact nomatch h1

theorem slices_one {b x : List Nat} {p : Nat × Nat} (h : slice b p.1 p.2 = .ok x) : slices b [p] = .ok [x] := by
  rw [slices, h]; rfl

theorem slice_end {s : Str} {cs : List Nat} (h : Holds s cs) {k : Nat} (hk : k ≤ cs.length) :
    slice s.bytes (off cs k) s.size = .ok (encAll (cs.drop k)) := by
  have e : s.size = off cs (k + (cs.length - k)) := by rw [show k + (cs.length - k) = cs.length by omega, off_len, h.size]
  rw [e, slice_off h, List.take_of_length_le (by rw [List.length_drop]; omega)]

theorem off_add_enc {cs ds : List Nat} {k i : Nat} (h : OccursAt ds (cs.drop k) i) :
    off cs (k + i) + (encAll ds).length = off cs (k + i + ds.length) := by
  rw [off_add cs (k + i)]
  obtain ⟨_, t, ht⟩ := h
  rw [List.drop_drop] at ht
  rw [← ht]
  unfold off
  rw [List.take_left]

theorem firstOcc_nil {ds : List Nat} (h : ds ≠ []) : firstOcc ds [] = none := by rw [firstOcc, if_neg h]

theorem splitLoop_spec (s d : Str) (cs ds : List Nat) (hs : Holds s cs) (hd : Holds d ds) (hne : ds ≠ []) :
    ∀ fuel k m splits us, k ≤ cs.length → cs.length - k < fuel → slices s.bytes splits = .ok us →
      ∃ p rs, splitLoop s d fuel (off cs k) ((m : Nat) + 1 : Int) splits = .ok (p, rs) ∧
        slices s.bytes (rs ++ [(p, s.size)]) =
          .ok (us ++ ((cut ds m (cs.drop k)).1 ++ [(cut ds m (cs.drop k)).2]).map encAll) := by
  intro fuel
  have hds : 0 < ds.length := List.length_pos_iff.mpr hne
  induction fuel with
  | zero => intro k m splits us h1 h2; omega
  | succ fuel ih =>
    intro k m splits us hk hf hsl
    have stop : cut ds m (cs.drop k) = ([], cs.drop k) →
        slices s.bytes (splits ++ [(off cs k, s.size)]) =
          .ok (us ++ ((cut ds m (cs.drop k)).1 ++ [(cut ds m (cs.drop k)).2]).map encAll) := by
      intro e
      rw [e]
      exact slices_append _ _ _ _ _ hsl (slices_one (slice_end hs hk))
    rw [splitLoop]
    by_cases hg : off cs k < s.size ∧ ((m : Nat) + 1 : Int) > 1
    · rw [if_pos hg, find_scalars hs hd hne k hk]
      have hl := firstOcc_least ds (cs.drop k)
      obtain ⟨m, rfl⟩ : ∃ m', m = m' + 1 := ⟨m - 1, by omega⟩
      cases hr : firstOcc ds (cs.drop k) with
      | none =>
        exact ⟨off cs k, splits, rfl, stop (cut_none hr)⟩
      | some i =>
        rw [hr] at hl
        have hle := occursAt_le hl.1
        rw [List.length_drop] at hle
        show ∃ p rs, splitLoop s d fuel (off cs (k + i) + d.size) ((((m + 1 : Nat) : Int) + 1) - 1) (splits ++ [(off cs k, off cs (k + i))]) = _ ∧ _
        rw [hd.size, off_add_enc hl.1, show (((m + 1 : Nat) : Int) + 1) - 1 = (m : Int) + 1 by omega]
        obtain ⟨p, rs, h1, h2⟩ := ih (k + i + ds.length) m (splits ++ [(off cs k, off cs (k + i))])
          (us ++ [encAll ((cs.drop k).take i)]) (by omega) (by omega)
          (slices_append _ _ _ _ _ hsl (slices_one (slice_off hs k i)))
        refine ⟨p, rs, h1, ?_⟩
        rw [h2, cut_some hr, List.drop_drop, ← Nat.add_assoc]
        simp
    · rw [if_neg hg]
      refine ⟨off cs k, splits, rfl, stop ?_⟩
      by_cases hm : m = 0
      · subst hm; rfl
      · have : ¬ off cs k < s.size := by
          intro h
          exact hg ⟨h, by omega⟩
        have hkl : cs.length ≤ k := by
          rcases Nat.lt_or_ge k cs.length with h | h
          · have := off_lt h
            rw [hs.size] at *
            omega
          · exact h
        rw [List.drop_of_length_le hkl]
        exact cut_none (firstOcc_nil hne)

theorem splitEmptyLoop_spec (s : Str) (cs : List Nat) (hs : Holds s cs) :
    ∀ fuel k m splits us, k ≤ cs.length → cs.length - k < fuel → slices s.bytes splits = .ok us → splits.length = k →
      ∃ rs, splitEmptyLoop s fuel (off cs k) ((m : Nat) + 1 : Int) splits = .ok (off cs (min cs.length (k + m)), rs) ∧
        rs.length = min cs.length (k + m) ∧
        slices s.bytes rs = .ok (us ++ ((cs.drop k).take m).map (fun c => encAll [c])) := by
  intro fuel
  induction fuel with
  | zero => intro k m splits us h1 h2; omega
  | succ fuel ih =>
    intro k m splits us hk hf hsl hlen
    rw [splitEmptyLoop]
    by_cases hg : off cs k < s.size ∧ ((m : Nat) + 1 : Int) > 1
    · rw [if_pos hg]
      obtain ⟨m, rfl⟩ : ∃ m', m = m' + 1 := ⟨m - 1, by omega⟩
      have hlt : k < cs.length := by
        rcases Nat.lt_or_ge k cs.length with h | h
        · exact h
        · have := hg.1
          rw [off_of_le h, hs.size] at this
          omega
      have hdr : cs.drop k = cs[k] :: cs.drop (k + 1) := List.drop_eq_getElem_cons hlt
      generalize cs[k] = c at hdr
      have hat := hs.at k
      rw [hdr] at hat
      obtain ⟨hdec, _, _⟩ := hat.step
      rw [hdec]
      show ∃ rs, splitEmptyLoop s fuel (off cs k + (enc c).length) ((((m + 1 : Nat) : Int) + 1) - 1) (splits ++ [(off cs k, off cs k + (enc c).length)]) = _ ∧ _
      rw [← off_succ hdr, show (((m + 1 : Nat) : Int) + 1) - 1 = (m : Int) + 1 by omega]
      have h1 : slice s.bytes (off cs k) (off cs (k + 1)) = .ok (encAll [c]) := by
        rw [slice_off hs k 1, hdr]; rfl
      obtain ⟨rs, e1, e2, e3⟩ := ih (k + 1) m (splits ++ [(off cs k, off cs (k + 1))]) (us ++ [encAll [c]]) (by omega) (by omega)
        (slices_append _ _ _ _ _ hsl (slices_one h1)) (by simp [hlen])
      refine ⟨rs, ?_, ?_, ?_⟩
      · rw [e1, show k + 1 + m = k + (m + 1) by omega]
      · rw [e2, show k + 1 + m = k + (m + 1) by omega]
      · rw [e3, hdr]; simp
    · rw [if_neg hg]
      by_cases hm : m = 0
      · subst hm
        refine ⟨splits, ?_, ?_, ?_⟩
        · rw [Nat.add_zero, Nat.min_eq_right hk]
        · rw [Nat.add_zero, Nat.min_eq_right hk, hlen]
        · rw [hsl]; simp
      · have hkl : cs.length ≤ k := by
          rcases Nat.lt_or_ge k cs.length with h | h
          · have := off_lt h
            rw [hs.size] at hg
            exact absurd ⟨this, by omega⟩ hg
          · exact h
        have : k = cs.length := by omega
        subst this
        refine ⟨splits, ?_, ?_, ?_⟩
        · rw [Nat.min_eq_left (by omega)]
        · rw [Nat.min_eq_left (by omega), hlen]
        · rw [hsl, List.drop_of_length_le (Nat.le_refl _)]; simp

/-- The result of `Split` in terms of `cut`. -/
theorem split_eq (s d : Str) (cs ds : List Nat) (hs : Holds s cs) (hd : Holds d ds) (hne : ds ≠ []) (limit : Int) (h0 : limit ≠ 0) (m : Nat)
    (hm : unlimited limit = (m : Int) + 1) : split s d limit = .ok (((cut ds m cs).1 ++ [(cut ds m cs).2]).map encAll) := by
  have hdb : d.bytes ≠ [] := by rw [Ne, hd.nil]; exact hne
  rw [split, if_neg h0, if_neg hdb, hm]
  obtain ⟨p, rs, h1, h2⟩ := splitLoop_spec s d cs ds hs hd hne (s.size + 1) 0 m [] [] (by omega) (by have := fuel_ok hs; omega) rfl
  rw [off_zero] at h1
  rw [h1]
  show slices s.bytes (if rs = [] ∨ d.bytes ≠ [] ∨ p < s.size then rs ++ [(p, s.size)] else rs) = _
  rw [if_pos (.inr (.inl hdb)), h2]
  rfl

/-- C46: `s.split(d, limit)` for `d` not empty: the pieces between the first `limit - 1` occurrences of `d` (all of them for a
negative limit or `s.split(d)`) and the rest; no pieces for 0.  Strings have fewer than 2^63 - 2 bytes. -/
theorem C46_split (s d : Str) (cs ds : List Nat) (hs : Holds s cs) (hd : Holds d ds) (hne : ds ≠ [])
    (hsize : (s.size : Int) < i64Max - 1) (limit : Int) :
    (limit = 0 → split s d limit = .ok []) ∧
    (limit ≠ 0 → ∃ pieces last, Cuts ds cs (if limit < 0 then none else some (limit - 1).toNat) pieces last ∧
      split s d limit = .ok ((pieces ++ [last]).map encAll)) := by
  refine ⟨fun h => by rw [split, if_pos h], fun h0 => ?_⟩
  by_cases hneg : limit < 0
  · rw [if_pos hneg]
    have hu : unlimited limit = ((i64Max - 1).toNat : Int) + 1 := by
      rw [unlimited, if_pos hneg]; decide
    refine ⟨_, _, cuts_unlimited hne ?_ (cut_cuts ds hne (i64Max - 1).toNat cs), split_eq s d cs ds hs hd hne limit h0 _ hu⟩
    have := length_le_encAll cs
    rw [hs.size] at hsize
    omega
  · rw [if_neg hneg]
    have hu : unlimited limit = ((limit - 1).toNat : Int) + 1 := by
      rw [unlimited, if_neg hneg]; omega
    exact ⟨_, _, cut_cuts ds hne (limit - 1).toNat cs, split_eq s d cs ds hs hd hne limit h0 _ hu⟩

/-- C46: with the empty delimiter: the first `limit - 1` code points (all of them for a negative limit), one by one, and the rest, if
there is one. -/
theorem C46_split_empty (s d : Str) (cs : List Nat) (hs : Holds s cs) (hd : Holds d [])
    (hsize : (s.size : Int) < i64Max - 1) (limit : Int) :
    (limit = 0 → split s d limit = .ok []) ∧
    (cs = [] → limit ≠ 0 → split s d limit = .ok [[]]) ∧
    (limit < 0 ∨ limit > cs.length → cs ≠ [] → split s d limit = .ok (cs.map enc)) ∧
    (0 < limit → limit ≤ cs.length →
      split s d limit = .ok ((cs.take (limit - 1).toNat).map enc ++ [encAll (cs.drop (limit - 1).toNat)])) := by
  have hdb : d.bytes = [] := by rw [hd.nil]
  have one : ∀ l : List Nat, l.map (fun c => encAll [c]) = l.map enc := by
    intro l; refine List.map_congr_left (fun c _ => ?_); simp [encAll]
  have key : ∀ m : Nat, limit ≠ 0 → unlimited limit = (m : Int) + 1 →
      split s d limit = .ok ((cs.take m).map enc ++ (if cs = [] ∨ m < cs.length then [encAll (cs.drop m)] else [])) := by
    intro m h0 hm
    rw [split, if_neg h0, if_pos hdb, hm]
    obtain ⟨rs, h1, h2, h3⟩ := splitEmptyLoop_spec s cs hs (s.size + 1) 0 m [] [] (by omega) (by have := fuel_ok hs; omega) rfl rfl
    rw [off_zero, Nat.zero_add] at h1
    rw [Nat.zero_add] at h2
    rw [h1]
    show slices s.bytes (if rs = [] ∨ d.bytes ≠ [] ∨ off cs (min cs.length m) < s.size then rs ++ [(off cs (min cs.length m), s.size)] else rs) = _
    rw [List.drop_zero, List.nil_append, one] at h3
    by_cases hc : cs = [] ∨ m < cs.length
    · rw [if_pos hc, if_pos, slices_append _ _ _ _ _ h3 (slices_one (slice_end hs (Nat.min_le_left _ _)))]
      · congr 3
        rcases hc with rfl | hc
        · simp
        · rw [Nat.min_eq_right (by omega)]
      · rcases hc with rfl | hc
        · left
          exact List.eq_nil_of_length_eq_zero (by rw [h2]; simp)
        · right; right
          rw [Nat.min_eq_right (by omega), hs.size]
          exact off_lt hc
    · have hc1 : cs ≠ [] := fun h => hc (.inl h)
      have hc2 : cs.length ≤ m := by
        rcases Nat.lt_or_ge m cs.length with h | h
        · exact absurd (.inr h) hc
        · exact h
      rw [if_neg hc, if_neg, h3, List.append_nil]
      rintro (h | h | h)
      · rw [h, Nat.min_eq_left hc2] at h2
        exact hc1 (List.eq_nil_of_length_eq_zero h2.symm)
      · exact h hdb
      · rw [Nat.min_eq_left hc2, off_len, hs.size] at h
        omega
  have hlen : (cs.length : Int) < i64Max - 1 := by
    have := length_le_encAll cs
    rw [hs.size] at hsize
    omega
  have neg : limit < 0 → unlimited limit = ((i64Max - 1).toNat : Int) + 1 := by
    intro h; rw [unlimited, if_pos h]; decide
  have pos : 0 < limit → unlimited limit = ((limit - 1).toNat : Int) + 1 := by
    intro h; rw [unlimited, if_neg (by omega)]; omega
  refine ⟨fun h => by rw [split, if_pos h], ?_, ?_, ?_⟩
  · rintro rfl h0
    rcases Int.lt_or_gt_of_ne h0 with h | h
    · rw [key _ h0 (neg h)]; simp [encAll]
    · rw [key _ h0 (pos h)]; simp [encAll]
  · intro h hne
    have fin : ∀ m, cs.length ≤ m → (cs.take m).map enc ++ (if cs = [] ∨ m < cs.length then [encAll (cs.drop m)] else []) = cs.map enc := by
      intro m hm
      rw [if_neg (by rintro (h | h); exact hne h; omega), List.take_of_length_le hm, List.append_nil]
    rcases h with h | h
    · rw [key _ (by omega) (neg h), fin _ (by omega)]
    · rw [key _ (by omega) (pos (by omega)), fin _ (by omega)]
  · intro h1 h2
    rw [key _ (by omega) (pos h1), if_pos (.inr (by omega))]

/-- C46: joining the pieces of a split gives the string again, whatever the delimiter and the limit (but 0). -/
theorem C46_join_split (s d : Str) (cs ds : List Nat) (hs : Holds s cs) (hd : Holds d ds)
    (hsize : (s.size : Int) < i64Max - 1) (limit : Int) (h0 : limit ≠ 0) :
    ∃ ps, split s d limit = .ok ps ∧ join d.bytes (ps.map some) = .ok s.bytes := by
  have nosep : ∀ l : List (List Nat), between [] l = l.flatten := by
    intro l
    induction l with
    | nil => rfl
    | cons a l ih =>
      cases l with
      | nil => simp [between]
      | cons b l =>
        show a ++ [] ++ between [] (b :: l) = _
        rw [ih]; simp
  by_cases hne : ds = []
  · subst hne
    obtain ⟨_, h1, h2, h3⟩ := C46_split_empty s d cs hs hd hsize limit
    have hdb : d.bytes = [] := by rw [hd.nil]
    rw [hs.2.2, hdb]
    by_cases hc : cs = []
    · refine ⟨_, h1 hc h0, ?_⟩
      rw [hc]; rfl
    · by_cases hl : limit < 0 ∨ limit > cs.length
      · refine ⟨_, h2 hl hc, ?_⟩
        rw [(C46_join [] _).1, nosep]
        unfold encAll
        rw [List.flatMap_def]
      · refine ⟨_, h3 (by omega) (by omega), ?_⟩
        rw [(C46_join [] _).1, nosep, List.flatten_append, ← List.flatMap_def]
        show Res.ok (encAll (cs.take _) ++ [encAll (cs.drop _)].flatten) = _
        rw [List.flatten_singleton, ← encAll_append, List.take_append_drop]
  · obtain ⟨ps, last, hc, he⟩ := (C46_split s d cs ds hs hd hne hsize limit).2 h0
    refine ⟨_, he, ?_⟩
    rw [(C46_join _ _).1, List.map_append, List.map_singleton, between_flatMap, hs.2.2, hc.whole, hd.2.2, encAll_append]
    congr 2
    rw [List.flatMap_map]
    have : ∀ l : List (List Nat), l.flatMap (fun p => encAll p ++ encAll ds) = encAll (l.flatMap (fun p => p ++ ds)) := by
      intro l
      induction l with
      | nil => rfl
      | cons a l ih => rw [List.flatMap_cons, List.flatMap_cons, encAll_append, encAll_append, ih]
    exact this ps

/-! ## replace -/

theorem replaceRest_spec {s : Str} {cs : List Nat} (h : Holds s cs) {k : Nat} (hk : k ≤ cs.length) (out : List Nat) :
    replaceRest s (off cs k) out = .ok (out ++ encAll (cs.drop k)) := by
  rw [replaceRest]
  by_cases hlt : off cs k < s.size
  · rw [if_pos hlt, slice_end h hk]; rfl
  · rw [if_neg hlt]
    have : cs.length ≤ k := by
      rcases Nat.lt_or_ge k cs.length with h' | h'
      · have := off_lt h'
        rw [h.size] at hlt
        omega
      · exact h'
    rw [List.drop_of_length_le this, encAll_nil, List.append_nil]

theorem replaceLoop_spec (s d : Str) (r : List Nat) (cs ds : List Nat) (hs : Holds s cs) (hd : Holds d ds) (hne : ds ≠ []) :
    ∀ fuel k (m : Nat) out, k ≤ cs.length → cs.length - k < fuel →
      ∃ k' o, replaceLoop s d r fuel (off cs k) (m : Int) out = .ok (off cs k', o) ∧ k' ≤ cs.length ∧
        o ++ encAll (cs.drop k') = out ++ (cut ds m (cs.drop k)).1.flatMap (fun p => encAll p ++ r) ++ encAll (cut ds m (cs.drop k)).2 := by
  intro fuel
  have hds : 0 < ds.length := List.length_pos_iff.mpr hne
  induction fuel with
  | zero => intro k m out h1 h2; omega
  | succ fuel ih =>
    intro k m out hk hf
    have stop : cut ds m (cs.drop k) = ([], cs.drop k) →
        out ++ encAll (cs.drop k) = out ++ (cut ds m (cs.drop k)).1.flatMap (fun p => encAll p ++ r) ++ encAll (cut ds m (cs.drop k)).2 := by
      intro e
      rw [e]; simp
    rw [replaceLoop]
    by_cases hg : off cs k < s.size ∧ (m : Int) > 0
    · rw [if_pos hg, find_scalars hs hd hne k hk]
      have hl := firstOcc_least ds (cs.drop k)
      obtain ⟨m, rfl⟩ : ∃ m', m = m' + 1 := ⟨m - 1, by omega⟩
      cases hr : firstOcc ds (cs.drop k) with
      | none =>
        exact ⟨k, out, rfl, hk, stop (cut_none hr)⟩
      | some i =>
        rw [hr] at hl
        have hle := occursAt_le hl.1
        rw [List.length_drop] at hle
        show ∃ k' o, (slice s.bytes (off cs k) (off cs (k + i)) >>= fun x =>
          replaceLoop s d r fuel (off cs (k + i) + d.size) (((m + 1 : Nat) : Int) - 1) (out ++ x ++ r)) = _ ∧ _
        rw [slice_off hs k i]
        show ∃ k' o, replaceLoop s d r fuel (off cs (k + i) + d.size) (((m + 1 : Nat) : Int) - 1) (out ++ encAll ((cs.drop k).take i) ++ r) = _ ∧ _
        rw [hd.size, off_add_enc hl.1, show ((m + 1 : Nat) : Int) - 1 = (m : Int) by omega]
        obtain ⟨k', o, h1, h2, h3⟩ := ih (k + i + ds.length) m (out ++ encAll ((cs.drop k).take i) ++ r) (by omega) (by omega)
        refine ⟨k', o, h1, h2, ?_⟩
        rw [h3, cut_some hr, List.drop_drop, ← Nat.add_assoc]
        simp
    · rw [if_neg hg]
      refine ⟨k, out, rfl, hk, stop ?_⟩
      by_cases hm : m = 0
      · subst hm; rfl
      · have hkl : cs.length ≤ k := by
          rcases Nat.lt_or_ge k cs.length with h | h
          · have := off_lt h
            rw [hs.size] at hg
            exact absurd ⟨this, by omega⟩ hg
          · exact h
        rw [List.drop_of_length_le hkl]
        exact cut_none (firstOcc_nil hne)

theorem replace_eq (s d r : Str) (cs ds rs : List Nat) (hs : Holds s cs) (hd : Holds d ds) (hr : Holds r rs) (hne : ds ≠ [])
    (limit : Int) (h0 : limit ≠ 0) (m : Nat) (hm : unlimited limit = (m : Int)) :
    replace s d r limit = .ok (encAll ((cut ds m cs).1.flatMap (fun p => p ++ rs) ++ (cut ds m cs).2)) := by
  have hdb : d.bytes ≠ [] := by rw [Ne, hd.nil]; exact hne
  rw [replace, if_neg h0, if_neg hdb, hm]
  obtain ⟨k, o, h1, h2, h3⟩ := replaceLoop_spec s d r.bytes cs ds hs hd hne (s.size + 1) 0 m [] (by omega) (by have := fuel_ok hs; omega)
  rw [off_zero] at h1
  rw [h1]
  show replaceRest s (off cs k) o = _
  rw [replaceRest_spec hs h2, h3, hr.2.2, encAll_append, List.drop_zero, List.nil_append]
  congr 2
  have : ∀ l : List (List Nat), l.flatMap (fun p => encAll p ++ encAll rs) = encAll (l.flatMap (fun p => p ++ rs)) := by
    intro l
    induction l with
    | nil => rfl
    | cons a l ih => rw [List.flatMap_cons, List.flatMap_cons, encAll_append, encAll_append, ih]
  exact this _

/-- C46: `s.replace(d, r, limit)` for `d` not empty: `r` in place of the first `limit` occurrences of `d` (all of them for a negative
limit or `s.replace(d, r)`). -/
theorem C46_replace (s d r : Str) (cs ds rs : List Nat) (hs : Holds s cs) (hd : Holds d ds) (hr : Holds r rs) (hne : ds ≠ [])
    (hsize : (s.size : Int) < i64Max - 1) (limit : Int) :
    ∃ pieces last, Cuts ds cs (cutsFor limit) pieces last ∧
      replace s d r limit = .ok (encAll (pieces.flatMap (fun p => p ++ rs) ++ last)) := by
  by_cases h0 : limit = 0
  · subst h0
    refine ⟨[], cs, ⟨rfl, by simp, fun m h => by simp, .inl rfl⟩, ?_⟩
    rw [replace, if_pos rfl, hs.2.2]; rfl
  · by_cases hneg : limit < 0
    · rw [cutsFor, if_pos hneg]
      have hu : unlimited limit = (i64Max.toNat : Int) := by rw [unlimited, if_pos hneg]; decide
      refine ⟨_, _, cuts_unlimited hne ?_ (cut_cuts ds hne i64Max.toNat cs), replace_eq s d r cs ds rs hs hd hr hne limit h0 _ hu⟩
      have := length_le_encAll cs
      rw [hs.size] at hsize
      omega
    · rw [cutsFor, if_neg hneg]
      have hu : unlimited limit = (limit.toNat : Int) := by rw [unlimited, if_neg hneg]; omega
      exact ⟨_, _, cut_cuts ds hne limit.toNat cs, replace_eq s d r cs ds rs hs hd hr hne limit h0 _ hu⟩

theorem replaceEmptyLoop_spec (s : Str) (r cs : List Nat) (hs : Holds s cs) :
    ∀ fuel k (m : Nat) out, k ≤ cs.length → cs.length - k < fuel →
      replaceEmptyLoop s r fuel (off cs k) (m : Int) out =
        .ok (off cs (min cs.length (k + m)), ((m - (min cs.length (k + m) - k) : Nat) : Int),
          out ++ ((cs.drop k).take m).flatMap (fun c => r ++ enc c)) := by
  intro fuel
  induction fuel with
  | zero => intro k m out h1 h2; omega
  | succ fuel ih =>
    intro k m out hk hf
    rw [replaceEmptyLoop]
    by_cases hg : off cs k < s.size ∧ (m : Int) > 0
    · rw [if_pos hg]
      obtain ⟨m, rfl⟩ : ∃ m', m = m' + 1 := ⟨m - 1, by omega⟩
      have hlt : k < cs.length := by
        rcases Nat.lt_or_ge k cs.length with h | h
        · exact h
        · have := hg.1
          rw [off_of_le h, hs.size] at this
          omega
      have hdr : cs.drop k = cs[k] :: cs.drop (k + 1) := List.drop_eq_getElem_cons hlt
      generalize cs[k] = c at hdr
      have hat := hs.at k
      rw [hdr] at hat
      obtain ⟨hdec, _, _⟩ := hat.step
      rw [hdec]
      show (slice s.bytes (off cs k) (off cs k + (enc c).length) >>= fun x =>
        replaceEmptyLoop s r fuel (off cs k + (enc c).length) (((m + 1 : Nat) : Int) - 1) (out ++ r ++ x)) = _
      have h1 : slice s.bytes (off cs k) (off cs (k + 1)) = .ok (enc c) := by
        rw [slice_off hs k 1, hdr]; simp [encAll]
      rw [← off_succ hdr, h1]
      show replaceEmptyLoop s r fuel (off cs (k + 1)) (((m + 1 : Nat) : Int) - 1) (out ++ r ++ enc c) = _
      rw [show ((m + 1 : Nat) : Int) - 1 = (m : Int) by omega, ih (k + 1) m _ (by omega) (by omega)]
      have e1 : k + 1 + m = k + (m + 1) := by omega
      have e2 : m - (min cs.length (k + (m + 1)) - (k + 1)) = m + 1 - (min cs.length (k + (m + 1)) - k) := by omega
      rw [e1, e2, hdr]
      simp
    · rw [if_neg hg]
      by_cases hm : m = 0
      · subst hm
        rw [Nat.add_zero, Nat.min_eq_right hk]
        simp
      · have hkl : cs.length ≤ k := by
          rcases Nat.lt_or_ge k cs.length with h | h
          · have := off_lt h
            rw [hs.size] at hg
            exact absurd ⟨this, by omega⟩ hg
          · exact h
        have : k = cs.length := by omega
        subst this
        rw [Nat.min_eq_left (by omega), List.drop_of_length_le (Nat.le_refl _)]
        simp

/-- C46: with the empty string for `d`: `r` before each of the first `limit` code points and, while the limit is not used up, at the
end. -/
theorem C46_replace_empty (s d r : Str) (cs rs : List Nat) (hs : Holds s cs) (hd : Holds d []) (hr : Holds r rs)
    (hsize : (s.size : Int) < i64Max - 1) (limit : Int) :
    (limit < 0 ∨ limit > cs.length → replace s d r limit = .ok (encAll (cs.flatMap (fun c => rs ++ [c]) ++ rs))) ∧
    (0 ≤ limit → limit ≤ cs.length →
      replace s d r limit = .ok (encAll ((cs.take limit.toNat).flatMap (fun c => rs ++ [c]) ++ cs.drop limit.toNat))) := by
  have hdb : d.bytes = [] := by rw [hd.nil]
  have conv : ∀ l : List Nat, l.flatMap (fun c => encAll rs ++ enc c) = encAll (l.flatMap (fun c => rs ++ [c])) := by
    intro l
    induction l with
    | nil => rfl
    | cons a l ih =>
      rw [List.flatMap_cons, List.flatMap_cons, encAll_append, encAll_append, ih]
      simp [encAll]
  have key : ∀ m : Nat, limit ≠ 0 → unlimited limit = (m : Int) →
      replace s d r limit = .ok (encAll ((cs.take m).flatMap (fun c => rs ++ [c]) ++ (if cs.length < m then rs else []) ++ cs.drop m)) := by
    intro m h0 hm
    rw [replace, if_neg h0, if_pos hdb, hm]
    have h1 := replaceEmptyLoop_spec s r.bytes cs hs (s.size + 1) 0 m [] (by omega) (by have := fuel_ok hs; omega)
    rw [off_zero, Nat.zero_add] at h1
    rw [h1]
    show replaceRest s (off cs (min cs.length m))
      (if ((m - (min cs.length m - 0) : Nat) : Int) > 0 then [] ++ ((cs.drop 0).take m).flatMap (fun c => r.bytes ++ enc c) ++ r.bytes
       else [] ++ ((cs.drop 0).take m).flatMap (fun c => r.bytes ++ enc c)) = _
    rw [replaceRest_spec hs (Nat.min_le_left _ _), hr.2.2, List.drop_zero, List.nil_append, conv, encAll_append, encAll_append]
    congr 2
    · by_cases hlt : cs.length < m
      · rw [if_pos hlt, if_pos (by omega)]
      · rw [if_neg hlt, if_neg (by omega), encAll_nil, List.append_nil]
    · rcases Nat.lt_or_ge m cs.length with h | h
      · rw [Nat.min_eq_right (by omega)]
      · rw [Nat.min_eq_left h, List.drop_of_length_le h, List.drop_of_length_le (Nat.le_refl _)]
  have hlen : (cs.length : Int) < i64Max - 1 := by
    have := length_le_encAll cs
    rw [hs.size] at hsize
    omega
  constructor
  · intro h
    have fin : ∀ m, cs.length < m → (cs.take m).flatMap (fun c => rs ++ [c]) ++ (if cs.length < m then rs else []) ++ cs.drop m =
        cs.flatMap (fun c => rs ++ [c]) ++ rs := by
      intro m hm
      rw [if_pos hm, List.take_of_length_le (by omega), List.drop_of_length_le (by omega), List.append_nil]
    rcases h with h | h
    · have hu : unlimited limit = (i64Max.toNat : Int) := by rw [unlimited, if_pos h]; decide
      rw [key _ (by omega) hu, fin _ (by omega)]
    · have hu : unlimited limit = (limit.toNat : Int) := by rw [unlimited, if_neg (by omega)]; omega
      rw [key _ (by omega) hu, fin _ (by omega)]
  · intro h1 h2
    by_cases h0 : limit = 0
    · subst h0
      rw [replace, if_pos rfl, hs.2.2]; rfl
    · have hu : unlimited limit = (limit.toNat : Int) := by rw [unlimited, if_neg (by omega)]; omega
      rw [key _ h0 hu, if_neg (by omega), List.append_nil]

/-! ## The hypotheses hold of something -/

/-- "aé€" in one piece, and in a Cord with a boundary inside "€". -/
theorem C46_flat_example : Holds (.flat [97, 0xC3, 0xA9, 0xE2, 0x82, 0xAC]) [97, 0xE9, 0x20AC] := by
  refine ⟨by intro x hx; simp at hx; omega, by intro x hx; simp at hx; unfold IsScalar; omega, by decide⟩

theorem C46_cord_example : Holds (.cord [[97, 0xC3], [0xA9, 0xE2, 0x82], [0xAC]]) [97, 0xE9, 0x20AC] := by
  refine ⟨⟨by intro x hx; simp at hx; omega, by simp⟩, by intro x hx; simp at hx; unfold IsScalar; omega, by decide⟩

/-- "a,b,,c" cut twice. -/
theorem C46_cuts_example : Cuts [44] [97, 44, 98, 44, 44, 99] (some 2) [[97], [98]] [44, 99] := by
  have := cut_cuts [44] (by simp) 2 [97, 44, 98, 44, 44, 99]
  exact this

end Cel.Ext.Strings
