import Verif.Mem.ByteStringProps

/-
C53: `ByteString::Find`, for a needle in one piece or in several
(byte_string.cc:302-375).
-/

set_option linter.unusedVariables false
set_option linter.unusedSimpArgs false

namespace Cel.Mem

/-! ### Model -/

/-- `absl::string_view::find(needle, pos)`: the standard library's search. -/
def svFind (s needle : Bytes) (pos : Nat) : Option Nat :=
  (List.range (s.length + 1)).find? fun i => decide (pos ≤ i) && needle.isPrefixOf (s.drop i)

theorem svFind_bounds {s needle : Bytes} {pos f : Nat} (h : svFind s needle pos = some f) :
    pos ≤ f ∧ f ≤ s.length := by
  have h1 := List.find?_some h
  have h2 := List.mem_of_find?_eq_some h
  simp only [Bool.and_eq_true, decide_eq_true_eq] at h1
  have := List.mem_range.1 h2
  omega

/-- The loop over the occurrences of the needle's first chunk
(byte_string.cc:348-359).  `size` is `needle_size`. -/
def scanFrom (s first rest : Bytes) (size cur : Nat) : Option Nat :=
  match h : svFind s first cur with
  | none => none
  | some f =>
    if f > s.length - size then none
    else if ((s.drop (f + first.length)).take rest.length) = rest then some f
    else scanFrom s first rest size (f + 1)
termination_by s.length + 1 - cur
decreasing_by
  have := svFind_bounds h
  omega

/-- `Find(const Cord&, pos)` on a flat string (byte_string.cc:327-360); the
needle is the list of its chunks.  `TryFlat` succeeds on at most one chunk. -/
def flatFindCord (s : Bytes) (needle : List Bytes) (pos : Nat) : Option Nat :=
  match needle with
  | [] => svFind s [] pos
  | [n] => svFind s n pos
  | first :: rest =>
    if pos + needle.flatten.length > s.length then none
    else if needle.flatten.length = 0 then some pos
    else scanFrom s first rest.flatten needle.flatten.length pos

/-- `Find` on a cord (byte_string.cc:314-322, 361-369): the rest of the cord
from `pos` is searched; an iterator at the end means "not found". -/
def cordFind (s : Bytes) (needle : Bytes) (pos : Nat) : Option Nat :=
  match svFind (s.drop pos) needle 0 with
  | none => none
  | some i => if i = (s.drop pos).length then none else some (pos + i)

/-- `ByteString::Find(const Cord&, pos)` (byte_string.cc:323-371);
`Find(string_view, pos)` is the case of a needle of one chunk. -/
def Rep.find (h : Heap) (r : Rep) (needle : List Bytes) (pos : Nat) : Option (Option Nat) :=
  match r with
  | .small _ d => some (flatFindCord d needle pos)
  | .medium p n _ => (h.read p n).map fun s => flatFindCord s needle pos
  | .large c => (readCord h c).map fun s => cordFind s needle.flatten pos

/-! ### Specification -/

/-- `needle` occurs in `s` at `i`. -/
def OccursAt (s needle : Bytes) (i : Nat) : Prop :=
  ∃ a b, s = a ++ needle ++ b ∧ a.length = i

/-- `i` is the first place from `pos` on where `needle` occurs. -/
def FirstFrom (s needle : Bytes) (pos i : Nat) : Prop :=
  pos ≤ i ∧ OccursAt s needle i ∧ ∀ j, pos ≤ j → j < i → ¬ OccursAt s needle j

/-- The answer of a search from `pos`. -/
def FindAnswer (s needle : Bytes) (pos : Nat) : Option Nat → Prop
  | some i => FirstFrom s needle pos i
  | none => ∀ i, pos ≤ i → ¬ OccursAt s needle i

/-! ### Proof -/

theorem occursAt_iff {s needle : Bytes} {i : Nat} :
    OccursAt s needle i ↔ i ≤ s.length ∧ needle <+: s.drop i := by
  constructor
  · rintro ⟨a, b, e, rfl⟩
    subst e
    refine ⟨by simp, b, ?_⟩
    simp [List.append_assoc]
  · rintro ⟨h, b, e⟩
    refine ⟨s.take i, b, ?_, by simp; omega⟩
    rw [List.append_assoc, e, List.take_append_drop]

theorem find?_least {p : Nat → Bool} {n k : Nat} (h : (List.range n).find? p = some k) :
    ∀ j, j < k → p j = false := by
  intro j hj
  rw [List.find?_range_eq_some] at h
  have := h.2.2 j hj
  simpa using this

theorem svFind_answer (s needle : Bytes) (pos : Nat) :
    FindAnswer s needle pos (svFind s needle pos) := by
  cases h : svFind s needle pos with
  | some f =>
    have hb := svFind_bounds h
    have h1 := List.find?_some h
    simp only [Bool.and_eq_true, decide_eq_true_eq, List.isPrefixOf_iff_prefix] at h1
    refine ⟨hb.1, occursAt_iff.2 ⟨hb.2, h1.2⟩, ?_⟩
    intro j hj hlt ho
    have := find?_least h j hlt
    have ho := (occursAt_iff.1 ho).2
    rw [← List.isPrefixOf_iff_prefix] at ho
    simp only [hj, decide_true, Bool.true_and] at this
    rw [ho] at this
    cases this
  | none =>
    intro i hi ho
    have h1 := List.find?_eq_none.1 h i
    obtain ⟨h2, h3⟩ := occursAt_iff.1 ho
    rw [← List.isPrefixOf_iff_prefix] at h3
    exact h1 (List.mem_range.2 (by omega)) (by simp [hi, h3])

theorem occurs_append {s a b : Bytes} {i : Nat} :
    OccursAt s (a ++ b) i ↔ OccursAt s a i ∧ (s.drop (i + a.length)).take b.length = b := by
  constructor
  · rintro ⟨x, y, e, rfl⟩
    subst e
    refine ⟨⟨x, b ++ y, by simp [List.append_assoc], rfl⟩, ?_⟩
    have e : x ++ (a ++ b) ++ y = (x ++ a) ++ (b ++ y) := by simp [List.append_assoc]
    rw [e, ← List.length_append, List.drop_left, List.take_left]
  · rintro ⟨⟨x, y, e, rfl⟩, h⟩
    subst e
    rw [← List.length_append, List.drop_left] at h
    refine ⟨x, y.drop b.length, ?_, rfl⟩
    have := List.take_append_drop b.length y
    rw [h] at this
    rw [← List.append_assoc x a b, List.append_assoc (x ++ a) b, this]

theorem occurs_len {s n : Bytes} {i : Nat} (h : OccursAt s n i) : i + n.length ≤ s.length := by
  obtain ⟨a, b, e, rfl⟩ := h
  subst e; simp

theorem scan_answer (s first rest : Bytes) (fit : first.length + rest.length ≤ s.length) :
    ∀ m cur, s.length + 1 - cur = m →
      FindAnswer s (first ++ rest) cur
        (scanFrom s first rest (first.length + rest.length) cur) := by
  intro m
  induction m using Nat.strongRecOn with
  | _ m ih =>
    intro cur hm
    have sv := svFind_answer s first cur
    rw [scanFrom]
    split
    · rename_i h
      rw [h] at sv
      intro i hi ho
      exact sv i hi (occurs_append.1 ho).1
    · rename_i f h
      have hb := svFind_bounds h
      rw [h] at sv
      obtain ⟨h1, h2, h3⟩ := sv
      split
      · rename_i big
        intro i hi ho
        have hl := occurs_len ho
        rw [List.length_append] at hl
        by_cases hlt : i < f
        · exact h3 i hi hlt (occurs_append.1 ho).1
        · omega
      · split
        · rename_i eq
          refine ⟨h1, occurs_append.2 ⟨h2, eq⟩, ?_⟩
          intro j hj hlt ho
          exact h3 j hj hlt (occurs_append.1 ho).1
        · rename_i ne
          have rec_ := ih (s.length + 1 - (f + 1)) (by omega) (f + 1) rfl
          have skip : ∀ j, cur ≤ j → j < f + 1 → ¬ OccursAt s (first ++ rest) j := by
            intro j hj hlt ho
            by_cases e : j = f
            · subst e; exact ne (occurs_append.1 ho).2
            · exact h3 j hj (by omega) (occurs_append.1 ho).1
          cases hr : scanFrom s first rest (first.length + rest.length) (f + 1) with
          | none =>
            rw [hr] at rec_
            intro i hi ho
            by_cases hlt : i < f + 1
            · exact skip i hi hlt ho
            · exact rec_ i (by omega) ho
          | some k =>
            rw [hr] at rec_
            obtain ⟨r1, r2, r3⟩ := rec_
            refine ⟨by omega, r2, ?_⟩
            intro j hj hlt ho
            by_cases hf : j < f + 1
            · exact skip j hj hf ho
            · exact r3 j (by omega) hlt ho

theorem flatFind_answer (s : Bytes) (needle : List Bytes) (pos : Nat) (hp : pos ≤ s.length) :
    FindAnswer s needle.flatten pos (flatFindCord s needle pos) := by
  unfold flatFindCord
  split
  · exact svFind_answer s [] pos
  · simpa using svFind_answer s _ pos
  · rename_i first rest ne
    split
    · intro i hi ho
      have := occurs_len ho
      omega
    · split
      · rename_i z
        have z := List.length_eq_zero_iff.1 z
        rw [z]
        refine ⟨Nat.le_refl _, occursAt_iff.2 ⟨hp, List.nil_prefix⟩, ?_⟩
        intro j h1 h2; omega
      · rename_i fit _
        have := scan_answer s first rest.flatten (by
          simp only [List.flatten_cons, List.length_append] at fit; omega) _ pos rfl
        simpa only [List.flatten_cons, List.length_append] using this

theorem occurs_drop {s n : Bytes} {pos i : Nat} (hp : pos ≤ s.length) :
    OccursAt (s.drop pos) n i ↔ OccursAt s n (pos + i) := by
  rw [occursAt_iff, occursAt_iff, List.drop_drop, List.length_drop]
  constructor <;> rintro ⟨a, b⟩ <;> exact ⟨by omega, b⟩

theorem cordFind_answer (s needle : Bytes) (pos : Nat) (hp : pos ≤ s.length)
    (ne : needle ≠ [] ∨ pos < s.length) : FindAnswer s needle pos (cordFind s needle pos) := by
  have sv := svFind_answer (s.drop pos) needle 0
  unfold cordFind
  cases h : svFind (s.drop pos) needle 0 with
  | none =>
    rw [h] at sv
    intro i hi ho
    refine sv (i - pos) (Nat.zero_le _) ((occurs_drop hp).2 ?_)
    rwa [show pos + (i - pos) = i from by omega]
  | some k =>
    rw [h] at sv
    obtain ⟨h1, h2, h3⟩ := sv
    dsimp only
    have hk : k ≠ (s.drop pos).length := by
      intro e
      have hl := occurs_len h2
      rcases ne with ne | ne
      · have : 0 < needle.length := List.length_pos_iff.2 ne
        omega
      · by_cases z : needle = []
        · subst z
          have : 0 < k := by rw [e, List.length_drop]; omega
          exact h3 0 (Nat.le_refl _) this (occursAt_iff.2 ⟨Nat.zero_le _, List.nil_prefix⟩)
        · have : 0 < needle.length := List.length_pos_iff.2 z
          omega
    rw [if_neg hk]
    refine ⟨by omega, (occurs_drop hp).1 h2, ?_⟩
    intro j hj hlt ho
    refine h3 (j - pos) (Nat.zero_le _) (by omega) ((occurs_drop hp).2 ?_)
    rwa [show pos + (j - pos) = j from by omega]

/-- **C53.** In every history, `Find` on a byte string answers the first
position from `pos` on where the needle occurs, or "none" when there is no such
position – however the needle is cut into chunks and however the string is
represented – with one exception: the empty needle at the end of a string
represented by a cord (see `C53_find_empty_cord`). -/
theorem C53_find_partial {n : Nat} {ops : List Op} {s : St} {l : List AVar}
    (h : Hist n ops s l) {j : Nat} {r : Rep} (hv : s.var j = .live r) (needle : List Bytes)
    {pos : Nat} (hp : pos ≤ (bytesAt l j).length)
    (ok : r.isLarge = true → needle.flatten ≠ [] ∨ pos < (bytesAt l j).length) :
    ∃ ans, r.find s.heap needle pos = some ans
      ∧ FindAnswer (bytesAt l j) needle.flatten pos ans := by
  have hr : s.vars[j]? = some (.live r) := by
    unfold St.var at hv
    rw [List.getD_eq_getElem?_getD] at hv
    cases h1 : s.vars[j]? with
    | none => rw [h1] at hv; cases hv
    | some v => rw [h1] at hv; simp at hv; rw [hv]
  have i := sinv_hist h
  have rel := i.rel j
  rw [hr] at rel
  cases ha : l[j]? with
  | none => rw [ha] at rel; exact rel.elim
  | some x =>
    rw [ha] at rel
    cases x with
    | dead => exact (show False from rel).elim
    | moved => exact (show False from rel).elim
    | val bs =>
      have hb : bytesAt l j = bs := by simp [bytesAt, List.getD_eq_getElem?_getD, ha]
      have h1 := toBytes_ok i.heap rel.1 (fun k => hs_le_total hr k)
      have h2 : bytesOf s.heap r = bs := rel.2
      rw [h2] at h1
      rw [hb] at hp ok ⊢
      cases r with
      | small a d =>
        cases h1
        exact ⟨_, rfl, flatFind_answer _ _ _ hp⟩
      | medium p m o =>
        have h1 : s.heap.read p m = some bs := h1
        exact ⟨_, by rw [Rep.find, h1]; rfl, flatFind_answer _ _ _ hp⟩
      | large c =>
        have h1 : readCord s.heap c = some bs := h1
        exact ⟨_, by rw [Rep.find, h1]; rfl, cordFind_answer _ _ _ hp (ok rfl)⟩

/-- What the exception does: on a cord the empty needle is not found at the end
of the string, where it occurs. -/
theorem C53_find_empty_cord (s : Bytes) :
    cordFind s [] s.length = none ∧ flatFindCord s [[]] s.length = some s.length
      ∧ FirstFrom s [] s.length s.length := by
  have f : FirstFrom s [] s.length s.length :=
    ⟨Nat.le_refl _, occursAt_iff.2 ⟨Nat.le_refl _, List.nil_prefix⟩, fun j a b => by omega⟩
  refine ⟨?_, ?_, f⟩
  · unfold cordFind
    rw [List.drop_length]
    rfl
  · have := flatFind_answer s [[]] s.length (Nat.le_refl _)
    cases h : flatFindCord s [[]] s.length with
    | none => rw [h] at this; exact (this s.length (Nat.le_refl _) (by simpa using f.2.1)).elim
    | some k =>
      rw [h] at this
      have h1 := this.1
      have h2 := occurs_len this.2.1
      congr 1; omega

end Cel.Mem
