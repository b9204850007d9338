import Verif.Ext.StringsModel
import Verif.Text.Utf8Props
import Verif.Text.LiteralMeaning
import Mathlib.Tactic.Conv

/-!
# C46: the strings extension is code-point exact

A string is specified by its list of Unicode scalar values `cs`; `Holds s cs` says that `s`, flat or Cord, holds their UTF-8 form
(`Text/Utf8Spec.lean`).  Every theorem is about the scalar values, for every length and every division into chunks.
-/

set_option linter.unusedSimpArgs false
set_option linter.unusedVariables false

namespace Cel.Ext.Strings
open Cel Cel.Text Cel.Text.Spec

/-! ## Specification -/

/-- A Cord has no empty chunks, and bytes are bytes. -/
def Str.WF : Str → Prop
  | .flat b => Bytes b
  | .cord c => Bytes c.flatten ∧ ∀ x ∈ c, x ≠ []

/-- `s` holds the UTF-8 form of the scalar values `cs`. -/
def Holds (s : Str) (cs : List Nat) : Prop := s.WF ∧ Scalars cs ∧ s.bytes = encAll cs

/-- `n` occurs in `h` at index `i`. -/
def OccursAt (n h : List Nat) (i : Nat) : Prop := i ≤ h.length ∧ n <+: h.drop i

/-! ## Stepping -/

theorem WF_bytes {s : Str} (h : s.WF) : Bytes s.bytes := by
  cases s with
  | flat b => exact h
  | cord c => exact h.1

theorem advance_bytes (s : Str) (n : Nat) : (s.advance n).bytes = s.bytes.drop n := by
  cases s with
  | flat b => rfl
  | cord c => exact cordAdvance_flatten c n

theorem advance_WF {s : Str} (h : s.WF) (n : Nat) : (s.advance n).WF := by
  cases s with
  | flat b => exact bytes_drop n h
  | cord c =>
    refine ⟨?_, cordAdvance_ne c h.2 n⟩
    rw [cordAdvance_flatten]
    exact bytes_drop n h.1

theorem decode_eq {s : Str} (h : s.WF) (hne : s.bytes ≠ []) : s.decode = utf8Decode s.bytes := by
  cases s with
  | flat b => rfl
  | cord c =>
    refine (C15_cord_agrees_with_string_partial 0).2.2.2 c ?_ h.2 h.1
    rintro rfl
    exact hne rfl

theorem encAll_cons (c : Nat) (cs : List Nat) : encAll (c :: cs) = enc c ++ encAll cs := rfl
theorem encAll_append (a b : List Nat) : encAll (a ++ b) = encAll a ++ encAll b := List.flatMap_append
theorem encAll_nil : encAll [] = [] := rfl

theorem encAll_bytes {cs : List Nat} (h : Scalars cs) : Bytes (encAll cs) := by
  intro x hx
  simp only [encAll, List.mem_flatMap] at hx
  obtain ⟨d, hd, hxd⟩ := hx
  exact enc_bytes (h d hd) x hxd

theorem enc_pos (c : Nat) : 0 < (enc c).length := List.length_pos_iff.mpr (enc_ne_nil c)

theorem encAll_ne {c : Nat} {cs : List Nat} : encAll (c :: cs) ≠ [] := by
  rw [encAll_cons]; simp [enc_ne_nil]

theorem encAll_eq_nil {cs : List Nat} : encAll cs = [] ↔ cs = [] := by
  cases cs with
  | nil => simp [encAll]
  | cons c cs => exact ⟨fun h => absurd h encAll_ne, fun h => nomatch h⟩

theorem Holds.nil {s : Str} {cs : List Nat} (h : Holds s cs) : s.bytes = [] ↔ cs = [] := by
  rw [h.2.2, encAll_eq_nil]

theorem Holds.step {s : Str} {c : Nat} {cs : List Nat} (h : Holds s (c :: cs)) :
    s.decode = .ok (c, (enc c).length) ∧ Holds (s.advance (enc c).length) cs ∧ s.bytes ≠ [] := by
  obtain ⟨hw, hs, hb⟩ := h
  have hne : s.bytes ≠ [] := by rw [hb]; exact encAll_ne
  have hs' : Scalars cs := fun x hx => hs x (List.mem_cons_of_mem _ hx)
  refine ⟨?_, ⟨advance_WF hw _, hs', ?_⟩, hne⟩
  · rw [decode_eq hw hne, hb, encAll_cons]
    exact decode_scalar c (hs c (List.mem_cons_self ..)) _ (encAll_bytes hs')
  · rw [advance_bytes, hb, encAll_cons, List.drop_left]

theorem Holds.advance_take {s : Str} {cs : List Nat} (h : Holds s cs) (i : Nat) :
    Holds (s.advance (encAll (cs.take i)).length) (cs.drop i) := by
  refine ⟨advance_WF h.1 _, fun x hx => h.2.1 x (List.mem_of_mem_drop hx), ?_⟩
  have e : encAll cs = encAll (cs.take i) ++ encAll (cs.drop i) := by rw [← encAll_append, List.take_append_drop]
  rw [advance_bytes, h.2.2, e, List.drop_left]

theorem Holds.size {s : Str} {cs : List Nat} (h : Holds s cs) : s.size = (encAll cs).length := by rw [Str.size, h.2.2]

theorem length_le_encAll (cs : List Nat) : cs.length ≤ (encAll cs).length := by
  induction cs with
  | nil => simp
  | cons c cs ih => rw [encAll_cons, List.length_append, List.length_cons]; have := enc_pos c; omega

/-- Prefixes of byte strings are prefixes of the scalar values. -/
theorem encAll_prefix {a b : List Nat} (ha : Scalars a) (hb : Scalars b) : encAll a <+: encAll b ↔ a <+: b := by
  constructor
  · induction a generalizing b with
    | nil => intro _; exact List.nil_prefix
    | cons c a ih =>
      intro h
      cases b with
      | nil =>
        have := List.prefix_nil.mp h
        exact absurd this encAll_ne
      | cons d b =>
        obtain ⟨t, ht⟩ := h
        rw [encAll_cons, encAll_cons, List.append_assoc] at ht
        obtain ⟨rfl, h2⟩ := enc_inj (ha c (by simp)) (hb d (by simp)) ht
        have := ih (fun x hx => ha x (by simp [hx])) (fun x hx => hb x (by simp [hx])) ⟨t, h2⟩
        exact List.cons_prefix_cons.mpr ⟨rfl, this⟩
  · rintro ⟨t, rfl⟩
    rw [encAll_append]
    exact List.prefix_append _ _

theorem encAll_inj {a b : List Nat} (ha : Scalars a) (hb : Scalars b) (h : encAll a = encAll b) : a = b := by
  have h1 := (encAll_prefix ha hb).mp (h ▸ List.prefix_refl _)
  have h2 := (encAll_prefix hb ha).mp (h ▸ List.prefix_refl _)
  exact List.IsPrefix.eq_of_length h1 (Nat.le_antisymm h1.length_le h2.length_le)

theorem scalars_drop {cs : List Nat} (h : Scalars cs) (i : Nat) : Scalars (cs.drop i) := fun x hx => h x (List.mem_of_mem_drop hx)
theorem scalars_take {cs : List Nat} (h : Scalars cs) (i : Nat) : Scalars (cs.take i) := fun x hx => h x (List.mem_of_mem_take hx)

theorem encAll_drop_le (cs : List Nat) (i : Nat) : (encAll (cs.drop i)).length ≤ (encAll cs).length := by
  have e : encAll cs = encAll (cs.take i) ++ encAll (cs.drop i) := by rw [← encAll_append, List.take_append_drop]
  rw [e, List.length_append]
  omega

theorem encAll_drop_lt {cs : List Nat} {i : Nat} (hi : 0 < i) (hc : cs ≠ []) : (encAll (cs.drop i)).length < (encAll cs).length := by
  cases cs with
  | nil => exact absurd rfl hc
  | cons c cs =>
    obtain ⟨j, rfl⟩ : ∃ j, i = j + 1 := ⟨i - 1, by omega⟩
    rw [List.drop_succ_cons, encAll_cons, List.length_append]
    have := enc_pos c
    have := encAll_drop_le cs j
    omega

/-- The code points of a string, as `size()` counts them. -/
theorem count_holds (cap : Nat) {s : Str} {cs : List Nat} (h : Holds s cs) : codePointCount cap s = .ok cs.length := by
  cases s with
  | flat b =>
    have hb : b = encAll cs := h.2.2
    subst hb
    exact C16_code_point_count.2.1 cs h.2.1
  | cord c =>
    have hb : c.flatten = encAll cs := h.2.2
    rw [codePointCount, hb, (C15_cord_agrees_with_string_partial cap).2.2.1 _ ⟨cs, h.2.1, rfl⟩]
    exact C16_code_point_count.2.1 cs h.2.1

/-! ## indexOf, lastIndexOf -/

/-- The least index from `k` on that satisfies `P`. -/
def Least (P : Nat → Prop) (r : Option Nat) : Prop :=
  match r with
  | none => ∀ j, ¬ P j
  | some i => P i ∧ ∀ j < i, ¬ P j

def Greatest (P : Nat → Prop) (r : Option Nat) : Prop :=
  match r with
  | none => ∀ j, ¬ P j
  | some i => P i ∧ ∀ j > i, ¬ P j

theorem indexOfLoop_spec (n : List Nat) (hn : Scalars n) (here : Nat → Bool) : ∀ fuel s cs k, Holds s cs → cs.length < fuel →
    ∃ r, indexOfLoop (encAll n) here fuel s k = .ok (r.map (· + k)) ∧
      Least (fun j => here (j + k) = true ∧ OccursAt n cs j) r := by
  intro fuel
  induction fuel with
  | zero => intro s cs k _ h; omega
  | succ fuel ih =>
    intro s cs k hs hf
    rw [indexOfLoop]
    by_cases hsz : s.size ≥ (encAll n).length
    · rw [if_pos hsz]
      by_cases hp : (here k && (encAll n).isPrefixOf s.bytes) = true
      · rw [if_pos hp]
        rw [Bool.and_eq_true, List.isPrefixOf_iff_prefix, hs.2.2, encAll_prefix hn hs.2.1] at hp
        exact ⟨some 0, by simp, ⟨by simpa using hp.1, Nat.zero_le _, by simpa using hp.2⟩, fun j hj => absurd hj (by omega)⟩
      · rw [if_neg hp]
        rw [Bool.and_eq_true, List.isPrefixOf_iff_prefix, hs.2.2, encAll_prefix hn hs.2.1] at hp
        have h0 : ¬ (here (0 + k) = true ∧ OccursAt n cs 0) := by
          rintro ⟨h1, -, h2⟩
          exact hp ⟨by simpa using h1, by simpa using h2⟩
        by_cases he : s.size = (encAll n).length
        · rw [if_pos he]
          refine ⟨none, rfl, fun j hj => ?_⟩
          by_cases hj0 : j = 0
          · exact h0 (hj0 ▸ hj)
          · obtain ⟨-, hlen, hpre⟩ := hj
            have hcs : cs ≠ [] := by rintro rfl; simp at hlen; omega
            have h1 := encAll_drop_lt (by omega : 0 < j) hcs
            have h2 := ((encAll_prefix hn (scalars_drop hs.2.1 j)).mpr hpre).length_le
            rw [hs.size] at he
            omega
        · rw [if_neg he]
          cases cs with
          | nil =>
            exfalso
            rw [hs.size, encAll_nil] at hsz he
            simp only [List.length_nil] at hsz he
            omega
          | cons c cs =>
            obtain ⟨hd, hs', -⟩ := hs.step
            rw [hd]
            obtain ⟨r, hr, hl⟩ := ih _ cs (k + 1) hs' (by simp at hf; omega)
            refine ⟨r.map (· + 1), ?_, ?_⟩
            · show indexOfLoop (encAll n) here fuel (s.advance (enc c).length) (k + 1) = _
              rw [hr]
              cases r <;> simp <;> omega
            · have key : ∀ j, (here (j + (k + 1)) = true ∧ OccursAt n cs j) ↔ (here ((j + 1) + k) = true ∧ OccursAt n (c :: cs) (j + 1)) := by
                intro j
                have : j + (k + 1) = j + 1 + k := by omega
                rw [this]
                unfold OccursAt
                simp
              cases r with
              | none =>
                intro j
                cases j with
                | zero => exact h0
                | succ j => exact fun h => hl j ((key j).mpr h)
              | some i =>
                refine ⟨(key i).mp hl.1, fun j hj => ?_⟩
                cases j with
                | zero => exact h0
                | succ j => exact fun h => hl.2 j (Nat.lt_of_succ_lt_succ hj) ((key j).mpr h)
    · rw [if_neg hsz]
      refine ⟨none, rfl, fun j hj => ?_⟩
      have h1 := encAll_drop_le cs j
      have h2 := ((encAll_prefix hn (scalars_drop hs.2.1 j)).mpr hj.2.2).length_le
      rw [hs.size] at hsz
      omega

theorem lastIndexOfLoop_spec (n : List Nat) (hn : Scalars n) (stop : Nat → Bool) : ∀ fuel s cs k last, Holds s cs → cs.length < fuel →
    ∃ r, lastIndexOfLoop (encAll n) stop fuel s k last = .ok (match r with | none => last | some i => some (i + k)) ∧
      Greatest (fun j => (∀ m < j, stop (m + k) = false) ∧ OccursAt n cs j) r := by
  intro fuel
  induction fuel with
  | zero => intro s cs k last _ h; omega
  | succ fuel ih =>
    intro s cs k last hs hf
    rw [lastIndexOfLoop]
    by_cases hsz : s.size ≥ (encAll n).length
    · rw [if_pos hsz]
      have hp : (encAll n).isPrefixOf s.bytes = true ↔ OccursAt n cs 0 := by
        rw [List.isPrefixOf_iff_prefix, hs.2.2, encAll_prefix hn hs.2.1]
        simp [OccursAt]
      have hnone : (stop k || decide (s.size = (encAll n).length)) = true →
          ∀ j, 0 < j → ¬ ((∀ m < j, stop (m + k) = false) ∧ OccursAt n cs j) := by
        rintro hst j hj ⟨h1, hlen, hpre⟩
        rw [Bool.or_eq_true, decide_eq_true_eq] at hst
        rcases hst with hst | he
        · have := h1 0 hj; rw [Nat.zero_add, hst] at this; cases this
        · have hcs : cs ≠ [] := by rintro rfl; simp at hlen; omega
          have h1 := encAll_drop_lt hj hcs
          have h2 := ((encAll_prefix hn (scalars_drop hs.2.1 j)).mpr hpre).length_le
          rw [hs.size] at he
          omega
      by_cases hst : (stop k || decide (s.size = (encAll n).length)) = true
      · rw [if_pos hst]
        by_cases h0 : (encAll n).isPrefixOf s.bytes = true
        · rw [if_pos h0]
          exact ⟨some 0, by simp, ⟨fun m hm => absurd hm (by omega), hp.mp h0⟩, fun j hj => hnone hst j hj⟩
        · rw [if_neg h0]
          refine ⟨none, rfl, fun j hj => ?_⟩
          by_cases hj0 : j = 0
          · exact h0 (hp.mpr (hj0 ▸ hj).2)
          · exact hnone hst j (by omega) hj
      · rw [if_neg hst]
        rw [Bool.or_eq_true, decide_eq_true_eq, not_or] at hst
        cases cs with
        | nil =>
          exfalso
          have := hst.2
          rw [hs.size, encAll_nil] at hsz this
          simp only [List.length_nil] at hsz this
          omega
        | cons c cs =>
          obtain ⟨hd, hs', -⟩ := hs.step
          rw [hd]
          obtain ⟨r, hr, hl⟩ := ih _ cs (k + 1) (if (encAll n).isPrefixOf s.bytes = true then some k else last) hs' (by simp at hf; omega)
          have hstop : stop k = false := by cases h : stop k <;> simp_all
          have key : ∀ j, ((∀ m < j, stop (m + (k + 1)) = false) ∧ OccursAt n cs j) ↔
              ((∀ m < j + 1, stop (m + k) = false) ∧ OccursAt n (c :: cs) (j + 1)) := by
            intro j
            have e : OccursAt n cs j ↔ OccursAt n (c :: cs) (j + 1) := by unfold OccursAt; simp
            rw [e]
            refine and_congr_left fun _ => ⟨fun h m hm => ?_, fun h m hm => ?_⟩
            · cases m with
              | zero => simpa using hstop
              | succ m => have := h m (by omega); rwa [show m + (k + 1) = m + 1 + k by omega] at this
            · have := h (m + 1) (by omega); rwa [show m + 1 + k = m + (k + 1) by omega] at this
          show ∃ r', lastIndexOfLoop (encAll n) stop fuel (s.advance (enc c).length) (k + 1) _ = _ ∧ _
          rw [hr]
          cases r with
          | some i =>
            refine ⟨some (i + 1), by simp; omega, (key i).mp hl.1, fun j hj => ?_⟩
            cases j with
            | zero => omega
            | succ j => exact fun h => hl.2 j (by omega) ((key j).mpr h)
          | none =>
            by_cases h0 : (encAll n).isPrefixOf s.bytes = true
            · rw [if_pos h0]
              refine ⟨some 0, by simp, ⟨fun m hm => absurd hm (by omega), hp.mp h0⟩, fun j hj => ?_⟩
              cases j with
              | zero => omega
              | succ j => exact fun h => hl j ((key j).mpr h)
            · rw [if_neg h0]
              refine ⟨none, rfl, fun j hj => ?_⟩
              cases j with
              | zero => exact h0 (hp.mpr hj.2)
              | succ j => exact hl j ((key j).mpr hj)
    · rw [if_neg hsz]
      refine ⟨none, rfl, fun j hj => ?_⟩
      have h1 := encAll_drop_le cs j
      have h2 := ((encAll_prefix hn (scalars_drop hs.2.1 j)).mpr hj.2.2).length_le
      rw [hs.size] at hsz
      omega

/-- What a search returns: the index, or -1 if there is none. -/
def Found (P : Nat → Prop) (pick : (Nat → Prop) → Option Nat → Prop) (r : Int) : Prop :=
  (r = -1 ∧ pick P none) ∨ ∃ i : Nat, r = i ∧ pick P (some i)

theorem found_of {P : Nat → Prop} {pick} {r : Option Nat} (h : pick P r) : Found P pick (orMinusOne r) := by
  cases r with
  | none => exact .inl ⟨rfl, h⟩
  | some i => exact .inr ⟨i, rfl, h⟩

theorem fuel_ok {s : Str} {cs : List Nat} (h : Holds s cs) : cs.length < s.size + 1 := by
  rw [h.size]; have := length_le_encAll cs; omega

/-- C46: `s.indexOf(n)` is the index in code points of the first occurrence of `n`, -1 if there is none; with a position it is the
first occurrence at or after it; a position outside the string is an error. -/
theorem C46_index_of (cap : Nat) (s n : Str) (cs ns : List Nat) (hs : Holds s cs) (hn : Holds n ns) :
    (∃ r, indexOf2 s n = .ok r ∧ Found (fun i => OccursAt ns cs i) Least r) ∧
    (∀ pos : Nat, pos ≤ cs.length → ∃ r, indexOf3 cap s n pos = .ok r ∧ Found (fun i => pos ≤ i ∧ OccursAt ns cs i) Least r) ∧
    (∀ pos : Int, InI64 pos → (cs.length : Int) < 2 ^ 63 → (pos < 0 ∨ pos > cs.length) →
      ∃ e, indexOf3 cap s n pos = .err e ∧ e.code = .invalidArgument) := by
  refine ⟨?_, fun pos hpos => ?_, fun pos hi hlen hpos => ?_⟩
  · obtain ⟨r, h1, h2⟩ := indexOfLoop_spec ns hn.2.1 (fun _ => true) (s.size + 1) s cs 0 hs (fuel_ok hs)
    refine ⟨orMinusOne r, ?_, found_of ?_⟩
    · rw [indexOf2, indexOf, hn.2.2, h1]; cases r <;> rfl
    · have : (fun j => (fun _ : Nat => true) (j + 0) = true ∧ OccursAt ns cs j) = fun i => OccursAt ns cs i := by funext j; simp
      rw [this] at h2; exact h2
  · obtain ⟨r, h1, h2⟩ := indexOfLoop_spec ns hn.2.1 (fun cp => decide ((cp : Int) ≥ pos)) (s.size + 1) s cs 0 hs (fuel_ok hs)
    refine ⟨orMinusOne r, ?_, found_of ?_⟩
    · have hc : ¬ (asSize (pos : Int) > (cs.length : Int)) := by unfold asSize; omega
      rw [indexOf3, count_holds cap hs]
      show (if asSize (pos : Int) > (cs.length : Int) then _ else _) = _
      rw [if_neg hc, indexOfAt, if_neg (by omega), hn.2.2, h1]; cases r <;> rfl
    · have : (fun j => (fun cp : Nat => decide ((cp : Int) ≥ pos)) (j + 0) = true ∧ OccursAt ns cs j) = fun i => pos ≤ i ∧ OccursAt ns cs i := by
        funext j; simp
      rw [this] at h2; exact h2
  · refine ⟨invalid "index out of range", ?_, rfl⟩
    have hc : asSize pos > (cs.length : Int) := by
      unfold InI64 i64Min i64Max at hi
      unfold asSize; omega
    rw [indexOf3, count_holds cap hs]
    show (if asSize pos > (cs.length : Int) then _ else _) = _
    rw [if_pos hc]

/-- C46: `s.lastIndexOf(n)` is the index of the last occurrence; with a position, of the last one at or before it. -/
theorem C46_last_index_of (cap : Nat) (s n : Str) (cs ns : List Nat) (hs : Holds s cs) (hn : Holds n ns) :
    (∃ r, lastIndexOf2 s n = .ok r ∧ Found (fun i => OccursAt ns cs i) Greatest r) ∧
    (∀ pos : Nat, pos ≤ cs.length → ∃ r, lastIndexOf3 cap s n pos = .ok r ∧ Found (fun i => i ≤ pos ∧ OccursAt ns cs i) Greatest r) ∧
    (∀ pos : Int, InI64 pos → (cs.length : Int) < 2 ^ 63 → (pos < 0 ∨ pos > cs.length) →
      ∃ e, lastIndexOf3 cap s n pos = .err e ∧ e.code = .invalidArgument) := by
  refine ⟨?_, fun pos hpos => ?_, fun pos hi hlen hpos => ?_⟩
  · obtain ⟨r, h1, h2⟩ := lastIndexOfLoop_spec ns hn.2.1 (fun _ => false) (s.size + 1) s cs 0 none hs (fuel_ok hs)
    refine ⟨orMinusOne r, ?_, found_of ?_⟩
    · rw [lastIndexOf2, lastIndexOf, hn.2.2, h1]; cases r <;> rfl
    · have : (fun j => (∀ m < j, (fun _ : Nat => false) (m + 0) = false) ∧ OccursAt ns cs j) = fun i => OccursAt ns cs i := by funext j; simp
      rw [this] at h2; exact h2
  · obtain ⟨r, h1, h2⟩ := lastIndexOfLoop_spec ns hn.2.1 (fun cp => decide ((cp : Int) ≥ pos)) (s.size + 1) s cs 0 none hs (fuel_ok hs)
    refine ⟨orMinusOne r, ?_, found_of ?_⟩
    · have hc : ¬ (asSize (pos : Int) > (cs.length : Int)) := by unfold asSize; omega
      rw [lastIndexOf3, if_neg (by omega), count_holds cap hs]
      show (if asSize (pos : Int) > (cs.length : Int) then _ else _) = _
      rw [if_neg hc, lastIndexOfAt, if_neg (by omega), hn.2.2, h1]; cases r <;> rfl
    · have : (fun j => (∀ m < j, (fun cp : Nat => decide ((cp : Int) ≥ pos)) (m + 0) = false) ∧ OccursAt ns cs j) = fun i => i ≤ pos ∧ OccursAt ns cs i := by
        funext j
        apply propext
        refine and_congr_left fun _ => ⟨fun h => ?_, fun h m hm => ?_⟩
        · rcases Nat.lt_or_ge pos j with hc | hc
          · have := h pos hc
            simp at this
          · exact hc
        · simp; omega
      rw [this] at h2; exact h2
  · refine ⟨invalid "index out of range", ?_, rfl⟩
    rw [lastIndexOf3]
    by_cases h0 : pos < 0
    · rw [if_pos h0]
    · have hc : asSize pos > (cs.length : Int) := by
        unfold InI64 i64Min i64Max at hi
        unfold asSize; omega
      rw [if_neg h0, count_holds cap hs]
      show (if asSize pos > (cs.length : Int) then _ else _) = _
      rw [if_pos hc]

/-! ## Offsets -/

/-- The byte offset of code point `k`. -/
def off (cs : List Nat) (k : Nat) : Nat := (encAll (cs.take k)).length

theorem off_zero (cs : List Nat) : off cs 0 = 0 := rfl

theorem off_add (cs : List Nat) (k i : Nat) : off cs (k + i) = off cs k + off (cs.drop k) i := by
  unfold off
  rw [List.take_add, encAll_append, List.length_append]

theorem off_len (cs : List Nat) : off cs cs.length = (encAll cs).length := by unfold off; rw [List.take_length]

theorem off_of_le {cs : List Nat} {k : Nat} (h : cs.length ≤ k) : off cs k = (encAll cs).length := by
  unfold off; rw [List.take_of_length_le h]

theorem off_mono (cs : List Nat) {i j : Nat} (h : i ≤ j) : off cs i ≤ off cs j := by
  obtain ⟨d, rfl⟩ := Nat.exists_eq_add_of_le h
  rw [off_add]; omega

theorem off_lt {cs : List Nat} {k : Nat} (h : k < cs.length) : off cs k < (encAll cs).length := by
  have e : encAll cs = encAll (cs.take k) ++ encAll (cs.drop k) := by rw [← encAll_append, List.take_append_drop]
  unfold off
  rw [e, List.length_append]
  have : cs.drop k ≠ [] := by intro h0; have := congrArg List.length h0; simp at this; omega
  have : encAll (cs.drop k) ≠ [] := by rw [Ne, encAll_eq_nil]; exact this
  have := List.length_pos_iff.mpr this
  omega

theorem off_succ {cs : List Nat} {c : Nat} {r : List Nat} {k : Nat} (h : cs.drop k = c :: r) : off cs (k + 1) = off cs k + (enc c).length := by
  rw [off_add, h]; simp [off, encAll]

theorem Holds.at {s : Str} {cs : List Nat} (h : Holds s cs) (k : Nat) : Holds (s.advance (off cs k)) (cs.drop k) := h.advance_take k

theorem slice_off {s : Str} {cs : List Nat} (h : Holds s cs) (i n : Nat) :
    slice s.bytes (off cs i) (off cs (i + n)) = .ok (encAll ((cs.drop i).take n)) := by
  have h1 : off cs (i + n) ≤ s.bytes.length := by
    rw [h.2.2]
    have e : encAll cs = encAll (cs.take (i + n)) ++ encAll (cs.drop (i + n)) := by rw [← encAll_append, List.take_append_drop]
    unfold off; rw [e, List.length_append]; omega
  rw [slice, if_pos ⟨off_mono cs (by omega), h1⟩]
  have e : encAll cs = encAll (cs.take (i + n)) ++ encAll (cs.drop (i + n)) := by rw [← encAll_append, List.take_append_drop]
  rw [h.2.2, e]
  unfold off
  rw [List.take_left, List.take_add, encAll_append, List.drop_left]

/-! ## substring, charAt -/

theorem substringLoop1_spec (start : Nat) : ∀ fuel s cs k u, Holds s cs → cs.length < fuel → k ≤ start →
    substringLoop1 start fuel s k u = if start - k ≤ cs.length then .ok (u + off cs (start - k)) else .err startTooLarge := by
  intro fuel
  induction fuel with
  | zero => intro s cs k u _ h; omega
  | succ fuel ih =>
    intro s cs k u hs hf hk
    rw [substringLoop1]
    cases cs with
    | nil =>
      rw [if_neg (by simp [hs.nil])]
      by_cases h : k = start
      · rw [if_pos h, if_pos (by simp; omega), show start - k = 0 by omega]; simp [off_zero]
      · rw [if_neg h, if_neg (by simp; omega)]
    | cons c cs =>
      obtain ⟨hd, hs', hne⟩ := hs.step
      rw [if_pos hne, hd]
      show (if k = start then _ else _) = _
      by_cases h : k = start
      · rw [if_pos h, if_pos (by omega), show start - k = 0 by omega]; simp [off_zero]
      · rw [if_neg h, ih _ cs (k + 1) _ hs' (by simp at hf; omega) (by omega)]
        obtain ⟨m, hm⟩ : ∃ m, start - k = m + 1 := ⟨start - k - 1, by omega⟩
        have e : off (c :: cs) (m + 1) = (enc c).length + off cs m := by simp [off, encAll]
        rw [hm, show start - (k + 1) = m by omega, e]
        simp only [List.length_cons]
        by_cases h2 : m ≤ cs.length
        · rw [if_pos h2, if_pos (by omega)]; congr 1; omega
        · rw [if_neg h2, if_neg (by omega)]

/-- C46: `s.substring(i)` is the part of the string from code point `i` on, and an error exactly when `i` is negative or greater
than the size. -/
theorem C46_substring_from (s : Str) (cs : List Nat) (hs : Holds s cs) (i : Int) :
    (0 ≤ i ∧ i ≤ cs.length → substring1 s i = .ok (encAll (cs.drop i.toNat))) ∧
    (i < 0 ∨ i > cs.length → ∃ e, substring1 s i = .err e ∧ e.code = .invalidArgument) := by
  have hl := length_le_encAll cs
  constructor
  · rintro ⟨h0, h1⟩
    rw [substring1, if_neg (by omega), if_neg (by rw [hs.size]; omega)]
    by_cases hz : i = 0
    · rw [if_pos hz, hz, hs.2.2]; rfl
    · rw [if_neg hz, substringLoop1_spec i.toNat _ s cs 0 0 hs (fuel_ok hs) (by omega), if_pos (by omega)]
      show slice s.bytes (0 + off cs (i.toNat - 0)) s.size = _
      have := slice_off hs i.toNat (cs.length - i.toNat)
      rw [show i.toNat + (cs.length - i.toNat) = cs.length by omega, off_len, ← hs.size] at this
      rw [Nat.zero_add, Nat.sub_zero, this, List.take_of_length_le (by simp)]
  · intro h
    rw [substring1]
    by_cases h0 : i < 0
    · rw [if_pos h0]; exact ⟨_, rfl, rfl⟩
    · rw [if_neg h0]
      by_cases h1 : i > s.size
      · rw [if_pos h1]; exact ⟨_, rfl, rfl⟩
      · rw [if_neg h1, if_neg (by omega), substringLoop1_spec i.toNat _ s cs 0 0 hs (fuel_ok hs) (by omega), if_neg (by omega)]
        exact ⟨_, rfl, rfl⟩

theorem substringLoop2_spec (start stop : Nat) (hss : start ≤ stop) : ∀ fuel s cs k u first, Holds s cs → cs.length < fuel → k ≤ stop →
    (start < k → first ≠ none) →
    substringLoop2 start stop fuel s k u first =
      if stop - k < cs.length then .ok ((if start < k then first.getD 0 else u + off cs (start - k)), u + off cs (stop - k))
      else if k + cs.length = start ∧ start = stop then .ok (u + off cs cs.length, u + off cs cs.length)
      else .err rangeTooLarge := by
  intro fuel
  induction fuel with
  | zero => intro s cs k u first _ h; omega
  | succ fuel ih =>
    intro s cs k u first hs hf hk hfirst
    rw [substringLoop2]
    cases cs with
    | nil =>
      rw [if_neg (by simp [hs.nil]), if_neg (show ¬ (stop - k < ([] : List Nat).length) by simp)]
      simp [off_zero]
    | cons c cs =>
      obtain ⟨hd, hs', hne⟩ := hs.step
      rw [if_pos hne]
      by_cases h : k = stop
      · simp only [h, if_true]
        rw [if_pos (show stop - stop < (c :: cs).length by simp)]
        by_cases h2 : stop = start
        · subst h2; simp [off_zero]
        · rw [if_neg h2]
          cases hfv : first with
          | none => exact absurd hfv (hfirst (by omega))
          | some f => simp [off_zero, show start < stop by omega]
      · simp only [if_neg h]
        rw [hd]
        show substringLoop2 start stop fuel (s.advance (enc c).length) (k + 1) (u + (enc c).length) (if k = start then some u else first) = _
        rw [ih _ cs (k + 1) _ _ hs' (by simp at hf; omega) (by omega) (by
          intro h3
          by_cases h4 : k = start
          · rw [if_pos h4]; simp
          · rw [if_neg h4]; exact hfirst (by omega))]
        obtain ⟨m, hm⟩ : ∃ m, stop - k = m + 1 := ⟨stop - k - 1, by omega⟩
        have e : ∀ m, off (c :: cs) (m + 1) = (enc c).length + off cs m := by intro m; simp [off, encAll]
        rw [hm, show stop - (k + 1) = m by omega, e m]
        simp only [List.length_cons, Nat.add_lt_add_iff_right]
        by_cases h5 : m < cs.length
        · rw [if_pos h5, if_pos h5]
          by_cases h6 : start < k
          · rw [if_pos (by omega), if_pos h6, if_neg (by omega)]
            congr 2; omega
          · rw [if_neg h6]
            by_cases h7 : k = start
            · rw [if_pos (by omega), if_pos h7, h7]; simp [off_zero]; omega
            · rw [if_neg (by omega)]
              obtain ⟨j, hj⟩ : ∃ j, start - k = j + 1 := ⟨start - k - 1, by omega⟩
              rw [hj, show start - (k + 1) = j by omega, e j]
              congr 2 <;> omega
        · rw [if_neg h5, if_neg h5, e]
          by_cases h6 : k + (cs.length + 1) = start ∧ start = stop
          · rw [if_pos (by omega), if_pos h6]; congr 2 <;> omega
          · rw [if_neg (by omega), if_neg h6]

/-- C46, in part: `s.substring(i, j)` is the code points from `i` up to `j`, if `j` is less than the size or `i = j`; the rest of the
claim is false (next theorem): an end equal to the size is an error unless the result is empty. Out of range is an error. -/
theorem C46_substring_partial (s : Str) (cs : List Nat) (hs : Holds s cs) (i j : Int) :
    (0 ≤ i ∧ i ≤ j ∧ (j < cs.length ∨ i = j ∧ j = cs.length) →
      substring2 s i j = .ok (encAll ((cs.drop i.toNat).take (j - i).toNat))) ∧
    (i < 0 ∨ j < i ∨ j > cs.length → ∃ e, substring2 s i j = .err e ∧ e.code = .invalidArgument) := by
  have hl := length_le_encAll cs
  constructor
  · rintro ⟨h0, h1, h2⟩
    rw [substring2, if_neg (by omega), if_neg (by omega), if_neg (by rw [hs.size]; omega),
      substringLoop2_spec i.toNat j.toNat (by omega) _ s cs 0 0 none hs (fuel_ok hs) (by omega) (by intro h; omega)]
    by_cases h3 : j < cs.length
    · rw [if_pos (by omega), if_neg (by omega)]
      show slice s.bytes (0 + off cs (i.toNat - 0)) (0 + off cs (j.toNat - 0)) = _
      have := slice_off hs i.toNat (j - i).toNat
      rw [show i.toNat + (j - i).toNat = j.toNat by omega] at this
      simpa using this
    · rw [if_neg (by omega), if_pos (by omega)]
      show slice s.bytes (0 + off cs cs.length) (0 + off cs cs.length) = _
      have := slice_off hs cs.length 0
      rw [show (j - i).toNat = 0 by omega]
      simpa using this
  · intro h
    rw [substring2]
    by_cases h0 : i < 0
    · rw [if_pos h0]; exact ⟨_, rfl, rfl⟩
    · rw [if_neg h0]
      by_cases h1 : j < i
      · rw [if_pos h1]; exact ⟨_, rfl, rfl⟩
      · rw [if_neg h1]
        by_cases h2 : i > s.size ∨ j > s.size
        · rw [if_pos h2]; exact ⟨_, rfl, rfl⟩
        · rw [if_neg h2, substringLoop2_spec i.toNat j.toNat (by omega) _ s cs 0 0 none hs (fuel_ok hs) (by omega) (by intro h; omega),
            if_neg (by omega), if_neg (by omega)]
          exact ⟨_, rfl, rfl⟩

/-- What is false of the claim: `s.substring(i, size(s))` is an error for every `i < size(s)`, although the code points from `i` up to
the size exist (`string_value.cc` line 726 tests for the end only while characters remain). -/
theorem C46_substring_to_end_fails (s : Str) (cs : List Nat) (hs : Holds s cs) (i : Int) (h : 0 ≤ i ∧ i < cs.length) :
    substring2 s i cs.length = .err rangeTooLarge := by
  have hl := length_le_encAll cs
  rw [substring2, if_neg (by omega), if_neg (by omega), if_neg (by rw [hs.size]; omega),
    substringLoop2_spec i.toNat (cs.length : Int).toNat (by omega) _ s cs 0 0 none hs (fuel_ok hs) (by omega) (by intro h; omega),
    if_neg (by omega), if_neg (by omega)]
  rfl

/-- C46: cutting a string in two at any index inside it gives the two parts, which together are the string. -/
theorem C46_substring_cut (s : Str) (cs : List Nat) (hs : Holds s cs) (i : Nat) (h : i < cs.length) :
    ∃ a b, substring2 s 0 i = .ok a ∧ substring1 s i = .ok b ∧ a ++ b = s.bytes := by
  refine ⟨_, _, (C46_substring_partial s cs hs 0 i).1 ⟨by omega, by omega, .inl (by omega)⟩, (C46_substring_from s cs hs i).1 ⟨by omega, by omega⟩, ?_⟩
  rw [hs.2.2, ← encAll_append]
  simp

theorem charAtLoop_spec : ∀ fuel s cs (pos : Nat), Holds s cs → cs.length < fuel →
    charAtLoop fuel s pos = if pos ≤ cs.length then .ok (encAll ((cs.drop pos).take 1))
      else .err (invalid "<string>.charAt(<pos>): <pos> is greater than <string>.size()") := by
  intro fuel
  induction fuel with
  | zero => intro s cs pos _ h; omega
  | succ fuel ih =>
    intro s cs pos hs hf
    rw [charAtLoop]
    cases cs with
    | nil =>
      rw [if_neg (by simp [hs.nil])]
      cases pos with
      | zero => simp [encAll]
      | succ p => rw [if_neg (by omega), if_neg (by simp)]
    | cons c cs =>
      obtain ⟨hd, hs', hne⟩ := hs.step
      rw [if_pos hne, hd]
      cases pos with
      | zero =>
        show (if ((0 : Nat) : Int) = 0 then Res.ok (utf8Encode c) else charAtLoop fuel (s.advance (enc c).length) (((0 : Nat) : Int) - 1)) = _
        rw [if_pos (show ((0 : Nat) : Int) = 0 from rfl), encode_eq_enc c (hs.2.1 c (by simp)), if_pos (Nat.zero_le _)]
        simp [encAll]
      | succ p =>
        show (if ((p + 1 : Nat) : Int) = 0 then Res.ok (utf8Encode c) else charAtLoop fuel (s.advance (enc c).length) (((p + 1 : Nat) : Int) - 1)) = _
        rw [if_neg (by omega), show ((p + 1 : Nat) : Int) - 1 = (p : Int) by omega, ih _ cs p hs' (by simp at hf; omega)]
        simp

/-- C46: `s.charAt(i)` is the code point at index `i`, the empty string at the size, and an error elsewhere. -/
theorem C46_char_at (s : Str) (cs : List Nat) (hs : Holds s cs) (i : Int) :
    (∀ c, 0 ≤ i → cs[i.toNat]? = some c → charAt s i = .ok (enc c)) ∧
    (i = cs.length → charAt s i = .ok []) ∧
    (i < 0 ∨ i > cs.length → ∃ e, charAt s i = .err e ∧ e.code = .invalidArgument) := by
  have key : 0 ≤ i → charAt s i = if i.toNat ≤ cs.length then .ok (encAll ((cs.drop i.toNat).take 1))
      else .err (invalid "<string>.charAt(<pos>): <pos> is greater than <string>.size()") := by
    intro h
    rw [charAt, if_neg (by omega)]
    have := charAtLoop_spec (s.size + 1) s cs i.toNat hs (fuel_ok hs)
    rwa [show ((i.toNat : Nat) : Int) = i by omega] at this
  refine ⟨fun c h0 hc => ?_, fun h => ?_, fun h => ?_⟩
  · obtain ⟨hlt, he⟩ := List.getElem?_eq_some_iff.mp hc
    rw [key h0, if_pos (by omega), List.drop_eq_getElem_cons hlt, he]
    simp [encAll]
  · rw [key (by omega), if_pos (by omega), List.drop_of_length_le (by omega)]
    rfl
  · by_cases h0 : i < 0
    · exact ⟨_, by rw [charAt, if_pos h0], rfl⟩
    · exact ⟨_, by rw [key (by omega), if_neg (by omega)], rfl⟩

/-! ## lowerAscii, upperAscii -/

theorem mem_takeWhile_true {p : Nat → Bool} {l : List Nat} {x : Nat} (h : x ∈ l.takeWhile p) : p x = true := by
  induction l with
  | nil => simp at h
  | cons a l ih =>
    rw [List.takeWhile_cons] at h
    split at h
    · rcases List.mem_cons.mp h with rfl | h
      · assumption
      · exact ih h
    · simp at h

theorem caseAscii_map (special : Nat → Bool) (conv : Nat → Nat) (h : ∀ c, special c = false → conv c = c) (s : Str) :
    caseAscii special conv s = s.bytes.map conv := by
  have all : ∀ b : List Nat, b.any special = false → b.map conv = b := by
    intro b hb
    rw [List.any_eq_false] at hb
    conv_rhs => rw [← List.map_id b]
    exact List.map_congr_left (fun x hx => h x (by simpa using hb x hx))
  cases s with
  | flat b =>
    show (if b.any special = true then b.map conv else b) = b.map conv
    split
    · rfl
    · rename_i hb; exact (all b (by simpa using hb)).symm
  | cord c =>
    show (if c.flatten.any special = true then _ else c.flatten) = c.flatten.map conv
    generalize c.flatten = b
    split
    · have hp : (b.takeWhile (fun c => !special c)).map conv = b.takeWhile (fun c => !special c) := by
        refine all _ ?_
        rw [List.any_eq_false]
        intro x hx
        have := mem_takeWhile_true hx
        simpa using this
      have e1 : b.take (b.takeWhile (fun c => !special c)).length = b.takeWhile (fun c => !special c) := by
        exact (List.prefix_iff_eq_take.mp (List.takeWhile_prefix _)).symm
      rw [e1]
      conv_rhs => rw [← List.take_append_drop (b.takeWhile (fun c => !special c)).length b, List.map_append, e1, hp]
    · rename_i hb; exact (all b (by simpa using hb)).symm

theorem enc_high {c : Nat} (h : 0x80 ≤ c) : ∀ x ∈ enc c, 0x80 ≤ x := by
  intro x hx
  rcases Nat.lt_or_ge x 0x80 with hlt | hge
  · have := enc_lt_80 hx hlt; omega
  · exact hge

theorem map_conv_enc (conv : Nat → Nat) (h1 : ∀ c, c < 0x80 → conv c < 0x80) (h2 : ∀ c, 0x80 ≤ c → conv c = c) (cs : List Nat) :
    (encAll cs).map conv = encAll (cs.map conv) := by
  induction cs with
  | nil => rfl
  | cons c cs ih =>
    rw [encAll_cons, List.map_append, ih, List.map_cons, encAll_cons]
    congr 1
    rcases Nat.lt_or_ge c 0x80 with hlt | hge
    · rw [enc_ascii hlt, enc_ascii (h1 c hlt)]; rfl
    · rw [h2 c hge]
      conv_rhs => rw [← List.map_id (enc c)]
      exact List.map_congr_left (fun x hx => h2 x (enc_high hge x hx))

/-- The ASCII letters and their counterparts. -/
def lowerSpec (c : Nat) : Nat := if 'A'.toNat ≤ c ∧ c ≤ 'Z'.toNat then c + ('a'.toNat - 'A'.toNat) else c
def upperSpec (c : Nat) : Nat := if 'a'.toNat ≤ c ∧ c ≤ 'z'.toNat then c - ('a'.toNat - 'A'.toNat) else c

theorem asciiToLower_eq : asciiToLower = lowerSpec := by
  funext c
  simp only [asciiToLower, asciiIsUpper, lowerSpec, Bool.and_eq_true, decide_eq_true_eq]
  rfl

theorem asciiToUpper_eq : asciiToUpper = upperSpec := by
  funext c
  simp only [asciiToUpper, asciiIsLower, upperSpec, Bool.and_eq_true, decide_eq_true_eq]
  rfl

/-- C46: `lowerAscii` and `upperAscii` change the ASCII letters and leave every other code point as it is. -/
theorem C46_case (s : Str) (cs : List Nat) (hs : Holds s cs) :
    lowerAscii s = encAll (cs.map lowerSpec) ∧ upperAscii s = encAll (cs.map upperSpec) := by
  constructor
  · rw [lowerAscii, caseAscii_map _ _ (fun c h => by simp [asciiToLower, h]), hs.2.2, ← asciiToLower_eq, map_conv_enc]
    · intro c h; unfold asciiToLower asciiIsUpper; split
      · rename_i h2; simp at h2; omega
      · exact h
    · intro c h; unfold asciiToLower asciiIsUpper; rw [if_neg (by simp; omega)]
  · rw [upperAscii, caseAscii_map _ _ (fun c h => by simp [asciiToUpper, h]), hs.2.2, ← asciiToUpper_eq, map_conv_enc]
    · intro c h; unfold asciiToUpper asciiIsLower; split
      · rename_i h2; simp at h2; omega
      · exact h
    · intro c h; unfold asciiToUpper asciiIsLower; rw [if_neg (by simp; omega)]

/-! ## trim -/

/-- The characters with the Unicode property White_Space. -/
def WhiteSpace (c : Nat) : Prop :=
  (9 ≤ c ∧ c ≤ 13) ∨ c = 0x20 ∨ c = 0x85 ∨ c = 0xA0 ∨ c = 0x1680 ∨ (0x2000 ≤ c ∧ c ≤ 0x200A) ∨ c = 0x2028 ∨ c = 0x2029 ∨
  c = 0x202F ∨ c = 0x205F ∨ c = 0x3000

theorem whitespace_iff (c : Nat) : isUnicodeWhitespace c = true ↔ WhiteSpace c := by
  unfold isUnicodeWhitespace WhiteSpace
  split
  · simp; omega
  · split
    · simp; omega
    · split
      · rename_i h; simp at h ⊢; omega
      · split
        · rename_i h; simp at h ⊢; omega
        · rename_i h1 h2; simp at h1 h2 ⊢; omega

theorem trimLeft_spec : ∀ fuel s cs left, Holds s cs → cs.length < fuel →
    ∃ a r, cs = a ++ r ∧ (∀ x ∈ a, WhiteSpace x) ∧ (∀ x t, r = x :: t → ¬ WhiteSpace x) ∧
      trimLeft fuel s left = .ok (left + (encAll a).length) := by
  intro fuel
  induction fuel with
  | zero => intro s cs left _ h; omega
  | succ fuel ih =>
    intro s cs left hs hf
    rw [trimLeft]
    cases cs with
    | nil =>
      rw [if_neg (by simp [hs.nil])]
      exact ⟨[], [], rfl, by simp, by simp, by simp [encAll]⟩
    | cons c cs =>
      obtain ⟨hd, hs', hne⟩ := hs.step
      rw [if_pos hne, hd]
      show ∃ a r, _ ∧ _ ∧ _ ∧ (if (!isUnicodeWhitespace c) = true then Res.ok left else trimLeft fuel (s.advance (enc c).length) (left + (enc c).length)) = _
      by_cases hw : isUnicodeWhitespace c = true
      · rw [if_neg (by simp [hw])]
        obtain ⟨a, r, h1, h2, h3, h4⟩ := ih _ cs (left + (enc c).length) hs' (by simp at hf; omega)
        refine ⟨c :: a, r, by rw [h1]; rfl, ?_, h3, ?_⟩
        · intro x hx
          rcases List.mem_cons.mp hx with rfl | hx
          · exact (whitespace_iff _).mp hw
          · exact h2 x hx
        · rw [h4, encAll_cons, List.length_append]; congr 1; omega
      · rw [if_pos (by simp [hw])]
        refine ⟨[], c :: cs, rfl, by simp, ?_, by simp [encAll]⟩
        intro x t hx
        simp only [List.cons.injEq] at hx
        rw [← hx.1, ← whitespace_iff]; exact hw

theorem trimRight_spec : ∀ fuel s cs pos last, Holds s cs → cs.length < fuel →
    ∃ m b, cs = m ++ b ∧ (∀ x ∈ b, WhiteSpace x) ∧ (∀ x t, m = t ++ [x] → ¬ WhiteSpace x) ∧
      trimRight fuel s pos last = .ok (if m = [] then last else pos + (encAll m).length) := by
  intro fuel
  induction fuel with
  | zero => intro s cs pos last _ h; omega
  | succ fuel ih =>
    intro s cs pos last hs hf
    rw [trimRight]
    cases cs with
    | nil =>
      rw [if_neg (by simp [hs.nil])]
      exact ⟨[], [], rfl, by simp, by simp, by simp⟩
    | cons c cs =>
      obtain ⟨hd, hs', hne⟩ := hs.step
      rw [if_pos hne, hd]
      obtain ⟨m, b, h1, h2, h3, h4⟩ := ih _ cs (pos + (enc c).length) (if (!isUnicodeWhitespace c) = true then pos + (enc c).length else last) hs' (by simp at hf; omega)
      show ∃ m b, _ ∧ _ ∧ _ ∧ trimRight fuel (s.advance (enc c).length) (pos + (enc c).length) (if (!isUnicodeWhitespace c) = true then pos + (enc c).length else last) = _
      rw [h4]
      by_cases hm : m = []
      · subst hm
        rw [if_pos rfl]
        by_cases hw : isUnicodeWhitespace c = true
        · refine ⟨[], c :: cs, rfl, ?_, by simp, by simp [hw]⟩
          intro x hx
          rcases List.mem_cons.mp hx with rfl | hx
          · exact (whitespace_iff _).mp hw
          · exact h2 x (by simpa [h1] using hx)
        · refine ⟨[c], cs, rfl, ?_, ?_, ?_⟩
          · intro x hx; exact h2 x (by simpa [h1] using hx)
          · intro x t hx
            have : x = c := by
              have := congrArg List.getLast? hx
              simp at this; exact this.symm
            rw [this, ← whitespace_iff]; exact hw
          · simp [hw, encAll]
      · refine ⟨c :: m, b, by rw [h1]; rfl, h2, ?_, ?_⟩
        · intro x t hx
          cases t with
          | nil => simp at hx; exact absurd hx.2 hm
          | cons y t =>
            simp only [List.cons_append, List.cons.injEq] at hx
            exact h3 x t hx.2
        · rw [if_neg hm, if_neg (by simp), encAll_cons, List.length_append]; congr 1; omega

/-- C46: `trim` removes the white space at both ends and nothing else. -/
theorem C46_trim (s : Str) (cs : List Nat) (hs : Holds s cs) :
    ∃ a m b, cs = a ++ (m ++ b) ∧ (∀ x ∈ a, WhiteSpace x) ∧ (∀ x ∈ b, WhiteSpace x) ∧
      (∀ x t, m = x :: t → ¬ WhiteSpace x) ∧ (∀ x t, m = t ++ [x] → ¬ WhiteSpace x) ∧ trim s = .ok (encAll m) := by
  obtain ⟨a, r, h1, h2, h3, h4⟩ := trimLeft_spec (s.size + 1) s cs 0 hs (fuel_ok hs)
  have hlen : (encAll cs).length = (encAll a).length + (encAll r).length := by rw [h1, encAll_append, List.length_append]
  have ha : a.length ≤ cs.length := by rw [h1]; simp
  cases r with
  | nil =>
    refine ⟨a, [], [], by rw [h1]; simp, h2, by simp, by simp, by simp, ?_⟩
    rw [trim, h4]
    rw [List.append_nil] at h1
    subst h1
    cases s with
    | flat b =>
      have hb : b = encAll cs := hs.2.2
      show (if 0 + (encAll cs).length = b.length then slice b (0 + (encAll cs).length) (b.length - 0) else _) = _
      rw [if_pos (by rw [hb]; omega), hb, slice, if_pos (by omega)]
      simp [encAll]
    | cord c =>
      have hb : c.flatten = encAll cs := hs.2.2
      show (if 0 + (encAll cs).length = c.flatten.length then Res.ok [] else _) = _
      rw [if_pos (by rw [hb]; omega)]
      rfl
  | cons y ys =>
    have hy : ¬ WhiteSpace y := h3 y ys rfl
    have hpos : 0 < (encAll (y :: ys)).length := List.length_pos_iff.mpr encAll_ne
    have hoff : off cs a.length = (encAll a).length := by unfold off; rw [h1, List.take_left]
    cases s with
    | flat b =>
      have hb : b = encAll cs := hs.2.2
      obtain ⟨m, w, k1, k2, k3, k4⟩ := trimRight_spec ((Str.flat b).size + 1) _ cs 0 0 hs (fuel_ok hs)
      -- the last character that is no white space is not before the first
      have hm : ∃ m', m = a ++ m' ∧ m' ++ w = y :: ys := by
        have e : a ++ (y :: ys) = m ++ w := by rw [← h1, ← k1]
        rcases List.append_eq_append_iff.mp e with ⟨c, hc1, hc2⟩ | ⟨c, hc1, hc2⟩
        · exact ⟨c, hc1, hc2.symm⟩
        · cases c with
          | nil => exact ⟨[], by simpa using hc1.symm, by simpa using hc2⟩
          | cons z zs =>
            exact absurd (k2 y (by rw [hc2]; simp)) hy
      obtain ⟨m', rfl, hm2⟩ := hm
      have hm0 : m' ≠ [] := by
        rintro rfl
        exact absurd (k2 y (by rw [List.nil_append] at hm2; rw [hm2]; simp)) hy
      refine ⟨a, m', w, by rw [k1]; simp, h2, k2, ?_, ?_, ?_⟩
      · intro x t hx
        rw [hx] at hm2
        simp only [List.cons_append, List.cons.injEq] at hm2
        rw [hm2.1]; exact hy
      · intro x t hx
        exact k3 x (a ++ t) (by rw [hx]; simp)
      · rw [trim, h4]
        show (if 0 + (encAll a).length = b.length then _ else _) = _
        rw [if_neg (by rw [hb]; omega), k4, if_neg (by simp [hm0])]
        show slice b (0 + (encAll a).length) (b.length - (b.length - (0 + (encAll (a ++ m')).length))) = _
        have hle : (encAll (a ++ m')).length ≤ b.length := by
          rw [hb, k1, encAll_append (a ++ m') w, List.length_append]; omega
        rw [show b.length - (b.length - (0 + (encAll (a ++ m')).length)) = (encAll (a ++ m')).length by omega]
        have hs2 := slice_off hs a.length m'.length
        have ht : cs.take (a.length + m'.length) = a ++ m' := by
          rw [k1, ← List.length_append, List.take_left]
        have e2 : off cs (a.length + m'.length) = (encAll (a ++ m')).length := by unfold off; rw [ht]
        have e3 : (cs.drop a.length).take m'.length = m' := by
          rw [k1, List.append_assoc, List.drop_left, List.take_left]
        rw [hoff, e2, e3] at hs2
        rw [Nat.zero_add]
        exact hs2
    | cord c =>
      have hb : c.flatten = encAll cs := hs.2.2
      have hl := hs.at a.length
      rw [hoff] at hl
      have hd : cs.drop a.length = y :: ys := by rw [h1, List.drop_left]
      rw [hd] at hl
      obtain ⟨m, w, k1, k2, k3, k4⟩ := trimRight_spec ((Str.cord c).size + 1) _ (y :: ys) 0 0 hl (by
        have := fuel_ok hs
        have e : cs.length = a.length + (y :: ys).length := by rw [h1, List.length_append]
        omega)
      have hm0 : m ≠ [] := by
        rintro rfl
        exact absurd (k2 y (by rw [List.nil_append] at k1; rw [← k1]; simp)) hy
      refine ⟨a, m, w, by rw [← k1]; exact h1, h2, k2, ?_, k3, ?_⟩
      · intro x t hx
        rw [hx] at k1
        simp only [List.cons_append, List.cons.injEq] at k1
        rw [← k1.1]; exact hy
      · rw [trim, h4]
        show (if 0 + (encAll a).length = c.flatten.length then _ else _) = _
        rw [if_neg (by rw [hb]; omega), Nat.zero_add]
        show (trimRight ((Str.cord c).size + 1) ((Str.cord c).advance (encAll a).length) 0 0 >>= fun last => slice ((Str.cord c).advance (encAll a).length).bytes 0 last) = _
        rw [k4, if_neg hm0, Nat.zero_add]
        show slice ((Str.cord c).advance (encAll a).length).bytes 0 (encAll m).length = _
        have hs2 := slice_off hl 0 m.length
        have e2 : off (y :: ys) (0 + m.length) = (encAll m).length := by unfold off; rw [Nat.zero_add, k1, List.take_left]
        have e3 : ((y :: ys).drop 0).take m.length = m := by rw [k1]; simp
        rw [e2, e3, off_zero] at hs2
        exact hs2

/-! ## quote -/

theorem quoteLoop_spec : ∀ fuel s cs out, Holds s cs → cs.length < fuel →
    quoteLoop fuel s out = .ok (out ++ cs.flatMap quoteCodePoint) := by
  intro fuel
  induction fuel with
  | zero => intro s cs out _ h; omega
  | succ fuel ih =>
    intro s cs out hs hf
    rw [quoteLoop]
    cases cs with
    | nil => rw [if_neg (by simp [hs.nil])]; simp
    | cons c cs =>
      obtain ⟨hd, hs', hne⟩ := hs.step
      rw [if_pos hne, hd]
      show quoteLoop fuel (s.advance (enc c).length) (out ++ quoteCodePoint c) = _
      rw [ih _ cs _ hs' (by simp at hf; omega)]
      simp

theorem denotes_plain {isBytes : Bool} : ∀ (a t v : List Nat), (∀ x ∈ a, x ≠ 92 ∧ x ≠ 13) → Denotes isBytes t v → Denotes isBytes (a ++ t) (a ++ v) := by
  intro a
  induction a with
  | nil => intro t v _ h; exact h
  | cons x a ih =>
    intro t v h hd
    exact .char (h x (by simp)).1 (h x (by simp)).2 (ih t v (fun y hy => h y (by simp [hy])) hd)

theorem noClose_plain : ∀ (a t : List Nat), (∀ x ∈ a, x ≠ 92 ∧ x ≠ 34) → NoClose [34] t → NoClose [34] (a ++ t) := by
  intro a
  induction a with
  | nil => intro t _ h; exact h
  | cons x a ih =>
    intro t h hd
    refine .char (h x (by simp)).1 ?_ (ih t (fun y hy => h y (by simp [hy])) hd)
    simp
    exact fun e => (h x (by simp)).2 e.symm

theorem enc_plain {c x k : Nat} (hk : k < 0x80) (hc : c ≠ k) (hx : x ∈ enc c) : x ≠ k := by
  rintro rfl
  exact hc (enc_lt_80 hx hk).1

theorem quote_cases (c : Nat) :
    (∃ e, quoteCodePoint c = [92, e] ∧ c < 0x80 ∧ e < 0x80 ∧ (e, c) ∈ simpleEscape) ∨
    (quoteCodePoint c = utf8Encode c ∧ c ≠ 13 ∧ c ≠ 92 ∧ c ≠ 34) := by
  unfold quoteCodePoint
  by_cases h : c = 7
  · subst h; exact .inl ⟨97, rfl, by decide, by decide, by decide⟩
  rw [if_neg h]
  by_cases h : c = 8
  · subst h; exact .inl ⟨98, rfl, by decide, by decide, by decide⟩
  rw [if_neg h]
  by_cases h : c = 12
  · subst h; exact .inl ⟨102, rfl, by decide, by decide, by decide⟩
  rw [if_neg h]
  by_cases h : c = 10
  · subst h; exact .inl ⟨110, rfl, by decide, by decide, by decide⟩
  rw [if_neg h]
  by_cases h5 : c = 13
  · subst h5; exact .inl ⟨114, rfl, by decide, by decide, by decide⟩
  rw [if_neg h5]
  by_cases h : c = 9
  · subst h; exact .inl ⟨116, rfl, by decide, by decide, by decide⟩
  rw [if_neg h]
  by_cases h : c = 11
  · subst h; exact .inl ⟨118, rfl, by decide, by decide, by decide⟩
  rw [if_neg h]
  by_cases h8 : c = 92
  · subst h8; exact .inl ⟨92, rfl, by decide, by decide, by decide⟩
  rw [if_neg h8]
  by_cases h9 : c = 34
  · subst h9; exact .inl ⟨34, rfl, by decide, by decide, by decide⟩
  rw [if_neg h9]
  exact .inr ⟨rfl, h5, h8, h9⟩

theorem quote_body (cs : List Nat) (h : Scalars cs) :
    Denotes false (cs.flatMap quoteCodePoint) (encAll cs) ∧ NoClose [34] (cs.flatMap quoteCodePoint) ∧
    WellFormed (cs.flatMap quoteCodePoint) := by
  induction cs with
  | nil => exact ⟨.nil, .nil, wf_nil⟩
  | cons c cs ih =>
    obtain ⟨i1, i2, i3⟩ := ih (fun x hx => h x (by simp [hx]))
    rw [List.flatMap_cons, encAll_cons]
    have esc : ∀ e, c < 0x80 → e < 0x80 → (e, c) ∈ simpleEscape →
        Denotes false ([92, e] ++ cs.flatMap quoteCodePoint) (enc c ++ encAll cs) ∧
        NoClose [34] ([92, e] ++ cs.flatMap quoteCodePoint) ∧ WellFormed ([92, e] ++ cs.flatMap quoteCodePoint) := by
      intro e hc he hm
      rw [enc_ascii hc]
      refine ⟨.simple hm i1, .esc i2, ?_⟩
      show WellFormed (92 :: e :: _)
      rw [wf_ascii (by omega), wf_ascii he]
      exact i3
    rcases quote_cases c with ⟨e, hq, hc, he, hm⟩ | ⟨hq, h5, h8, h9⟩
    · rw [hq]; exact esc e hc he hm
    rw [hq]
    rw [encode_eq_enc c (h c (by simp))]
    refine ⟨denotes_plain _ _ _ ?_ i1, noClose_plain _ _ ?_ i2, wf_append ⟨[c], fun x hx => ?_, by simp [encAll]⟩ i3⟩
    · exact fun x hx => ⟨enc_plain (by omega) h8 hx, enc_plain (by omega) h5 hx⟩
    · exact fun x hx => ⟨enc_plain (by omega) h8 hx, enc_plain (by omega) h9 hx⟩
    · rw [List.mem_singleton] at hx; rw [hx]; exact h c (by simp)

/-- C46: `strings.quote(s)` is a CEL string literal whose value is `s`. -/
theorem C46_quote (s : Str) (cs : List Nat) (hs : Holds s cs) :
    ∃ q, quote s = .ok q ∧ StringLiteral q s.bytes ∧ parseStringLiteral q = .ok s.bytes := by
  obtain ⟨h1, h2, h3⟩ := quote_body cs hs.2.1
  have hl : StringLiteral ([34] ++ cs.flatMap quoteCodePoint ++ [34]) s.bytes := by
    refine ⟨[], [34], cs.flatMap quoteCodePoint, by simp, .inr (.inl rfl), h2, h3, .inl ⟨rfl, ?_⟩⟩
    rw [hs.2.2]; exact h1
  refine ⟨[34] ++ cs.flatMap quoteCodePoint ++ [34], ?_, hl, ?_⟩
  · rw [quote, quoteLoop_spec _ s cs [34] hs (fuel_ok hs)]; rfl
  · refine (C49_string_literal_meaning _ _ ?_).mpr hl
    intro x hx
    rw [List.append_assoc, List.mem_append, List.mem_append] at hx
    rcases hx with hx | hx | hx
    · simp at hx; omega
    · exact wf_bytes h3 x hx
    · simp at hx; omega

/-! ## reverse -/

theorem and_c0 : ∀ x : Fin 256, (x.val &&& 0xC0 = 0x80) ↔ (0x80 ≤ x.val ∧ x.val < 0xC0) := by decide +kernel

/-- The first byte of an encoding is no continuation byte; the others are. -/
theorem enc_cont {c : Nat} (h : IsScalar c) : ∃ b t, enc c = b :: t ∧ ¬ (b &&& 0xC0 = 0x80) ∧ ∀ x ∈ t, x &&& 0xC0 = 0x80 := by
  have hb := enc_bytes h
  have cls : ∀ x ∈ enc c, (x &&& 0xC0 = 0x80 ↔ (0x80 ≤ x ∧ x < 0xC0)) := fun x hx => and_c0 ⟨x, hb x hx⟩
  unfold IsScalar at h
  have key : ∃ b t, enc c = b :: t ∧ ¬ (0x80 ≤ b ∧ b < 0xC0) ∧ ∀ x ∈ t, 0x80 ≤ x ∧ x < 0xC0 := by
    unfold enc
    split
    · exact ⟨_, _, rfl, by omega, by simp⟩
    · split
      · exact ⟨_, _, rfl, by omega, by simp; omega⟩
      · split
        · exact ⟨_, _, rfl, by omega, by simp; omega⟩
        · exact ⟨_, _, rfl, by omega, by simp; omega⟩
  obtain ⟨b, t, h1, h2, h3⟩ := key
  refine ⟨b, t, h1, ?_, fun x hx => ?_⟩
  · rw [cls b (by rw [h1]; simp)]; exact h2
  · rw [cls x (by rw [h1]; simp [hx])]; exact h3 x hx

theorem backUp_spec (b : List Nat) (base n : Nat) (h0 : 0 < base → ¬ ((b.getD base 0) &&& 0xC0 = 0x80))
    (hc : ∀ i, 0 < i → i ≤ n → (b.getD (base + i) 0) &&& 0xC0 = 0x80) : backUp b (base + n) = base := by
  induction n with
  | zero =>
    cases base with
    | zero => rfl
    | succ base =>
      show backUp b (base + 1) = _
      rw [backUp, if_neg (h0 (by omega))]
  | succ n ih =>
    have h1 := hc (n + 1) (by omega) (by omega)
    rw [← Nat.add_assoc] at h1
    rw [← Nat.add_assoc, backUp, if_pos h1]
    exact ih (fun i h1 h2 => hc i h1 (by omega))

theorem reverseFlat_spec (cs : List Nat) (hs : Scalars cs) : ∀ n fuel out, n ≤ cs.length → n < fuel →
    reverseFlat (encAll cs) fuel (off cs n) out = .ok (out ++ encAll (cs.take n).reverse) := by
  intro n
  induction n with
  | zero =>
    intro fuel out _ hf
    obtain ⟨f, rfl⟩ : ∃ f, fuel = f + 1 := ⟨fuel - 1, by omega⟩
    rw [reverseFlat, off_zero, if_neg (by omega)]
    simp [encAll]
  | succ n ih =>
    intro fuel out hn hf
    obtain ⟨f, rfl⟩ : ∃ f, fuel = f + 1 := ⟨fuel - 1, by omega⟩
    have hd : cs.drop n = cs[n] :: cs.drop (n + 1) := List.drop_eq_getElem_cons (by omega)
    generalize hc : cs[n]'(by omega) = c at hd
    have hsc : IsScalar c := hs c (hc ▸ List.getElem_mem _)
    have hoff := off_succ hd
    obtain ⟨x, t, he, hx, ht⟩ := enc_cont hsc
    have hlen : (enc c).length = t.length + 1 := by rw [he]; simp
    have hall : encAll cs = encAll (cs.take n) ++ (enc c ++ encAll (cs.drop (n + 1))) := by
      rw [← encAll_cons, ← hd, ← encAll_append, List.take_append_drop]
    have hget : ∀ i, i < (enc c).length → (encAll cs).getD (off cs n + i) 0 = (enc c).getD i 0 := by
      intro i hi
      rw [hall]
      unfold off
      rw [List.getD_eq_getElem?_getD, List.getD_eq_getElem?_getD, List.getElem?_append_right (by omega), List.getElem?_append_left (by omega)]
      congr 2; omega
    rw [reverseFlat, if_pos (by omega)]
    have hbu : backUp (encAll cs) (off cs (n + 1) - 1) = off cs n := by
      rw [hoff, hlen, show off cs n + (t.length + 1) - 1 = off cs n + t.length by omega]
      refine backUp_spec _ _ _ ?_ ?_
      · intro _
        have := hget 0 (by omega)
        rw [Nat.add_zero] at this
        rw [this, he]; exact hx
      · intro i h1 h2
        rw [hget i (by omega), he]
        obtain ⟨j, rfl⟩ : ∃ j, i = j + 1 := ⟨i - 1, by omega⟩
        rw [List.getD_cons_succ, List.getD_eq_getElem?_getD, List.getElem?_eq_getElem (by omega)]
        exact ht _ (List.getElem_mem _)
    have hsl : ((encAll cs).take (off cs (n + 1))).drop (off cs n) = enc c := by
      rw [hoff]
      unfold off
      rw [List.take_add, hall, List.take_left, List.drop_left, List.drop_left, List.take_left]
    rw [hbu]
    show reverseFlat (encAll cs) f (off cs n) (out ++ ((encAll cs).take (off cs (n + 1))).drop (off cs n)) = _
    rw [hsl, ih f _ (by omega) (by omega)]
    have : cs.take (n + 1) = cs.take n ++ [c] := by rw [List.take_succ_eq_append_getElem (by omega), hc]
    rw [this, List.reverse_append]
    simp [encAll]

theorem codePointsLoop_spec : ∀ fuel s cs out, Holds s cs → cs.length < fuel → codePointsLoop fuel s out = .ok (out ++ cs) := by
  intro fuel
  induction fuel with
  | zero => intro s cs out _ h; omega
  | succ fuel ih =>
    intro s cs out hs hf
    rw [codePointsLoop]
    cases cs with
    | nil => rw [if_neg (by simp [hs.nil])]; simp
    | cons c cs =>
      obtain ⟨hd, hs', hne⟩ := hs.step
      rw [if_pos hne, hd]
      show codePointsLoop fuel (s.advance (enc c).length) (out ++ [c]) = _
      rw [ih _ cs _ hs' (by simp at hf; omega)]
      simp

theorem flatMap_congr' {f g : Nat → List Nat} {l : List Nat} (h : ∀ x ∈ l, f x = g x) : l.flatMap f = l.flatMap g := by
  induction l with
  | nil => rfl
  | cons a l ih => rw [List.flatMap_cons, List.flatMap_cons, h a (by simp), ih (fun x hx => h x (by simp [hx]))]

/-- C46: `s.reverse()` is the code points in the opposite order. -/
theorem C46_reverse (s : Str) (cs : List Nat) (hs : Holds s cs) : reverse s = .ok (encAll cs.reverse) := by
  cases s with
  | flat b =>
    have hb : b = encAll cs := hs.2.2
    subst hb
    show (if encAll cs = [] then Res.ok [] else _) = _
    by_cases h : encAll cs = []
    · rw [if_pos h, encAll_eq_nil.mp h]; rfl
    · have := length_le_encAll cs
      rw [if_neg h, ← off_len, reverseFlat_spec cs hs.2.1 cs.length _ [] (Nat.le_refl _) (by rw [off_len]; omega), List.take_length]
      rfl
  | cord c =>
    have hb : c.flatten = encAll cs := hs.2.2
    show (if c.flatten = [] then Res.ok [] else _) = _
    by_cases h : c.flatten = []
    · rw [if_pos h]; rw [hb, encAll_eq_nil] at h; rw [h]; rfl
    · have := length_le_encAll cs
      rw [if_neg h, codePointsLoop_spec _ _ cs [] hs (by rw [hb]; omega)]
      show Res.ok (cs.reverse.flatMap utf8Encode) = _
      congr 1
      unfold encAll
      exact flatMap_congr' (fun x hx => encode_eq_enc x (hs.2.1 x (by simpa using hx)))

end Cel.Ext.Strings
