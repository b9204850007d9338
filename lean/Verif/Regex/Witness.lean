import Verif.Regex.Props

/-!
# C74: instances and counterexamples
-/

set_option linter.unusedSimpArgs false
set_option linter.unusedVariables false

namespace Cel.Regex
open Cel Cel.Eval Cel.Data

/-- The expression that is one byte. -/
def byteRe (c : UInt8) : Re where
  groups := 0
  find t p := ((t.drop p).findIdx? (· == c)).map fun i => ⟨p + i, 1, []⟩

/-- `^a`. -/
def anchoredRe (c : UInt8) : Re where
  groups := 0
  find t p := if p = 0 ∧ t.head? = some c then some ⟨0, 1, []⟩ else none

/-- The empty expression. -/
def emptyRe : Re where
  groups := 0
  find t p := if p ≤ t.length then some ⟨p, 0, []⟩ else none

theorem byteRe_some {c : UInt8} {t : Bytes} {p : Nat} {m : Match} (h : (byteRe c).find t p = some m) :
    p ≤ m.start ∧ m.start < t.length ∧ m.len = 1 ∧ m.caps = [] ∧ t[m.start]? = some c ∧
      ∀ j, p ≤ j → j < m.start → t[j]? ≠ some c := by
  simp only [byteRe, Option.map_eq_some_iff] at h
  obtain ⟨i, hi, rfl⟩ := h
  rw [List.findIdx?_eq_some_iff_getElem] at hi
  obtain ⟨h1, h2, h3⟩ := hi
  rw [List.length_drop] at h1
  refine ⟨by simp, by simp only []; omega, rfl, rfl, ?_, ?_⟩
  · simp only [List.getElem_drop, beq_iff_eq] at h2
    simp only []
    rw [List.getElem?_eq_getElem (by omega), h2]
  · intro j hj hlt hc
    simp only [] at hlt
    have := h3 (j - p) (by omega)
    simp only [List.getElem_drop, show p + (j - p) = j by omega] at this
    rw [List.getElem?_eq_getElem (by omega)] at hc
    simp only [Option.some.injEq] at hc
    rw [hc] at this
    simp at this

theorem byteRe_none {c : UInt8} {t : Bytes} {p : Nat} (h : (byteRe c).find t p = none) :
    ∀ j, p ≤ j → t[j]? ≠ some c := by
  intro j hj hc
  simp only [byteRe, Option.map_eq_none_iff, List.findIdx?_eq_none_iff] at h
  have hlt : j < t.length := by
    by_contra hn
    rw [List.getElem?_eq_none (by omega)] at hc
    cases hc
  rw [List.getElem?_eq_getElem hlt] at hc
  simp only [Option.some.injEq] at hc
  have hm : t[j] ∈ t.drop p := by
    rw [List.mem_iff_getElem]
    exact ⟨j - p, by rw [List.length_drop]; omega, by simp only [List.getElem_drop, show p + (j - p) = j by omega]⟩
  have := h _ hm
  rw [hc] at this
  simp at this

theorem byteRe_unique {c : UInt8} {t : Bytes} {p : Nat} {i : Nat} (hpi : p ≤ i) (hi : t[i]? = some c)
    (hmin : ∀ j, p ≤ j → j < i → t[j]? ≠ some c) : (byteRe c).find t p = some ⟨i, 1, []⟩ := by
  cases h : (byteRe c).find t p with
  | none => exact absurd hi (byteRe_none h i hpi)
  | some m =>
    obtain ⟨h1, h2, h3, h4, h5, h6⟩ := byteRe_some h
    have : m.start = i := by
      rcases Nat.lt_trichotomy m.start i with hlt | heq | hgt
      · exact absurd h5 (hmin _ h1 hlt)
      · exact heq
      · exact absurd hi (h6 _ hpi hgt)
    cases m
    simp_all

/-- The hypotheses of the theorems hold of the search for a byte. -/
theorem byteRe_inRange (c : UInt8) : InRange (byteRe c) := by
  intro t p m _ h
  obtain ⟨h1, h2, h3, _⟩ := byteRe_some h
  exact ⟨h1, by omega⟩

theorem byteRe_nonEmpty (c : UInt8) : NonEmpty (byteRe c) := by
  intro t p m h
  obtain ⟨_, _, h3, _⟩ := byteRe_some h
  omega

theorem byteRe_leftmost (c : UInt8) : Leftmost (byteRe c) := by
  intro t p q m h hpq hq
  obtain ⟨h1, h2, h3, h4, h5, h6⟩ := byteRe_some h
  rw [byteRe_unique hq h5 (fun j hj hlt => h6 j (by omega) hlt)]
  cases m
  simp_all

theorem byteRe_contextFree (c : UInt8) : ContextFree (byteRe c) := by
  intro t k p _
  simp only [byteRe, List.drop_drop, Option.map_map]
  congr 1
  funext i
  simp only [Function.comp]
  congr 1
  omega

/-- The empty expression satisfies what `C74_extractAll_partial` and `C74_extractAll_total` ask. -/
theorem emptyRe_inRange : InRange emptyRe := by
  intro t p m hp h
  simp only [emptyRe, hp, if_true, Option.some.injEq] at h
  subst h
  simpa using hp

theorem emptyRe_leftmost : Leftmost emptyRe := by
  intro t p q m h hpq hq
  have hp : p ≤ t.length := by
    by_contra hn
    simp only [emptyRe, hn, if_false] at h
    cases h
  simp only [emptyRe, hp, if_true, Option.some.injEq] at h
  subst h
  have : q = p := by simp only [] at hq; omega
  subst this
  simp only [emptyRe, hp, if_true]

theorem emptyRe_contextFree : ContextFree emptyRe := by
  intro t k p h
  simp only [emptyRe, List.length_drop, h, show p ≤ t.length - k by omega, if_true, Option.map_some,
    Nat.add_sub_cancel_left]

/-- "aXbX" with "X" → "--": all, and the first only. -/
theorem C74_witness_replace :
    replaceN (.ok (byteRe 88)) (.ok fun _ => [45, 45]) (fun _ => 1) [97, 88, 98, 88] (-1) =
        .ok [97, 45, 45, 98, 45, 45] ∧
      replaceN (.ok (byteRe 88)) (.ok fun _ => [45, 45]) (fun _ => 1) [97, 88, 98, 88] 1 =
        .ok [97, 45, 45, 98, 88] ∧
      extractAll (.ok (byteRe 88)) [97, 88, 98, 88] = .ok [[88], [88]] := by
  obtain ⟨ms, hs, he⟩ := C74_replaceAll_partial (byteRe_inRange 88) (byteRe_nonEmpty 88) (fun _ => [45, 45])
    (fun _ => 1) [97, 88, 98, 88]
  have hscan : Scan (byteRe 88) [97, 88, 98, 88] 0 [⟨1, 1, []⟩, ⟨3, 1, []⟩] :=
    .hit rfl (by decide) (.hit rfl (by decide) (.stop rfl))
  cases hs.det hscan
  refine ⟨?_, ?_, ?_⟩
  · rw [C74_replaceN_negative _ _ _ _ _ (by decide), he]; rfl
  · obtain ⟨ms, hs, he⟩ := C74_replaceN_partial (byteRe_inRange 88) (byteRe_contextFree 88) (byteRe_nonEmpty 88)
      (fun _ => [45, 45]) (fun _ => 1) [97, 88, 98, 88] (by decide) 1 (by decide)
    cases hs.det hscan
    rw [he]; rfl
  · obtain ⟨ms, hs, he⟩ := C74_extractAll_partial (R := byteRe 88) (by decide) (byteRe_inRange 88)
      (byteRe_contextFree 88) (byteRe_leftmost 88) [97, 88, 98, 88]
    cases hs.det hscan
    rw [he]; rfl

/-- Without `ContextFree` the claims fail: `^a` is anchored again after every match, so that
`regex.extractAll("aaa", "^a")` has three entries and `regex.replace("aaa", "^a", "b", 2)` is "bba", although the
only match of `^a` in "aaa" is the first. -/
theorem C74_witness_anchor :
    Scan (anchoredRe 97) [97, 97, 97] 0 [⟨0, 1, []⟩] ∧
      extractAll (.ok (anchoredRe 97)) [97, 97, 97] = .ok [[97], [97], [97]] ∧
      replaceN (.ok (anchoredRe 97)) (.ok fun _ => [98]) (fun _ => 1) [97, 97, 97] 2 = .ok [98, 98, 97] ∧
      replaceAll (.ok (anchoredRe 97)) (.ok fun _ => [98]) (fun _ => 1) [97, 97, 97] = .ok [98, 97, 97] := by
  refine ⟨.hit rfl (by decide) (.stop rfl), ?_, rfl, ?_⟩
  · unfold extractAll
    simp only [bind, Res.bind]
    rw [if_neg (by decide)]
    simp [extractLoop, anchoredRe, desired, Match.text]
  · unfold replaceAll
    simp only [bind, Res.bind, pure]
    simp [globalLoop, anchoredRe, rewriteOf]

/-- Without `NonEmpty` the claims fail: an empty match is replaced in the same place again and again.
`regex.replace("ab", "", "-", 2)` is "--ab", although replacing everywhere gives "-a-b-". -/
theorem C74_witness_empty :
    replaceN (.ok emptyRe) (.ok fun _ => [45]) (fun _ => 1) [97, 98] 2 = .ok [45, 45, 97, 98] ∧
      replaceAll (.ok emptyRe) (.ok fun _ => [45]) (fun _ => 1) [97, 98] = .ok [45, 97, 45, 98, 45] := by
  refine ⟨rfl, ?_⟩
  unfold replaceAll
  simp only [bind, Res.bind, pure]
  simp [globalLoop, emptyRe, rewriteOf]

theorem replaceLoop_empty (w : Rewrite) (t : Bytes) : ∀ n done, 2147483647 < done + n → done ≤ 2147483647 →
    replaceLoop emptyRe w n done t = .ub := by
  intro n
  induction n with
  | zero => intro done h1 h2; omega
  | succ n ih =>
    intro done h1 h2
    rw [replaceLoop]
    simp only [emptyRe, Nat.zero_le, if_true, Nat.add_zero]
    split
    · rfl
    · rename_i hlt
      have := ih (done + 1) (by omega) (by omega)
      simp only [emptyRe] at this
      simp only [List.drop_zero, this]

/-- With an empty match and a count beyond the range of `int`, the counter overflows, for every target: signed
overflow is undefined behaviour. -/
theorem C74_witness_overflow (w : Rewrite) (adv : Bytes → Nat) (t : Bytes) (count : Int)
    (h : 2147483647 < count) : replaceN (.ok emptyRe) (.ok w) adv t count = .ub := by
  unfold replaceN
  rw [if_neg (by omega), if_neg (by omega)]
  simp only [bind, Res.bind]
  exact replaceLoop_empty w t _ 0 (by omega) (by decide)

/-- A count of zero hides an invalid expression. -/
theorem C74_witness_zero (e e' : Status) (adv : Bytes → Nat) (t : Bytes) :
    replaceN (.err e) (.err e') adv t 0 = .ok t := rfl

/-- `re.captureN("ab", "(?P<2>a)(b)")`: the name of the first group is the number of the second, and the whole
evaluation fails. -/
theorem C74_witness_collision (R : Re) (hg : R.groups ≠ 0) :
    captureN (.ok R) (fun i => if i = 1 then some "2" else none) (some ["a", "b"]) =
      .err ⟨.alreadyExists, "duplicate key in map"⟩ := by
  unfold captureN
  simp only []
  rw [if_neg hg]
  simp only [List.zipIdx, List.map, captureKey, if_true]
  rfl

/-- `re.captureN("ab", "(?P<user>a)(b)")`. -/
theorem C74_witness_capture (R : Re) (hg : R.groups ≠ 0) :
    captureN (.ok R) (fun i => if i = 1 then some "user" else none) (some ["a", "b"]) =
      .ok (.map [(.str "user", .str "a"), (.str "2", .str "b")]) := by
  unfold captureN
  simp only []
  rw [if_neg hg]
  simp only [List.zipIdx, List.map, captureKey, if_true]
  rfl

end Cel.Regex
