import Verif.Position.Model

set_option linter.unusedSimpArgs false
set_option linter.unusedVariables false

/-!
# C95
-/

namespace Cel.Position

/-! ### Specification -/

/-- In the text, position `p` is on the line after `l` newlines, behind `c` characters of that line. -/
def At (text : List Nat) (p l c : Nat) : Prop :=
  ∃ pre cur, text.take p = pre ++ cur ∧ (pre = [] ∨ pre.getLast? = some 10) ∧ 10 ∉ cur ∧ l = pre.count 10 ∧ c = cur.length

/-- The offsets behind the newlines of a text that begins at `k`. -/
def behind (k : Int) : List Nat → List Int
  | [] => []
  | c :: cs => if c = 10 then (k + 1) :: behind (k + 1) cs else behind (k + 1) cs

/-- Line offsets as the first positions of the lines. -/
def starts (text : List Nat) : List Int := 0 :: behind 0 text

/-- Line offsets as the parser writes them (`common/source.cc`, C42): behind each newline and one behind the end. -/
def parsed (text : List Nat) : List Int := behind 0 text ++ [(text.length : Int) + 1]

/-! ### Proofs -/

theorem behind_gt : ∀ (cs : List Nat) (k : Int), ∀ o ∈ behind k cs, k < o
  | [], _, o, h => by simp [behind] at h
  | c :: cs, k, o, h => by
    rw [behind] at h
    split at h
    · rcases List.mem_cons.1 h with rfl | h
      · omega
      · have := behind_gt cs (k + 1) o h; omega
    · have := behind_gt cs (k + 1) o h; omega

theorem go_stop {l off p : Int} {os : List Int} (h : ∀ o ∈ os, p < o) : go l off p os = (l, off) := by
  cases os with
  | nil => rfl
  | cons o os => rw [go, if_pos (h o (by simp))]

theorem go_text : ∀ (cs : List Nat) (k l off : Int) (p : Nat) (tail : List Int), p ≤ cs.length → (∀ o ∈ tail, k + cs.length < o) →
    ∃ pre cur, cs.take p = pre ++ cur ∧ (pre = [] ∨ pre.getLast? = some 10) ∧ 10 ∉ cur ∧
      go l off (k + p) (behind k cs ++ tail) = (l + pre.count 10, if pre = [] then off else k + pre.length)
  | [], k, l, off, p, tail, hp, ht => by
    have : p = 0 := by simpa using hp
    subst this
    refine ⟨[], [], rfl, Or.inl rfl, by simp, ?_⟩
    rw [behind, List.nil_append, go_stop (fun o ho => by have := ht o ho; simpa using this)]
    simp
  | c :: cs, k, l, off, 0, tail, hp, ht => by
    refine ⟨[], [], rfl, Or.inl rfl, by simp, ?_⟩
    rw [go_stop]
    · simp
    · intro o ho
      rcases List.mem_append.1 ho with ho | ho
      · have := behind_gt _ _ o ho; omega
      · have := ht o ho; simp only [List.length_cons] at this; omega
  | c :: cs, k, l, off, p + 1, tail, hp, ht => by
    have hp' : p ≤ cs.length := by simpa using hp
    have ht' : ∀ o ∈ tail, k + 1 + cs.length < o := fun o ho => by
      have := ht o ho; simp only [List.length_cons] at this; omega
    have ek : k + ((p + 1 : Nat) : Int) = k + 1 + p := by omega
    by_cases hc : c = 10
    · subst hc
      obtain ⟨pre, cur, e, hl, hn, hg⟩ := go_text cs (k + 1) (l + 1) (k + 1) p tail hp' ht'
      refine ⟨10 :: pre, cur, by rw [List.take_succ_cons, e]; rfl, Or.inr ?_, hn, ?_⟩
      · rcases hl with rfl | hl
        · rfl
        · rw [List.getLast?_cons, hl]; rfl
      · rw [behind, if_pos rfl, List.cons_append, go, ek, if_neg (by omega), hg]
        simp only [List.count_cons_self, List.length_cons]
        refine Prod.ext (by simp only; omega) ?_
        simp only
        rcases hl with rfl | hl
        · simp
        · have : pre ≠ [] := fun x => by rw [x] at hl; cases hl
          simp [this]; omega
    · obtain ⟨pre, cur, e, hl, hn, hg⟩ := go_text cs (k + 1) l off p tail hp' ht'
      rw [behind, if_neg hc, ek, hg]
      by_cases hpre : pre = []
      · subst hpre
        refine ⟨[], c :: cur, by rw [List.take_succ_cons, e]; rfl, Or.inl rfl, ?_, by simp⟩
        intro x
        rcases List.mem_cons.1 x with x | x
        · exact hc x.symm
        · exact hn x
      · refine ⟨c :: pre, cur, by rw [List.take_succ_cons, e]; rfl, Or.inr ?_, hn, ?_⟩
        · rcases hl with x | hl
          · exact absurd x hpre
          · rw [List.getLast?_cons, hl]; rfl
        · rw [List.count_cons_of_ne (by simpa using hc)]
          simp [hpre]; omega

theorem split_len {text : List Nat} {p : Nat} {pre cur : List Nat} (hp : p ≤ text.length) (e : text.take p = pre ++ cur) :
    p = pre.length + cur.length := by
  have := congrArg List.length e
  rw [List.length_take, List.length_append] at this
  omega

/-! ### The theorems -/

/-- **C95 (one answer).** A position is at one line and column. -/
theorem C95_at (text : List Nat) (p : Nat) (hp : p ≤ text.length) :
    ∃ l c, At text p l c ∧ ∀ l' c', At text p l' c' → l' = l ∧ c' = c := by
  obtain ⟨pre, cur, e, hl, hn, _⟩ := go_text text 0 0 0 p [] hp (by simp)
  refine ⟨_, _, ⟨pre, cur, e, hl, hn, rfl, rfl⟩, ?_⟩
  rintro l' c' ⟨pre', cur', e', hl', hn', rfl, rfl⟩
  have h : pre ++ cur = pre' ++ cur' := e.symm.trans e'
  have key : ∀ {a b a' b' : List Nat}, a ++ b = a' ++ b' → (a' = [] ∨ a'.getLast? = some 10) → 10 ∉ b → a'.length ≤ a.length := by
    intro a b a' b' h hl hn
    rcases hl with rfl | hl
    · simp
    · rcases Nat.lt_or_ge a.length a'.length with hlt | hge
      · exfalso
        have h1 : a' = a ++ b.take (a'.length - a.length) := by
          have := congrArg (List.take a'.length) h
          rw [List.take_append, List.take_left, List.take_of_length_le (by omega)] at this
          exact this.symm
        have h2 : 10 ∈ b.take (a'.length - a.length) := by
          rw [h1] at hl
          have hne : b.take (a'.length - a.length) ≠ [] := by
            intro x
            rw [x, List.append_nil] at h1
            rw [h1] at hlt
            omega
          rw [List.getLast?_append, Option.or_eq_some_iff] at hl
          rcases hl with hl | ⟨hl, _⟩
          · exact List.mem_of_getLast? hl
          · exact absurd (List.getLast?_eq_none_iff.1 hl) hne
        exact hn (List.mem_of_mem_take h2)
      · exact hge
  have hlen : pre.length = pre'.length := Nat.le_antisymm (key h.symm hl hn') (key h hl' hn)
  obtain ⟨rfl, rfl⟩ := List.append_inj h hlen
  exact ⟨rfl, rfl⟩

/-- **C95 (first positions).** If the line offsets are the first positions of the lines, line and column are those of the
position, counted from 1. -/
theorem C95_starts (text : List Nat) (pos : Int → Option Int) (id : Int) (p l c : Nat) (hi : pos id = some (p : Int)) (hp : p ≤ text.length)
    (h : At text p l c) : line (some ⟨starts text, pos⟩) id = l + 1 ∧ column (some ⟨starts text, pos⟩) id = c + 1 := by
  obtain ⟨pre, cur, e, hl, hn, hg⟩ := go_text text 0 1 0 p [] hp (by simp)
  obtain ⟨l0, c0, _, hu⟩ := C95_at text p hp
  obtain ⟨hl1, hc1⟩ := hu _ _ h
  obtain ⟨hl2, hc2⟩ := hu _ _ ⟨pre, cur, e, hl, hn, rfl, rfl⟩
  rw [List.append_nil, Int.zero_add] at hg
  have hr : go 0 0 (p : Int) (starts text) = (1 + (pre.count 10 : Int), if pre = [] then 0 else 0 + (pre.length : Int)) := by
    rw [starts, go, if_neg (by omega), Int.zero_add, hg]
  have hlen := split_len hp e
  have hoff : (if pre = [] then (0 : Int) else 0 + (pre.length : Int)) = pre.length := by
    by_cases x : pre = [] <;> simp [x]
  simp only [line, column, lineAndOffset, characterOffset, hi, Option.getD_some, hr, hoff]
  refine ⟨?_, by omega⟩
  rw [if_neg (by omega)]
  omega

/-- **C95 (as parsed).** With the line offsets the parser writes, the column is right and the line is one too small,
except in the first line. -/
theorem C95_parsed (text : List Nat) (pos : Int → Option Int) (id : Int) (p l c : Nat) (hi : pos id = some (p : Int)) (hp : p ≤ text.length)
    (h : At text p l c) : line (some ⟨parsed text, pos⟩) id = (if l = 0 then 1 else (l : Int)) ∧ column (some ⟨parsed text, pos⟩) id = c + 1 := by
  obtain ⟨pre, cur, e, hl, hn, hg⟩ := go_text text 0 0 0 p [(text.length : Int) + 1] hp (by simp; omega)
  obtain ⟨l0, c0, _, hu⟩ := C95_at text p hp
  obtain ⟨hl1, hc1⟩ := hu _ _ h
  obtain ⟨hl2, hc2⟩ := hu _ _ ⟨pre, cur, e, hl, hn, rfl, rfl⟩
  rw [Int.zero_add] at hg
  have hr : go 0 0 (p : Int) (parsed text) = ((pre.count 10 : Int), if pre = [] then 0 else 0 + (pre.length : Int)) := by
    rw [parsed, hg, Int.zero_add]
  have hlen := split_len hp e
  have hoff : (if pre = [] then (0 : Int) else 0 + (pre.length : Int)) = pre.length := by
    by_cases x : pre = [] <;> simp [x]
  simp only [line, column, lineAndOffset, characterOffset, hi, Option.getD_some, hr, hoff]
  refine ⟨?_, by omega⟩
  have : l = pre.count 10 := by omega
  rw [← this]
  by_cases x : l = 0
  · simp [x]
  · rw [if_neg (by omega), if_neg x]

/-- **C95 (unknown).** Without source information, or for an expression that has no position, the offset is 0; without
information line and column are 1. -/
theorem C95_unknown (id : Int) : characterOffset none id = 0 ∧ line none id = 1 ∧ column none id = 1 ∧
    ∀ i : Info, i.positions id = none → characterOffset (some i) id = 0 := by
  refine ⟨rfl, rfl, rfl, fun i h => ?_⟩
  simp [characterOffset, h]

/-- **C95, a line too small.** In `a⏎b` as parsed, `b` is reported in line 1. -/
theorem C95_boundary : At [97, 10, 98] 2 1 0 ∧ line (some ⟨parsed [97, 10, 98], fun _ => some 2⟩) 1 = 1 ∧
    line (some ⟨starts [97, 10, 98], fun _ => some 2⟩) 1 = 2 := by
  refine ⟨⟨[97, 10], [], rfl, Or.inr rfl, by simp, rfl, rfl⟩, by decide +kernel, by decide +kernel⟩

/-- A case: `ab⏎⏎cd`, the `d`. -/
theorem C95_example : At [97, 98, 10, 10, 99, 100] 5 2 1 ∧
    line (some ⟨starts [97, 98, 10, 10, 99, 100], fun _ => some 5⟩) 7 = 3 ∧
    column (some ⟨starts [97, 98, 10, 10, 99, 100], fun _ => some 5⟩) 7 = 2 := by
  refine ⟨⟨[97, 98, 10, 10], [99], rfl, Or.inr rfl, by simp, rfl, rfl⟩, by decide +kernel, by decide +kernel⟩

end Cel.Position
