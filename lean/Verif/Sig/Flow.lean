import Verif.Sig.Model

/-!
# Text the scanner passes over

`Flow tgt n s`: scanning `s` at bracket nesting `n`, neither of the two scanner loops sees a
top-level `tgt`, and both leave with the same nesting.  Everything the writer produces is built
from such pieces.
-/

namespace Cel.Sig

set_option linter.unusedSimpArgs false
set_option linter.unusedVariables false

/-- Both scanner loops run over `s` at nesting `n` without meeting a top-level `tgt`. -/
def Flow (tgt : Char) (n : Nat) (s : Text) : Prop :=
  (∀ last i found rest, findTop tgt last i n false found (s ++ rest) =
      findTop tgt last (i + s.length) n false found rest) ∧
  (∀ cur rest, splitTop tgt n false cur (s ++ rest) = splitTop tgt n false (cur ++ s) rest)

theorem flow_nil (tgt n) : Flow tgt n [] := by
  constructor <;> intros <;> simp

theorem flow_append {tgt n a b} (ha : Flow tgt n a) (hb : Flow tgt n b) : Flow tgt n (a ++ b) := by
  constructor
  · intro last i found rest
    rw [List.append_assoc, ha.1, hb.1, List.length_append, Nat.add_assoc]
  · intro cur rest
    rw [List.append_assoc, ha.2, hb.2, List.append_assoc]

theorem flow_plain {tgt n c} (h1 : c ≠ '\\') (h2 : c ≠ '<') (h3 : c ≠ '>')
    (h4 : c ≠ tgt ∨ n ≠ 0) : Flow tgt n [c] := by
  have h : ¬ (c = tgt ∧ n = 0) := by rintro ⟨a, b⟩; rcases h4 with h | h <;> exact h (by assumption)
  constructor
  · intro last i found rest
    rw [List.singleton_append, findTop.eq_3, if_neg h1]
    simp only []
    rw [if_neg h, if_neg h2, if_neg h3]; rfl
  · intro cur rest
    rw [List.singleton_append, splitTop.eq_3, if_neg h1, if_neg h2, if_neg h3, if_neg h]

theorem flow_escaped (tgt n c) : Flow tgt n ['\\', c] := by
  constructor
  · intro last i found rest
    show findTop tgt last i n false found ('\\' :: c :: rest) = _
    rw [findTop.eq_3, if_pos rfl, findTop.eq_2]; rfl
  · intro cur rest
    show splitTop tgt n false cur ('\\' :: c :: rest) = _
    rw [splitTop.eq_3, if_pos rfl, splitTop.eq_2, List.append_assoc]; rfl

theorem flow_bracket {tgt n s} (hs : Flow tgt (n + 1) s) (h : tgt ≠ '<' ∨ n ≠ 0)
    : Flow tgt n ('<' :: (s ++ ['>'])) := by
  have h' : ¬ ('<' = tgt ∧ n = 0) := by
    rintro ⟨a, b⟩; rcases h with h | h
    · exact h a.symm
    · exact h b
  constructor
  · intro last i found rest
    rw [List.cons_append, List.append_assoc, findTop.eq_3, if_neg (by decide)]
    simp only []
    rw [if_neg h', if_pos True.intro, hs.1, List.singleton_append, findTop.eq_3, if_neg (by decide)]
    simp only []
    rw [if_neg (show ¬ '>' = '<' by decide), if_pos True.intro, if_neg (show ¬ n + 1 = 0 by omega),
      if_neg (show ¬ ('>' = tgt ∧ n + 1 = 0) by omega)]
    simp only [List.length_cons, List.length_append, List.length_nil, Nat.add_sub_cancel]
    congr 1; omega
  · intro cur rest
    rw [List.cons_append, List.append_assoc, splitTop.eq_3, if_neg (by decide), if_pos rfl, hs.2,
      List.singleton_append, splitTop.eq_3, if_neg (by decide), if_neg (by decide), if_pos rfl,
      if_neg (by omega)]
    simp [Nat.add_sub_cancel]

/-- Escaped names flow: at nesting `≥ 1` for every target, at nesting 0 for every target that is
escaped. -/
theorem flow_escape {tgt n dot} (h : special tgt = true ∨ (tgt = '.' ∧ dot = true) ∨ n ≠ 0) :
    ∀ s, Flow tgt n (escape dot s)
  | [] => flow_nil _ _
  | c :: r => by
    have ih := flow_escape h r
    rw [escape]
    by_cases hc : (special c || (c == '.' && dot)) = true
    · rw [if_pos hc]
      exact flow_append (a := ['\\', c]) (flow_escaped _ _ _) ih
    · rw [if_neg hc]
      refine flow_append (a := [c]) (flow_plain ?_ ?_ ?_ ?_) ih
      · rintro rfl; exact hc (by simp [special])
      · rintro rfl; exact hc (by simp [special])
      · rintro rfl; exact hc (by simp [special])
      · rcases h with h | ⟨h, h'⟩ | h
        · left; rintro rfl; exact hc (by simp [h])
        · left; rintro rfl; exact hc (by simp [h, h'])
        · exact .inr h

/-- What a written type looks like to the scanner from outside: it can be skipped when looking
for a comma or a parenthesis at top level, and for anything below a bracket. -/
def Sealed (s : Text) : Prop :=
  Flow ',' 0 s ∧ Flow '(' 0 s ∧ ∀ tgt n, Flow tgt (n + 1) s

theorem sealed_append {a b} (ha : Sealed a) (hb : Sealed b) : Sealed (a ++ b) :=
  ⟨flow_append ha.1 hb.1, flow_append ha.2.1 hb.2.1, fun t n => flow_append (ha.2.2 t n) (hb.2.2 t n)⟩

theorem sealed_escape (dot s) : Sealed (escape dot s) :=
  ⟨flow_escape (.inl (by decide)) s, flow_escape (.inl (by decide)) s,
    fun _ _ => flow_escape (.inr (.inr (by omega))) s⟩

theorem flow_joinComma {tgt n} : ∀ {l : List Text}, (∀ s ∈ l, Sealed s) →
    Flow tgt (n + 1) (joinComma l)
  | [], _ => flow_nil _ _
  | [s], h => (h s (by simp)).2.2 _ _
  | s :: t :: r, h => by
    rw [joinComma]
    refine flow_append ((h s (by simp)).2.2 _ _) (flow_append (a := [',']) ?_
      (flow_joinComma (fun x hx => h x (by simp at hx ⊢; right; exact hx))))
    exact flow_plain (by decide) (by decide) (by decide) (.inr (by omega))

theorem sealed_bracket : ∀ {l : List Text}, (∀ s ∈ l, Sealed s) → Sealed (bracket l)
  | [], _ => ⟨flow_nil _ _, flow_nil _ _, fun _ _ => flow_nil _ _⟩
  | s :: r, h => by
    rw [bracket]
    exact ⟨flow_bracket (flow_joinComma h) (.inl (by decide)),
      flow_bracket (flow_joinComma h) (.inl (by decide)),
      fun _ _ => flow_bracket (flow_joinComma h) (.inr (by omega))⟩

/-- The comma loop cuts a comma-joined list of written types exactly at its commas. -/
theorem split_joinComma : ∀ {l : List Text}, l ≠ [] → (∀ s ∈ l, Sealed s) →
    ∀ cur, splitTop ',' 0 false cur (joinComma l) =
      match l with
      | [] => none
      | s :: r => some ((cur ++ s) :: r)
  | [], h, _, _ => absurd rfl h
  | [s], _, h, cur => by
    have := (h s (by simp)).1.2 cur []
    rw [List.append_nil] at this
    rw [joinComma, this, splitTop.eq_1, if_pos rfl]
  | s :: t :: r, _, h, cur => by
    rw [joinComma, (h s (by simp)).1.2, splitTop.eq_3, if_neg (by decide), if_neg (by decide),
      if_neg (by decide), if_pos ⟨rfl, rfl⟩,
      split_joinComma (l := t :: r) (by simp) (fun x hx => h x (by simp at hx ⊢; right; exact hx))]
    simp

theorem splitTypeList_joinComma {l : List Text} (hl : l ≠ []) (h : ∀ s ∈ l, Sealed s) :
    splitTypeList (joinComma l) = some l := by
  rw [splitTypeList, split_joinComma hl h]
  cases l with
  | nil => exact absurd rfl hl
  | cons a r => simp

theorem unescape_escape_append (dot : Bool) : ∀ s r,
    unescape false (escape dot s ++ r) = s ++ unescape false r
  | [], r => rfl
  | c :: s, r => by
    rw [escape]
    by_cases hc : (special c || (c == '.' && dot)) = true
    · rw [if_pos hc, List.cons_append, List.cons_append, unescape.eq_4, if_pos rfl, unescape.eq_3,
        unescape_escape_append dot s r]; rfl
    · have : c ≠ '\\' := by rintro rfl; exact hc (by simp [special])
      rw [if_neg hc, List.cons_append, unescape.eq_4, if_neg this, unescape_escape_append dot s r]
      rfl

/-- Reading an escaped name gives the name back. -/
theorem unescape_escape (dot : Bool) (s : Text) : unescape false (escape dot s) = s := by
  have := unescape_escape_append dot s []
  simpa [unescape] using this

end Cel.Sig
