import Verif.Yaml.Model

set_option linter.unusedSimpArgs false
set_option linter.unusedVariables false

/-!
# C91
-/

namespace Cel.Yaml

/-! ### Specification -/

/-- Between double quotes: characters other than `"` and `\`, and pairs of `\` and any character. -/
inductive Escaped : List Nat → Prop where
  | nil : Escaped []
  | char {c : Nat} {s : List Nat} (h : c ≠ 34) (h' : c ≠ 92) (hs : Escaped s) : Escaped (c :: s)
  | pair (c : Nat) {s : List Nat} (hs : Escaped s) : Escaped (92 :: c :: s)

/-- Between single quotes: characters other than `'`, and pairs of `'`. -/
inductive Doubled : List Nat → Prop where
  | nil : Doubled []
  | char {c : Nat} {s : List Nat} (h : c ≠ 39) (hs : Doubled s) : Doubled (c :: s)
  | pair {s : List Nat} (hs : Doubled s) : Doubled (39 :: 39 :: s)

/-- Space, tab, newline. -/
def isBlank (c : Nat) : Bool := c == 32 || c == 9 || c == 10

/-! ### Proofs -/

theorem double_body : ∀ {s : List Nat} (rest : List Nat), Escaped s → double (s ++ 34 :: rest) = s.length
  | _, rest, .nil => by cases rest <;> rfl
  | _, rest, .char (c := c) (s := s) h h' hs => by
    have ih := double_body rest hs
    rw [List.cons_append, double]
    · rw [if_neg h, ih, List.length_cons]; omega
    · intro e; exact absurd e h'
    · intro x y e; exact absurd e h'
  | _, rest, .pair c (s := s) hs => by
    have ih := double_body rest hs
    simp only [List.cons_append, double, ih, List.length_cons]
    omega

theorem double_all : ∀ xs : List Nat,
    (∃ s rest, xs = s ++ 34 :: rest ∧ Escaped s ∧ double xs = s.length) ∨ (Escaped xs ∧ double xs = xs.length) ∨
    (∃ s, xs = s ++ [92] ∧ Escaped s ∧ double xs = xs.length + 1)
  | [] => by right; left; exact ⟨.nil, rfl⟩
  | [92] => by right; right; exact ⟨[], rfl, .nil, rfl⟩
  | 92 :: c :: xs => by
    have e : double (92 :: c :: xs) = 2 + double xs := by simp [double]
    rcases double_all xs with ⟨s, rest, rfl, hs, h⟩ | ⟨hs, h⟩ | ⟨s, rfl, hs, h⟩
    · exact Or.inl ⟨92 :: c :: s, rest, rfl, .pair c hs, by rw [e, h]; simp; omega⟩
    · exact Or.inr (Or.inl ⟨.pair c hs, by rw [e, h]; simp; omega⟩)
    · exact Or.inr (Or.inr ⟨92 :: c :: s, rfl, .pair c hs, by rw [e, h]; simp; omega⟩)
  | c :: xs => by
    by_cases h92 : c = 92
    · subst h92
      cases xs with
      | nil => right; right; exact ⟨[], rfl, .nil, rfl⟩
      | cons d xs =>
        have e : double (92 :: d :: xs) = 2 + double xs := by simp [double]
        rcases double_all xs with ⟨s, rest, rfl, hs, h⟩ | ⟨hs, h⟩ | ⟨s, rfl, hs, h⟩
        · exact Or.inl ⟨92 :: d :: s, rest, rfl, .pair d hs, by rw [e, h]; simp; omega⟩
        · exact Or.inr (Or.inl ⟨.pair d hs, by rw [e, h]; simp; omega⟩)
        · exact Or.inr (Or.inr ⟨92 :: d :: s, rfl, .pair d hs, by rw [e, h]; simp; omega⟩)
    · have e : double (c :: xs) = if c = 34 then 0 else 1 + double xs := by
        rw [double]
        · intro e; exact absurd e h92
        · intro x y e; exact absurd e h92
      by_cases h34 : c = 34
      · subst h34
        exact Or.inl ⟨[], xs, rfl, .nil, by rw [e]; rfl⟩
      · rw [if_neg h34] at e
        rcases double_all xs with ⟨s, rest, rfl, hs, h⟩ | ⟨hs, h⟩ | ⟨s, rfl, hs, h⟩
        · exact Or.inl ⟨c :: s, rest, rfl, .char h34 h92 hs, by rw [e, h]; simp; omega⟩
        · exact Or.inr (Or.inl ⟨.char h34 h92 hs, by rw [e, h]; simp; omega⟩)
        · exact Or.inr (Or.inr ⟨c :: s, rfl, .char h34 h92 hs, by rw [e, h]; simp; omega⟩)

theorem single_all : ∀ xs : List Nat,
    (∃ s rest, xs = s ++ 39 :: rest ∧ rest.head? ≠ some 39 ∧ Doubled s ∧ single xs = s.length) ∨
    (Doubled xs ∧ single xs = xs.length)
  | [] => by right; exact ⟨.nil, rfl⟩
  | [c] => by
    by_cases h : c = 39
    · subst h; left; exact ⟨[], [], rfl, by simp, .nil, rfl⟩
    · right
      refine ⟨.char h .nil, ?_⟩
      rw [single, if_neg h]
      · rfl
      · intro x e; exact absurd e h
  | c :: d :: xs => by
    by_cases h : c = 39
    · subst h
      by_cases h' : d = 39
      · subst h'
        have e : single (39 :: 39 :: xs) = 2 + single xs := by simp [single]
        rcases single_all xs with ⟨s, rest, rfl, hr, hs, h⟩ | ⟨hs, h⟩
        · exact Or.inl ⟨39 :: 39 :: s, rest, rfl, hr, .pair hs, by rw [e, h]; simp; omega⟩
        · exact Or.inr ⟨.pair hs, by rw [e, h]; simp; omega⟩
      · left
        refine ⟨[], d :: xs, rfl, by simpa using h', .nil, ?_⟩
        rw [single]
        · simp
        · intro x _ e; exact h' (by simpa using (List.cons.inj e).1)
    · have e : single (c :: d :: xs) = 1 + single (d :: xs) := by
        rw [single, if_neg h]
        intro x e; exact absurd e h
      rcases single_all (d :: xs) with ⟨s, rest, hx, hr, hs, h2⟩ | ⟨hs, h2⟩
      · exact Or.inl ⟨c :: s, rest, by rw [hx]; rfl, hr, .char h hs, by rw [e, h2]; simp; omega⟩
      · exact Or.inr ⟨.char h hs, by rw [e, h2]; simp; omega⟩

theorem find_some {c : Nat} : ∀ {a : List Nat} (b : List Nat), c ∉ a → find c (a ++ c :: b) = (a.length + 1, b)
  | [], b, _ => by simp [find]
  | x :: a, b, h => by
    have hx : x ≠ c := fun e => h (by simp [e])
    have ih := find_some (a := a) b fun e => h (List.mem_cons_of_mem _ e)
    simp [find, hx, ih]

theorem find_none {c : Nat} : ∀ {xs : List Nat}, c ∉ xs → find c xs = (xs.length, [])
  | [], _ => rfl
  | x :: xs, h => by
    have hx : x ≠ c := fun e => h (by simp [e])
    have ih := find_none (xs := xs) fun e => h (List.mem_cons_of_mem _ e)
    simp [find, hx, ih]

theorem skip_sublist {c : Nat} {cs : List Nat} : ∀ {a ys : List Nat}, c ∉ a → (c :: cs).Sublist (a ++ ys) → (c :: cs).Sublist ys
  | [], _, _, h => h
  | x :: a, ys, hx, h => by
    rw [List.cons_append] at h
    cases h with
    | cons _ h => exact skip_sublist (fun e => hx (by simp [e])) h
    | cons_cons _ h => exact absurd (by simp) hx

theorem seek_nil : ∀ cs : List Nat, seek cs [] = 0
  | [] => rfl
  | c :: cs => by simp [seek, find, seek_nil cs]

theorem isBlank_iff {c : Nat} : isBlank c = true ↔ (c = 32 ∨ c = 9 ∨ c = 10) := by
  simp [isBlank, or_assoc]

theorem seek_ok : ∀ (val xs : List Nat),
    ((val.filter (!isBlank ·)).Sublist xs → (val.filter (!isBlank ·)).Sublist (xs.take (seek val xs)) ∧ seek val xs ≤ xs.length) ∧
    (∀ m, (val.filter (!isBlank ·)).Sublist (xs.take m) → seek val xs ≤ m) ∧
    (¬ (val.filter (!isBlank ·)).Sublist xs → seek val xs = xs.length)
  | [], xs => by simp [seek]
  | c :: cs, xs => by
    by_cases hb : isBlank c = true
    · have e : seek (c :: cs) xs = seek cs xs := by rw [seek, if_pos (isBlank_iff.1 hb)]
      have e' : (c :: cs).filter (!isBlank ·) = cs.filter (!isBlank ·) := by simp [hb]
      rw [e, e']
      exact seek_ok cs xs
    · have e : seek (c :: cs) xs = (find c xs).1 + seek cs (find c xs).2 := by
        rw [seek, if_neg fun h => hb (isBlank_iff.2 h)]
      have e' : (c :: cs).filter (!isBlank ·) = c :: cs.filter (!isBlank ·) := by simp [hb]
      rw [e, e']
      by_cases hc : c ∈ xs
      · obtain ⟨a, b, rfl, ha⟩ := List.eq_append_cons_of_mem hc
        obtain ⟨h1, h2, h3⟩ := seek_ok cs b
        rw [find_some b ha]
        have inside : (c :: cs.filter (!isBlank ·)).Sublist (a ++ c :: b) ↔ (cs.filter (!isBlank ·)).Sublist b := by
          constructor
          · intro h; exact List.cons_sublist_cons.1 (skip_sublist ha h)
          · intro h; exact (List.cons_sublist_cons.2 h).trans (List.sublist_append_right a _)
        refine ⟨fun h => ?_, fun m h => ?_, fun h => ?_⟩
        · have := h1 (inside.1 h)
          refine ⟨?_, by simp; omega⟩
          have e2 : (a ++ c :: b).take (a.length + 1 + seek cs b) = a ++ c :: b.take (seek cs b) := by
            rw [List.take_append, List.take_of_length_le (by omega),
              show a.length + 1 + seek cs b - a.length = seek cs b + 1 by omega, List.take_succ_cons]
          simp only [e2]
          exact (List.cons_sublist_cons.2 this.1).trans (List.sublist_append_right a _)
        · rw [List.take_append] at h
          have h' := skip_sublist (fun x => ha (List.mem_of_mem_take x)) h
          cases hm : m - a.length with
          | zero => rw [hm, List.take_zero] at h'; cases h'
          | succ k =>
            rw [hm, List.take_succ_cons] at h'
            have := h2 k (List.cons_sublist_cons.1 h')
            simp only
            omega
        · have := h3 fun x => h (inside.2 x)
          simp only [this, List.length_append, List.length_cons]
          omega
      · rw [find_none hc]
        have no : ∀ ys : List Nat, (∀ y ∈ ys, y ∈ xs) → ¬ (c :: cs.filter (!isBlank ·)).Sublist ys :=
          fun ys hy h => hc (hy c (h.subset (by simp)))
        refine ⟨fun h => absurd h (no _ fun _ => id), fun m h => absurd h (no _ fun y hy => List.mem_of_mem_take hy), fun _ => ?_⟩
        simp [seek_nil]

theorem line_eq : ∀ {h : List Nat} (rest : List Nat), 10 ∉ h → line (h ++ 10 :: rest) = h.length
  | [], _, _ => by simp [line]
  | c :: h, rest, hn => by
    have hc : c ≠ 10 := fun e => hn (by simp [e])
    have ih := line_eq (h := h) rest fun e => hn (by simp [e])
    simp only [List.cons_append, line, if_neg hc, ih, List.length_cons]
    omega

theorem line_all : ∀ {h : List Nat}, 10 ∉ h → line h = h.length
  | [], _ => rfl
  | c :: h, hn => by
    have hc : c ≠ 10 := fun e => hn (by simp [e])
    have ih := line_all (h := h) fun e => hn (by simp [e])
    simp only [line, if_neg hc, ih, List.length_cons]
    omega

theorem blanks_eq : ∀ {b : List Nat} (rest : List Nat), (∀ c ∈ b, c = 32 ∨ c = 9) → (∀ c, rest.head? = some c → c ≠ 32 ∧ c ≠ 9) →
    blanks (b ++ rest) = b.length
  | [], [], _, _ => rfl
  | [], c :: rest, _, h => by
    have := h c rfl
    simp [blanks, this.1, this.2]
  | c :: b, rest, hb, h => by
    have ih := blanks_eq (b := b) rest (fun d hd => hb d (by simp [hd])) h
    simp only [List.cons_append, blanks, if_pos (hb c (by simp)), ih, List.length_cons]
    omega

/-! ### The theorems -/

theorem drop_pre (pre rest : List Nat) : (pre ++ rest).drop (pre.length : Int).toNat = rest := by simp

/-- **C91 (double quotes).** Of a double-quoted string the range is what is between its quotes. -/
theorem C91_double (pre s rest val : List Nat) (hs : Escaped s) :
    scan (pre ++ 34 :: (s ++ 34 :: rest)) pre.length val =
      ⟨pre.length, some (pre.length + 1, pre.length + 1 + s.length), true⟩ := by
  rw [scan, if_neg (by omega), drop_pre]
  simp only [if_true, double_body rest hs]

/-- **C91 (single quotes).** The same of a single-quoted one. -/
theorem C91_single (pre s rest val : List Nat) (hs : Doubled s) (hr : rest.head? ≠ some 39) :
    scan (pre ++ 39 :: (s ++ 39 :: rest)) pre.length val =
      ⟨pre.length, some (pre.length + 1, pre.length + 1 + s.length), true⟩ := by
  have key : ∀ {s : List Nat}, Doubled s → single (s ++ 39 :: rest) = s.length := by
    intro s hs
    induction hs with
    | nil =>
      cases rest with
      | nil => rfl
      | cons d rest =>
        rw [List.nil_append, single]
        · simp
        · intro x _ e; exact hr (by rw [(List.cons.inj e).1]; rfl)
    | char h hs ih =>
      rw [List.cons_append, single, if_neg h, ih, List.length_cons]
      · omega
      · intro x e; exact absurd e h
    | pair hs ih =>
      simp only [List.cons_append, single, ih, List.length_cons]
      omega
  rw [scan, if_neg (by omega), drop_pre]
  simp only [if_true, key hs]
  simp

/-- What a range that starts at `start` is for a text without quotes: the shortest that has the
characters of the value in order, blanks left out; all that is left if there is none. -/
def Covers (rest val : List Nat) (n : Nat) : Prop :=
  ((val.filter (!isBlank ·)).Sublist rest ∧ (val.filter (!isBlank ·)).Sublist (rest.take n) ∧
    ∀ m < n, ¬ (val.filter (!isBlank ·)).Sublist (rest.take m)) ∨
  (¬ (val.filter (!isBlank ·)).Sublist rest ∧ n = rest.length)

theorem covers (val rest : List Nat) : Covers rest val (seek val rest) := by
  obtain ⟨h1, h2, h3⟩ := seek_ok val rest
  by_cases h : (val.filter (!isBlank ·)).Sublist rest
  · exact Or.inl ⟨h, (h1 h).1, fun m hm x => by have := h2 m x; omega⟩
  · exact Or.inr ⟨h, h3 h⟩

/-- **C91 (plain).** A plain text starts at its position and goes as far as the value needs. -/
theorem C91_plain (pre rest val : List Nat) (c : Nat) (hv : val ≠ []) (h : c ≠ 34 ∧ c ≠ 39 ∧ c ≠ 124 ∧ c ≠ 62) :
    ∃ n : Nat, scan (pre ++ c :: rest) pre.length val = ⟨pre.length, some (pre.length, pre.length + n), false⟩ ∧
      Covers (c :: rest) val n := by
  refine ⟨seek val (c :: rest), ?_, covers _ _⟩
  rw [scan, if_neg (by omega), drop_pre]
  simp [h.1, h.2.1, plain, hv, header, h.2.2.1, h.2.2.2]

/-- **C91 (blocks).** A block starts after the line of its header and the blanks of the next line. -/
theorem C91_block (pre h b rest val : List Nat) (c : Nat) (hc : c = 124 ∨ c = 62) (hv : val ≠ []) (hn : 10 ∉ h)
    (hb : ∀ d ∈ b, d = 32 ∨ d = 9) (hr : ∀ d, rest.head? = some d → d ≠ 32 ∧ d ≠ 9) :
    ∃ n : Nat, scan (pre ++ c :: (h ++ 10 :: (b ++ rest))) pre.length val =
      ⟨pre.length, some ((pre ++ c :: (h ++ 10 :: b)).length, (pre ++ c :: (h ++ 10 :: b)).length + n), false⟩ ∧
      Covers rest val n := by
  have hc10 : c ≠ 10 := by omega
  have hl : line (c :: (h ++ 10 :: (b ++ rest))) = h.length + 1 := by
    rw [line, if_neg hc10, line_eq _ hn]; omega
  have hd : (c :: (h ++ 10 :: (b ++ rest))).drop (h.length + 1 + 1) = b ++ rest := by
    have : c :: (h ++ 10 :: (b ++ rest)) = (c :: h ++ [10]) ++ (b ++ rest) := by simp
    rw [this, List.drop_left' (by simp)]
  have hh : header (c :: (h ++ 10 :: (b ++ rest))) = h.length + 1 + 1 + b.length := by
    simp only [header, if_pos hc, hl]
    rw [if_pos (by simp), hd, blanks_eq rest hb hr]
  have hd' : (c :: (h ++ 10 :: (b ++ rest))).drop (h.length + 1 + 1 + b.length) = rest := by
    rw [← List.drop_drop, hd, List.drop_left]
  refine ⟨seek val rest, ?_, covers _ _⟩
  rw [scan, if_neg (by omega), drop_pre]
  simp only [show c ≠ 34 by omega, show c ≠ 39 by omega, if_false, plain, hv, hh, hd']
  simp only [List.length_append, List.length_cons, Element.mk.injEq, Option.some.injEq, Prod.mk.injEq, true_and, and_true]
  omega

/-- **C91 (empty).** Without quotes, an empty value has an empty range at the position. -/
theorem C91_empty (pre rest : List Nat) (c : Nat) (h : c ≠ 34 ∧ c ≠ 39) :
    scan (pre ++ c :: rest) pre.length [] = ⟨pre.length, some (pre.length, pre.length), false⟩ := by
  rw [scan, if_neg (by omega), drop_pre]
  simp [h.1, h.2, plain]

/-- **C91 (inside).** Outside the view there is no range; inside there is one, it begins within the
view and not before the position, and ends within the view and not before its beginning – except
after an open double quote and, at the very end, a backslash that escapes nothing: then the end is
one too far. -/
theorem C91_inside (view : List Nat) (pos : Int) (val : List Nat) :
    (scan view pos val).start = pos ∧
    ((pos < 0 ∨ (view.length : Int) ≤ pos) → (scan view pos val).range = none ∧ (scan view pos val).quoted = false) ∧
    (0 ≤ pos → pos < view.length → ∃ b e, (scan view pos val).range = some (b, e) ∧ pos ≤ b ∧ b ≤ e ∧ b ≤ view.length ∧
      (e ≤ view.length ∨ (e = view.length + 1 ∧ ∃ s, view.drop pos.toNat = 34 :: (s ++ [92]) ∧ Escaped s))) := by
  have len : ∀ (n : Nat) (xs : List Nat), header xs ≤ xs.length := by
    intro n xs
    cases xs with
    | nil => simp [header]
    | cons c xs =>
      simp only [header]
      split
      · have hb : ∀ ys : List Nat, blanks ys ≤ ys.length := by
          intro ys
          induction ys with
          | nil => simp [blanks]
          | cons d ys ih => simp only [blanks]; split <;> simp <;> omega
        have hl : ∀ ys : List Nat, line ys ≤ ys.length := by
          intro ys
          induction ys with
          | nil => simp [line]
          | cons d ys ih => simp only [line]; split <;> simp <;> omega
        have h1 := hl (c :: xs)
        split
        · have := hb ((c :: xs).drop (line (c :: xs) + 1))
          simp only [List.length_drop] at this
          omega
        · have := hb ((c :: xs).drop (line (c :: xs)))
          simp only [List.length_drop] at this
          omega
      · omega
  have hseek : ∀ xs ys : List Nat, seek xs ys ≤ ys.length := by
    intro xs ys
    obtain ⟨h1, _, h3⟩ := seek_ok xs ys
    by_cases h : (xs.filter (!isBlank ·)).Sublist ys
    · exact (h1 h).2
    · exact Nat.le_of_eq (h3 h)
  refine ⟨?_, ?_, ?_⟩
  · unfold scan
    split
    · rfl
    · split
      · rfl
      · split
        · rfl
        · split <;> rfl
  · intro h
    unfold scan
    by_cases h0 : pos < 0
    · rw [if_pos h0]; exact ⟨rfl, rfl⟩
    · rw [if_neg h0, List.drop_eq_nil_of_le (by omega)]; exact ⟨rfl, rfl⟩
  · intro h0 h1
    unfold scan
    rw [if_neg (by omega)]
    cases hd : view.drop pos.toNat with
    | nil =>
      have := List.drop_eq_nil_iff.1 hd
      omega
    | cons c rest =>
      have hlen : rest.length + 1 = view.length - pos.toNat := by
        rw [← List.length_drop, hd, List.length_cons]
      simp only
      by_cases h34 : c = 34
      · subst h34
        simp only [if_true]
        refine ⟨_, _, rfl, by omega, by omega, by omega, ?_⟩
        rcases double_all rest with ⟨s, r, e, hs, hx⟩ | ⟨hs, hx⟩ | ⟨s, e, hs, hx⟩
        · left; rw [hx]
          have : s.length + 1 ≤ rest.length := by rw [e]; simp
          omega
        · left; rw [hx]; omega
        · right; rw [hx]; exact ⟨by omega, s, by rw [e], hs⟩
      · rw [if_neg h34]
        by_cases h39 : c = 39
        · rw [if_pos h39]
          refine ⟨_, _, rfl, by omega, by omega, by omega, Or.inl ?_⟩
          rcases single_all rest with ⟨s, r, e, _, hs, hx⟩ | ⟨hs, hx⟩
          · rw [hx]
            have : s.length + 1 ≤ rest.length := by rw [e]; simp
            omega
          · rw [hx]; omega
        · rw [if_neg h39]
          by_cases hv : val = []
          · simp only [plain, hv, if_true]
            exact ⟨_, _, rfl, by omega, by omega, by omega, Or.inl (by omega)⟩
          · simp only [plain, hv, if_false]
            have h2 := len 0 (c :: rest)
            have h3 := hseek val ((c :: rest).drop (header (c :: rest)))
            rw [List.length_drop, List.length_cons] at h3
            rw [List.length_cons] at h2
            exact ⟨_, _, rfl, by omega, by omega, by omega, Or.inl (by omega)⟩

/-- **C91, the end too far.** `"\`: two characters, and the range ends at three. -/
theorem C91_boundary : scan [34, 92] 0 [] = ⟨0, some (1, 3), true⟩ := by decide +kernel

/-- Cases: `k: "a\"b"`, `'it''s' #`, a folded block, a plain text with a comment behind. -/
theorem C91_example :
    Escaped [97, 92, 34, 98] ∧ scan [107, 58, 32, 34, 97, 92, 34, 98, 34, 10] 3 [97, 34, 98] = ⟨3, some (4, 8), true⟩ ∧
    Doubled [105, 39, 39, 115] ∧ scan [39, 105, 39, 39, 115, 39, 32, 35] 0 [105, 39, 115] = ⟨0, some (1, 5), true⟩ ∧
    scan [62, 45, 10, 32, 32, 97, 10, 32, 32, 98, 10] 0 [97, 32, 98] = ⟨0, some (5, 10), false⟩ ∧
    scan [97, 32, 98, 32, 35, 98] 0 [97, 32, 98] = ⟨0, some (0, 3), false⟩ := by
  refine ⟨.char (by decide) (by decide) (.pair 34 (.char (by decide) (by decide) .nil)), by decide +kernel,
    .char (by decide) (.pair (.char (by decide) .nil)), by decide +kernel, by decide +kernel, by decide +kernel⟩

end Cel.Yaml
