import Verif.Source.Model

/-!
# C42: source positions round-trip
-/

set_option linter.unusedSimpArgs false
set_option linter.unusedVariables false

namespace Cel.Source
open Cel Cel.Text Cel.Text.Spec

/-! ## Specification -/

/-- The offsets just after each newline of `cs`, when `cs` starts at offset `o`. -/
def afterNewlines (o : Nat) : List Nat → List Nat
  | [] => []
  | c :: cs => if c = 10 then (o + 1) :: afterNewlines (o + 1) cs else afterNewlines (o + 1) cs

/-- The stored text represents the code points `cs`: an ASCII text has only ASCII, and so on. -/
def Content.Shows (c : Content) (cs : List Nat) : Prop :=
  c.units = cs ∧ Scalars cs ∧ match c with
    | .ascii _ => ∀ x ∈ cs, x ≤ 0x7f
    | .latin1 _ => ∀ x ∈ cs, x ≤ 0xff
    | .basic _ => ∀ x ∈ cs, x ≤ 0xffff
    | .supplemental _ => True

/-- The source a text with code points `cs` should give. -/
def Represents (s : Src) (cs : List Nat) : Prop :=
  s.content.Shows cs ∧ s.lineOffsets = afterNewlines 0 cs ++ [cs.length + 1]

theorem afterNewlines_append (a b : List Nat) : ∀ o, afterNewlines o (a ++ b) = afterNewlines o a ++ afterNewlines (o + a.length) b := by
  induction a with
  | nil => intro o; simp [afterNewlines]
  | cons c a ih =>
    intro o
    simp only [List.cons_append, afterNewlines, List.length_cons]
    rw [ih (o + 1), show o + 1 + a.length = o + (a.length + 1) by omega]
    split <;> simp

theorem afterNewlines_bounds (cs : List Nat) : ∀ o x, x ∈ afterNewlines o cs → o < x ∧ x ≤ o + cs.length := by
  induction cs with
  | nil => intro o x hx; simp [afterNewlines] at hx
  | cons c cs ih =>
    intro o x hx
    simp only [afterNewlines] at hx
    simp only [List.length_cons]
    split at hx
    · rcases List.mem_cons.1 hx with rfl | hx
      · omega
      · have := ih _ _ hx; omega
    · have := ih _ _ hx; omega

theorem afterNewlines_mem (cs : List Nat) : ∀ o x, x ∈ afterNewlines o cs ↔ ∃ i, cs[i]? = some 10 ∧ x = o + i + 1 := by
  induction cs with
  | nil => intro o x; simp [afterNewlines]
  | cons c cs ih =>
    intro o x
    have hcons : (∃ i, (c :: cs)[i]? = some 10 ∧ x = o + i + 1) ↔ (c = 10 ∧ x = o + 1) ∨ ∃ i, cs[i]? = some 10 ∧ x = o + 1 + i + 1 := by
      constructor
      · rintro ⟨i, h1, h2⟩
        cases i with
        | zero => left; simp at h1; exact ⟨h1, by omega⟩
        | succ i => right; simp at h1; exact ⟨i, h1, by omega⟩
      · rintro (⟨rfl, rfl⟩ | ⟨i, h1, h2⟩)
        · exact ⟨0, by simp, by omega⟩
        · exact ⟨i + 1, by simpa using h1, by omega⟩
    rw [hcons, ← ih (o + 1) x]
    simp only [afterNewlines]
    split
    · rename_i h; simp [h]
    · rename_i h; simp [h]

theorem afterNewlines_sorted (cs : List Nat) : ∀ o, (afterNewlines o cs).Pairwise (· < ·) := by
  induction cs with
  | nil => intro o; simp [afterNewlines]
  | cons c cs ih =>
    intro o
    simp only [afterNewlines]
    split
    · refine List.pairwise_cons.2 ⟨fun x hx => (afterNewlines_bounds _ _ _ hx).1, ih _⟩
    · exact ih _

/-! ## Construction -/

theorem enc_ascii {c : Nat} (h : c ≤ 0x7f) : enc c = [c] := by
  unfold enc; rw [if_pos (by omega)]

theorem encAll_ascii {cs : List Nat} (h : ∀ x ∈ cs, x ≤ 0x7f) : encAll cs = cs := by
  induction cs with
  | nil => rfl
  | cons c cs ih =>
    simp only [encAll, List.flatMap_cons]
    rw [enc_ascii (h c (by simp))]
    have := ih fun x hx => h x (List.mem_cons_of_mem _ hx)
    unfold encAll at this
    rw [this]; rfl

theorem encAll_append (a b : List Nat) : encAll (a ++ b) = encAll a ++ encAll b := by simp [encAll]

theorem encAll_len (cs : List Nat) : cs.length ≤ (encAll cs).length := by
  induction cs with
  | nil => simp
  | cons c cs ih =>
    have : 1 ≤ (enc c).length := by
      cases h : enc c with
      | nil => exact absurd h (enc_ne_nil c)
      | cons => simp
    simp only [encAll, List.flatMap_cons, List.length_append, List.length_cons] at ih ⊢
    omega

/-- The state of the loop after decoding `done`. -/
def Stored (c : Content) (done : List Nat) : Prop :=
  Scalars done ∧ match c with
    | .ascii _ => ∀ x ∈ done, x ≤ 0x7f
    | .latin1 t => t = done ∧ ∀ x ∈ done, x ≤ 0xff
    | .basic t => t = done ∧ ∀ x ∈ done, x ≤ 0xffff
    | .supplemental t => t = done

theorem store_ok {text done r : List Nat} {c : Content} {cp : Nat} (h : Stored c done) (hcp : IsScalar cp)
    (ht : text = encAll done ++ r) : Stored (store text (encAll done).length c cp) (done ++ [cp]) := by
  have htake : text.take (encAll done).length = encAll done := by rw [ht, List.take_left]
  have hsc : Scalars (done ++ [cp]) := by
    intro x hx
    rcases List.mem_append.1 hx with hx | hx
    · exact h.1 x hx
    · simp at hx; subst hx; exact hcp
  have hmem : ∀ (P : Nat → Prop), (∀ x ∈ done, P x) → P cp → ∀ x ∈ done ++ [cp], P x := by
    intro P h1 h2 x hx
    rcases List.mem_append.1 hx with hx | hx
    · exact h1 x hx
    · simp at hx; subst hx; exact h2
  refine ⟨hsc, ?_⟩
  cases c with
  | ascii t =>
    have ha : ∀ x ∈ done, x ≤ 0x7f := h.2
    have he := encAll_ascii ha
    simp only [store]
    by_cases h1 : cp ≤ 0x7f
    · rw [if_pos h1]; exact hmem _ ha h1
    · rw [if_neg h1]
      by_cases h2 : cp ≤ 0xff
      · rw [if_pos h2, htake, he]
        exact ⟨by rw [Nat.mod_eq_of_lt (by omega)], hmem _ (fun x hx => by have := ha x hx; omega) h2⟩
      · rw [if_neg h2]
        by_cases h3 : cp ≤ 0xffff
        · rw [if_pos h3, htake, he]
          exact ⟨by rw [Nat.mod_eq_of_lt (by omega)], hmem _ (fun x hx => by have := ha x hx; omega) h3⟩
        · rw [if_neg h3, htake, he]
          show done.map signExtend ++ [cp] = done ++ [cp]
          congr 1
          have hm : done.map signExtend = done.map id := by
            apply List.map_congr_left
            intro x hx
            unfold signExtend
            rw [if_pos (by have := ha x hx; omega)]; rfl
          rw [hm, List.map_id]
  | latin1 t =>
    obtain ⟨rfl, ha⟩ := h.2
    simp only [store]
    by_cases h2 : cp ≤ 0xff
    · rw [if_pos h2]
      exact ⟨by rw [Nat.mod_eq_of_lt (by omega)], hmem _ ha h2⟩
    · rw [if_neg h2]
      by_cases h3 : cp ≤ 0xffff
      · rw [if_pos h3]
        exact ⟨by rw [Nat.mod_eq_of_lt (by omega)], hmem _ (fun x hx => by have := ha x hx; omega) h3⟩
      · rw [if_neg h3]
  | basic t =>
    obtain ⟨rfl, ha⟩ := h.2
    simp only [store]
    by_cases h3 : cp ≤ 0xffff
    · rw [if_pos h3]
      exact ⟨by rw [Nat.mod_eq_of_lt (by omega)], hmem _ ha h3⟩
    · rw [if_neg h3]
  | supplemental t =>
    have : t = done := h.2
    subst this
    rfl

/-- One decoded code point. -/
theorem srcLoop_step {text done r : List Nat} {c : Content} {cp fuel : Nat} {offs : List Nat} (hcp : IsScalar cp)
    (hr : Bytes r) (ht : text = encAll done ++ (enc cp ++ r)) (hmax : text.length ≤ posMax) :
    srcLoop text (fuel + 1) c (encAll done).length (enc cp ++ r) done.length offs
      = srcLoop text fuel (store text (encAll done).length c cp) (encAll (done ++ [cp])).length r (done ++ [cp]).length
          (offs ++ afterNewlines done.length [cp]) := by
  have hpos : 1 ≤ (enc cp).length := by
    cases h : enc cp with
    | nil => exact absurd h (enc_ne_nil cp)
    | cons => simp
  have hlen : (encAll done).length < text.length := by rw [ht]; simp; omega
  have hdl := encAll_len done
  rw [srcLoop]
  rw [if_pos hlen, decode_scalar cp hcp r hr]
  simp only [Res.mbind_ok]
  have hnot : ¬ (cp = kUnicodeReplacementCharacter ∧ (enc cp).length = 1) := by
    rintro ⟨h1, h2⟩
    rw [h1] at h2
    revert h2
    decide
  rw [if_neg hnot]
  have e1 : (encAll (done ++ [cp])).length = (encAll done).length + (enc cp).length := by
    rw [encAll_append]; simp [encAll]
  have e2 : (done ++ [cp]).length = done.length + 1 := by simp
  rw [e1, e2, List.drop_left]
  by_cases hnl : cp = 10
  · have hb : done.length + 1 ≤ posMax := by omega
    rw [if_pos hnl]
    simp only [pushOffset, if_pos hb, Res.mbind_ok, afterNewlines, if_pos hnl]
  · rw [if_neg hnl]
    simp only [Res.mbind_ok, afterNewlines, if_neg hnl, List.append_nil]

theorem wf_bytes' {cs : List Nat} (h : Scalars cs) : Bytes (encAll cs) := by
    intro x hx
    simp only [encAll, List.mem_flatMap] at hx
    obtain ⟨c, hc, hx⟩ := hx
    have := h c hc
    unfold IsScalar at this
    unfold enc at hx
    split at hx
    · simp at hx; omega
    · split at hx
      · simp at hx; omega
      · split at hx
        · simp at hx; omega
        · simp at hx; omega

theorem srcLoop_good (text : List Nat) (hmax : text.length ≤ posMax) : ∀ (cs done : List Nat) (c : Content) (fuel : Nat),
    Scalars cs → Stored c done → text = encAll done ++ encAll cs → cs.length < fuel →
    (done.length + cs.length + 1 ≤ posMax →
      ∃ s, srcLoop text fuel c (encAll done).length (encAll cs) done.length (afterNewlines 0 done) = .ok s ∧
        Represents s (done ++ cs)) ∧
    (posMax < done.length + cs.length + 1 →
      srcLoop text fuel c (encAll done).length (encAll cs) done.length (afterNewlines 0 done) = .ub) := by
  intro cs
  induction cs with
  | nil =>
    intro done c fuel hs hst ht hf
    cases fuel with
    | zero => omega
    | succ fuel =>
      have hlen : ¬ (encAll done).length < text.length := by rw [ht]; simp [encAll]
      rw [srcLoop, if_neg hlen]
      constructor
      · intro hb
        simp only [List.length_nil, Nat.add_zero] at hb
        simp only [pushOffset, if_pos hb, Res.mbind_ok, List.append_nil]
        have htx : text = encAll done := by rw [ht]; simp [encAll]
        cases c with
        | ascii t =>
          have ha : ∀ x ∈ done, x ≤ 0x7f := hst.2
          exact ⟨_, rfl, ⟨by show text = done; rw [htx, encAll_ascii ha], hst.1, ha⟩, rfl⟩
        | latin1 t => exact ⟨_, rfl, ⟨hst.2.1, hst.1, hst.2.2⟩, rfl⟩
        | basic t => exact ⟨_, rfl, ⟨hst.2.1, hst.1, hst.2.2⟩, rfl⟩
        | supplemental t => exact ⟨_, rfl, ⟨hst.2, hst.1, trivial⟩, rfl⟩
      · intro hb
        simp only [List.length_nil, Nat.add_zero] at hb
        simp only [pushOffset]
        rw [if_neg (by omega)]
        rfl
  | cons cp cs ih =>
    intro done c fuel hs hst ht hf
    cases fuel with
    | zero => omega
    | succ fuel =>
      have hcp : IsScalar cp := hs cp (by simp)
      have hcs : Scalars cs := fun x hx => hs x (List.mem_cons_of_mem _ hx)
      have hsplit : encAll (cp :: cs) = enc cp ++ encAll cs := by simp [encAll]
      rw [hsplit] at ht ⊢
      have hb : Bytes (encAll cs) := wf_bytes' hcs
      rw [srcLoop_step hcp hb ht hmax]
      have hst' := store_ok hst hcp ht
      have hoffs : afterNewlines 0 done ++ afterNewlines done.length [cp] = afterNewlines 0 (done ++ [cp]) := by
        rw [afterNewlines_append]; simp
      rw [hoffs]
      have := ih (done ++ [cp]) _ fuel hcs hst' (by rw [ht, encAll_append]; simp [encAll]) (by simp at hf; omega)
      have e : done ++ [cp] ++ cs = done ++ cp :: cs := by simp
      rw [e] at this
      simp only [List.length_append, List.length_cons, List.length_nil] at this ⊢
      exact ⟨fun h => this.1 (by omega), fun h => this.2 (by omega)⟩

theorem srcLoop_bad (text : List Nat) (hmax : text.length ≤ posMax) (hbt : Bytes text) (n : Nat) :
    ∀ (it done : List Nat) (c : Content) (fuel : Nat),
    it.length ≤ n → Scalars done → text = encAll done ++ it → ¬ WellFormed it → it.length < fuel →
    ∃ m, ∀ offs, srcLoop text fuel c (encAll done).length it done.length offs = .err ⟨.invalidArgument, m⟩ := by
  induction n with
  | zero =>
    intro it done c fuel hn hd ht hw hf
    have : it = [] := List.length_eq_zero_iff.1 (by omega)
    exact absurd ⟨[], by intro x hx; simp at hx, by simp [this, encAll]⟩ hw
  | succ n ih =>
    intro it done c fuel hn hd ht hw hf
    cases fuel with
    | zero => omega
    | succ fuel =>
      have hb : Bytes it := fun x hx => hbt x (by rw [ht]; exact List.mem_append_right _ hx)
      have hne : it ≠ [] := by
        rintro rfl
        exact hw ⟨[], by intro x hx; simp at hx, by simp [encAll]⟩
      by_cases hno : NoScalarAt it
      · refine ⟨"cannot parse malformed UTF-8 input", fun offs => ?_⟩
        have hlen : (encAll done).length < text.length := by
          rw [ht, List.length_append]
          have : 0 < it.length := List.length_pos_iff.2 hne
          omega
        rw [srcLoop, if_pos hlen, decode_bad it hne hb hno]
        simp [kUnicodeReplacementCharacter]
      · unfold NoScalarAt at hno
        obtain ⟨cp, hcp, r, rfl⟩ : ∃ cp, IsScalar cp ∧ ∃ r, it = enc cp ++ r := by
          apply Classical.byContradiction
          intro hc
          exact hno fun cp hcp he => hc ⟨cp, hcp, he.choose, he.choose_spec.symm⟩
        have hpos : 1 ≤ (enc cp).length := by
          cases h : enc cp with
          | nil => exact absurd h (enc_ne_nil cp)
          | cons => simp
        have hr : Bytes r := fun x hx => hb x (List.mem_append_right _ hx)
        have hwr : ¬ WellFormed r := by
          rintro ⟨cs, hcs, rfl⟩
          apply hw
          refine ⟨cp :: cs, ?_, by simp [encAll]⟩
          intro x hx
          rcases List.mem_cons.1 hx with rfl | hx
          · exact hcp
          · exact hcs x hx
        simp only [List.length_append] at hn hf
        obtain ⟨m, hm⟩ := ih r (done ++ [cp]) (store text (encAll done).length c cp) fuel (by omega)
          (by
            intro x hx
            rcases List.mem_append.1 hx with hx | hx
            · exact hd x hx
            · simp at hx; subst hx; exact hcp)
          (by rw [ht, encAll_append]; simp [encAll]) hwr (by omega)
        exact ⟨m, fun offs => by rw [srcLoop_step hcp hr ht hmax]; exact hm _⟩

/-- **C42 (construction).** A text shorter than 2³¹-1 bytes is accepted exactly if it is well-formed UTF-8; then the
source's positions count its code points, whichever representation was chosen, and its line offsets are the positions
after each newline and one past the end. -/
theorem C42_construction (text : List Nat) (hb : Bytes text) (hsize : text.length < posMax) :
    (∀ cs, Scalars cs → text = encAll cs → ∃ s, newSource text = .ok s ∧ Represents s cs) ∧
    (¬ WellFormed text → ∃ m, newSource text = .err ⟨.invalidArgument, m⟩) := by
  have hle : ¬ text.length > posMax := by omega
  constructor
  · intro cs hcs ht
    have hl := encAll_len cs
    rw [← ht] at hl
    have := (srcLoop_good text (by omega) cs [] (.ascii []) (text.length + 1) hcs ⟨by intro x hx; simp at hx, by intro x hx; simp at hx⟩
      (by simpa [encAll] using ht) (by omega)).1 (by simp; omega)
    obtain ⟨s, h1, h2⟩ := this
    refine ⟨s, ?_, by simpa using h2⟩
    unfold newSource
    rw [if_neg hle]
    have e : encAll [] = [] := rfl
    rw [e] at h1
    rw [← ht] at h1
    exact h1
  · intro hw
    obtain ⟨m, hm⟩ := srcLoop_bad text (by omega) hb text.length text [] (.ascii []) (text.length + 1) (by omega)
      (by intro x hx; simp at hx) (by simp [encAll]) hw (by omega)
    refine ⟨m, ?_⟩
    unfold newSource
    rw [if_neg hle]
    exact hm []

/-- An ASCII text of exactly 2³¹-1 bytes passes the size check, and the final line offset overflows `int32_t`. -/
theorem C42_size_limit_overflows (text : List Nat) (ha : ∀ x ∈ text, x ≤ 0x7f) (hl : text.length = posMax) :
    newSource text = .ub := by
  have hs : Scalars text := fun x hx => Or.inl (by have := ha x hx; omega)
  have he := encAll_ascii ha
  have := (srcLoop_good text (by omega) text [] (.ascii []) (text.length + 1) hs ⟨by intro x hx; simp at hx, by intro x hx; simp at hx⟩
      (by rw [he]; rfl) (by omega)).2 (by simp; omega)
  unfold newSource
  rw [if_neg (by omega)]
  rw [he] at this
  exact this

example : ∃ s, newSource [97, 0xc3, 0xa9, 10, 98] = .ok s ∧ Represents s [97, 0xe9, 10, 98] :=
  (C42_construction [97, 0xc3, 0xa9, 10, 98] (by intro x hx; simp at hx; omega) (by decide)).1 [97, 0xe9, 10, 98]
    (by intro x hx; simp at hx; unfold IsScalar; omega) (by decide)

/-! ## Line offsets -/

/-- **C42 (line offsets).** They strictly increase, and are the positions after a newline plus one past the end. -/
theorem C42_line_offsets {s : Src} {cs : List Nat} (h : Represents s cs) :
    s.lineOffsets.Pairwise (· < ·) ∧
    ∀ x, x ∈ s.lineOffsets ↔ (∃ i, cs[i]? = some 10 ∧ x = i + 1) ∨ x = cs.length + 1 := by
  rw [h.2]
  constructor
  · refine List.pairwise_append.2 ⟨afterNewlines_sorted _ _, by simp, ?_⟩
    intro a ha b hb
    have := afterNewlines_bounds _ _ _ ha
    simp at hb; omega
  · intro x
    simp only [List.mem_append, afterNewlines_mem, List.mem_singleton, Nat.zero_add]

/-! ## Positions and locations -/

/-- `before` is empty or ends with a newline: what follows it starts a line. -/
def StartsLine (before : List Nat) : Prop := before = [] ∨ ∃ b, before = b ++ [10]

/-- `after` is empty or begins with a newline: what precedes it ends a line. -/
def EndsLine (after : List Nat) : Prop := after = [] ∨ ∃ a, after = 10 :: a

theorem afterNewlines_length (cs : List Nat) : ∀ o, (afterNewlines o cs).length = cs.count 10 := by
  induction cs with
  | nil => intro o; rfl
  | cons c cs ih =>
    intro o
    simp only [afterNewlines, List.count_cons]
    by_cases h : c = 10
    · rw [if_pos h]; simp [ih, h]
    · rw [if_neg h]; simp [ih, h]

theorem findLineLoop_eq (p : Nat) (cs : List Nat) : ∀ o line, p ≤ o + cs.length →
    findLineLoop (p : Int) (afterNewlines o cs ++ [o + cs.length + 1]) line = line + (cs.take (p - o)).count 10 := by
  induction cs with
  | nil =>
    intro o line hp
    simp only [List.length_nil, Nat.add_zero] at hp
    simp only [afterNewlines, List.nil_append, findLineLoop, List.length_nil]
    rw [if_pos (by omega)]; simp
  | cons c cs ih =>
    intro o line hp
    simp only [List.length_cons] at hp ⊢
    have e : o + (cs.length + 1) + 1 = o + 1 + cs.length + 1 := by omega
    rw [e]
    have htake : p ≤ o → ∀ l : List Nat, l.take (p - o) = [] := by
      intro h l; rw [show p - o = 0 by omega]; simp
    have hsucc : ¬ p ≤ o → (c :: cs).take (p - o) = c :: cs.take (p - (o + 1)) := by
      intro h; rw [show p - o = (p - (o + 1)) + 1 by omega]; simp
    simp only [afterNewlines]
    by_cases hc : c = 10
    · rw [if_pos hc]
      simp only [List.cons_append, findLineLoop]
      by_cases hpo : p ≤ o
      · rw [if_pos (by omega), htake hpo]; simp
      · rw [if_neg (by omega), ih (o + 1) (line + 1) (by omega), hsucc hpo, List.count_cons]
        simp [hc]; omega
    · rw [if_neg hc, ih (o + 1) line (by omega)]
      by_cases hpo : p ≤ o
      · rw [htake hpo, show p - (o + 1) = 0 by omega]; simp
      · rw [hsucc hpo, List.count_cons]; simp [hc]

theorem offset_at (before rest : List Nat) (hb : StartsLine before) (hc : 0 < before.count 10) (tail : List Nat) :
    (afterNewlines 0 (before ++ rest) ++ tail)[before.count 10 - 1]? = some before.length := by
  rcases hb with rfl | ⟨b, rfl⟩
  · simp at hc
  · rw [afterNewlines_append, afterNewlines_append]
    have h1 : (b ++ [10]).count 10 - 1 = (afterNewlines 0 b).length := by
      rw [afterNewlines_length]; simp
    rw [h1]
    simp only [afterNewlines, if_true, List.append_assoc]
    rw [List.getElem?_append_right (by omega)]
    simp

/-- **C42 (positions and locations).** Let the text be `before ++ line ++ after`, where `before` is empty or ends with a
newline and `line` has no newline.  The position at the end of `line` has line number one more than the newlines before
it and column the length of `line`, and that location has that position. -/
theorem C42_positions_and_locations {s : Src} {before line after : List Nat} (h : Represents s (before ++ line ++ after))
    (hb : StartsLine before) (hl : 10 ∉ line) (hmax : (before ++ line ++ after).length < posMax) :
    s.getLocation ((before.length + line.length : Nat) : Int) =
      .ok (some ((1 + before.count 10 : Nat), (line.length : Nat))) ∧
    s.getPosition ((1 + before.count 10 : Nat) : Int) (line.length : Nat) =
      .ok (some ((before.length + line.length : Nat) : Int)) := by
  have hcl : line.count 10 = 0 := List.count_eq_zero.2 hl
  simp only [List.length_append] at hmax
  constructor
  · have hloop : findLineLoop ((before.length + line.length : Nat) : Int) s.lineOffsets 1 = 1 + before.count 10 := by
      rw [h.2]
      have := findLineLoop_eq (before.length + line.length) (before ++ line ++ after) 0 1 (by simp)
      simp only [Nat.zero_add, Nat.sub_zero] at this
      rw [this]
      have ht : (before ++ line ++ after).take (before.length + line.length) = before ++ line := by
        rw [← List.length_append, List.take_left]
      rw [ht, List.count_append, hcl]; omega
    have hfind : s.findLine ((before.length + line.length : Nat) : Int) = .ok (some (1 + before.count 10, (before.length : Int))) := by
      unfold Src.findLine
      rw [if_neg (by omega)]
      simp only [hloop]
      by_cases hz : before.count 10 = 0
      · rw [if_pos (by omega)]
        rcases hb with rfl | ⟨b, rfl⟩
        · simp
        · simp at hz
      · rw [if_neg (by omega)]
        have := offset_at before (line ++ after) hb (by omega) [(before ++ line ++ after).length + 1]
        rw [← List.append_assoc, ← h.2] at this
        rw [show 1 + before.count 10 - 2 = before.count 10 - 1 by omega, this]
    unfold Src.getLocation
    rw [hfind]
    simp only [Res.mbind_ok]
    congr 3
    push_cast
    omega
  · have hpos : s.findLinePosition ((1 + before.count 10 : Nat) : Int) = some (before.length : Int) := by
      unfold Src.findLinePosition
      rw [if_neg (by omega)]
      by_cases hz : before.count 10 = 0
      · rw [if_pos (by omega)]
        rcases hb with rfl | ⟨b, rfl⟩
        · simp
        · simp at hz
      · rw [if_neg (by omega)]
        have hlen : s.lineOffsets.length = before.count 10 + line.count 10 + after.count 10 + 1 := by
          rw [h.2]; simp [afterNewlines_length]; omega
        rw [if_pos (by omega)]
        have := offset_at before (line ++ after) hb (by omega) [(before ++ line ++ after).length + 1]
        rw [← List.append_assoc, ← h.2] at this
        rw [show (((1 + before.count 10 : Nat) : Int) - 2).toNat = before.count 10 - 1 by omega, this]
        rfl
    unfold Src.getPosition
    rw [if_neg (by omega), hpos]
    simp only []
    rw [if_pos (by omega)]
    congr 2

/-- Every prefix ends in a (possibly empty) piece of a line. -/
theorem last_line (l : List Nat) : ∃ before line, l = before ++ line ∧ StartsLine before ∧ 10 ∉ line := by
  induction l with
  | nil => exact ⟨[], [], rfl, .inl rfl, by simp⟩
  | cons c l ih =>
    obtain ⟨b, x, rfl, hb, hx⟩ := ih
    rcases hb with rfl | ⟨b', rfl⟩
    · by_cases hc : c = 10
      · exact ⟨[10], x, by simp [hc], .inr ⟨[], rfl⟩, hx⟩
      · exact ⟨[], c :: x, by simp, .inl rfl, by simp [hx, Ne.symm hc]⟩
    · exact ⟨c :: (b' ++ [10]), x, by simp, .inr ⟨c :: b', by simp⟩, hx⟩

/-- **C42 (round trip).** Every position of a source, the end included, has a location, whose position it is. -/
theorem C42_position_round_trip {s : Src} {cs : List Nat} (h : Represents s cs) (hmax : cs.length < posMax)
    (p : Nat) (hp : p ≤ cs.length) :
    ∃ line column, s.getLocation p = .ok (some (line, column)) ∧ s.getPosition line column = .ok (some (p : Int)) ∧
      line = 1 + ((cs.take p).count 10 : Nat) ∧ 0 ≤ column := by
  obtain ⟨b, x, he, hb, hx⟩ := last_line (cs.take p)
  have hcs : cs = b ++ x ++ cs.drop p := by rw [← he, List.take_append_drop]
  have hlen : b.length + x.length = p := by
    rw [← List.length_append, ← he, List.length_take]; omega
  rw [hcs] at h hmax
  have := C42_positions_and_locations h hb hx hmax
  rw [hlen] at this
  refine ⟨_, _, this.1, this.2, ?_, by omega⟩
  rw [he, List.count_append, List.count_eq_zero.2 hx]
  push_cast; omega

/-- **C42 (other positions).** A negative position has no location; a line number below one or above the number of lines,
or a negative column, has no position. -/
theorem C42_outside {s : Src} {cs : List Nat} (h : Represents s cs) (line column p : Int) :
    (p < 0 → s.getLocation p = .ok none) ∧
    ((line < 1 ∨ column < 0 ∨ line > 1 + (cs.count 10 : Nat)) → s.getPosition line column = .ok none) := by
  constructor
  · intro hp
    unfold Src.getLocation Src.findLine
    rw [if_pos hp]; rfl
  · intro hl
    unfold Src.getPosition
    by_cases h1 : line < 1 ∨ column < 0
    · rw [if_pos h1]
    · rw [if_neg h1]
      have hlen : s.lineOffsets.length = cs.count 10 + 1 := by
        rw [h.2]; simp [afterNewlines_length]
      unfold Src.findLinePosition
      rw [if_neg (by omega), if_neg (by omega), if_neg (by omega)]

/-- The column given to `GetPosition` is not compared with the line, so a location outside the text has a position ... -/
theorem C42_column_unchecked {s : Src} {cs : List Nat} (h : Represents s cs) (column : Nat) (hc : column ≤ posMax) :
    s.getPosition 1 column = .ok (some (column : Int)) := by
  unfold Src.getPosition Src.findLinePosition
  rw [if_neg (by omega), if_neg (by omega), if_pos rfl]
  simp only []
  rw [if_pos (by omega)]
  simp

/-- ... and on every line but the first the `int32_t` sum of a column within range can overflow. -/
theorem C42_column_overflow {s : Src} {cs : List Nat} (h : Represents s cs) (hnl : 10 ∈ cs) :
    s.getPosition 2 posMax = .ub := by
  have hpos : 0 < cs.count 10 := List.count_pos_iff.2 hnl
  have hlen : s.lineOffsets.length = cs.count 10 + 1 := by rw [h.2]; simp [afterNewlines_length]
  unfold Src.getPosition Src.findLinePosition
  rw [if_neg (by unfold posMax; omega), if_neg (by omega), if_neg (by omega), if_pos (by omega)]
  have h0 : (0 : Nat) < s.lineOffsets.length := by omega
  have e : ((2 : Int) - 2).toNat = 0 := by omega
  rw [e, List.getElem?_eq_getElem h0]
  have hmem : s.lineOffsets[0] ∈ s.lineOffsets := List.getElem_mem h0
  have := ((C42_line_offsets h).2 _).1 hmem
  have hp : 0 < s.lineOffsets[0] := by
    rcases this with ⟨i, -, h⟩ | h <;> omega
  show (if ((s.lineOffsets[0] : Nat) : Int) + (posMax : Int) ≤ posMax then _ else _) = _
  rw [if_neg (by omega)]

/-! ## Snippets -/

theorem flatMap_encode {cs : List Nat} (h : Scalars cs) : cs.flatMap utf8Encode = encAll cs := by
  induction cs with
  | nil => rfl
  | cons c cs ih =>
    simp only [encAll, List.flatMap_cons] at ih ⊢
    rw [encode_eq_enc c (h c (by simp)), ih fun x hx => h x (List.mem_cons_of_mem _ hx)]

theorem toStringRange_shows {c : Content} {cs : List Nat} (h : c.Shows cs) {b e : Nat} (hb : b ≤ e) (he : e ≤ cs.length) :
    c.toStringRange b e = .ok (encAll ((cs.drop b).take (e - b))) := by
  obtain ⟨hu, hsc, hk⟩ := h
  have hsub : ∀ x ∈ (cs.drop b).take (e - b), x ∈ cs := fun x hx => List.mem_of_mem_drop (List.mem_of_mem_take hx)
  unfold Content.toStringRange
  rw [if_pos ⟨hb, by unfold Content.size; rw [hu]; exact he⟩]
  have henc : ((cs.drop b).take (e - b)).flatMap utf8Encode = encAll ((cs.drop b).take (e - b)) := by
    exact flatMap_encode fun x hx => hsc x (hsub x hx)
  cases c with
  | ascii t =>
    simp only [Content.units] at hu; subst hu
    simp only []
    rw [encAll_ascii fun x hx => hk x (hsub x hx)]
  | latin1 t => simp only [Content.units] at hu; subst hu; simp only [henc]
  | basic t => simp only [Content.units] at hu; subst hu; simp only [henc]
  | supplemental t => simp only [Content.units] at hu; subst hu; simp only [henc]

theorem findLinePosition_eq {s : Src} {before rest : List Nat} (h : Represents s (before ++ rest)) (hb : StartsLine before) :
    s.findLinePosition ((1 + before.count 10 : Nat) : Int) = some (before.length : Int) := by
  unfold Src.findLinePosition
  rw [if_neg (by omega)]
  by_cases hz : before.count 10 = 0
  · rw [if_pos (by omega)]
    rcases hb with rfl | ⟨b, rfl⟩
    · simp
    · simp at hz
  · rw [if_neg (by omega)]
    have hlen : s.lineOffsets.length = before.count 10 + rest.count 10 + 1 := by
      rw [h.2]; simp [afterNewlines_length]
    rw [if_pos (by omega)]
    have := offset_at before rest hb (by omega) [(before ++ rest).length + 1]
    rw [← h.2] at this
    rw [show (((1 + before.count 10 : Nat) : Int) - 2).toNat = before.count 10 - 1 by omega, this]
    rfl

theorem findLinePosition_none {s : Src} {cs : List Nat} (h : Represents s cs) {line : Int}
    (hl : line < 1 ∨ line > 1 + (cs.count 10 : Nat)) : s.findLinePosition line = none := by
  have hlen : s.lineOffsets.length = cs.count 10 + 1 := by rw [h.2]; simp [afterNewlines_length]
  unfold Src.findLinePosition
  rcases hl with hl | hl
  · rw [if_pos hl]
  · rw [if_neg (by omega), if_neg (by omega), if_neg (by omega)]

/-- **C42 (lines).** Let a non-empty text be `before ++ line ++ after`, where `line` has no newline and is delimited by
newlines or the ends of the text.  The snippet of the line following the newlines of `before` is `line`, in UTF-8. -/
theorem C42_snippet {s : Src} {before line after : List Nat} (h : Represents s (before ++ line ++ after))
    (hb : StartsLine before) (ha : EndsLine after) (hl : 10 ∉ line) (hne : before ++ line ++ after ≠ []) :
    s.snippet ((1 + before.count 10 : Nat) : Int) = .ok (some (encAll line)) := by
  have hcl : line.count 10 = 0 := List.count_eq_zero.2 hl
  have h1 : s.findLinePosition ((1 + before.count 10 : Nat) : Int) = some (before.length : Int) :=
    findLinePosition_eq (by rw [← List.append_assoc]; exact h) hb
  have hu : s.content.units ≠ [] := by rw [h.1.1]; exact hne
  have hslice : ((before ++ line ++ after).drop before.length).take line.length = line := by
    rw [List.append_assoc, List.drop_left, List.take_left]
  unfold Src.snippet
  rw [h1]
  simp only []
  rw [if_neg hu]
  rcases ha with rfl | ⟨a, rfl⟩
  · rw [findLinePosition_none h (.inr (by simp [hcl]; omega))]
    simp only [List.append_nil] at h hslice ⊢
    have : s.content.size = before.length + line.length := by unfold Content.size; rw [h.1.1]; simp
    rw [this, Int.toNat_natCast, toStringRange_shows h.1 (by omega) (by simp)]
    rw [Nat.add_sub_cancel_left, hslice]; rfl
  · have e : before ++ line ++ 10 :: a = (before ++ line ++ [10]) ++ a := by simp
    have h2 := findLinePosition_eq (before := before ++ line ++ [10]) (by rw [← e]; exact h) (.inr ⟨_, rfl⟩)
    have hc : (before ++ line ++ [10]).count 10 = before.count 10 + 1 := by simp [hcl]
    rw [hc] at h2
    rw [show (((1 + before.count 10 : Nat) : Int) + 1) = ((1 + (before.count 10 + 1) : Nat) : Int) by omega, h2]
    simp only []
    rw [Int.toNat_natCast]
    have e3 : (((before ++ line ++ [10]).length : Int) - 1).toNat = before.length + line.length := by
      simp only [List.length_append, List.length_singleton]; omega
    rw [e3]
    rw [toStringRange_shows h.1 (by omega) (by simp)]
    rw [Nat.add_sub_cancel_left, hslice]; rfl

/-- Every line number up to the number of lines delimits a line, so `C42_snippet` describes all of them. -/
theorem C42_every_line (cs : List Nat) : ∀ k, k ≤ cs.count 10 →
    ∃ before line after, cs = before ++ line ++ after ∧ StartsLine before ∧ EndsLine after ∧ 10 ∉ line ∧
      before.count 10 = k := by
  induction cs with
  | nil => intro k hk; exact ⟨[], [], [], rfl, .inl rfl, .inl rfl, by simp, by simp at hk ⊢; omega⟩
  | cons c cs ih =>
    intro k hk
    by_cases hc : c = 10
    · subst hc
      cases k with
      | zero => exact ⟨[], [], 10 :: cs, rfl, .inl rfl, .inr ⟨cs, rfl⟩, by simp, rfl⟩
      | succ k =>
        simp only [List.count_cons_self] at hk
        obtain ⟨b, l, a, rfl, hb, ha, hl, hk'⟩ := ih k (by omega)
        refine ⟨10 :: b, l, a, by simp, ?_, ha, hl, by simp [hk']⟩
        rcases hb with rfl | ⟨b', rfl⟩
        · exact .inr ⟨[], rfl⟩
        · exact .inr ⟨10 :: b', by simp⟩
    · have hcc : (c :: cs).count 10 = cs.count 10 := by simp [List.count_cons, hc]
      rw [hcc] at hk
      obtain ⟨b, l, a, rfl, hb, ha, hl, hk'⟩ := ih k hk
      rcases hb with rfl | ⟨b', rfl⟩
      · exact ⟨[], c :: l, a, by simp, .inl rfl, ha, by simp [hl, Ne.symm hc], hk'⟩
      · refine ⟨c :: (b' ++ [10]), l, a, by simp, .inr ⟨c :: b', by simp⟩, ha, hl, ?_⟩
        rw [List.count_cons]; simp [hc] at hk' ⊢; exact hk'

/-- Lines that do not exist, and all lines of an empty text, have no snippet. -/
theorem C42_no_snippet {s : Src} {cs : List Nat} (h : Represents s cs) {line : Int}
    (hl : cs = [] ∨ line < 1 ∨ line > 1 + (cs.count 10 : Nat)) : s.snippet line = .ok none := by
  unfold Src.snippet
  rcases hl with rfl | hl
  · have hu : s.content.units = [] := h.1.1
    cases s.findLinePosition line with
    | none => rfl
    | some b => simp only [hu, if_true]
  · rw [findLinePosition_none h hl]

/-! ## Error display -/

/-- The marker under a code point: full-width characters for anything outside ASCII. -/
def dot (cp : Nat) : List Nat := if cp ≤ 0x7f then [46] else enc 0xff0e

/-- The caret under a code point, or at the end of the line. -/
def hat : List Nat → List Nat
  | [] => [94]
  | cp :: _ => if cp ≤ 0x7f then [94] else enc 0xff3e

def detab (c : Nat) : Nat := if c = 9 then 32 else c

theorem enc_len_one {c : Nat} (h : IsScalar c) : (enc c).length > 1 ↔ ¬ c ≤ 0x7f := by
  unfold enc
  split
  · simp; omega
  · split
    · simp; omega
    · split <;> (simp; omega)

theorem detab_scalar {c : Nat} (h : IsScalar c) : IsScalar (detab c) := by
  unfold detab; split
  · left; omega
  · exact h

theorem detab_enc {c : Nat} (h : IsScalar c) : (enc c).map detab = enc (detab c) := by
  by_cases hc : c ≤ 0x7f
  · rw [enc_ascii hc]
    have : detab c ≤ 0x7f := by unfold detab; split <;> omega
    rw [enc_ascii this]; rfl
  · have hd : detab c = c := by unfold detab; rw [if_neg (by omega)]
    rw [hd]
    have hm : (enc c).map detab = (enc c).map id := by
      apply List.map_congr_left
      intro x hx
      have : x ≠ 9 := by
        unfold enc at hx
        split at hx
        · simp at hx; omega
        · split at hx
          · simp at hx; omega
          · split at hx
            · simp at hx; omega
            · simp at hx; omega
      unfold detab; rw [if_neg this]; rfl
    rw [hm, List.map_id]

theorem detab_encAll {cs : List Nat} (h : Scalars cs) : (encAll cs).map detab = encAll (cs.map detab) := by
  induction cs with
  | nil => rfl
  | cons c cs ih =>
    have := ih fun x hx => h x (List.mem_cons_of_mem _ hx)
    simp only [encAll, List.flatMap_cons, List.map_append, List.map_cons] at this ⊢
    rw [detab_enc (h c (by simp)), this]

theorem markLoop_eq (cs : List Nat) (h : Scalars cs) : ∀ n acc,
    markLoop n (encAll cs) acc = .ok (encAll (cs.drop n), acc ++ (cs.take n).flatMap dot) := by
  induction cs with
  | nil => intro n acc; cases n <;> simp [markLoop, encAll]
  | cons c cs ih =>
    intro n acc
    have hc := h c (by simp)
    have hcs : Scalars cs := fun x hx => h x (List.mem_cons_of_mem _ hx)
    cases n with
    | zero => simp [markLoop]
    | succ n =>
      have he : encAll (c :: cs) = enc c ++ encAll cs := by simp [encAll]
      have hne : enc c ++ encAll cs ≠ [] := by simp [enc_ne_nil]
      rw [he, markLoop, if_neg hne, decode_scalar c hc _ (wf_bytes' hcs)]
      simp only [Res.bind, List.drop_left, List.drop_succ_cons, List.take_succ_cons, List.flatMap_cons]
      rw [ih hcs]
      have hd : (if (enc c).length > 1 then utf8Encode 0xff0e else utf8Encode 46) = dot c := by
        unfold dot
        by_cases h7 : c ≤ 0x7f
        · rw [if_pos h7, if_neg (by rw [enc_len_one hc]; omega)]; decide
        · rw [if_neg h7, if_pos (by rw [enc_len_one hc]; omega)]; decide
      rw [hd, List.append_assoc]

/-- **C42 (error display).** For a column on a non-empty line, the display is the line with tabs as spaces and, below it,
one marker for each code point before the column and a caret under the one at the column (or just after the line). -/
theorem C42_display {s : Src} {before line after : List Nat} (h : Represents s (before ++ line ++ after))
    (hb : StartsLine before) (ha : EndsLine after) (hl : 10 ∉ line) (hne : line ≠ []) (column : Nat) :
    s.displayErrorLocation ((1 + before.count 10 : Nat) : Int) column =
      .ok ([10, 32, 124, 32] ++ encAll (line.map detab) ++ [10, 32, 124, 32] ++
        (line.take column).flatMap dot ++ hat (line.drop column)) := by
  have hsn := C42_snippet h hb ha hl (by simp [hne])
  have hsc : Scalars line := fun x hx => h.1.2.1 x (by simp [hx])
  have hsd : Scalars (line.map detab) := by
    intro x hx
    obtain ⟨y, hy, rfl⟩ := List.mem_map.1 hx
    exact detab_scalar (hsc y hy)
  have hdot : ∀ c, dot (detab c) = dot c := by
    intro c; unfold dot detab
    by_cases h9 : c = 9
    · subst h9; rfl
    · rw [if_neg h9]
  have hdots : ((line.map detab).take column).flatMap dot = (line.take column).flatMap dot := by
    rw [← List.map_take]
    generalize line.take column = l
    induction l with
    | nil => rfl
    | cons c l ih => simp only [List.map_cons, List.flatMap_cons, hdot, ih]
  unfold Src.displayErrorLocation
  rw [hsn]
  simp only [Res.bind]
  have hne' : encAll line ≠ [] := by
    cases line with
    | nil => exact absurd rfl hne
    | cons c l => simp [encAll, enc_ne_nil]
  have hmap : (encAll line).map (fun b => if b = 9 then 32 else b) = encAll (line.map detab) := detab_encAll hsc
  cases hel : encAll line with
  | nil => exact absurd hel hne'
  | cons x xs =>
    simp only []
    rw [← hel, hmap, Int.toNat_natCast, markLoop_eq _ hsd]
    simp only [List.nil_append, hdots]
    rw [← List.map_drop]
    have hscd : Scalars (line.drop column) := fun y hy => hsc y (List.mem_of_mem_drop hy)
    cases hd : line.drop column with
    | nil =>
      simp only [List.map_nil]
      have : encAll [] = [] := rfl
      rw [this]
      simp only [if_true, hat, List.append_assoc]
      rfl
    | cons c l =>
      rw [hd] at hscd
      have hc := hscd c (by simp)
      have hl' : Scalars (l.map detab) := by
        intro y hy
        obtain ⟨z, hz, rfl⟩ := List.mem_map.1 hy
        exact detab_scalar (hscd z (List.mem_cons_of_mem _ hz))
      have he : encAll ((c :: l).map detab) = enc (detab c) ++ encAll (l.map detab) := by simp [encAll]
      rw [he, if_neg (by simp [enc_ne_nil]), decode_scalar _ (detab_scalar hc) _ (wf_bytes' hl')]
      simp only [hat]
      have h7 : detab c ≤ 0x7f ↔ c ≤ 0x7f := by unfold detab; split <;> omega
      by_cases h7' : c ≤ 0x7f
      · rw [if_pos h7', if_neg (by rw [enc_len_one (detab_scalar hc), h7]; omega)]
        simp only [List.append_assoc]; rfl
      · rw [if_neg h7', if_pos (by rw [enc_len_one (detab_scalar hc), h7]; omega)]
        simp only [List.append_assoc]
        congr 1

/-! ## Subranges -/

theorem afterNewlines_shift (cs : List Nat) : ∀ o b, (afterNewlines (o + b) cs).map (fun x => x - b) = afterNewlines o cs := by
  induction cs with
  | nil => intro o b; rfl
  | cons c cs ih =>
    intro o b
    have := ih (o + 1) b
    rw [show o + 1 + b = o + b + 1 by omega] at this
    simp only [afterNewlines]
    split
    · rw [List.map_cons, this]; congr 1; omega
    · exact this

/-- **C42 (subranges).** A subrange of a source is a source of the corresponding slice of its text. -/
theorem C42_subrange {s : Src} {before slice after : List Nat} (h : Represents s (before ++ slice ++ after)) :
    Represents (s.subrange before.length (before.length + slice.length)) slice := by
  obtain ⟨⟨hu, hsc, hk⟩, ho⟩ := h
  have hsize : s.content.size = before.length + slice.length + after.length := by
    unfold Content.size; rw [hu]; simp; omega
  have hb : min before.length s.content.size = before.length := by omega
  have he : min (max (before.length + slice.length) before.length) s.content.size = before.length + slice.length := by omega
  have hsub : ∀ x ∈ slice, x ∈ before ++ slice ++ after := by intro x hx; simp [hx]
  have hslice : ((before ++ slice ++ after).drop before.length).take (before.length + slice.length - before.length) = slice := by
    rw [Nat.add_sub_cancel_left, List.append_assoc, List.drop_left, List.take_left]
  constructor
  · refine ⟨?_, fun x hx => hsc x (hsub x hx), ?_⟩
    · simp only [Src.subrange, hb, he]
      by_cases hemp : s.content.units = [] ∨ before.length ≥ before.length + slice.length
      · rw [if_pos hemp]
        have : slice.length = 0 := by
          rcases hemp with h | h
          · rw [hu] at h; simp at h; simp [h.2.1]
          · omega
        rw [List.length_eq_zero_iff.1 this]; rfl
      · rw [if_neg hemp]
        cases hc : s.content <;> rw [hc] at hu <;> simp only [Content.units] at hu ⊢ <;> rw [hu, hslice]
    · simp only [Src.subrange, hb, he]
      by_cases hemp : s.content.units = [] ∨ before.length ≥ before.length + slice.length
      · rw [if_pos hemp]
        have : slice.length = 0 := by
          rcases hemp with h | h
          · rw [hu] at h; simp at h; simp [h.2.1]
          · omega
        rw [List.length_eq_zero_iff.1 this]; simp
      · rw [if_neg hemp]
        cases hc : s.content <;> rw [hc] at hk <;> simp only [] at hk ⊢
        · exact fun x hx => hk x (hsub x hx)
        · exact fun x hx => hk x (hsub x hx)
        · exact fun x hx => hk x (hsub x hx)
  · simp only [Src.subrange, hb, he, ho]
    rw [afterNewlines_append, afterNewlines_append]
    have f1 : (afterNewlines 0 before).filter (fun o => decide (o > before.length ∧ o ≤ before.length + slice.length)) = [] := by
      rw [List.filter_eq_nil_iff]
      intro x hx
      have := afterNewlines_bounds _ _ _ hx
      simp; omega
    have f2 : (afterNewlines (0 + before.length) slice).filter (fun o => decide (o > before.length ∧ o ≤ before.length + slice.length))
        = afterNewlines (0 + before.length) slice := by
      rw [List.filter_eq_self]
      intro x hx
      have := afterNewlines_bounds _ _ _ hx
      simp; omega
    have f3 : (afterNewlines (0 + (before ++ slice).length) after).filter
        (fun o => decide (o > before.length ∧ o ≤ before.length + slice.length)) = [] := by
      rw [List.filter_eq_nil_iff]
      intro x hx
      have := afterNewlines_bounds _ _ _ hx
      simp at this ⊢; omega
    have f4 : ([(before ++ slice ++ after).length + 1] : List Nat).filter
        (fun o => decide (o > before.length ∧ o ≤ before.length + slice.length)) = [] := by
      rw [List.filter_eq_nil_iff]
      intro x hx
      simp at hx ⊢; omega
    rw [List.filter_append, List.filter_append, List.filter_append, f1, f2, f3, f4]
    simp only [List.nil_append, List.append_nil]
    rw [afterNewlines_shift, Nat.add_sub_cancel_left]

/-! ## Concrete cases: `"a\n\u00e9b"` -/

/-- A source for `"a\n\u00e9b"`. -/
def exSrc : Src := ⟨.latin1 [97, 10, 0xe9, 98], [2, 5]⟩

theorem exSrc_represents : Represents exSrc ([97, 10] ++ [0xe9, 98] ++ []) :=
  ⟨⟨rfl, by intro x hx; simp at hx; unfold IsScalar; omega, by intro x hx; simp at hx; omega⟩, rfl⟩

example : newSource [97, 10, 0xc3, 0xa9, 98] = .ok exSrc := rfl

example : exSrc.getLocation 3 = .ok (some (2, 1)) ∧ exSrc.getPosition 2 1 = .ok (some 3) := ⟨rfl, rfl⟩

example : exSrc.snippet 2 = .ok (some [0xc3, 0xa9, 98]) :=
  C42_snippet exSrc_represents (.inr ⟨[97], rfl⟩) (.inl rfl) (by decide) (by simp)

example : exSrc.displayErrorLocation 2 1 = .ok ([10, 32, 124, 32] ++ [0xc3, 0xa9, 98] ++ [10, 32, 124, 32] ++ enc 0xff0e ++ [94]) :=
  C42_display exSrc_represents (.inr ⟨[97], rfl⟩) (.inl rfl) (by decide) (by simp) 1

example : ∃ line column, exSrc.getLocation 4 = .ok (some (line, column)) ∧ exSrc.getPosition line column = .ok (some 4) ∧
    line = 1 + 1 ∧ 0 ≤ column := C42_position_round_trip exSrc_represents (by decide) 4 (by decide)

example : Represents (exSrc.subrange 2 4) [0xe9, 98] := C42_subrange exSrc_represents

example : exSrc.getPosition 2 posMax = .ub := C42_column_overflow exSrc_represents (by simp)

end Cel.Source
