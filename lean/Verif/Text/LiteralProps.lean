import Verif.Text.LiteralModel
import Verif.Text.Utf8Props

set_option linter.unusedSimpArgs false
set_option linter.unusedVariables false

/-! # C17–C19: string and bytes literals -/

namespace Cel.Text
open Cel Spec

/-! ## Well-formedness around ASCII bytes -/

theorem enc_lt_80 {c x : Nat} (h : x ∈ enc c) (hx : x < 0x80) : c = x ∧ c < 0x80 := by
  unfold enc at h
  by_cases h1 : c < 0x80
  · rw [if_pos h1] at h; simp at h; omega
  · rw [if_neg h1] at h
    by_cases h2 : c < 0x800
    · rw [if_pos h2] at h; simp at h; omega
    · rw [if_neg h2] at h
      by_cases h3 : c < 0x10000
      · rw [if_pos h3] at h; simp at h; omega
      · rw [if_neg h3] at h; simp at h; omega

theorem wf_ascii {x : Nat} (hx : x < 0x80) {b : List Nat} : WellFormed (x :: b) ↔ WellFormed b := by
  have h : IsScalar x := .inl (by omega)
  have := wf_cons (r := b) h
  rw [enc_ascii hx] at this
  exact this

theorem wf_append {a b : List Nat} (ha : WellFormed a) (hb : WellFormed b) : WellFormed (a ++ b) := by
  obtain ⟨cs, h1, rfl⟩ := ha
  obtain ⟨ds, h2, rfl⟩ := hb
  refine ⟨cs ++ ds, ?_, by simp [encAll]⟩
  intro x hx; rcases List.mem_append.1 hx with h | h
  · exact h1 x h
  · exact h2 x h

theorem wf_split {x : Nat} (hx : x < 0x80) : ∀ {a b : List Nat}, WellFormed (a ++ x :: b) →
    WellFormed a ∧ WellFormed b := by
  intro a b h
  obtain ⟨cs, hcs, he⟩ := h
  induction cs generalizing a with
  | nil => simp [encAll] at he
  | cons c cs ih =>
    have he' : a ++ x :: b = enc c ++ encAll cs := by simpa [encAll] using he
    have hc : IsScalar c := hcs c (by simp)
    have hcs' : Scalars cs := fun y hy => hcs y (by simp [hy])
    rcases List.append_eq_append_iff.1 he' with ⟨t, h1, h2⟩ | ⟨t, h1, h2⟩
    · cases t with
      | nil =>
        simp only [List.append_nil, List.nil_append] at h1 h2
        refine ⟨⟨[c], by simpa [Scalars] using hc, by simpa [encAll] using h1.symm⟩, ?_⟩
        have : WellFormed (x :: b) := ⟨cs, hcs', h2⟩
        exact (wf_ascii hx).1 this
      | cons y t =>
        simp only [List.cons_append, List.cons.injEq] at h2
        obtain ⟨rfl, rfl⟩ := h2
        obtain ⟨rfl, hlt⟩ := enc_lt_80 (c := c) (x := x) (by rw [h1]; simp) hx
        rw [enc_ascii hlt] at h1
        cases a with
        | nil =>
          simp at h1
          subst h1
          exact ⟨wf_nil, ⟨cs, hcs', rfl⟩⟩
        | cons z a => simp at h1
    · have := ih hcs' h2.symm
      rw [h1]
      exact ⟨(wf_cons hc).2 this.1, this.2⟩

/-! ## C19 -/

theorem utf8Encode_wf (c : Nat) : WellFormed (utf8Encode c) := by
  by_cases h : IsScalar c
  · rw [C14_encode_decode_roundtrip.1 c h |>.1]
    exact ⟨[c], by simpa [Scalars] using h, by simp [encAll]⟩
  · rw [C14_encode_decode_roundtrip.2.1 c h]
    exact ⟨[0xFFFD], by simp [Scalars, IsScalar], by simp [encAll]⟩

theorem xdigit_ascii {d : Nat} (h : isXDigit d = true) : d < 0x80 := by
  simp [isXDigit] at h; omega
theorem odigit_ascii {d : Nat} (h : isOctalDigit d = true) : d < 0x80 := by
  simp [isOctalDigit] at h; omega

theorem readHex_wf (limit : Bool) : ∀ n acc r, readHex limit n acc r ≠ .ub ∧
    ∀ v r', readHex limit n acc r = .ok (v, r') → (WellFormed r → WellFormed r') ∧ r'.length ≤ r.length := by
  intro n
  induction n with
  | zero =>
    intro acc r; unfold readHex
    refine ⟨by simp, ?_⟩
    intro v r' h; cases h; exact ⟨id, Nat.le_refl _⟩
  | succ n ih =>
    intro acc r
    unfold readHex
    cases r with
    | nil => simp
    | cons d r =>
      simp only
      by_cases hd : isXDigit d = true
      · rw [if_pos hd]
        by_cases hl : limit = true ∧ (acc <<< 4) + hexDigitToInt d > 0x10FFFF
        · rw [if_pos hl]; simp
        · rw [if_neg hl]
          obtain ⟨h1, h2⟩ := ih ((acc <<< 4) + hexDigitToInt d) r
          refine ⟨h1, fun v r' h => ?_⟩
          obtain ⟨h3, h4⟩ := h2 v r' h
          exact ⟨fun hw => h3 ((wf_ascii (xdigit_ascii hd)).1 hw), by simp; omega⟩
      · rw [if_neg hd]; simp

theorem readOctal_wf : ∀ n acc r, readOctal n acc r ≠ .ub ∧
    ∀ v r', readOctal n acc r = .ok (v, r') → (WellFormed r → WellFormed r') ∧ r'.length + n = r.length := by
  intro n
  induction n with
  | zero =>
    intro acc r; unfold readOctal
    refine ⟨by simp, ?_⟩
    intro v r' h; cases h; exact ⟨id, rfl⟩
  | succ n ih =>
    intro acc r
    unfold readOctal
    cases r with
    | nil => simp
    | cons d r =>
      simp only
      by_cases hd : isOctalDigit d = true
      · rw [if_pos hd]
        obtain ⟨h1, h2⟩ := ih (acc * 8 + (d - 48)) r
        refine ⟨h1, fun v r' h => ?_⟩
        obtain ⟨h3, h4⟩ := h2 v r' h
        exact ⟨fun hw => h3 ((wf_ascii (odigit_ascii hd)).1 hw), by simp; omega⟩
      · rw [if_neg hd]; simp

/-- What one escape sequence does. -/
theorem escapeSeq_wf (isBytes : Bool) (e : Nat) (r : List Nat) :
    escapeSeq isBytes e r ≠ .ub ∧
    ∀ out r', escapeSeq isBytes e r = .ok (out, r') → r'.length ≤ r.length ∧ e < 0x80 ∧
      (isBytes = false → WellFormed r → WellFormed out ∧ WellFormed r') := by
  have one : ∀ k, k < 0x80 → WellFormed [k] := fun k hk => (wf_ascii hk).2 wf_nil
  have simple : ∀ k : Nat, k < 0x80 → e < 0x80 →
      ((Res.ok ([k], r) : Res (List Nat × List Nat)) ≠ .ub ∧
      ∀ out r', (Res.ok ([k], r) : Res (List Nat × List Nat)) = .ok (out, r') →
        r'.length ≤ r.length ∧ e < 0x80 ∧
        (isBytes = false → WellFormed r → WellFormed out ∧ WellFormed r')) := by
    intro k hk he
    refine ⟨by simp, fun out r' h => ?_⟩
    cases h
    exact ⟨Nat.le_refl _, he, fun _ hr => ⟨one k hk, hr⟩⟩
  have errc : ((Res.err badLiteral : Res (List Nat × List Nat)) ≠ .ub ∧
      ∀ out r', (Res.err badLiteral : Res (List Nat × List Nat)) = .ok (out, r') →
        r'.length ≤ r.length ∧ e < 0x80 ∧
        (isBytes = false → WellFormed r → WellFormed out ∧ WellFormed r')) := by
    refine ⟨by simp, fun out r' h => by cases h⟩
  unfold escapeSeq
  by_cases h1 : e = 97
  · rw [if_pos h1]; exact simple _ (by omega) (by omega)
  rw [if_neg h1]
  by_cases h2 : e = 98
  · rw [if_pos h2]; exact simple _ (by omega) (by omega)
  rw [if_neg h2]
  by_cases h3 : e = 102
  · rw [if_pos h3]; exact simple _ (by omega) (by omega)
  rw [if_neg h3]
  by_cases h4 : e = 110
  · rw [if_pos h4]; exact simple _ (by omega) (by omega)
  rw [if_neg h4]
  by_cases h5 : e = 114
  · rw [if_pos h5]; exact simple _ (by omega) (by omega)
  rw [if_neg h5]
  by_cases h6 : e = 116
  · rw [if_pos h6]; exact simple _ (by omega) (by omega)
  rw [if_neg h6]
  by_cases h7 : e = 118
  · rw [if_pos h7]; exact simple _ (by omega) (by omega)
  rw [if_neg h7]
  by_cases h8 : e = 92
  · rw [if_pos h8]; exact simple _ (by omega) (by omega)
  rw [if_neg h8]
  by_cases h9 : e = 63
  · rw [if_pos h9]; exact simple _ (by omega) (by omega)
  rw [if_neg h9]
  by_cases h10 : e = 39
  · rw [if_pos h10]; exact simple _ (by omega) (by omega)
  rw [if_neg h10]
  by_cases h11 : e = 34
  · rw [if_pos h11]; exact simple _ (by omega) (by omega)
  rw [if_neg h11]
  by_cases h12 : e = 96
  · rw [if_pos h12]; exact simple _ (by omega) (by omega)
  rw [if_neg h12]
  by_cases h13 : 48 ≤ e ∧ e ≤ 51
  · rw [if_pos h13]
    obtain ⟨k1, k2⟩ := readOctal_wf 3 0 (e :: r)
    cases hr : readOctal 3 0 (e :: r) with
    | ub => exact absurd hr k1
    | err s => simp
    | ok p =>
      obtain ⟨ch, r'⟩ := p
      obtain ⟨k3, k4⟩ := k2 ch r' hr
      simp only
      refine ⟨by simp, fun out r'' h => ?_⟩
      cases h
      refine ⟨by simp at k4; omega, by omega, fun hb hw => ⟨?_, k3 ((wf_ascii (by omega)).2 hw)⟩⟩
      subst hb; exact utf8Encode_wf ch
  rw [if_neg h13]
  by_cases h14 : e = 120 ∨ e = 88
  · rw [if_pos h14]
    obtain ⟨k1, k2⟩ := readHex_wf false 2 0 r
    cases hr : readHex false 2 0 r with
    | ub => exact absurd hr k1
    | err s => simp
    | ok p =>
      obtain ⟨ch, r'⟩ := p
      obtain ⟨k3, k4⟩ := k2 ch r' hr
      simp only
      refine ⟨by simp, fun out r'' h => ?_⟩
      cases h
      refine ⟨k4, by omega, fun hb hw => ⟨?_, k3 hw⟩⟩
      subst hb; exact utf8Encode_wf ch
  rw [if_neg h14]
  have uni : ∀ limit n, e < 0x80 → ((match readHex limit n 0 r with
      | .ok (cp, r) => if unicodeIsValid cp = true then .ok (utf8Encode cp, r) else .err badLiteral
      | .err s => .err s
      | .ub => .ub : Res (List Nat × List Nat)) ≠ .ub ∧
      ∀ out r', (match readHex limit n 0 r with
      | .ok (cp, r) => if unicodeIsValid cp = true then .ok (utf8Encode cp, r) else .err badLiteral
      | .err s => .err s
      | .ub => .ub : Res (List Nat × List Nat)) = .ok (out, r') →
        r'.length ≤ r.length ∧ e < 0x80 ∧
        (isBytes = false → WellFormed r → WellFormed out ∧ WellFormed r')) := by
    intro limit n he
    obtain ⟨k1, k2⟩ := readHex_wf limit n 0 r
    cases hr : readHex limit n 0 r with
    | ub => exact absurd hr k1
    | err s => simp
    | ok p =>
      obtain ⟨ch, r'⟩ := p
      obtain ⟨k3, k4⟩ := k2 ch r' hr
      simp only
      by_cases hv : unicodeIsValid ch = true
      · rw [if_pos hv]
        refine ⟨by simp, fun out r'' h => ?_⟩
        cases h
        exact ⟨k4, he, fun _ hw => ⟨utf8Encode_wf ch, k3 hw⟩⟩
      · rw [if_neg hv]; simp
  by_cases h15 : e = 117
  · rw [if_pos h15]
    by_cases hb : isBytes = true
    · rw [if_pos hb]; exact errc
    · rw [if_neg hb]; exact uni false 4 (by omega)
  rw [if_neg h15]
  by_cases h16 : e = 85
  · rw [if_pos h16]
    by_cases hb : isBytes = true
    · rw [if_pos hb]; exact errc
    · rw [if_neg hb]; exact uni true 8 (by omega)
  rw [if_neg h16]
  exact errc

theorem unescapeLoop_wf (raw isBytes : Bool) : ∀ fuel rem dest, rem.length < fuel →
    unescapeLoop raw isBytes fuel rem dest ≠ .ub ∧
    ∀ out, unescapeLoop raw isBytes fuel rem dest = .ok out → isBytes = false →
      WellFormed (dest ++ rem) → WellFormed out := by
  intro fuel
  induction fuel with
  | zero => intro rem dest h; omega
  | succ fuel ih =>
    intro rem dest hf
    unfold unescapeLoop
    cases rem with
    | nil =>
      refine ⟨by simp, ?_⟩
      intro out h _ hw; simp only [Res.ok.injEq] at h; subst h; simpa using hw
    | cons b r =>
      simp only [List.length_cons] at hf
      by_cases hb : b ≠ 92
      · simp only [if_pos hb]
        by_cases hc : b ≠ 13
        · simp only [if_pos hc]
          obtain ⟨h1, h2⟩ := ih r (dest ++ [b]) (by omega)
          refine ⟨h1, fun out h hy hw => h2 out h hy (by simpa using hw)⟩
        · simp only [if_neg hc]
          have hb13 : b = 13 := by omega
          have step : ∀ r, WellFormed (dest ++ b :: r) → WellFormed ((dest ++ [10]) ++ r) := by
            intro r hw
            obtain ⟨w1, w2⟩ := wf_split (by omega) hw
            rw [List.append_assoc]
            exact wf_append w1 ((wf_ascii (by omega)).2 w2)
          cases r with
          | nil =>
            simp only
            obtain ⟨h1, h2⟩ := ih [] (dest ++ [10]) (by simp at *; omega)
            exact ⟨h1, fun out h hy hw => h2 out h hy (step _ hw)⟩
          | cons c r' =>
            simp only
            by_cases hn : c = 10
            · rw [if_pos hn]
              obtain ⟨h1, h2⟩ := ih r' (dest ++ [10]) (by simp at *; omega)
              refine ⟨h1, fun out h hy hw => h2 out h hy ?_⟩
              have := step _ hw
              obtain ⟨w1, w2⟩ := wf_split (by omega) this
              exact wf_append w1 w2
            · rw [if_neg hn]
              obtain ⟨h1, h2⟩ := ih (c :: r') (dest ++ [10]) (by simp at *; omega)
              exact ⟨h1, fun out h hy hw => h2 out h hy (step _ hw)⟩
      · simp only [if_neg hb]
        have hb92 : b = 92 := by omega
        cases r with
        | nil => simp
        | cons e r' =>
          simp only
          by_cases hr : raw = true
          · rw [if_pos hr]
            obtain ⟨h1, h2⟩ := ih r' (dest ++ [92, e]) (by simp at *; omega)
            refine ⟨h1, fun out h hy hw => h2 out h hy ?_⟩
            rw [hb92] at hw; simpa using hw
          · rw [if_neg hr]
            obtain ⟨k1, k2⟩ := escapeSeq_wf isBytes e r'
            cases he : escapeSeq isBytes e r' with
            | ub => exact absurd he k1
            | err s => simp
            | ok p =>
              obtain ⟨o, r''⟩ := p
              obtain ⟨k3, k4, k5⟩ := k2 o r'' he
              simp only
              obtain ⟨h1, h2⟩ := ih r'' (dest ++ o) (by simp at *; omega)
              refine ⟨h1, fun out h hy hw => h2 out h hy ?_⟩
              obtain ⟨w1, w2⟩ := wf_split (by omega) hw
              obtain ⟨w3, w4⟩ := k5 hy ((wf_ascii k4).1 w2)
              exact wf_append (wf_append w1 w3) w4

theorem closingLoop_ok (closing : List Nat) (hc : closing ≠ []) : ∀ fuel rem b, rem.length < fuel →
    closingLoop closing fuel rem b ≠ .ub ∧ (∀ s, closingLoop closing fuel rem b ≠ .err s) := by
  intro fuel
  induction fuel with
  | zero => intro rem b h; omega
  | succ fuel ih =>
    intro rem b hf
    unfold closingLoop
    by_cases hl : closing.length ≤ rem.length
    · rw [if_pos hl]
      cases rem with
      | nil =>
        have := List.length_pos_iff.2 hc
        simp only [List.length_nil] at hl; omega
      | cons x r =>
        simp only [List.length_cons] at hf
        simp only
        by_cases hx : x ≠ 92
        · rw [if_pos hx]
          split
          · simp
          · exact ih _ _ (by omega)
        · rw [if_neg hx]
          exact ih _ _ (by simp; omega)
    · rw [if_neg hl]; simp

theorem unescapeInternal_wf (source closing : List Nat) (raw isBytes : Bool) (hb : Bytes source) :
    unescapeInternal source closing raw isBytes ≠ .ub ∧
    ∀ out, unescapeInternal source closing raw isBytes = .ok out → isBytes = false →
      WellFormed out := by
  unfold unescapeInternal
  have hcl : ∃ v, checkForClosingString source closing = .ok v := by
    unfold checkForClosingString
    by_cases h : closing = []
    · exact ⟨true, by rw [if_pos h]⟩
    · rw [if_neg h]
      obtain ⟨k1, k2⟩ := closingLoop_ok closing h (source.length + 1) source false (by omega)
      cases hh : closingLoop closing (source.length + 1) source false with
      | ub => exact absurd hh k1
      | err s => exact absurd hh (k2 s)
      | ok v => exact ⟨v, rfl⟩
  obtain ⟨v, hv⟩ := hcl
  rw [hv]; simp only [Res.mbind_ok]
  by_cases h1 : v = false
  · rw [if_pos h1]; simp
  rw [if_neg h1]
  by_cases h2 : source = []
  · rw [if_pos h2]
    refine ⟨by simp, fun out h _ => ?_⟩
    cases h; exact wf_nil
  rw [if_neg h2]
  generalize hsrc : source.take (source.length - closing.length) = src
  have hbs : Bytes src := by
    rw [← hsrc]; exact fun x hx => hb x (List.mem_of_mem_take hx)
  obtain ⟨l1, l2⟩ := unescapeLoop_wf raw isBytes (src.length + 1) src [] (by omega)
  by_cases h3 : isBytes = true
  · rw [if_pos h3]; simp only [Res.mbind_ok, Bool.true_eq_false, if_false]
    exact ⟨l1, fun out h hf => by rw [h3] at hf; cases hf⟩
  · rw [if_neg h3]
    obtain ⟨⟨w, hw, hww⟩, -⟩ := C13_validation_exact src hbs
    rw [hw]; simp only [Res.mbind_ok]
    by_cases h4 : w = false
    · rw [if_pos h4]; simp
    · rw [if_neg h4]
      refine ⟨l1, fun out h hf => l2 out h hf ?_⟩
      simpa using hww.1 (by cases w <;> simp_all)

/-- C19: parsing any byte string as a string literal (or unescaping it) never reaches undefined
behaviour, and a successful result is well-formed UTF-8, whatever escapes it contains. (The code
itself rejects literal text that is not well formed, so no hypothesis on the text is needed.) -/
theorem C19_parsed_strings_well_formed (s : List Nat) (hb : Bytes s) :
    (parseStringLiteral s ≠ .ub ∧ ∀ out, parseStringLiteral s = .ok out → WellFormed out) ∧
    (unescapeString s ≠ .ub ∧ ∀ out, unescapeString s = .ok out → WellFormed out) ∧
    (parseBytesLiteral s ≠ .ub ∧ unescapeBytes s ≠ .ub) := by
  have hd : ∀ n, Bytes (s.drop n) := fun n => bytes_drop n hb
  have pq : ∀ c raw isB, Bytes c → parseQuoted c raw isB ≠ .ub ∧
      ∀ out, parseQuoted c raw isB = .ok out → isB = false → WellFormed out := by
    intro c raw isB hc
    unfold parseQuoted
    exact unescapeInternal_wf _ _ raw isB (bytes_drop _ hc)
  refine ⟨?_, ?_, ?_, ?_⟩
  · unfold parseStringLiteral
    simp only
    split
    · simp
    · obtain ⟨h1, h2⟩ := pq (if mayBeRawStringLiteral s = true then s.drop 1 else s)
        (mayBeRawStringLiteral s) false (by split; exact hd 1; exact hb)
      exact ⟨h1, fun out h => h2 out h rfl⟩
  · obtain ⟨h1, h2⟩ := unescapeInternal_wf s [] false false hb
    exact ⟨h1, fun out h => h2 out h rfl⟩
  · unfold parseBytesLiteral
    simp only
    split
    · simp
    · exact (pq (if mayBeRawBytesLiteral s = true then s.drop 2 else s.drop 1)
        (mayBeRawBytesLiteral s) true (by split; exact hd 2; exact hd 1)).1
  · exact (unescapeInternal_wf s [] false true hb).1

/-- `"\u20ac\377"` parses to U+20AC U+00FF; `"\ud800"` is refused. -/
example : Bytes [34, 92, 117, 50, 48, 97, 99, 92, 51, 55, 55, 34] ∧
    parseStringLiteral [34, 92, 117, 50, 48, 97, 99, 92, 51, 55, 55, 34] =
      .ok (encAll [0x20AC, 0xFF]) ∧
    parseStringLiteral [34, 92, 117, 100, 56, 48, 48, 34] = .err badLiteral := by
  refine ⟨by unfold Bytes; decide, by decide, by decide⟩

/-! ## C17, C18: round trips -/

/-- `Enc isBytes q src text`: `text` writes the bytes `src` with escapes so that the unescaper reads
them back and no unescaped `q` occurs. -/
inductive Enc (isBytes : Bool) (q : Nat) : List Nat → List Nat → Prop
  | nil : Enc isBytes q [] []
  | plain {c s t} : c ≠ 92 → c ≠ 13 → c ≠ q → Enc isBytes q s t → Enc isBytes q (c :: s) (c :: t)
  | simple {c e s t} : (∀ r, escapeSeq isBytes e r = .ok ([c], r)) → Enc isBytes q s t →
      Enc isBytes q (c :: s) (92 :: e :: t)
  | hex {c h l s t} : (∀ r, escapeSeq isBytes 120 (h :: l :: r) = .ok ([c], r)) →
      h ≠ 92 → h ≠ q → l ≠ 92 → l ≠ q → Enc isBytes q s t →
      Enc isBytes q (c :: s) (92 :: 120 :: h :: l :: t)

theorem Enc.unescape {isBytes : Bool} {q : Nat} {src text : List Nat} (h : Enc isBytes q src text) :
    ∀ fuel dest, text.length < fuel → unescapeLoop false isBytes fuel text dest = .ok (dest ++ src) := by
  induction h with
  | nil => intro fuel dest hf; cases fuel with
    | zero => omega
    | succ n => simp [unescapeLoop]
  | @plain c s t h1 h2 h3 _ ih =>
    intro fuel dest hf
    cases fuel with
    | zero => omega
    | succ n =>
      unfold unescapeLoop
      simp only [if_pos h1, if_pos h2]
      rw [ih n _ (by simp at hf; omega)]; simp
  | @simple c e s t h1 _ ih =>
    intro fuel dest hf
    cases fuel with
    | zero => omega
    | succ n =>
      unfold unescapeLoop
      simp only [ne_eq, not_true_eq_false, if_false, Bool.false_eq_true, h1]
      rw [ih n _ (by simp at hf; omega)]; simp
  | @hex c h l s t h1 _ _ _ _ _ ih =>
    intro fuel dest hf
    cases fuel with
    | zero => omega
    | succ n =>
      unfold unescapeLoop
      simp only [ne_eq, not_true_eq_false, if_false, Bool.false_eq_true, h1]
      rw [ih n _ (by simp at hf; omega)]; simp

theorem closing_skip {q c : Nat} (h1 : c ≠ 92) (h2 : c ≠ q) (r : List Nat) (n : Nat) (b : Bool) :
    closingLoop [q] (n + 1) (c :: r) b = closingLoop [q] n r false := by
  rw [closingLoop]
  have hp : ([q].isPrefixOf (c :: r)) = false := by simp [List.isPrefixOf]; omega
  simp only [List.length_cons, List.length_nil, if_pos h1, hp, Bool.false_eq_true, false_and, if_false,
    Bool.false_and]
  rw [if_pos (by omega)]

theorem closing_esc {q e : Nat} (r : List Nat) (n : Nat) (b : Bool) :
    closingLoop [q] (n + 1) (92 :: e :: r) b = closingLoop [q] n r b := by
  rw [closingLoop]
  simp

theorem Enc.closing {isBytes : Bool} {q : Nat} {src text : List Nat} (hq : q ≠ 92)
    (h : Enc isBytes q src text) :
    ∀ fuel b, text.length + 1 < fuel → closingLoop [q] fuel (text ++ [q]) b = .ok true := by
  induction h with
  | nil =>
    intro fuel b hf
    obtain ⟨n, rfl⟩ : ∃ n, fuel = n + 2 := ⟨fuel - 2, by simp at hf; omega⟩
    simp [closingLoop, List.isPrefixOf, hq]
  | @plain c s t h1 h2 h3 _ ih =>
    intro fuel b hf
    simp only [List.length_cons] at hf
    obtain ⟨n, rfl⟩ : ∃ n, fuel = n + 1 := ⟨fuel - 1, by omega⟩
    rw [List.cons_append, closing_skip h1 h3]
    exact ih n _ (by omega)
  | @simple c e s t h1 _ ih =>
    intro fuel b hf
    simp only [List.length_cons] at hf
    obtain ⟨n, rfl⟩ : ∃ n, fuel = n + 1 := ⟨fuel - 1, by omega⟩
    rw [List.cons_append, List.cons_append, closing_esc]
    exact ih n _ (by omega)
  | @hex c h l s t h1 h2 h3 h4 h5 _ ih =>
    intro fuel b hf
    simp only [List.length_cons] at hf
    obtain ⟨n, rfl⟩ : ∃ n, fuel = n + 3 := ⟨fuel - 3, by omega⟩
    simp only [List.cons_append]
    rw [closing_esc, closing_skip h2 h3, closing_skip h4 h5]
    exact ih n _ (by omega)

theorem Enc.head {isBytes : Bool} {q : Nat} {src text : List Nat} (hq : q ≠ 92)
    (h : Enc isBytes q src text) : ∀ c t, text = c :: t → c ≠ q := by
  cases h with
  | nil => intro c t h; cases h
  | plain h1 h2 h3 _ => intro c t h; cases h; exact h3
  | simple _ _ => intro c t h; cases h; exact Ne.symm hq
  | hex _ _ _ _ _ _ => intro c t h; cases h; exact Ne.symm hq

theorem hex_roundtrip : ∀ c : Fin 256, isXDigit (hexTable (c.val / 16)) = true ∧
    isXDigit (hexTable (c.val % 16)) = true ∧
    (((0 <<< 4) + hexDigitToInt (hexTable (c.val / 16))) <<< 4) + hexDigitToInt (hexTable (c.val % 16)) = c.val ∧
    (hexTable (c.val / 16) ≠ 92 ∧ hexTable (c.val / 16) ≠ 34 ∧ hexTable (c.val / 16) ≠ 39 ∧ hexTable (c.val / 16) ≠ 0) ∧
    (hexTable (c.val % 16) ≠ 92 ∧ hexTable (c.val % 16) ≠ 34 ∧ hexTable (c.val % 16) ≠ 39 ∧ hexTable (c.val % 16) ≠ 0) := by
  set_option maxRecDepth 20000 in decide

theorem escapeSeq_hex (isBytes : Bool) {c : Nat} (hc : c < 256) (h : isBytes = false → c < 0x80) (r : List Nat) :
    escapeSeq isBytes 120 (hexTable (c / 16) :: hexTable (c % 16) :: r) = .ok ([c], r) := by
  obtain ⟨h1, h2, h3, -, -⟩ := hex_roundtrip ⟨c, hc⟩
  simp only at h1 h2 h3
  have hr : readHex false 2 0 (hexTable (c / 16) :: hexTable (c % 16) :: r) = .ok (c, r) := by
    simp only [readHex, h1, h2, if_true, Bool.false_eq_true, false_and, if_false, h3]
  have he : emitCode isBytes c = [c] := by
    unfold emitCode
    cases isBytes with
    | true => simp; omega
    | false =>
      have := h rfl
      simp only [Bool.false_eq_true, if_false]
      rw [encode_eq_enc c (.inl (by omega)), enc_ascii this]
  unfold escapeSeq
  simp [hr, he]

theorem escapeInternal_enc (q : Nat) (hq : q = 0 ∨ q = 34 ∨ q = 39) : ∀ s last, Bytes s →
    Enc false q s (escapeInternal true q s last) := by
  intro s
  induction s with
  | nil => intro _ _; exact .nil
  | cons c r ih =>
    intro last hb
    obtain ⟨hc, hr⟩ := bytes_tail hb
    unfold escapeInternal
    by_cases h1 : c = 10
    · rw [if_pos h1]; subst h1; exact .simple (by intro r; simp [escapeSeq]) (ih _ hr)
    rw [if_neg h1]
    by_cases h2 : c = 13
    · rw [if_pos h2]; subst h2; exact .simple (by intro r; simp [escapeSeq]) (ih _ hr)
    rw [if_neg h2]
    by_cases h3 : c = 9
    · rw [if_pos h3]; subst h3; exact .simple (by intro r; simp [escapeSeq]) (ih _ hr)
    rw [if_neg h3]
    by_cases h4 : c = 92
    · rw [if_pos h4]; subst h4; exact .simple (by intro r; simp [escapeSeq]) (ih _ hr)
    rw [if_neg h4]
    by_cases h5 : c = 39 ∨ c = 34 ∨ c = 96
    · rw [if_pos h5]
      by_cases h6 : q = 0 ∨ c = q
      · rw [if_pos h6]
        refine .simple ?_ (ih _ hr)
        intro r
        rcases h5 with rfl | rfl | rfl <;> simp [escapeSeq]
      · rw [if_neg h6]
        exact .plain h4 h2 (fun h => h6 (.inr h)) (ih _ hr)
    rw [if_neg h5]
    by_cases h6 : ((true : Bool) = false ∨ c < 0x80) ∧
        (isPrint c = false ∨ (last = true ∧ isXDigit c = true))
    · rw [if_pos h6]
      have hlt : c < 0x80 := by rcases h6.1 with h | h; cases h; exact h
      obtain ⟨-, -, -, ⟨a1, a2, a3, a4⟩, ⟨b1, b2, b3, b4⟩⟩ := hex_roundtrip ⟨c, hc⟩
      refine .hex (escapeSeq_hex false hc (fun _ => hlt)) a1 ?_ b1 ?_ (ih _ hr)
      · rcases hq with rfl | rfl | rfl <;> assumption
      · rcases hq with rfl | rfl | rfl <;> assumption
    · rw [if_neg h6]
      refine .plain h4 h2 ?_ (ih _ hr)
      rcases hq with rfl | rfl | rfl
      · intro h0; subst h0; exact h6 ⟨.inr (by omega), .inl (by decide)⟩
      · omega
      · omega

theorem escapeBytes_enc (all : Bool) (q : Nat) (hq : q = 0 ∨ q = 34 ∨ q = 39) : ∀ s, Bytes s →
    Enc true q s (escapeBytes all q s) := by
  intro s
  induction s with
  | nil => intro _; exact .nil
  | cons c r ih =>
    intro hb
    obtain ⟨hc, hr⟩ := bytes_tail hb
    unfold escapeBytes
    by_cases h1 : all = true ∨ isPrint c = false
    · rw [if_pos h1]
      obtain ⟨-, -, -, ⟨a1, a2, a3, a4⟩, ⟨b1, b2, b3, b4⟩⟩ := hex_roundtrip ⟨c, hc⟩
      refine .hex (escapeSeq_hex true hc (fun h => by cases h)) a1 ?_ b1 ?_ (ih hr)
      · rcases hq with rfl | rfl | rfl <;> assumption
      · rcases hq with rfl | rfl | rfl <;> assumption
    rw [if_neg h1]
    have hp : 32 ≤ c := by
      simp only [not_or, isPrint, Bool.and_eq_false_iff, decide_eq_false_iff_not] at h1; omega
    by_cases h2 : c = 92
    · rw [if_pos h2]; subst h2; exact .simple (by intro r; simp [escapeSeq]) (ih hr)
    rw [if_neg h2]
    by_cases h5 : c = 39 ∨ c = 34 ∨ c = 96
    · rw [if_pos h5]
      by_cases h6 : q = 0 ∨ c = q
      · rw [if_pos h6]
        refine .simple ?_ (ih hr)
        intro r
        rcases h5 with rfl | rfl | rfl <;> simp [escapeSeq]
      · rw [if_neg h6]
        exact .plain h2 (by omega) (fun h => h6 (.inr h)) (ih hr)
    · rw [if_neg h5]
      exact .plain h2 (by omega) (by rcases hq with rfl | rfl | rfl <;> omega) (ih hr)

/-- Escaping keeps well-formedness (every multi-byte character is copied). -/
theorem escapeInternal_wf (q : Nat) (hq : q < 0x80) : ∀ cs last, Scalars cs →
    WellFormed (escapeInternal true q (encAll cs) last) := by
  have ascii : ∀ {p t : List Nat}, (∀ x ∈ p, x < 0x80) → WellFormed t → WellFormed (p ++ t) := by
    intro p t
    induction p with
    | nil => intro _ h; exact h
    | cons x p ih => intro h hw; exact (wf_ascii (h x (by simp))).2 (ih (fun y hy => h y (by simp [hy])) hw)
  have high : ∀ (p t : List Nat) last, p ≠ [] → (∀ x ∈ p, 0x80 ≤ x) →
      escapeInternal true q (p ++ t) last = p ++ escapeInternal true q t false := by
    intro p t
    induction p with
    | nil => intro _ h; exact absurd rfl h
    | cons x p ih =>
      intro last _ hx
      have h80 : 0x80 ≤ x := hx x (by simp)
      have : escapeInternal true q (x :: p ++ t) last = x :: escapeInternal true q (p ++ t) false := by
        rw [List.cons_append, escapeInternal, if_neg (by omega), if_neg (by omega), if_neg (by omega),
          if_neg (by omega), if_neg (by omega), if_neg]
        · rfl
        · rintro ⟨h | h, -⟩
          · cases h
          · omega
      rw [this]
      cases p with
      | nil => rfl
      | cons y p => rw [ih false (by simp) (fun z hz => hx z (by simp [hz]))]; rfl
  intro cs
  induction cs with
  | nil => intro _ _; exact wf_nil
  | cons c cs ih =>
    intro last hs
    have hcs : Scalars cs := fun x hx => hs x (by simp [hx])
    have e : encAll (c :: cs) = enc c ++ encAll cs := by simp [encAll]
    rw [e]
    by_cases hc : c < 0x80
    · rw [enc_ascii hc, List.singleton_append, escapeInternal]
      split
      · exact ascii (by simp) (ih _ hcs)
      split
      · exact ascii (by simp) (ih _ hcs)
      split
      · exact ascii (by simp) (ih _ hcs)
      split
      · exact ascii (by simp) (ih _ hcs)
      split
      · refine ascii ?_ (ih _ hcs)
        intro x hx; split at hx <;> simp at hx <;> omega
      split
      · refine ascii ?_ (ih _ hcs)
        obtain ⟨h1, h2, -⟩ := hex_roundtrip ⟨c, by omega⟩
        have h1 := xdigit_ascii h1
        have h2 := xdigit_ascii h2
        intro x hx
        simp only [List.mem_cons, List.not_mem_nil, or_false] at hx
        rcases hx with rfl | rfl | rfl | rfl
        · omega
        · omega
        · exact h1
        · exact h2
      · exact ascii (by simpa using hc) (ih _ hcs)
    · have hall : ∀ x ∈ enc c, 0x80 ≤ x := by
        intro x hx
        apply Classical.byContradiction; intro hlt
        have := enc_lt_80 hx (by omega); omega
      rw [high _ _ _ (enc_ne_nil c) hall]
      exact (wf_cons (hs c (by simp))).2 (ih _ hcs)

theorem not_triple {isBytes : Bool} {q : Nat} {src text : List Nat} (hq : q = 34 ∨ q = 39)
    (h : Enc isBytes q src text) : mayBeTripleQuoted (q :: (text ++ [q])) = false := by
  cases ht : text with
  | nil => simp [mayBeTripleQuoted]
  | cons c t =>
    have hh := h.head (by omega) c t ht
    have a : ([34, 34, 34].isPrefixOf (q :: (c :: t ++ [q]))) = false := by
      rcases hq with rfl | rfl
      · simp [List.isPrefixOf]; omega
      · simp [List.isPrefixOf]
    have b : ([39, 39, 39].isPrefixOf (q :: (c :: t ++ [q]))) = false := by
      rcases hq with rfl | rfl
      · simp [List.isPrefixOf]
      · simp [List.isPrefixOf]; omega
    unfold mayBeTripleQuoted
    rw [a, b]; simp

theorem parseQuoted_enc {isBytes : Bool} {q : Nat} {src text : List Nat} (hq : q = 34 ∨ q = 39)
    (h : Enc isBytes q src text) (hv : isBytes = false → Bytes text ∧ WellFormed text) :
    parseQuoted (q :: (text ++ [q])) false isBytes = .ok src := by
  unfold parseQuoted
  rw [not_triple hq h]
  simp only [Bool.false_eq_true, if_false, List.drop_succ_cons, List.drop_zero, List.take_succ_cons,
    List.take_zero]
  unfold unescapeInternal checkForClosingString
  rw [if_neg (by simp), h.closing (by omega) _ _ (by simp)]
  simp only [Res.mbind_ok, Bool.true_eq_false, if_false]
  rw [if_neg (by simp)]
  have ht : (text ++ [q]).take ((text ++ [q]).length - [q].length) = text := by simp
  rw [ht]
  by_cases hi : isBytes = true
  · rw [if_pos hi]
    rw [h.unescape _ _ (Nat.lt_succ_self _)]; rfl
  · rw [if_neg hi]
    obtain ⟨h1, h2⟩ := hv (by cases isBytes <;> simp_all)
    obtain ⟨⟨w, hw, hww⟩, -⟩ := C13_validation_exact text h1
    rw [hw, hww.2 h2]
    simp only [Res.mbind_ok, Bool.true_eq_false, if_false]
    rw [h.unescape _ _ (Nat.lt_succ_self _)]; rfl

theorem wf_bytes {s : List Nat} (h : WellFormed s) : Bytes s := by
  obtain ⟨cs, hcs, rfl⟩ := h
  intro x hx
  simp only [encAll, List.mem_flatMap] at hx
  obtain ⟨d, hd, hxd⟩ := hx
  exact enc_bytes (hcs d hd) x hxd

theorem chr_last (a : List Nat) (q : Nat) : chr (a ++ [q]) ((a ++ [q]).length - 1) = q := by
  unfold chr; simp [List.getD_eq_getElem?_getD]

theorem parse_quotedString {s : List Nat} (hw : WellFormed s) {q : Nat} (hq : q = 34 ∨ q = 39) :
    parseStringLiteral ([q] ++ escapeInternal true q s false ++ [q]) = .ok s := by
  have henc := escapeInternal_enc q (by omega) s false (wf_bytes hw)
  have hwt : WellFormed (escapeInternal true q s false) := by
    obtain ⟨cs, hcs, rfl⟩ := hw
    exact escapeInternal_wf q (by omega) cs false hcs
  generalize escapeInternal true q s false = text at *
  have e : [q] ++ text ++ [q] = q :: (text ++ [q]) := by simp
  unfold parseStringLiteral
  have hraw : mayBeRawStringLiteral ([q] ++ text ++ [q]) = false := by
    have : isR (chr ([q] ++ text ++ [q]) 0) = false := by
      rw [e]; rcases hq with rfl | rfl <;> rfl
    unfold mayBeRawStringLiteral; rw [this]; simp
  have hstr : mayBeStringLiteral ([q] ++ text ++ [q]) = true := by
    unfold mayBeStringLiteral
    rw [chr_last]
    have : chr ([q] ++ text ++ [q]) 0 = q := by rw [e]; rfl
    rw [this]
    rcases hq with rfl | rfl <;> simp [isQuote]
  simp only [hraw, hstr, Bool.true_eq_false, false_and, if_false, Bool.false_eq_true]
  rw [e]
  exact parseQuoted_enc hq henc (fun _ => ⟨wf_bytes hwt, hwt⟩)

theorem parse_quotedBytes {s : List Nat} (hb : Bytes s) {q : Nat} (hq : q = 34 ∨ q = 39) :
    parseBytesLiteral ([98, q] ++ escapeBytes false q s ++ [q]) = .ok s := by
  have henc := escapeBytes_enc false q (by omega) s hb
  generalize escapeBytes false q s = text at *
  have e : [98, q] ++ text ++ [q] = 98 :: q :: (text ++ [q]) := by simp
  unfold parseBytesLiteral
  have hraw : mayBeRawBytesLiteral ([98, q] ++ text ++ [q]) = false := by
    have h1 : isR (chr ([98, q] ++ text ++ [q]) 0) = false := by rw [e]; rfl
    have h2 : isR (chr ([98, q] ++ text ++ [q]) 1) = false := by
      rw [e]; rcases hq with rfl | rfl <;> rfl
    unfold mayBeRawBytesLiteral; rw [h1, h2]; simp
  have hby : mayBeBytesLiteral ([98, q] ++ text ++ [q]) = true := by
    unfold mayBeBytesLiteral
    rw [chr_last]
    have h1 : chr ([98, q] ++ text ++ [q]) 1 = q := by rw [e]; rfl
    have h2 : isB (chr ([98, q] ++ text ++ [q]) 0) = true := by rw [e]; rfl
    rw [h1, h2]
    rcases hq with rfl | rfl <;> simp [isQuote]
  simp only [hraw, hby, Bool.true_eq_false, false_and, if_false, Bool.false_eq_true]
  rw [e]
  simp only [List.drop_succ_cons, List.drop_zero]
  exact parseQuoted_enc hq henc (fun h => by cases h)

theorem pickQuote_cases (s : List Nat) : pickQuote s = 34 ∨ pickQuote s = 39 := by
  unfold pickQuote; split <;> simp

/-- C17: for every well-formed UTF-8 string, parsing its formatted literal (any of the three
quoting choices) gives the string back, and unescaping its escaped form gives it back. -/
theorem C17_string_literal_roundtrip (s : List Nat) (hw : WellFormed s) :
    parseStringLiteral (formatStringLiteral s) = .ok s ∧
    parseStringLiteral (formatSingleQuotedString s) = .ok s ∧
    parseStringLiteral (formatDoubleQuotedString s) = .ok s ∧
    unescapeString (escapeString s) = .ok s := by
  refine ⟨parse_quotedString hw (pickQuote_cases s), parse_quotedString hw (.inr rfl),
    parse_quotedString hw (.inl rfl), ?_⟩
  have henc := escapeInternal_enc 0 (.inl rfl) s false (wf_bytes hw)
  have hwt : WellFormed (escapeInternal true 0 s false) := by
    obtain ⟨cs, hcs, rfl⟩ := hw
    exact escapeInternal_wf 0 (by omega) cs false hcs
  unfold unescapeString escapeString unescapeInternal checkForClosingString
  rw [if_pos rfl]
  simp only [Res.mbind_ok, Bool.true_eq_false, if_false]
  generalize escapeInternal true 0 s false = text at *
  by_cases ht : text = []
  · rw [if_pos ht]; subst ht; cases henc; rfl
  · rw [if_neg ht]
    have e : text.take (text.length - ([] : List Nat).length) = text := by simp
    rw [e]
    obtain ⟨⟨w, hv, hww⟩, -⟩ := C13_validation_exact text (wf_bytes hwt)
    rw [if_neg (by simp), hv, hww.2 hwt]
    simp only [Res.mbind_ok, Bool.true_eq_false, if_false]
    rw [henc.unescape _ _ (Nat.lt_succ_self _)]; rfl

/-- `a"b'€<NUL>f` round-trips through `"a\"b'€\x00\x66"`. -/
example : WellFormed (encAll [97, 34, 98, 39, 0x20AC, 0, 102]) ∧
    formatStringLiteral (encAll [97, 34, 98, 39, 0x20AC, 0, 102]) =
      [34, 97, 92, 34, 98, 39, 0xE2, 0x82, 0xAC, 92, 120, 48, 48, 92, 120, 54, 54, 34] :=
  ⟨⟨_, by unfold Scalars; decide, rfl⟩, by decide⟩

/-- C18: for every byte string (well-formed or not), parsing its formatted bytes literal gives the
bytes back, for any of the three quoting choices; likewise unescaping its escaped form, whether or
not every byte is escaped. -/
theorem C18_bytes_literal_roundtrip (s : List Nat) (hb : Bytes s) :
    parseBytesLiteral (formatBytesLiteral s) = .ok s ∧
    parseBytesLiteral (formatSingleQuotedBytes s) = .ok s ∧
    parseBytesLiteral (formatDoubleQuotedBytes s) = .ok s ∧
    (∀ all, unescapeBytes (escapeBytes all 0 s) = .ok s) := by
  refine ⟨parse_quotedBytes hb (pickQuote_cases s), parse_quotedBytes hb (.inr rfl),
    parse_quotedBytes hb (.inl rfl), fun all => ?_⟩
  have henc := escapeBytes_enc all 0 (.inl rfl) s hb
  unfold unescapeBytes unescapeInternal checkForClosingString
  rw [if_pos rfl]
  simp only [Res.mbind_ok, Bool.true_eq_false, if_false, if_true]
  generalize escapeBytes all 0 s = text at *
  by_cases ht : text = []
  · rw [if_pos ht]; subst ht; cases henc; rfl
  · rw [if_neg ht]
    have e : text.take (text.length - ([] : List Nat).length) = text := by simp
    rw [e]
    rw [henc.unescape _ _ (Nat.lt_succ_self _)]; rfl

example : Bytes [0xFF, 34, 92, 10] ∧
    formatBytesLiteral [0xFF, 34, 92, 10] =
      [98, 39, 92, 120, 102, 102, 34, 92, 92, 92, 120, 48, 97, 39] :=
  ⟨by unfold Bytes; decide, by decide⟩

end Cel.Text
