import Verif.Text.LiteralSpec
import Verif.Text.LiteralProps

set_option linter.unusedSimpArgs false
set_option linter.unusedVariables false

/-! # C49: literals denote what the CEL specification says -/

namespace Cel.Text
open Cel Spec

theorem xdigit_val (d : Nat) (hd : d < 256) : (isXDigit d = true → hexVal d = some (hexDigitToInt d)) ∧
    (isXDigit d = false → hexVal d = none) := by
  have h : ∀ d : Fin 256, (isXDigit d.val = true → hexVal d.val = some (hexDigitToInt d.val)) ∧
    (isXDigit d.val = false → hexVal d.val = none) := by
      set_option maxRecDepth 20000 in decide
  exact h ⟨d, hd⟩

theorem octVal_eq (d : Nat) : octVal d = if isOctalDigit d = true then some (d - 48) else none := by
  unfold octVal isOctalDigit
  by_cases h : 48 ≤ d ∧ d ≤ 55
  · rw [if_pos h, if_pos (by simp; omega)]
  · rw [if_neg h, if_neg (by simp; omega)]

/-- Reading digits from the front, most significant first. -/
inductive HexFrom : Nat → List Nat → Nat → Prop
  | nil {a} : HexFrom a [] a
  | cons {a d k ds v} : hexVal d = some k → HexFrom (16 * a + k) ds v → HexFrom a (d :: ds) v

theorem HexFrom.snoc {a ds v d k} (h : HexFrom a ds v) (hd : hexVal d = some k) :
    HexFrom a (ds ++ [d]) (16 * v + k) := by
  induction h with
  | nil => exact .cons hd .nil
  | cons h _ ih => exact .cons h ih

theorem hexFrom_of_hexNum {ds v} (h : HexNum ds v) : HexFrom 0 ds v := by
  induction h with
  | nil => exact .nil
  | snoc _ hd ih => exact ih.snoc hd

theorem hexNum_of_from {a ds v} (h : HexFrom a ds v) : ∀ pre, HexNum pre a → HexNum (pre ++ ds) v := by
  induction h with
  | nil => intro pre hp; simpa using hp
  | @cons a d k ds v hd _ ih =>
    intro pre hp
    have := ih (pre ++ [d]) (hp.snoc hd)
    simpa [List.append_assoc] using this

theorem HexFrom.le {a ds v} (h : HexFrom a ds v) : a ≤ v := by
  induction h with
  | nil => exact Nat.le_refl _
  | cons h _ ih => omega

/-- `readHex` reads exactly a hex numeral. -/
theorem readHex_iff (limit : Bool) : ∀ n acc r, Bytes r → ∀ v r',
    readHex limit n acc r = .ok (v, r') ↔
      ∃ ds, r = ds ++ r' ∧ ds.length = n ∧ HexFrom acc ds v ∧ (limit = true → n ≠ 0 → v ≤ 0x10FFFF) := by
  intro n
  induction n with
  | zero =>
    intro acc r _ v r'
    simp only [readHex, Res.ok.injEq, Prod.mk.injEq]
    constructor
    · rintro ⟨rfl, rfl⟩
      exact ⟨[], rfl, rfl, .nil, fun _ h => absurd rfl h⟩
    · rintro ⟨ds, h1, h2, h3, -⟩
      have : ds = [] := List.length_eq_zero_iff.1 h2
      subst this
      cases h3
      exact ⟨rfl, by simpa using h1⟩
  | succ n ih =>
    intro acc r hb v r'
    cases r with
    | nil =>
      simp only [readHex]
      constructor
      · intro h; cases h
      · rintro ⟨ds, h1, h2, -⟩
        have : ds = [] := (List.append_eq_nil_iff.1 h1.symm).1
        subst this; simp at h2
    | cons d r =>
      obtain ⟨hd0, hr⟩ := bytes_tail hb
      have hx := xdigit_val d hd0
      simp only [readHex]
      have e : (acc <<< 4) + hexDigitToInt d = 16 * acc + hexDigitToInt d := by
        rw [Nat.shiftLeft_eq]; omega
      by_cases hd : isXDigit d = true
      · rw [if_pos hd, e]
        by_cases hl : limit = true ∧ 16 * acc + hexDigitToInt d > 0x10FFFF
        · rw [if_pos hl]
          constructor
          · intro h; cases h
          · rintro ⟨ds, h1, h2, h3, h4⟩
            have hv := h4 hl.1 (by omega)
            cases h3 with
            | nil => simp at h2
            | cons hk hf =>
              simp only [List.cons_append, List.cons.injEq] at h1
              obtain ⟨rfl, -⟩ := h1
              rw [hx.1 hd] at hk
              cases hk
              have := hf.le
              omega
        · rw [if_neg hl, ih _ r hr]
          constructor
          · rintro ⟨ds, h1, h2, h3, h4⟩
            refine ⟨d :: ds, by rw [h1]; rfl, by simp [h2], .cons (hx.1 hd) h3, fun hlim _ => ?_⟩
            by_cases hn : n = 0
            · subst hn
              have : ds = [] := List.length_eq_zero_iff.1 h2
              subst this; cases h3
              apply Classical.byContradiction; intro hc; exact hl ⟨hlim, by omega⟩
            · exact h4 hlim hn
          · rintro ⟨ds, h1, h2, h3, h4⟩
            cases h3 with
            | nil => simp at h2
            | cons hk hf =>
              simp only [List.cons_append, List.cons.injEq] at h1
              obtain ⟨rfl, h1⟩ := h1
              rw [hx.1 hd] at hk
              cases hk
              exact ⟨_, h1, by simpa using h2, hf, fun a _ => h4 a (by omega)⟩
      · rw [if_neg hd]
        constructor
        · intro h; cases h
        · rintro ⟨ds, h1, h2, h3, -⟩
          cases h3 with
          | nil => simp at h2
          | cons hk hf =>
            simp only [List.cons_append, List.cons.injEq] at h1
            obtain ⟨rfl, -⟩ := h1
            rw [hx.2 (by simpa using hd)] at hk
            cases hk

theorem readOctal3_iff (r : List Nat) (v : Nat) (r' : List Nat) :
    readOctal 3 0 r = .ok (v, r') ↔
      ∃ d1 d2 d3 x y z, r = d1 :: d2 :: d3 :: r' ∧ octVal d1 = some x ∧ octVal d2 = some y ∧
        octVal d3 = some z ∧ v = 64 * x + 8 * y + z := by
  have key : ∀ d, isOctalDigit d = true ↔ ∃ x, octVal d = some x := by
    intro d; rw [octVal_eq]
    by_cases h : isOctalDigit d = true
    · simp [h]
    · simp [h]
  constructor
  · intro h
    cases r with
    | nil => simp [readOctal] at h
    | cons d1 r =>
      by_cases h1 : isOctalDigit d1 = true
      · cases r with
        | nil => simp [readOctal, h1] at h
        | cons d2 r =>
          by_cases h2 : isOctalDigit d2 = true
          · cases r with
            | nil => simp [readOctal, h1, h2] at h
            | cons d3 r =>
              by_cases h3 : isOctalDigit d3 = true
              · simp [readOctal, h1, h2, h3] at h
                refine ⟨d1, d2, d3, d1 - 48, d2 - 48, d3 - 48, by rw [h.2], ?_, ?_, ?_, by omega⟩
                · rw [octVal_eq, if_pos h1]
                · rw [octVal_eq, if_pos h2]
                · rw [octVal_eq, if_pos h3]
              · simp [readOctal, h1, h2, h3] at h
          · simp [readOctal, h1, h2] at h
      · simp [readOctal, h1] at h
  · rintro ⟨d1, d2, d3, x, y, z, rfl, h1, h2, h3, rfl⟩
    have a1 := (key d1).2 ⟨x, h1⟩
    have a2 := (key d2).2 ⟨y, h2⟩
    have a3 := (key d3).2 ⟨z, h3⟩
    rw [octVal_eq, if_pos a1] at h1
    rw [octVal_eq, if_pos a2] at h2
    rw [octVal_eq, if_pos a3] at h3
    cases h1; cases h2; cases h3
    simp [readOctal, a1, a2, a3]
    omega

/-- The escape sequences of the specification: text after the backslash, value, rest. -/
inductive EscDenotes (isBytes : Bool) : List Nat → List Nat → List Nat → Prop
  | simple {e c t} : (e, c) ∈ simpleEscape → EscDenotes isBytes (e :: t) [c] t
  | octal {d1 d2 d3 x y z t} : octVal d1 = some x → x ≤ 3 → octVal d2 = some y →
      octVal d3 = some z → EscDenotes isBytes (d1 :: d2 :: d3 :: t) (code isBytes (64 * x + 8 * y + z)) t
  | hex {e ds n t} : e = 120 ∨ e = 88 → ds.length = 2 → HexNum ds n →
      EscDenotes isBytes (e :: (ds ++ t)) (code isBytes n) t
  | u4 {ds n t} : isBytes = false → ds.length = 4 → HexNum ds n → IsScalar n →
      EscDenotes isBytes (117 :: (ds ++ t)) (enc n) t
  | u8 {ds n t} : isBytes = false → ds.length = 8 → HexNum ds n → IsScalar n →
      EscDenotes isBytes (85 :: (ds ++ t)) (enc n) t

theorem unicodeIsValid_iff (c : Nat) : unicodeIsValid c = true ↔ IsScalar c := by
  unfold unicodeIsValid IsScalar
  simp only [Bool.or_eq_true, Bool.and_eq_true, decide_eq_true_eq]; omega

theorem octVal_le {d x : Nat} (h : octVal d = some x) : x ≤ 7 ∧ d = 48 + x := by
  unfold octVal at h
  split at h
  · cases h; omega
  · cases h

theorem hexVal_le {d x : Nat} (h : hexVal d = some x) : x ≤ 15 := by
  unfold hexVal at h
  split at h
  · cases h; omega
  · split at h
    · cases h; omega
    · split at h
      · cases h; omega
      · cases h

theorem hexNum2 {ds n} (h : HexNum ds n) (hl : ds.length = 2) : n < 256 := by
  have := hexFrom_of_hexNum h
  cases this with
  | nil => simp at hl
  | cons h1 h2 =>
    cases h2 with
    | nil => simp at hl
    | cons h3 h4 =>
      cases h4 with
      | nil => have := hexVal_le h1; have := hexVal_le h3; omega
      | cons _ _ => simp at hl

theorem hexNum4 {ds n} (h : HexNum ds n) (hl : ds.length = 4) : n < 65536 := by
  have := hexFrom_of_hexNum h
  cases this with
  | nil => simp at hl
  | cons h1 h2 =>
    cases h2 with
    | nil => simp at hl
    | cons h3 h4 =>
      cases h4 with
      | nil => simp at hl
      | cons h5 h6 =>
        cases h6 with
        | nil => simp at hl
        | cons h7 h8 =>
          cases h8 with
          | nil =>
            have := hexVal_le h1; have := hexVal_le h3; have := hexVal_le h5; have := hexVal_le h7
            omega
          | cons _ _ => simp at hl

theorem emitCode_eq {isBytes : Bool} {n : Nat} (h : n < 256) : emitCode isBytes n = code isBytes n := by
  unfold emitCode code
  cases isBytes with
  | true => simp; omega
  | false => simp only [Bool.false_eq_true, if_false]; exact encode_eq_enc n (.inl (by omega))

theorem escapeSeq_iff (isBytes : Bool) (e : Nat) (r : List Nat) (hb : Bytes r) (out r' : List Nat) :
    escapeSeq isBytes e r = .ok (out, r') ↔ EscDenotes isBytes (e :: r) out r' := by
  have simp1 : ∀ c, (e, c) ∈ simpleEscape → (escapeSeq isBytes e r = .ok ([c], r)) := by
    intro c h
    simp only [simpleEscape, List.mem_cons, Prod.mk.injEq, List.not_mem_nil, or_false] at h
    rcases h with ⟨rfl, rfl⟩ | ⟨rfl, rfl⟩ | ⟨rfl, rfl⟩ | ⟨rfl, rfl⟩ | ⟨rfl, rfl⟩ | ⟨rfl, rfl⟩ |
      ⟨rfl, rfl⟩ | ⟨rfl, rfl⟩ | ⟨rfl, rfl⟩ | ⟨rfl, rfl⟩ | ⟨rfl, rfl⟩ | ⟨rfl, rfl⟩ <;>
      simp [escapeSeq]
  by_cases hs : ∃ c, (e, c) ∈ simpleEscape
  · obtain ⟨c, hc⟩ := hs
    rw [simp1 c hc]
    have hne : ¬ (48 ≤ e ∧ e ≤ 51) ∧ e ≠ 120 ∧ e ≠ 88 ∧ e ≠ 117 ∧ e ≠ 85 := by
      simp only [simpleEscape, List.mem_cons, Prod.mk.injEq, List.not_mem_nil, or_false] at hc
      omega
    constructor
    · intro h; cases h; exact .simple hc
    · intro h
      cases h with
      | simple h =>
        simp only [simpleEscape, List.mem_cons, Prod.mk.injEq, List.not_mem_nil, or_false] at h hc
        rename_i c'
        rw [(by omega : c = c')]
      | octal h1 h2 => have := octVal_le h1; omega
      | hex h => omega
      | u4 => omega
      | u8 => omega
  · have hs' : ∀ c, (e, c) ∉ simpleEscape := fun c h => hs ⟨c, h⟩
    have hne : e ≠ 97 ∧ e ≠ 98 ∧ e ≠ 102 ∧ e ≠ 110 ∧ e ≠ 114 ∧ e ≠ 116 ∧ e ≠ 118 ∧ e ≠ 92 ∧
        e ≠ 63 ∧ e ≠ 39 ∧ e ≠ 34 ∧ e ≠ 96 := by
      refine ⟨?_, ?_, ?_, ?_, ?_, ?_, ?_, ?_, ?_, ?_, ?_, ?_⟩ <;>
        (intro h; subst h; exact hs (by simp [simpleEscape]))
    obtain ⟨n1, n2, n3, n4, n5, n6, n7, n8, n9, n10, n11, n12⟩ := hne
    unfold escapeSeq
    rw [if_neg n1, if_neg n2, if_neg n3, if_neg n4, if_neg n5, if_neg n6, if_neg n7, if_neg n8,
      if_neg n9, if_neg n10, if_neg n11, if_neg n12]
    by_cases ho : 48 ≤ e ∧ e ≤ 51
    · rw [if_pos ho]
      constructor
      · intro h
        cases hr : readOctal 3 0 (e :: r) with
        | ub => rw [hr] at h; cases h
        | err s => rw [hr] at h; cases h
        | ok p =>
          obtain ⟨ch, t⟩ := p
          rw [hr] at h
          cases h
          obtain ⟨d1, d2, d3, x, y, z, h1, h2, h3, h4, h5⟩ := (readOctal3_iff _ _ _).1 hr
          cases h1
          have b1 := octVal_le h2
          have b2 := octVal_le h3
          have b3 := octVal_le h4
          rw [emitCode_eq (by omega), h5]
          exact .octal h2 (by omega) h3 h4
      · intro h
        cases h with
        | simple h => exact absurd h (hs' _)
        | @octal d1 d2 d3 x y z t h1 h2 h3 h4 =>
          rw [(readOctal3_iff _ _ _).2 ⟨e, d2, d3, x, y, z, rfl, h1, h3, h4, rfl⟩]
          simp only
          have b1 := octVal_le h1
          have b2 := octVal_le h3
          have b3 := octVal_le h4
          rw [emitCode_eq (by omega)]
        | hex h => omega
        | u4 => omega
        | u8 => omega
    rw [if_neg ho]
    by_cases hx : e = 120 ∨ e = 88
    · rw [if_pos hx]
      constructor
      · intro h
        cases hr : readHex false 2 0 r with
        | ub => rw [hr] at h; cases h
        | err s => rw [hr] at h; cases h
        | ok p =>
          obtain ⟨ch, t⟩ := p
          rw [hr] at h
          cases h
          obtain ⟨ds, h1, h2, h3, -⟩ := (readHex_iff _ _ _ _ hb _ _).1 hr
          have h4 : HexNum ds ch := by simpa using hexNum_of_from h3 [] .nil
          rw [emitCode_eq (hexNum2 h4 h2), h1]
          exact .hex hx h2 h4
      · intro h
        generalize hg : e :: r = er at h
        cases h with
        | simple h => cases hg; exact absurd h (hs' _)
        | octal h1 h2 => have := octVal_le h1; cases hg; omega
        | @hex e' ds n t h1 h2 h3 =>
          cases hg
          rw [(readHex_iff _ _ _ _ hb _ _).2 ⟨ds, rfl, h2, hexFrom_of_hexNum h3, by simp⟩]
          simp only
          rw [emitCode_eq (hexNum2 h3 h2)]
        | u4 => cases hg; omega
        | u8 => cases hg; omega
    rw [if_neg hx]
    by_cases hu : e = 117
    · rw [if_pos hu]
      constructor
      · intro h
        by_cases hby : isBytes = true
        · rw [if_pos hby] at h; cases h
        · rw [if_neg hby] at h
          cases hr : readHex false 4 0 r with
          | ub => rw [hr] at h; cases h
          | err s => rw [hr] at h; cases h
          | ok p =>
            obtain ⟨ch, t⟩ := p
            rw [hr] at h
            simp only at h
            by_cases hv : unicodeIsValid ch = true
            · rw [if_pos hv] at h
              cases h
              obtain ⟨ds, h1, h2, h3, -⟩ := (readHex_iff _ _ _ _ hb _ _).1 hr
              have h4 : HexNum ds ch := by simpa using hexNum_of_from h3 [] .nil
              have hsc := (unicodeIsValid_iff ch).1 hv
              rw [encode_eq_enc ch hsc, h1, hu]
              exact .u4 (by simpa using hby) h2 h4 hsc
            · rw [if_neg hv] at h; cases h
      · intro h
        generalize hg : e :: r = er at h
        cases h with
        | simple h => cases hg; exact absurd h (hs' _)
        | octal h1 h2 => have := octVal_le h1; cases hg; omega
        | hex h => cases hg; omega
        | @u4 ds n t h1 h2 h3 h4 =>
          cases hg
          rw [if_neg (by simp [h1]), (readHex_iff _ _ _ _ hb _ _).2 ⟨ds, rfl, h2, hexFrom_of_hexNum h3, by simp⟩]
          simp only
          rw [if_pos ((unicodeIsValid_iff n).2 h4), encode_eq_enc n h4]
        | u8 => cases hg; omega
    rw [if_neg hu]
    by_cases hU : e = 85
    · rw [if_pos hU]
      constructor
      · intro h
        by_cases hby : isBytes = true
        · rw [if_pos hby] at h; cases h
        · rw [if_neg hby] at h
          cases hr : readHex true 8 0 r with
          | ub => rw [hr] at h; cases h
          | err s => rw [hr] at h; cases h
          | ok p =>
            obtain ⟨ch, t⟩ := p
            rw [hr] at h
            simp only at h
            by_cases hv : unicodeIsValid ch = true
            · rw [if_pos hv] at h
              cases h
              obtain ⟨ds, h1, h2, h3, -⟩ := (readHex_iff _ _ _ _ hb _ _).1 hr
              have h4 : HexNum ds ch := by simpa using hexNum_of_from h3 [] .nil
              have hsc := (unicodeIsValid_iff ch).1 hv
              rw [encode_eq_enc ch hsc, h1, hU]
              exact .u8 (by simpa using hby) h2 h4 hsc
            · rw [if_neg hv] at h; cases h
      · intro h
        generalize hg : e :: r = er at h
        cases h with
        | simple h => cases hg; exact absurd h (hs' _)
        | octal h1 h2 => have := octVal_le h1; cases hg; omega
        | hex h => cases hg; omega
        | u4 => cases hg; omega
        | @u8 ds n t h1 h2 h3 h4 =>
          cases hg
          have hlim : n ≤ 0x10FFFF := by unfold IsScalar at h4; omega
          rw [if_neg (by simp [h1]), (readHex_iff _ _ _ _ hb _ _).2
            ⟨ds, rfl, h2, hexFrom_of_hexNum h3, fun _ _ => hlim⟩]
          simp only
          rw [if_pos ((unicodeIsValid_iff n).2 h4), encode_eq_enc n h4]
    rw [if_neg hU]
    constructor
    · intro h; cases h
    · intro h
      cases h with
      | simple h => exact absurd h (hs' _)
      | octal h1 h2 => have := octVal_le h1; omega
      | hex h => exact absurd h hx
      | u4 => exact absurd rfl hu
      | u8 => exact absurd rfl hU

theorem denotes_esc {isBytes : Bool} {t v : List Nat} :
    Denotes isBytes (92 :: t) v ↔ ∃ o r w, EscDenotes isBytes t o r ∧ Denotes isBytes r w ∧ v = o ++ w := by
  constructor
  · intro h
    generalize hg : 92 :: t = bt at h
    cases h with
    | nil => cases hg
    | char h1 => cases hg; exact absurd rfl h1
    | crlf => cases hg
    | cr => cases hg
    | simple h1 h2 => cases hg; exact ⟨_, _, _, .simple h1, h2, rfl⟩
    | octal h1 h2 h3 h4 h5 => cases hg; exact ⟨_, _, _, .octal h1 h2 h3 h4, h5, rfl⟩
    | hex h1 h2 h3 h4 => cases hg; exact ⟨_, _, _, .hex h1 h2 h3, h4, rfl⟩
    | u4 h1 h2 h3 h4 h5 => cases hg; exact ⟨_, _, _, .u4 h1 h2 h3 h4, h5, rfl⟩
    | u8 h1 h2 h3 h4 h5 => cases hg; exact ⟨_, _, _, .u8 h1 h2 h3 h4, h5, rfl⟩
  · rintro ⟨o, r, w, h1, h2, rfl⟩
    cases h1 with
    | simple h => exact .simple h h2
    | octal a b c d => exact .octal a b c d h2
    | hex a b c => exact .hex a b c h2
    | u4 a b c d => exact .u4 a b c d h2
    | u8 a b c d => exact .u8 a b c d h2

theorem esc_rest {isBytes : Bool} {t o r : List Nat} (h : EscDenotes isBytes t o r) :
    ∃ p, t = p ++ r ∧ p ≠ [] := by
  cases h with
  | @simple e c t h => exact ⟨[e], rfl, by simp⟩
  | @octal d1 d2 d3 x y z t => exact ⟨[d1, d2, d3], rfl, by simp⟩
  | @hex e ds n t => exact ⟨e :: ds, rfl, by simp⟩
  | @u4 ds n t => exact ⟨117 :: ds, rfl, by simp⟩
  | @u8 ds n t => exact ⟨85 :: ds, rfl, by simp⟩


/-- Meaning of raw or ordinary text. -/
def Den (raw isBytes : Bool) (t v : List Nat) : Prop :=
  if raw = true then RawDenotes t v else Denotes isBytes t v

theorem den_nil {raw isBytes : Bool} {v : List Nat} : Den raw isBytes [] v ↔ v = [] := by
  unfold Den
  cases raw with
  | true =>
    simp only [if_true]
    exact ⟨fun h => by cases h; rfl, fun h => by rw [h]; exact .nil⟩
  | false =>
    simp only [Bool.false_eq_true, if_false]
    exact ⟨fun h => by cases h; rfl, fun h => by rw [h]; exact .nil⟩

theorem den_char {raw isBytes : Bool} {b : Nat} {t v : List Nat} (h1 : b ≠ 92) (h2 : b ≠ 13) :
    Den raw isBytes (b :: t) v ↔ ∃ w, v = b :: w ∧ Den raw isBytes t w := by
  unfold Den
  cases raw with
  | true =>
    simp only [if_true]
    constructor
    · intro h
      cases h with
      | char _ _ h => exact ⟨_, rfl, h⟩
      | crlf => exact absurd rfl h2
      | cr => exact absurd rfl h2
      | esc => exact absurd rfl h1
    · rintro ⟨w, rfl, h⟩; exact .char h1 h2 h
  | false =>
    simp only [Bool.false_eq_true, if_false]
    constructor
    · intro h
      cases h with
      | char _ _ h => exact ⟨_, rfl, h⟩
      | crlf => exact absurd rfl h2
      | cr => exact absurd rfl h2
      | simple => exact absurd rfl h1
      | octal => exact absurd rfl h1
      | hex => exact absurd rfl h1
      | u4 => exact absurd rfl h1
      | u8 => exact absurd rfl h1
    · rintro ⟨w, rfl, h⟩; exact .char h1 h2 h

theorem den_crlf {raw isBytes : Bool} {t v : List Nat} :
    Den raw isBytes (13 :: 10 :: t) v ↔ ∃ w, v = 10 :: w ∧ Den raw isBytes t w := by
  unfold Den
  cases raw with
  | true =>
    simp only [if_true]
    constructor
    · intro h
      cases h with
      | char _ h => exact absurd rfl h
      | crlf h => exact ⟨_, rfl, h⟩
      | cr h => exact absurd rfl (h _)
    · rintro ⟨w, rfl, h⟩; exact .crlf h
  | false =>
    simp only [Bool.false_eq_true, if_false]
    constructor
    · intro h
      cases h with
      | char _ h => exact absurd rfl h
      | crlf h => exact ⟨_, rfl, h⟩
      | cr h => exact absurd rfl (h _)
    · rintro ⟨w, rfl, h⟩; exact .crlf h

theorem den_cr {raw isBytes : Bool} {t v : List Nat} (hn : ∀ t', t ≠ 10 :: t') :
    Den raw isBytes (13 :: t) v ↔ ∃ w, v = 10 :: w ∧ Den raw isBytes t w := by
  unfold Den
  cases raw with
  | true =>
    simp only [if_true]
    constructor
    · intro h
      cases h with
      | char _ h => exact absurd rfl h
      | crlf h => exact absurd rfl (hn _)
      | cr _ h => exact ⟨_, rfl, h⟩
    · rintro ⟨w, rfl, h⟩; exact .cr hn h
  | false =>
    simp only [Bool.false_eq_true, if_false]
    constructor
    · intro h
      cases h with
      | char _ h => exact absurd rfl h
      | crlf h => exact absurd rfl (hn _)
      | cr _ h => exact ⟨_, rfl, h⟩
    · rintro ⟨w, rfl, h⟩; exact .cr hn h

theorem den_bs {raw isBytes : Bool} {v : List Nat} : ¬ Den raw isBytes [92] v := by
  unfold Den
  cases raw with
  | true =>
    simp only [if_true]
    intro h
    cases h with
    | char h => exact h rfl
  | false =>
    simp only [Bool.false_eq_true, if_false]
    intro h
    rw [denotes_esc] at h
    obtain ⟨o, r, w, h1, -⟩ := h
    obtain ⟨p, hp, hne⟩ := esc_rest h1
    exact hne (List.append_eq_nil_iff.1 hp.symm).1

theorem den_raw_esc {isBytes : Bool} {e : Nat} {t v : List Nat} :
    Den true isBytes (92 :: e :: t) v ↔ ∃ w, v = 92 :: e :: w ∧ Den true isBytes t w := by
  unfold Den
  simp only [if_true]
  constructor
  · intro h
    cases h with
    | char h => exact absurd rfl h
    | esc h => exact ⟨_, rfl, h⟩
  · rintro ⟨w, rfl, h⟩; exact .esc h

theorem den_esc {isBytes : Bool} {t v : List Nat} :
    Den false isBytes (92 :: t) v ↔
      ∃ o r w, EscDenotes isBytes t o r ∧ Den false isBytes r w ∧ v = o ++ w := by
  unfold Den; simp only [Bool.false_eq_true, if_false]; exact denotes_esc

/-- Meaning of the loop. -/
theorem unescapeLoop_iff (raw isBytes : Bool) : ∀ fuel rem dest, rem.length < fuel → Bytes rem → ∀ out,
    unescapeLoop raw isBytes fuel rem dest = .ok out ↔
      ∃ v, out = dest ++ v ∧ Den raw isBytes rem v := by
  intro fuel
  induction fuel with
  | zero => intro rem dest h; omega
  | succ fuel ih =>
    intro rem dest hf hb out
    -- one emitted prefix
    have emit : ∀ (p t : List Nat) (P : List Nat → Prop),
        (∀ v, P v ↔ ∃ w, v = p ++ w ∧ Den raw isBytes t w) → t.length < fuel → Bytes t →
        (unescapeLoop raw isBytes fuel t (dest ++ p) = .ok out ↔ ∃ v, out = dest ++ v ∧ P v) := by
      intro p t P hP hl hbt
      rw [ih t _ hl hbt]
      constructor
      · rintro ⟨v, rfl, h⟩
        exact ⟨p ++ v, by simp, (hP _).2 ⟨v, rfl, h⟩⟩
      · rintro ⟨v, rfl, h⟩
        obtain ⟨w, rfl, hw⟩ := (hP _).1 h
        exact ⟨w, by simp, hw⟩
    unfold unescapeLoop
    cases rem with
    | nil =>
      simp only [Res.ok.injEq]
      constructor
      · rintro rfl; exact ⟨[], by simp, den_nil.2 rfl⟩
      · rintro ⟨v, rfl, h⟩; rw [den_nil.1 h]; simp
    | cons b r =>
      obtain ⟨hb0, hr⟩ := bytes_tail hb
      simp only [List.length_cons] at hf
      by_cases h92 : b = 92
      · subst h92
        simp only [ne_eq, not_true_eq_false, if_false]
        cases r with
        | nil =>
          simp only
          constructor
          · intro h; cases h
          · rintro ⟨v, -, h⟩; exact absurd h den_bs
        | cons e r' =>
          obtain ⟨he0, hr'⟩ := bytes_tail hr
          simp only [List.length_cons] at hf
          simp only
          cases raw with
          | true =>
            simp only [if_true]
            exact emit [92, e] r' _ (fun v => den_raw_esc) (by omega) hr'
          | false =>
            simp only [Bool.false_eq_true, if_false]
            have side : ∀ o r'', EscDenotes isBytes (e :: r') o r'' → r''.length < fuel ∧ Bytes r'' := by
              intro o r'' h
              have hs := (escapeSeq_iff isBytes e r' hr' o r'').2 h
              have hlen := ((escapeSeq_wf isBytes e r').2 o r'' hs).1
              obtain ⟨p, hp, -⟩ := esc_rest h
              exact ⟨by omega, fun x hx => hr x (by rw [hp]; simp [hx])⟩
            constructor
            · intro h
              cases hs : escapeSeq isBytes e r' with
              | ub => rw [hs] at h; cases h
              | err s => rw [hs] at h; cases h
              | ok p =>
                obtain ⟨o, r''⟩ := p
                rw [hs] at h
                simp only at h
                have hsq := (escapeSeq_iff isBytes e r' hr' o r'').1 hs
                obtain ⟨s1, s2⟩ := side o r'' hsq
                obtain ⟨v, hv1, hv2⟩ := (ih r'' (dest ++ o) s1 s2 out).1 h
                exact ⟨o ++ v, by rw [hv1, List.append_assoc], den_esc.2 ⟨o, r'', v, hsq, hv2, rfl⟩⟩
            · rintro ⟨v, rfl, h⟩
              obtain ⟨o, r'', w, h1, h2, rfl⟩ := den_esc.1 h
              have hs := (escapeSeq_iff isBytes e r' hr' o r'').2 h1
              obtain ⟨s1, s2⟩ := side o r'' h1
              rw [hs]
              simp only
              exact (ih r'' (dest ++ o) s1 s2 _).2 ⟨w, by simp, h2⟩
      · simp only [ne_eq, h92, not_false_eq_true, if_true]
        by_cases h13 : b = 13
        · subst h13
          simp only [not_true_eq_false, if_false]
          cases r with
          | nil =>
            simp only
            exact emit [10] [] _ (fun v => den_cr (by simp)) (by simp at hf ⊢; omega) hr
          | cons c r' =>
            obtain ⟨hc0, hr'⟩ := bytes_tail hr
            simp only [List.length_cons] at hf
            simp only
            by_cases h10 : c = 10
            · subst h10
              rw [if_pos rfl]
              exact emit [10] r' _ (fun v => den_crlf) (by omega) hr'
            · rw [if_neg h10]
              exact emit [10] (c :: r') _ (fun v => den_cr (by intro t' h; cases h; exact h10 rfl))
                (by simp; omega) hr
        · simp only [h13, not_false_eq_true, if_true]
          exact emit [b] r _ (fun v => den_char h92 h13) (by omega) hr

/-! ## Closing quotes -/

theorem isPrefixOf_iff (a b : List Nat) : a.isPrefixOf b = true ↔ a <+: b := List.isPrefixOf_iff_prefix

theorem closingLoop_iff (closing : List Nat) (hne : closing ≠ []) (h92 : 92 ∉ closing) :
    ∀ n body fuel, body.length ≤ n → (body ++ closing).length < fuel →
      (closingLoop closing fuel (body ++ closing) false = .ok true ↔ NoClose closing body) := by
  have hpos := List.length_pos_iff.2 hne
  intro n
  induction n with
  | zero =>
    intro body fuel hb hf
    have : body = [] := List.length_eq_zero_iff.1 (by omega)
    subst this
    simp only [List.nil_append] at hf ⊢
    refine ⟨fun _ => .nil, fun _ => ?_⟩
    obtain ⟨k, rfl⟩ : ∃ k, fuel = k + 2 := ⟨fuel - 2, by omega⟩
    cases hc : closing with
    | nil => exact absurd hc hne
    | cons q qs =>
      have hq : q ≠ 92 := by intro h; subst h; exact h92 (by rw [hc]; simp)
      have hp : (q :: qs).isPrefixOf (q :: qs) = true := (isPrefixOf_iff _ _).2 (List.prefix_refl _)
      rw [closingLoop]
      simp only [Nat.le_refl, if_true, if_pos hq, hp, Nat.lt_irrefl, and_false, if_false, decide_true,
        Bool.and_self]
      unfold closingLoop; rw [if_neg (by simp)]
  | succ n ih =>
    intro body fuel hb hf
    cases body with
    | nil => exact ih [] fuel (by simp) hf
    | cons b t =>
      simp only [List.length_cons, List.cons_append] at hb hf
      obtain ⟨k, rfl⟩ : ∃ k, fuel = k + 1 := ⟨fuel - 1, by omega⟩
      rw [List.cons_append, closingLoop, if_pos (by simp; omega)]
      by_cases hb92 : b = 92
      · subst hb92
        simp only [ne_eq, not_true_eq_false, if_false]
        cases t with
        | nil =>
          constructor
          · intro h
            exfalso
            cases hc : closing with
            | nil => exact absurd hc hne
            | cons q qs =>
              rw [hc] at h
              cases k with
              | zero => simp [closingLoop] at h
              | succ k =>
                have hd : List.drop 2 (92 :: ([] ++ q :: qs)) = qs := rfl
                rw [hd] at h
                unfold closingLoop at h
                rw [if_neg (by simp)] at h; cases h
          · intro h
            cases h with
            | char h => exact absurd rfl h
        | cons e t =>
          simp only [List.cons_append, List.drop_succ_cons, List.drop_zero]
          simp only [List.length_cons, List.cons_append] at hb hf
          rw [ih t k (by omega) (by omega)]
          exact ⟨.esc, fun h => by
            cases h with
            | char h => exact absurd rfl h
            | esc h => exact h⟩
      · simp only [ne_eq, hb92, not_false_eq_true, if_true]
        by_cases hp : closing <+: b :: (t ++ closing)
        · have hp' := (isPrefixOf_iff _ _).2 hp
          rw [if_pos ⟨hp', by simp; omega⟩]
          constructor
          · intro h; cases h
          · intro h
            cases h with
            | char _ h => exact absurd hp h
            | esc => exact absurd rfl hb92
        · have hp' : closing.isPrefixOf (b :: (t ++ closing)) = false := by
            cases hh : closing.isPrefixOf (b :: (t ++ closing)) with
            | true => exact absurd ((isPrefixOf_iff _ _).1 hh) hp
            | false => rfl
          rw [hp']
          simp only [Bool.false_eq_true, false_and, if_false, Bool.false_and]
          rw [ih t k (by omega) (by omega)]
          exact ⟨.char hb92 hp, fun h => by
            cases h with
            | char _ _ h => exact h
            | esc => exact absurd rfl hb92⟩

/-- A text the closing check accepts really ends with the closing quotes. -/
theorem closingLoop_suffix (closing : List Nat) (hne : closing ≠ []) : ∀ fuel rem,
    closingLoop closing fuel rem false = .ok true → closing <:+ rem := by
  have hpos := List.length_pos_iff.2 hne
  have key : ∀ fuel rem b, (b = true → rem.length < closing.length) →
      closingLoop closing fuel rem b = .ok true → b = true ∨ closing <:+ rem := by
    intro fuel
    induction fuel with
    | zero => intro rem b _ h; simp [closingLoop] at h
    | succ fuel ih =>
      intro rem b hinv h
      unfold closingLoop at h
      by_cases hl : closing.length ≤ rem.length
      · rw [if_pos hl] at h
        have hbf : b = false := by
          cases b with
          | true => have := hinv rfl; omega
          | false => rfl
        cases rem with
        | nil => simp at h
        | cons x r =>
          simp only at h
          right
          by_cases hx : x = 92
          · subst hx
            simp only [ne_eq, not_true_eq_false, if_false] at h
            rcases ih _ _ (by rw [hbf]; intro h; cases h) h with hb | hs
            · rw [hbf] at hb; cases hb
            · exact hs.trans (List.drop_suffix _ _)
          · simp only [ne_eq, hx, not_false_eq_true, if_true] at h
            split at h
            · cases h
            · have hi : (closing.isPrefixOf (x :: r) && decide (closing.length = (x :: r).length)) = true →
                  closing <:+ (x :: r) ∧ r.length < closing.length := by
                intro hb
                rw [Bool.and_eq_true] at hb
                have hp := (isPrefixOf_iff _ _).1 hb.1
                have he := of_decide_eq_true hb.2
                rw [hp.eq_of_length he]
                exact ⟨List.suffix_refl _, by simp⟩
              rcases ih _ _ (fun hb => (hi hb).2) h with hb | hs
              · exact (hi hb).1
              · exact hs.trans (List.suffix_cons _ _)
      · rw [if_neg hl] at h
        left; cases h; rfl
  intro fuel rem h
  rcases key fuel rem false (fun h => by cases h) h with h | h
  · cases h
  · exact h

theorem unescapeInternal_iff (source closing : List Nat) (raw isBytes : Bool) (hb : Bytes source)
    (hne : closing ≠ []) (h92 : 92 ∉ closing) (v : List Nat) :
    unescapeInternal source closing raw isBytes = .ok v ↔
      ∃ body, source = body ++ closing ∧ NoClose closing body ∧ (isBytes = false → WellFormed body) ∧
        Den raw isBytes body v := by
  have hcl : ∃ w, checkForClosingString source closing = .ok w ∧
      (w = true ↔ ∃ body, source = body ++ closing ∧ NoClose closing body) := by
    unfold checkForClosingString
    rw [if_neg hne]
    obtain ⟨k1, k2⟩ := closingLoop_ok closing hne (source.length + 1) source false (by omega)
    cases hh : closingLoop closing (source.length + 1) source false with
    | ub => exact absurd hh k1
    | err s => exact absurd hh (k2 s)
    | ok w =>
      refine ⟨w, rfl, ?_, ?_⟩
      · rintro rfl
        obtain ⟨body, hbody⟩ := closingLoop_suffix closing hne _ _ hh
        refine ⟨body, hbody.symm, ?_⟩
        rw [← hbody] at hh
        exact (closingLoop_iff closing hne h92 body.length body _ (Nat.le_refl _) (by omega)).1 hh
      · rintro ⟨body, rfl, hn⟩
        have := (closingLoop_iff closing hne h92 body.length body ((body ++ closing).length + 1)
          (Nat.le_refl _) (by omega)).2 hn
        rw [this] at hh; cases hh; rfl
  obtain ⟨w, hw, hww⟩ := hcl
  unfold unescapeInternal
  rw [hw]; simp only [Res.mbind_ok]
  cases w with
  | false =>
    simp only [if_true]
    constructor
    · intro h; cases h
    · rintro ⟨body, h1, h2, -⟩
      have := hww.2 ⟨body, h1, h2⟩; cases this
  | true =>
    obtain ⟨body, h1, h2⟩ := hww.1 rfl
    simp only [Bool.true_eq_false, if_false]
    have hsne : source ≠ [] := by
      rw [h1]; intro h; exact hne (List.append_eq_nil_iff.1 h).2
    rw [if_neg hsne]
    have ht : source.take (source.length - closing.length) = body := by rw [h1]; simp
    rw [ht]
    have hbb : Bytes body := fun x hx => hb x (by rw [h1]; simp [hx])
    have uniq : ∀ b', source = b' ++ closing → b' = body := by
      intro b' h; rw [h1] at h; exact (List.append_cancel_right h).symm
    have loop := unescapeLoop_iff raw isBytes (body.length + 1) body [] (by omega) hbb v
    have goal : (unescapeLoop raw isBytes (body.length + 1) body [] = .ok v) ↔ Den raw isBytes body v := by
      rw [loop]; simp
    cases isBytes with
    | true =>
      simp only [if_true, Res.mbind_ok, Bool.true_eq_false, if_false]
      rw [goal]
      constructor
      · intro h; exact ⟨body, h1, h2, (fun h => by cases h), h⟩
      · rintro ⟨b', e, -, -, h⟩; rw [uniq b' e] at h; exact h
    | false =>
      simp only [Bool.false_eq_true, if_false]
      obtain ⟨⟨x, hx, hxx⟩, -⟩ := C13_validation_exact body hbb
      rw [hx]; simp only [Res.mbind_ok]
      cases x with
      | false =>
        simp only [if_true]
        constructor
        · intro h; cases h
        · rintro ⟨b', e, -, hwf, h⟩
          rw [uniq b' e] at hwf
          have := hxx.2 (hwf trivial); cases this
      | true =>
        simp only [Bool.true_eq_false, if_false]
        rw [goal]
        constructor
        · intro h; exact ⟨body, h1, h2, fun _ => hxx.1 rfl, h⟩
        · rintro ⟨b', e, -, -, h⟩; rw [uniq b' e] at h; exact h

theorem noClose_head {q : Nat} {t : List Nat} : ¬ NoClose [q] (q :: t) ∨ q = 92 := by
  by_cases h : q = 92
  · exact .inr h
  · left
    intro hn
    cases hn with
    | char _ h _ => exact h (by simp)
    | esc => exact h rfl

theorem suffix3 {q : Nat} {s : List Nat} : [q, q, q].isSuffixOf s = true ↔ [q, q, q] <:+ s :=
  List.isSuffixOf_iff_suffix

/-- Reading a quoted text: which quotes are chosen does not matter to the specification. -/
theorem parseQuoted_iff (copy : List Nat) (raw isBytes : Bool) (hb : Bytes copy) (q : Nat)
    (hq : q = 34 ∨ q = 39) (h0 : ∃ t, copy = q :: t) (v : List Nat) :
    parseQuoted copy raw isBytes = .ok v ↔
      ∃ qs body, IsQuotes qs ∧ copy = qs ++ (body ++ qs) ∧ NoClose qs body ∧
        (isBytes = false → WellFormed body) ∧ Den raw isBytes body v := by
  obtain ⟨t, ht⟩ := h0
  have heads : ∀ qs body, IsQuotes qs → copy = qs ++ (body ++ qs) → qs = [q] ∨ qs = [q, q, q] := by
    intro qs body hqs he
    rw [ht] at he
    rcases hqs with rfl | rfl | rfl | rfl <;>
      (simp only [List.cons_append, List.cons.injEq] at he; obtain ⟨rfl, -⟩ := he; simp)
  unfold parseQuoted
  cases htr : mayBeTripleQuoted copy with
  | true =>
    simp only [if_true]
    have hshape : ∃ m, copy = [q, q, q] ++ m := by
      simp only [mayBeTripleQuoted, Bool.and_eq_true, Bool.or_eq_true, isPrefixOf_iff] at htr
      rcases htr.2 with ⟨⟨m, hm⟩, -⟩ | ⟨⟨m, hm⟩, -⟩
      · have : q = 34 := by rw [ht] at hm; simp at hm; exact hm.1.symm
        exact ⟨m, by rw [← hm, this]⟩
      · have : q = 39 := by rw [ht] at hm; simp at hm; exact hm.1.symm
        exact ⟨m, by rw [← hm, this]⟩
    obtain ⟨m, hm⟩ := hshape
    have e1 : copy.take 3 = [q, q, q] := by rw [hm]; rfl
    have e2 : copy.drop 3 = m := by rw [hm]; rfl
    rw [e1, e2, unescapeInternal_iff m [q, q, q] raw isBytes
      (fun x hx => hb x (by rw [hm]; simp [hx])) (by simp) (by simp; omega) v]
    constructor
    · rintro ⟨body, h1, h2, h3, h4⟩
      refine ⟨[q, q, q], body, ?_, by rw [hm, h1], h2, h3, h4⟩
      rcases hq with rfl | rfl <;> simp [IsQuotes]
    · rintro ⟨qs, body, hqs, he, h2, h3, h4⟩
      rcases heads qs body hqs he with rfl | rfl
      · exfalso
        have : ∃ t', body ++ [q] = q :: t' := by
          rw [hm] at he
          simp only [List.cons_append, List.nil_append, List.cons.injEq, true_and] at he
          exact ⟨_, he.symm⟩
        obtain ⟨t', ht'⟩ := this
        cases body with
        | nil =>
          rw [hm] at he; simp at he
        | cons x body =>
          simp only [List.cons_append, List.cons.injEq] at ht'
          obtain ⟨rfl, -⟩ := ht'
          rcases noClose_head (q := x) (t := body) with h | h
          · exact h h2
          · omega
      · refine ⟨body, ?_, h2, h3, h4⟩
        rw [hm] at he; exact List.append_cancel_left he
  | false =>
    simp only [Bool.false_eq_true, if_false]
    have e1 : copy.take 1 = [q] := by rw [ht]; rfl
    have e2 : copy.drop 1 = t := by rw [ht]; rfl
    rw [e1, e2, unescapeInternal_iff t [q] raw isBytes
      (fun x hx => hb x (by rw [ht]; simp [hx])) (by simp) (by simp; omega) v]
    constructor
    · rintro ⟨body, h1, h2, h3, h4⟩
      refine ⟨[q], body, ?_, by rw [ht, h1]; rfl, h2, h3, h4⟩
      rcases hq with rfl | rfl <;> simp [IsQuotes]
    · rintro ⟨qs, body, hqs, he, h2, h3, h4⟩
      rcases heads qs body hqs he with rfl | rfl
      · refine ⟨body, ?_, h2, h3, h4⟩
        rw [ht] at he; simpa using he
      · exfalso
        have : mayBeTripleQuoted copy = true := by
          unfold mayBeTripleQuoted
          have hlen : copy.length ≥ 6 := by rw [he]; simp
          have hp : [q, q, q].isPrefixOf copy = true := (isPrefixOf_iff _ _).2 ⟨_, he.symm⟩
          have hs : [q, q, q].isSuffixOf copy = true := suffix3.2 ⟨[q, q, q] ++ body, by rw [he]; simp⟩
          rcases hq with rfl | rfl
          · rw [hp, hs]; simp [hlen]
          · rw [hp, hs]; simp [hlen]
        rw [htr] at this; cases this

theorem isQuotes_shape {qs : List Nat} (h : IsQuotes qs) :
    ∃ q, (q = 34 ∨ q = 39) ∧ (∃ t, qs = q :: t) ∧ (∃ a, qs = a ++ [q]) := by
  rcases h with rfl | rfl | rfl | rfl
  · exact ⟨39, .inr rfl, ⟨_, rfl⟩, ⟨[], rfl⟩⟩
  · exact ⟨34, .inl rfl, ⟨_, rfl⟩, ⟨[], rfl⟩⟩
  · exact ⟨39, .inr rfl, ⟨_, rfl⟩, ⟨[39, 39], rfl⟩⟩
  · exact ⟨34, .inl rfl, ⟨_, rfl⟩, ⟨[34, 34], rfl⟩⟩

theorem isQuote_iff (c : Nat) : isQuote c = true ↔ c = 34 ∨ c = 39 := by
  simp [isQuote]; omega
theorem isB_iff (c : Nat) : isB c = true ↔ c = 98 ∨ c = 66 := by simp [isB]
theorem isR_iff (c : Nat) : isR c = true ↔ c = 114 ∨ c = 82 := by simp [isR]

/-- Shape of `pre ++ qs ++ body ++ qs` seen by the recognisers. -/
theorem quoted_shape (pre : List Nat) {qs body : List Nat} (h : IsQuotes qs) :
    ∃ q, (q = 34 ∨ q = 39) ∧ chr (pre ++ (qs ++ (body ++ qs))) pre.length = q ∧
      chr (pre ++ (qs ++ (body ++ qs))) ((pre ++ (qs ++ (body ++ qs))).length - 1) = q ∧
      (pre ++ (qs ++ (body ++ qs))).length ≥ pre.length + 2 ∧ (∃ t, qs ++ (body ++ qs) = q :: t) := by
  obtain ⟨q, hq, ⟨t, ht⟩, ⟨a, ha⟩⟩ := isQuotes_shape h
  refine ⟨q, hq, ?_, ?_, ?_, ⟨t ++ (body ++ qs), by rw [ht]; simp⟩⟩
  · unfold chr
    rw [List.getD_eq_getElem?_getD, List.getElem?_append_right (Nat.le_refl _), ht]; simp
  · have e : pre ++ (qs ++ (body ++ qs)) = (pre ++ qs ++ body ++ a) ++ [q] := by
      have : body ++ qs = body ++ a ++ [q] := by rw [ha]; simp [List.append_assoc]
      rw [this]; simp [List.append_assoc]
    rw [e]; exact chr_last _ _
  · rw [ht]; simp; omega

/-- C49: `ParseStringLiteral` accepts exactly the CEL string literals (plain and raw, single and
triple quoted) and returns the value the language definition gives them. -/
theorem C49_string_literal_meaning (s v : List Nat) (hb : Bytes s) :
    parseStringLiteral s = .ok v ↔ StringLiteral s v := by
  unfold parseStringLiteral StringLiteral
  constructor
  · intro h
    simp only at h
    cases hr : mayBeRawStringLiteral s with
    | true =>
      rw [hr] at h
      simp only [Bool.true_eq_false, and_false, if_false, if_true] at h
      simp only [mayBeRawStringLiteral, Bool.and_eq_true, isR_iff, isQuote_iff,
        decide_eq_true_eq] at hr
      obtain ⟨⟨⟨hl, h1⟩, h2⟩, h3⟩ := hr
      match s, hl with
      | c0 :: c1 :: s', hl =>
        simp only [chr, List.getD_cons_zero, List.getD_cons_succ, List.drop_succ_cons, List.drop_zero] at h1 h2 h3 h
        obtain ⟨qs, body, hqs, he, a, b, c⟩ :=
          (parseQuoted_iff (c1 :: s') true false (bytes_tail hb).2 c1 h3 ⟨_, rfl⟩ v).1 h
        refine ⟨[c0], qs, body, by rw [he]; rfl, hqs, a, b rfl, .inr ⟨by simpa using h1, ?_⟩⟩
        simpa [Den] using c
    | false =>
      rw [hr] at h
      simp only [Bool.false_eq_true, and_true, if_false] at h
      cases hs : mayBeStringLiteral s with
      | false => rw [hs] at h; simp at h
      | true =>
        rw [hs] at h
        simp only [Bool.true_eq_false, if_false] at h
        simp only [mayBeStringLiteral, Bool.and_eq_true, isQuote_iff, decide_eq_true_eq] at hs
        obtain ⟨⟨hl, h2⟩, h3⟩ := hs
        match s, hl with
        | c0 :: s', hl =>
          simp only [chr, List.getD_cons_zero] at h2 h3 h
          obtain ⟨qs, body, hqs, he, a, b, c⟩ :=
            (parseQuoted_iff (c0 :: s') false false hb c0 h3 ⟨_, rfl⟩ v).1 h
          exact ⟨[], qs, body, by rw [he]; rfl, hqs, a, b rfl, .inl ⟨rfl, by simpa [Den] using c⟩⟩
  · rintro ⟨pre, qs, body, rfl, hqs, hnc, hwf, hcase⟩
    obtain ⟨q, hq, c1, c2, hl, ht⟩ := quoted_shape pre (body := body) hqs
    simp only
    rcases hcase with ⟨rfl, hd⟩ | ⟨hp, hd⟩
    · simp only [List.nil_append, List.length_nil] at *
      have hr : mayBeRawStringLiteral (qs ++ (body ++ qs)) = false := by
        have : isR (chr (qs ++ (body ++ qs)) 0) = false := by
          rw [c1]; rcases hq with rfl | rfl <;> rfl
        unfold mayBeRawStringLiteral; rw [this]; simp
      have hs : mayBeStringLiteral (qs ++ (body ++ qs)) = true := by
        unfold mayBeStringLiteral
        rw [c1, c2, (isQuote_iff q).2 hq]
        simp only [decide_true, Bool.and_true, decide_eq_true_eq]; omega
      rw [hr, hs]
      simp only [Bool.true_eq_false, false_and, if_false, Bool.false_eq_true]
      exact (parseQuoted_iff _ false false hb q hq ht v).2
        ⟨qs, body, hqs, rfl, hnc, fun _ => hwf, by simpa [Den] using hd⟩
    · obtain ⟨c0, hc0, rfl⟩ : ∃ c0, (c0 = 114 ∨ c0 = 82) ∧ pre = [c0] := by
        rcases hp with rfl | rfl
        · exact ⟨_, .inl rfl, rfl⟩
        · exact ⟨_, .inr rfl, rfl⟩
      have hz : chr ([c0] ++ (qs ++ (body ++ qs))) 0 = c0 := rfl
      simp only [List.length_cons, List.length_nil] at c1 hl
      have hr : mayBeRawStringLiteral ([c0] ++ (qs ++ (body ++ qs))) = true := by
        unfold mayBeRawStringLiteral
        rw [hz, c1, c2, (isQuote_iff q).2 hq, (isR_iff c0).2 hc0]
        simp only [decide_true, Bool.and_true, decide_eq_true_eq]; omega
      rw [hr]
      simp only [Bool.true_eq_false, and_false, if_false, if_true]
      have hdrop : ([c0] ++ (qs ++ (body ++ qs))).drop 1 = qs ++ (body ++ qs) := rfl
      rw [hdrop]
      exact (parseQuoted_iff _ true false (bytes_tail hb).2 q hq ht v).2
        ⟨qs, body, hqs, rfl, hnc, fun _ => hwf, by simpa [Den] using hd⟩

/-- Triple-quoted `a'\x41` denotes `a'A`; raw `\n` denotes itself. -/
example : parseStringLiteral [39, 39, 39, 39, 97, 92, 120, 52, 49, 39, 39, 39] = .ok [39, 97, 65] ∧
    parseStringLiteral [39, 39, 39, 97, 39, 92, 120, 52, 49, 39, 39, 39] = .ok [97, 39, 65] ∧
    parseStringLiteral [39, 97, 39, 98, 39] = .err badLiteral ∧
    parseStringLiteral [114, 34, 92, 110, 34] = .ok [92, 110] := by decide

/-- C49 for bytes literals. -/
theorem C49_bytes_literal_meaning (s v : List Nat) (hb : Bytes s) :
    parseBytesLiteral s = .ok v ↔ BytesLiteral s v := by
  unfold parseBytesLiteral BytesLiteral
  constructor
  · intro h
    simp only at h
    cases hr : mayBeRawBytesLiteral s with
    | true =>
      rw [hr] at h
      simp only [Bool.true_eq_false, and_false, if_false, if_true] at h
      simp only [mayBeRawBytesLiteral, Bool.and_eq_true, Bool.or_eq_true, isR_iff, isB_iff, isQuote_iff,
        decide_eq_true_eq] at hr
      obtain ⟨⟨⟨hl, h1⟩, h2⟩, h3⟩ := hr
      match s, hl with
      | c0 :: c1 :: c2 :: s', hl =>
        simp only [chr, List.getD_cons_zero, List.getD_cons_succ, List.drop_succ_cons, List.drop_zero] at h1 h2 h3 h
        obtain ⟨qs, body, hqs, he, a, b, c⟩ :=
          (parseQuoted_iff (c2 :: s') true true (bytes_tail (bytes_tail hb).2).2 c2 h3 ⟨_, rfl⟩ v).1 h
        refine ⟨[c0, c1], qs, body, by rw [he]; rfl, hqs, a, .inr ⟨?_, by simpa [Den] using c⟩⟩
        rcases h1 with ⟨rfl | rfl, rfl | rfl⟩ | ⟨rfl | rfl, rfl | rfl⟩ <;> simp
    | false =>
      rw [hr] at h
      simp only [Bool.false_eq_true, and_true, if_false] at h
      cases hs : mayBeBytesLiteral s with
      | false => rw [hs] at h; simp at h
      | true =>
        rw [hs] at h
        simp only [Bool.true_eq_false, if_false] at h
        simp only [mayBeBytesLiteral, Bool.and_eq_true, isQuote_iff, isB_iff, decide_eq_true_eq] at hs
        obtain ⟨⟨⟨hl, h1⟩, h2⟩, h3⟩ := hs
        match s, hl with
        | c0 :: c1 :: s', hl =>
          simp only [chr, List.getD_cons_zero, List.getD_cons_succ, List.drop_succ_cons, List.drop_zero] at h1 h2 h3 h
          obtain ⟨qs, body, hqs, he, a, b, c⟩ :=
            (parseQuoted_iff (c1 :: s') false true (bytes_tail hb).2 c1 h3 ⟨_, rfl⟩ v).1 h
          exact ⟨[c0], qs, body, by rw [he]; rfl, hqs, a, .inl ⟨by simpa using h1, by simpa [Den] using c⟩⟩
  · rintro ⟨pre, qs, body, rfl, hqs, hnc, hcase⟩
    obtain ⟨q, hq, c1, c2, hl, ht⟩ := quoted_shape pre (body := body) hqs
    simp only
    rcases hcase with ⟨hp, hd⟩ | ⟨hp, hd⟩
    · obtain ⟨c0, hc0, rfl⟩ : ∃ c0, (c0 = 98 ∨ c0 = 66) ∧ pre = [c0] := by
        rcases hp with rfl | rfl
        · exact ⟨_, .inl rfl, rfl⟩
        · exact ⟨_, .inr rfl, rfl⟩
      simp only [List.length_cons, List.length_nil] at c1 hl
      have hz : chr ([c0] ++ (qs ++ (body ++ qs))) 0 = c0 := rfl
      have hr : mayBeRawBytesLiteral ([c0] ++ (qs ++ (body ++ qs))) = false := by
        have h1 : isR (chr ([c0] ++ (qs ++ (body ++ qs))) 0) = false := by
          rw [hz]; rcases hc0 with rfl | rfl <;> rfl
        have h2 : isR (chr ([c0] ++ (qs ++ (body ++ qs))) 1) = false := by
          rw [c1]; rcases hq with rfl | rfl <;> rfl
        unfold mayBeRawBytesLiteral; rw [h1, h2]; simp
      have hs : mayBeBytesLiteral ([c0] ++ (qs ++ (body ++ qs))) = true := by
        unfold mayBeBytesLiteral
        rw [hz, c1, c2, (isQuote_iff q).2 hq, (isB_iff c0).2 hc0]
        simp only [decide_true, Bool.and_true, decide_eq_true_eq]; omega
      rw [hr, hs]
      simp only [Bool.true_eq_false, false_and, if_false, Bool.false_eq_true]
      have hdrop : ([c0] ++ (qs ++ (body ++ qs))).drop 1 = qs ++ (body ++ qs) := rfl
      rw [hdrop]
      exact (parseQuoted_iff _ false true (bytes_tail hb).2 q hq ht v).2
        ⟨qs, body, hqs, rfl, hnc, (fun h => by cases h), by simpa [Den] using hd⟩
    · obtain ⟨c0, c1', rfl, hcc⟩ : ∃ c0 c1', pre = [c0, c1'] ∧
          ((isR c0 && isB c1') || (isB c0 && isR c1')) = true := by
        simp only [List.mem_cons, List.not_mem_nil, or_false] at hp
        rcases hp with rfl | rfl | rfl | rfl | rfl | rfl | rfl | rfl <;> exact ⟨_, _, rfl, rfl⟩
      simp only [List.length_cons, List.length_nil] at c1 hl
      have hz : chr ([c0, c1'] ++ (qs ++ (body ++ qs))) 0 = c0 := rfl
      have ho : chr ([c0, c1'] ++ (qs ++ (body ++ qs))) 1 = c1' := rfl
      have hr : mayBeRawBytesLiteral ([c0, c1'] ++ (qs ++ (body ++ qs))) = true := by
        unfold mayBeRawBytesLiteral
        rw [hz, ho, c1, c2, (isQuote_iff q).2 hq, hcc]
        simp only [decide_true, Bool.and_true, decide_eq_true_eq]; omega
      rw [hr]
      simp only [Bool.true_eq_false, and_false, if_false, if_true]
      have hdrop : ([c0, c1'] ++ (qs ++ (body ++ qs))).drop 2 = qs ++ (body ++ qs) := rfl
      rw [hdrop]
      exact (parseQuoted_iff _ true true (bytes_tail (bytes_tail hb).2).2 q hq ht v).2
        ⟨qs, body, hqs, rfl, hnc, (fun h => by cases h), by simpa [Den] using hd⟩

/-- `b'\377'` denotes the byte FF; `b'\u0041'` is refused. -/
example : parseBytesLiteral [98, 39, 92, 51, 55, 55, 39] = .ok [255] ∧
    parseBytesLiteral [98, 39, 92, 117, 48, 48, 52, 49, 39] = .err badLiteral := by decide

end Cel.Text
