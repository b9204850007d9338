import Verif.Text.Utf8Model
import Verif.Text.Utf8Spec

set_option linter.unusedSimpArgs false
set_option linter.unusedVariables false

namespace Cel.Text
open Cel Spec

/-- The lead byte classes. -/
theorem kLeading_class : ∀ b : Fin 256, 0x80 ≤ b.val →
    ((b.val ≤ 0xC1 ∨ 0xF5 ≤ b.val) ∧ kLeading b.val = 0xf1) ∨
    (0xC2 ≤ b.val ∧ b.val ≤ 0xDF ∧ kLeading b.val = 0x02) ∨
    (b.val = 0xE0 ∧ kLeading b.val = 0x13) ∨
    ((0xE1 ≤ b.val ∧ b.val ≤ 0xEC ∨ 0xEE ≤ b.val ∧ b.val ≤ 0xEF) ∧ kLeading b.val = 0x03) ∨
    (b.val = 0xED ∧ kLeading b.val = 0x23) ∨
    (b.val = 0xF0 ∧ kLeading b.val = 0x34) ∨
    (0xF1 ≤ b.val ∧ b.val ≤ 0xF3 ∧ kLeading b.val = 0x04) ∨
    (b.val = 0xF4 ∧ kLeading b.val = 0x44) := by
  decide +kernel

abbrev NoPrefix := Spec.NoScalarAt

theorem enc_prefix {c : Nat} {bs : List Nat} (h : enc c <+: bs) :
    (c < 0x80 ∧ ∃ r, bs = c :: r) ∨
    (0x80 ≤ c ∧ c < 0x800 ∧ ∃ r, bs = (0xC0 + c / 64) :: (0x80 + c % 64) :: r) ∨
    (0x800 ≤ c ∧ c < 0x10000 ∧
      ∃ r, bs = (0xE0 + c / 4096) :: (0x80 + c / 64 % 64) :: (0x80 + c % 64) :: r) ∨
    (0x10000 ≤ c ∧ ∃ r, bs = (0xF0 + c / 262144) :: (0x80 + c / 4096 % 64) :: (0x80 + c / 64 % 64)
      :: (0x80 + c % 64) :: r) := by
  obtain ⟨r, rfl⟩ := h
  unfold enc
  split
  · exact .inl ⟨by omega, r, rfl⟩
  · split
    · exact .inr (.inl ⟨by omega, by omega, r, rfl⟩)
    · split
      · exact .inr (.inr (.inl ⟨by omega, by omega, r, rfl⟩))
      · exact .inr (.inr (.inr ⟨by omega, r, rfl⟩))

theorem or2 (a b : Nat) (h : b < 64) : (a <<< 6) ||| b = a * 64 + b := by
  rw [← Nat.shiftLeft_add_eq_or_of_lt (i := 6) (by omega)]; rw [Nat.shiftLeft_eq]
theorem or3 (a b c : Nat) (hb : b < 64) (h : c < 64) :
    (a <<< 12) ||| (b <<< 6) ||| c = a * 4096 + b * 64 + c := by
  have h1 : a <<< 12 ||| b <<< 6 = (a * 64 + b) <<< 6 := by
    rw [← or2 a b hb, Nat.shiftLeft_or_distrib]
    rw [← Nat.shiftLeft_add]
  rw [h1, or2 _ _ h]; omega
theorem or4 (a b c d : Nat) (hb : b < 64) (hc : c < 64) (h : d < 64) :
    (a <<< 18) ||| (b <<< 12) ||| (c <<< 6) ||| d = a * 262144 + b * 4096 + c * 64 + d := by
  have h1 : a <<< 18 ||| b <<< 12 ||| c <<< 6 = (a * 4096 + b * 64 + c) <<< 6 := by
    rw [← or3 a b c hb hc, Nat.shiftLeft_or_distrib, Nat.shiftLeft_or_distrib]
    rw [← Nat.shiftLeft_add, ← Nat.shiftLeft_add]
  rw [h1, or2 _ _ h]; omega

theorem and3f (b : Nat) : b &&& 0x3f = b % 64 := Nat.and_two_pow_sub_one_eq_mod b 6
theorem and1f (b : Nat) : b &&& 0x1f = b % 32 := Nat.and_two_pow_sub_one_eq_mod b 5
theorem andf (b : Nat) : b &&& 0xf = b % 16 := Nat.and_two_pow_sub_one_eq_mod b 4
theorem and7 (b : Nat) : b &&& 0x7 = b % 8 := Nat.and_two_pow_sub_one_eq_mod b 3

theorem enc2 {c : Nat} (h1 : 0x80 ≤ c) (h2 : c < 0x800) :
    enc c = [0xC0 + c / 64, 0x80 + c % 64] := by
  unfold enc; rw [if_neg (by omega), if_pos h2]
theorem enc3 {c : Nat} (h1 : 0x800 ≤ c) (h2 : c < 0x10000) :
    enc c = [0xE0 + c / 4096, 0x80 + c / 64 % 64, 0x80 + c % 64] := by
  unfold enc; rw [if_neg (by omega), if_neg (by omega), if_pos h2]
theorem enc4 {c : Nat} (h1 : 0x10000 ≤ c) :
    enc c = [0xF0 + c / 262144, 0x80 + c / 4096 % 64, 0x80 + c / 64 % 64, 0x80 + c % 64] := by
  unfold enc; rw [if_neg (by omega), if_neg (by omega), if_neg (by omega)]

/-- What the shared byte-level check says about `b :: r`, at once for the validation loops and the
decoder. -/
def Rejects (b : Nat) (r : List Nat) : Prop :=
  NoPrefix (b :: r) ∧
  (kLeading b = kXX ∨
   (kLeading b ≠ kXX ∧ (kLeading b &&& 7) - 1 > r.length) ∨
   (kLeading b ≠ kXX ∧ (kLeading b &&& 7) - 1 ≤ r.length ∧ (kLeading b &&& 7) - 1 ≤ 3 ∧
    (1 ≤ (kLeading b &&& 7) - 1) ∧
    segmentOk (kAccept (kLeading b >>> 4)) ((kLeading b &&& 7) - 1) (r.take ((kLeading b &&& 7) - 1))
      = .ok false ∧
    ∀ r', r' = r ∨ (∃ k, (kLeading b &&& 7) - 1 ≤ k ∧ r' = r.take k) →
      utf8DecodeImpl b (kLeading b) ((kLeading b &&& 7) - 1) r' =
        .ok (kUnicodeReplacementCharacter, 1)))

def Accepts (b : Nat) (r : List Nat) : Prop :=
  ∃ c, IsScalar c ∧ kLeading b ≠ kXX ∧ (kLeading b &&& 7) - 1 ≤ r.length ∧
    1 ≤ (kLeading b &&& 7) - 1 ∧ (kLeading b &&& 7) - 1 ≤ 3 ∧
    segmentOk (kAccept (kLeading b >>> 4)) ((kLeading b &&& 7) - 1) (r.take ((kLeading b &&& 7) - 1))
      = .ok true ∧
    enc c = b :: r.take ((kLeading b &&& 7) - 1) ∧
    ∀ r', r' = r ∨ (∃ k, (kLeading b &&& 7) - 1 ≤ k ∧ r' = r.take k) →
      utf8DecodeImpl b (kLeading b) ((kLeading b &&& 7) - 1) r' = .ok (c, (kLeading b &&& 7))

theorem size2 (lo hi : Nat) (b1 : Nat) (t : List Nat) :
    segmentOk (lo, hi) 1 (b1 :: t) = .ok (decide (lo ≤ b1 ∧ b1 ≤ hi)) := by
  unfold segmentOk at'
  simp only [List.getElem?_cons_zero, Res.mbind_ok]
  split
  · rw [decide_eq_false (by omega)]
  · rw [decide_eq_true (by omega)]; simp
theorem size3 (lo hi : Nat) (b1 b2 : Nat) (t : List Nat) :
    segmentOk (lo, hi) 2 (b1 :: b2 :: t) =
      .ok (decide (lo ≤ b1 ∧ b1 ≤ hi ∧ 0x80 ≤ b2 ∧ b2 ≤ 0xbf)) := by
  unfold segmentOk at' kLow kHigh
  simp only [List.getElem?_cons_zero, List.getElem?_cons_succ, Res.mbind_ok]
  split
  · rw [decide_eq_false (by omega)]
  · rw [if_neg (by omega)]
    split
    · rw [decide_eq_false (by omega)]
    · rw [decide_eq_true (by omega)]; simp
theorem size4 (lo hi : Nat) (b1 b2 b3 : Nat) (t : List Nat) :
    segmentOk (lo, hi) 3 (b1 :: b2 :: b3 :: t) =
      .ok (decide (lo ≤ b1 ∧ b1 ≤ hi ∧ 0x80 ≤ b2 ∧ b2 ≤ 0xbf ∧ 0x80 ≤ b3 ∧ b3 ≤ 0xbf)) := by
  unfold segmentOk at' kLow kHigh
  simp only [List.getElem?_cons_zero, List.getElem?_cons_succ, Res.mbind_ok]
  split
  · rw [decide_eq_false (by omega)]
  · rw [if_neg (by omega)]
    split
    · rw [decide_eq_false (by omega)]
    · rw [if_neg (by omega)]
      split
      · rw [decide_eq_false (by omega)]
      · rw [decide_eq_true (by omega)]

theorem dec2 (b lead lo hi : Nat) (ha : kAccept (lead >>> 4) = (lo, hi)) (b1 : Nat) (t : List Nat) :
    utf8DecodeImpl b lead 1 (b1 :: t) =
      if lo ≤ b1 ∧ b1 ≤ hi then .ok ((b % 32) * 64 + b1 % 64, 2)
      else .ok (kUnicodeReplacementCharacter, 1) := by
  unfold utf8DecodeImpl
  simp only [ha, kMask2, kMaskX, and1f, and3f]
  split
  · rw [if_neg (by omega)]
  · rw [if_pos (by omega), if_pos (by omega), or2 _ _ (by omega)]
theorem dec3 (b lead lo hi : Nat) (ha : kAccept (lead >>> 4) = (lo, hi)) (b1 b2 : Nat) (t : List Nat) :
    utf8DecodeImpl b lead 2 (b1 :: b2 :: t) =
      if lo ≤ b1 ∧ b1 ≤ hi ∧ 0x80 ≤ b2 ∧ b2 ≤ 0xbf then
        .ok ((b % 16) * 4096 + b1 % 64 * 64 + b2 % 64, 3)
      else .ok (kUnicodeReplacementCharacter, 1) := by
  unfold utf8DecodeImpl
  simp only [ha, kMask2, kMask3, kMaskX, andf, and3f, kLow, kHigh]
  split
  · rw [if_neg (by omega)]
  · rw [if_neg (by omega)]
    split
    · rw [if_neg (by omega)]
    · rw [if_pos (by omega), if_pos (by omega), or3 _ _ _ (by omega) (by omega)]
theorem dec4 (b lead lo hi : Nat) (ha : kAccept (lead >>> 4) = (lo, hi)) (b1 b2 b3 : Nat)
    (t : List Nat) :
    utf8DecodeImpl b lead 3 (b1 :: b2 :: b3 :: t) =
      if lo ≤ b1 ∧ b1 ≤ hi ∧ 0x80 ≤ b2 ∧ b2 ≤ 0xbf ∧ 0x80 ≤ b3 ∧ b3 ≤ 0xbf then
        .ok ((b % 8) * 262144 + b1 % 64 * 4096 + b2 % 64 * 64 + b3 % 64, 4)
      else .ok (kUnicodeReplacementCharacter, 1) := by
  unfold utf8DecodeImpl
  simp only [ha, kMask4, kMaskX, and7, and3f, kLow, kHigh]
  split
  · rw [if_neg (by omega)]
  · rw [if_neg (by omega)]
    split
    · rw [if_neg (by omega)]
    · rw [if_neg (by omega)]
      split
      · rw [if_neg (by omega)]
      · rw [if_pos (by omega), or4 _ _ _ _ (by omega) (by omega) (by omega)]

/-- A two-byte lead. -/
theorem cls2 (b : Nat) (r : List Nat) (h1 : 0xC2 ≤ b) (h2 : b ≤ 0xDF) (hl : kLeading b = 0x02) :
    Accepts b r ∨ Rejects b r := by
  have ha : kAccept (2 >>> 4) = (0x80, 0xbf) := by decide
  have hs : (2 &&& 7) - 1 = 1 := by decide
  have hs7 : (2 &&& 7) = 2 := by decide
  unfold Accepts Rejects
  rw [hl, hs, ha]
  cases r with
  | nil =>
    refine .inr ⟨fun c hc hp => ?_, .inr (.inl ⟨by decide, by simp⟩)⟩
    rcases enc_prefix hp with ⟨k, r, e⟩ | ⟨k, k2, r, e⟩ | ⟨k, k2, r, e⟩ | ⟨k, r, e⟩ <;>
      simp at e <;> omega
  | cons b1 t =>
    have htake : ∀ k, 1 ≤ k → ∃ t', (b1 :: t).take k = b1 :: t' := by
      intro k hk; cases k with
      | zero => omega
      | succ k => exact ⟨_, rfl⟩
    by_cases hr : 0x80 ≤ b1 ∧ b1 ≤ 0xbf
    · refine .inl ⟨(b % 32) * 64 + b1 % 64, .inl (by omega), by decide, by simp, by omega, by omega,
        ?_, ?_, ?_⟩
      · simp only [List.take_succ_cons, List.take_zero]; rw [size2, decide_eq_true hr]
      · rw [enc2 (by omega) (by omega)]; simp; omega
      · rintro r' (rfl | ⟨k, hk, rfl⟩)
        · rw [dec2 _ _ _ _ ha, if_pos hr]; rfl
        · obtain ⟨t', ht⟩ := htake k hk
          rw [ht, dec2 _ _ _ _ ha, if_pos hr]; rfl
    · refine .inr ⟨fun c hc hp => ?_, .inr (.inr ⟨by decide, by simp, by omega, by omega, ?_, ?_⟩)⟩
      · rcases enc_prefix hp with ⟨k, r, e⟩ | ⟨k, k2, r, e⟩ | ⟨k, k2, r, e⟩ | ⟨k, r, e⟩ <;>
          simp at e <;> omega
      · simp only [List.take_succ_cons, List.take_zero]; rw [size2, decide_eq_false hr]
      · rintro r' (rfl | ⟨k, hk, rfl⟩)
        · rw [dec2 _ _ _ _ ha, if_neg hr]
        · obtain ⟨t', ht⟩ := htake k hk
          rw [ht, dec2 _ _ _ _ ha, if_neg hr]

/-- Three-byte leads: `lo`/`hi` restrict the second byte. -/
theorem cls3 (b lead lo hi : Nat) (r : List Nat) (hb : 0xE0 ≤ b ∧ b ≤ 0xEF)
    (hlo : lo = if b = 0xE0 then 0xa0 else 0x80) (hhi : hi = if b = 0xED then 0x9f else 0xbf)
    (hl : kLeading b = lead) (ha : kAccept (lead >>> 4) = (lo, hi)) (hs7 : (lead &&& 7) = 3)
    (hx : lead ≠ kXX) :
    Accepts b r ∨ Rejects b r := by
  unfold Accepts Rejects
  rw [hl, hs7, ha]
  have e31 : 3 - 1 = 2 := rfl
  rw [e31]
  have short : ∀ r : List Nat, r.length < 2 → NoPrefix (b :: r) := by
    intro r hr c hc hp
    rcases enc_prefix hp with ⟨k, r, e⟩ | ⟨k, k2, r, e⟩ | ⟨k, k2, r, e⟩ | ⟨k, r, e⟩ <;>
      simp at e <;> obtain ⟨e1, e2⟩ := e <;> (try subst e2) <;> (try simp at hr) <;> omega
  match r with
  | [] => exact .inr ⟨short _ (by simp), .inr (.inl ⟨hx, by simp⟩)⟩
  | [b1] => exact .inr ⟨short _ (by simp), .inr (.inl ⟨hx, by simp⟩)⟩
  | b1 :: b2 :: t =>
    have htake : ∀ k, 2 ≤ k → ∃ t', (b1 :: b2 :: t).take k = b1 :: b2 :: t' := by
      intro k hk
      match k with
      | 0 => omega
      | 1 => omega
      | k + 2 => exact ⟨_, rfl⟩
    by_cases hr : lo ≤ b1 ∧ b1 ≤ hi ∧ 0x80 ≤ b2 ∧ b2 ≤ 0xbf
    · refine .inl ⟨(b % 16) * 4096 + b1 % 64 * 64 + b2 % 64, ?_, hx, by simp, by omega, by omega,
        ?_, ?_, ?_⟩
      · unfold IsScalar; subst hlo; subst hhi; split at hr <;> split at hr <;> omega
      · simp only [List.take_succ_cons, List.take_zero]; rw [size3, decide_eq_true hr]
      · have hge : 0x800 ≤ (b % 16) * 4096 + b1 % 64 * 64 + b2 % 64 := by
          subst hlo; subst hhi; split at hr <;> split at hr <;> omega
        have : 0x80 ≤ b1 ∧ b1 ≤ 0xbf := by
          subst hlo; subst hhi; split at hr <;> split at hr <;> omega
        rw [enc3 hge (by omega)]; simp; omega
      · rintro r' (rfl | ⟨k, hk, rfl⟩)
        · rw [dec3 _ _ _ _ ha, if_pos hr]
        · obtain ⟨t', ht⟩ := htake k hk
          rw [ht, dec3 _ _ _ _ ha, if_pos hr]
    · refine .inr ⟨fun c hc hp => ?_, .inr (.inr ⟨hx, by simp, by omega, by omega, ?_, ?_⟩)⟩
      · apply hr
        rcases enc_prefix hp with ⟨k, r, e⟩ | ⟨k, k2, r, e⟩ | ⟨k, k2, r, e⟩ | ⟨k, r, e⟩ <;>
          simp at e
        · omega
        · omega
        · unfold IsScalar at hc
          subst hlo; subst hhi; split <;> split <;> omega
        · omega
      · simp only [List.take_succ_cons, List.take_zero]; rw [size3, decide_eq_false hr]
      · rintro r' (rfl | ⟨k, hk, rfl⟩)
        · rw [dec3 _ _ _ _ ha, if_neg hr]
        · obtain ⟨t', ht⟩ := htake k hk
          rw [ht, dec3 _ _ _ _ ha, if_neg hr]

/-- Four-byte leads. -/
theorem cls4 (b lead lo hi : Nat) (r : List Nat) (hb : 0xF0 ≤ b ∧ b ≤ 0xF4)
    (hlo : lo = if b = 0xF0 then 0x90 else 0x80) (hhi : hi = if b = 0xF4 then 0x8f else 0xbf)
    (hl : kLeading b = lead) (ha : kAccept (lead >>> 4) = (lo, hi)) (hs7 : (lead &&& 7) = 4)
    (hx : lead ≠ kXX) :
    Accepts b r ∨ Rejects b r := by
  unfold Accepts Rejects
  rw [hl, hs7, ha]
  have e31 : 4 - 1 = 3 := rfl
  rw [e31]
  have short : ∀ r : List Nat, r.length < 3 → NoPrefix (b :: r) := by
    intro r hr c hc hp
    rcases enc_prefix hp with ⟨k, r, e⟩ | ⟨k, k2, r, e⟩ | ⟨k, k2, r, e⟩ | ⟨k, r, e⟩ <;>
      simp at e <;> obtain ⟨e1, e2⟩ := e <;> (try subst e2) <;> (try simp at hr) <;> omega
  match r with
  | [] => exact .inr ⟨short _ (by simp), .inr (.inl ⟨hx, by simp⟩)⟩
  | [b1] => exact .inr ⟨short _ (by simp), .inr (.inl ⟨hx, by simp⟩)⟩
  | [b1, b2] => exact .inr ⟨short _ (by simp), .inr (.inl ⟨hx, by simp⟩)⟩
  | b1 :: b2 :: b3 :: t =>
    have htake : ∀ k, 3 ≤ k → ∃ t', (b1 :: b2 :: b3 :: t).take k = b1 :: b2 :: b3 :: t' := by
      intro k hk
      match k with
      | 0 => omega
      | 1 => omega
      | 2 => omega
      | k + 3 => exact ⟨_, rfl⟩
    by_cases hr : lo ≤ b1 ∧ b1 ≤ hi ∧ 0x80 ≤ b2 ∧ b2 ≤ 0xbf ∧ 0x80 ≤ b3 ∧ b3 ≤ 0xbf
    · have h1 : 0x80 ≤ b1 ∧ b1 ≤ 0xbf := by
          subst hlo; subst hhi; split at hr <;> split at hr <;> omega
      have hge : 0x10000 ≤ (b % 8) * 262144 + b1 % 64 * 4096 + b2 % 64 * 64 + b3 % 64 := by
          subst hlo; subst hhi; split at hr <;> split at hr <;> omega
      refine .inl ⟨(b % 8) * 262144 + b1 % 64 * 4096 + b2 % 64 * 64 + b3 % 64, ?_, hx, by simp,
        by omega, by omega, ?_, ?_, ?_⟩
      · unfold IsScalar; subst hlo; subst hhi; split at hr <;> split at hr <;> omega
      · simp only [List.take_succ_cons, List.take_zero]; rw [size4, decide_eq_true hr]
      · rw [enc4 hge]; simp; omega
      · rintro r' (rfl | ⟨k, hk, rfl⟩)
        · rw [dec4 _ _ _ _ ha, if_pos hr]
        · obtain ⟨t', ht⟩ := htake k hk
          rw [ht, dec4 _ _ _ _ ha, if_pos hr]
    · refine .inr ⟨fun c hc hp => ?_, .inr (.inr ⟨hx, by simp, by omega, by omega, ?_, ?_⟩)⟩
      · apply hr
        rcases enc_prefix hp with ⟨k, r, e⟩ | ⟨k, k2, r, e⟩ | ⟨k, k2, r, e⟩ | ⟨k, r, e⟩ <;>
          simp at e
        · omega
        · omega
        · omega
        · unfold IsScalar at hc
          subst hlo; subst hhi; split <;> split <;> omega
      · simp only [List.take_succ_cons, List.take_zero]; rw [size4, decide_eq_false hr]
      · rintro r' (rfl | ⟨k, hk, rfl⟩)
        · rw [dec4 _ _ _ _ ha, if_neg hr]
        · obtain ⟨t', ht⟩ := htake k hk
          rw [ht, dec4 _ _ _ _ ha, if_neg hr]

/-- Every non-ASCII byte with what follows is either accepted as the encoding of a scalar value or
rejected, in which case no scalar value's encoding starts there. -/
theorem accepts_or_rejects (b : Nat) (r : List Nat) (hb : b < 256) (h : 0x80 ≤ b) :
    Accepts b r ∨ Rejects b r := by
  rcases kLeading_class ⟨b, hb⟩ h with ⟨hx, hl⟩ | ⟨h1, h2, hl⟩ | ⟨h1, hl⟩ | ⟨h1, hl⟩ | ⟨h1, hl⟩ |
    ⟨h1, hl⟩ | ⟨h1, h2, hl⟩ | ⟨h1, hl⟩
  · refine .inr ⟨fun c hc hp => ?_, .inl hl⟩
    unfold IsScalar at hc
    rcases enc_prefix hp with ⟨k, r, e⟩ | ⟨k, k2, r, e⟩ | ⟨k, k2, r, e⟩ | ⟨k, r, e⟩ <;>
      simp at e hx <;> omega
  · exact cls2 b r h1 h2 hl
  · simp only at h1
    exact cls3 b 0x13 0xa0 0xbf r (by omega) (by simp [h1]) (by simp [h1]) hl (by decide) (by decide)
      (by decide)
  · exact cls3 b 0x03 0x80 0xbf r (by simp only at h1; omega)
      (by simp only at h1; rw [if_neg (by omega)]) (by simp only at h1; rw [if_neg (by omega)]) hl
      (by decide) (by decide) (by decide)
  · simp only at h1
    exact cls3 b 0x23 0x80 0x9f r (by omega) (by simp [h1]) (by simp [h1]) hl (by decide) (by decide)
      (by decide)
  · simp only at h1
    exact cls4 b 0x34 0x90 0xbf r (by omega) (by simp [h1]) (by simp [h1]) hl (by decide) (by decide)
      (by decide)
  · exact cls4 b 0x04 0x80 0xbf r (by simp only at h1 h2; omega)
      (by simp only at h1; rw [if_neg (by omega)]) (by simp only at h2; rw [if_neg (by omega)]) hl
      (by decide) (by decide) (by decide)
  · simp only at h1
    exact cls4 b 0x44 0x80 0x8f r (by omega) (by simp [h1]) (by simp [h1]) hl (by decide) (by decide)
      (by decide)

/-- `enc` is a prefix code: at most one scalar value's encoding starts a byte string. -/
theorem enc_inj {c d : Nat} {r s : List Nat} (hc : IsScalar c) (hd : IsScalar d)
    (h : enc c ++ r = enc d ++ s) : c = d ∧ r = s := by
  unfold IsScalar at hc hd
  rcases enc_prefix (c := c) (bs := enc c ++ r) ⟨r, rfl⟩ with ⟨k, x, e⟩ | ⟨k, k2, x, e⟩ | ⟨k, k2, x, e⟩ | ⟨k, x, e⟩ <;>
  rcases enc_prefix (c := d) (bs := enc c ++ r) (h ▸ ⟨s, rfl⟩) with ⟨m, y, f⟩ | ⟨m, m2, y, f⟩ | ⟨m, m2, y, f⟩ | ⟨m, y, f⟩ <;>
  (have hcd : c = d := by (rw [e] at f; simp at f; omega)
   subst hcd
   exact ⟨rfl, List.append_cancel_left h⟩)

theorem enc_ne_nil (c : Nat) : enc c ≠ [] := by
  unfold enc; split
  · simp
  · split
    · simp
    · split <;> simp

theorem enc_ascii {c : Nat} (h : c < 0x80) : enc c = [c] := by unfold enc; rw [if_pos h]

theorem enc_bytes {c : Nat} (h : IsScalar c) : Bytes (enc c) := by
  unfold IsScalar at h
  intro b hb
  unfold enc at hb
  split at hb
  · simp at hb; omega
  · split at hb
    · simp at hb; omega
    · split at hb <;> simp at hb <;> omega

end Cel.Text
