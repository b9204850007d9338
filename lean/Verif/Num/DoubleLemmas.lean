import Verif.Num.Double

/-! # Facts about the binary64 model: which values exist, rounding, order -/

namespace Cel.Num
open Cel

theorem unit1_pos : 0 < unit1 := by unfold unit1; exact Nat.two_pow_pos _

/-! ## `WF` is exactly the image of `ofBits` (up to NaN payloads) -/

theorem wf_ofBits (b : BitVec 64) : (Dbl.ofBits b).WF := by
  unfold Dbl.ofBits
  have hf : b.toNat % 2 ^ 52 < 2 ^ 52 := Nat.mod_lt _ (Nat.two_pow_pos _)
  have he : b.toNat / 2 ^ 52 % 2 ^ 11 < 2 ^ 11 := Nat.mod_lt _ (Nat.two_pow_pos _)
  simp only
  split
  · split <;> trivial
  · split
    · exact ⟨b.toNat % 2 ^ 52, 0, by omega, by omega, by simp⟩
    · exact ⟨2 ^ 52 + b.toNat % 2 ^ 52, b.toNat / 2 ^ 52 % 2 ^ 11 - 1, by omega, by omega, rfl⟩

/-- Normal form of a representable magnitude. -/
theorem repMag_normal (mag : Nat) (h : RepMag mag) :
    mag < 2 ^ 52 ∨ ∃ f e, f < 2 ^ 52 ∧ e ≤ 2045 ∧ mag = (2 ^ 52 + f) * 2 ^ e := by
  obtain ⟨m, e, hm, he, rfl⟩ := h
  induction e generalizing m with
  | zero =>
    by_cases h : m < 2 ^ 52
    · left; simpa using h
    · right; exact ⟨m - 2 ^ 52, 0, by omega, by omega, by simp; omega⟩
  | succ e ih =>
    by_cases h : m < 2 ^ 52
    · have := ih (2 * m) (by omega) (by omega)
      have e1 : m * 2 ^ (e + 1) = 2 * m * 2 ^ e := by rw [Nat.pow_succ]; ring
      rw [e1]; exact this
    · right
      have h3 : 2 ^ 52 + (m - 2 ^ 52) = m := by omega
      exact ⟨m - 2 ^ 52, e + 1, by omega, by omega, by rw [h3]⟩

/-- Bit pattern with the given sign, exponent field and fraction. -/
def mkBits (s : Bool) (e f : Nat) : BitVec 64 :=
  BitVec.ofNat 64 ((if s then 2 ^ 63 else 0) + e * 2 ^ 52 + f)

theorem mkBits_fields (s : Bool) (e f : Nat) (he : e < 2 ^ 11) (hf : f < 2 ^ 52) :
    (mkBits s e f).getMsbD 0 = s ∧ ((mkBits s e f).toNat / 2 ^ 52) % 2 ^ 11 = e ∧
    (mkBits s e f).toNat % 2 ^ 52 = f := by
  have hn : (mkBits s e f).toNat = (if s then 2 ^ 63 else 0) + e * 2 ^ 52 + f := by
    unfold mkBits
    rw [BitVec.toNat_ofNat]
    apply Nat.mod_eq_of_lt
    split <;> omega
  refine ⟨?_, ?_, ?_⟩
  · rw [← BitVec.msb_eq_getMsbD_zero, BitVec.msb_eq_decide, hn]
    cases s <;> simp <;> omega
  · rw [hn]; cases s <;> simp only [if_true, if_false, Bool.false_eq_true] <;> omega
  · rw [hn]; cases s <;> simp only [if_true, if_false, Bool.false_eq_true] <;> omega

theorem wf_iff_ofBits (d : Dbl) : d.WF ↔ ∃ b, Dbl.ofBits b = d := by
  constructor
  · intro h
    cases d with
    | nan =>
      refine ⟨mkBits false 2047 1, ?_⟩
      obtain ⟨h1, h2, h3⟩ := mkBits_fields false 2047 1 (by omega) (by omega)
      unfold Dbl.ofBits; simp only [h1, h2, h3]; simp
    | inf s =>
      refine ⟨mkBits s 2047 0, ?_⟩
      obtain ⟨h1, h2, h3⟩ := mkBits_fields s 2047 0 (by omega) (by omega)
      unfold Dbl.ofBits; simp only [h1, h2, h3]; simp
    | fin s mag =>
      rcases repMag_normal mag h with hs | ⟨f, e, hf, he, rfl⟩
      · refine ⟨mkBits s 0 mag, ?_⟩
        obtain ⟨h1, h2, h3⟩ := mkBits_fields s 0 mag (by omega) hs
        unfold Dbl.ofBits; simp only [h1, h2, h3]; simp
      · refine ⟨mkBits s (e + 1) f, ?_⟩
        obtain ⟨h1, h2, h3⟩ := mkBits_fields s (e + 1) f (by omega) hf
        unfold Dbl.ofBits; simp only [h1, h2, h3]
        have : e + 1 ≠ 2047 := by omega
        simp [this]
  · rintro ⟨b, rfl⟩; exact wf_ofBits b

/-! ## Rounding -/

theorem round53_small {n : Nat} (h : n < 2 ^ 53) : Dbl.round53 n = n := by
  unfold Dbl.round53; rw [if_pos h]

/-- The rounded value in terms of the quotient by the last-place unit. -/
theorem round53_big {n : Nat} (h : ¬ n < 2 ^ 53) :
    ∃ s q r, s ≥ 1 ∧ n = q * 2 ^ s + r ∧ r < 2 ^ s ∧ 2 ^ 52 ≤ q ∧ q < 2 ^ 53 ∧
      (Dbl.round53 n = q * 2 ^ s ∧ 2 * r ≤ 2 ^ s ∨
       Dbl.round53 n = (q + 1) * 2 ^ s ∧ 2 ^ s ≤ 2 * r) ∧
      (2 * r = 2 ^ s → Dbl.round53 n = (if q % 2 = 1 then q + 1 else q) * 2 ^ s) ∧
      s = Nat.log2 n - 52 := by
  have hn0 : n ≠ 0 := by omega
  have hl1 : 53 ≤ Nat.log2 n := (Nat.le_log2 hn0).2 (by omega)
  have hlo : 2 ^ Nat.log2 n ≤ n := Nat.log2_self_le hn0
  have hhi : n < 2 ^ (Nat.log2 n + 1) := Nat.lt_log2_self
  refine ⟨Nat.log2 n - 52, n / 2 ^ (Nat.log2 n - 52), n % 2 ^ (Nat.log2 n - 52), by omega,
    (Nat.div_add_mod' _ _).symm, Nat.mod_lt _ (Nat.two_pow_pos _), ?_, ?_, ?_, ?_, rfl⟩
  · rw [Nat.le_div_iff_mul_le (Nat.two_pow_pos _), ← Nat.pow_add]
    have : 52 + (Nat.log2 n - 52) = Nat.log2 n := by omega
    rw [this]; exact hlo
  · rw [Nat.div_lt_iff_lt_mul (Nat.two_pow_pos _), ← Nat.pow_add]
    have : 53 + (Nat.log2 n - 52) = Nat.log2 n + 1 := by omega
    rw [this]; exact hhi
  · unfold Dbl.round53; rw [if_neg h]; simp only
    split
    · right; refine ⟨rfl, by omega⟩
    · left; refine ⟨rfl, by omega⟩
  · intro he
    unfold Dbl.round53; rw [if_neg h]; simp only
    by_cases hq : n / 2 ^ (Nat.log2 n - 52) % 2 = 1
    · simp [he, hq]
    · simp [he, hq]

theorem round53_rep (n : Nat) : ∃ m e, m < 2 ^ 53 ∧ Dbl.round53 n = m * 2 ^ e ∧
    (n < 2 ^ 64 → e ≤ 12) := by
  by_cases h : n < 2 ^ 53
  · exact ⟨n, 0, h, by rw [round53_small h]; simp, by omega⟩
  · obtain ⟨s, q, r, hs, hn, hr, hq1, hq2, hv, -, hlog⟩ := round53_big h
    have hs12 : n < 2 ^ 64 → s ≤ 11 := by
      intro hlt
      have : Nat.log2 n < 64 := (Nat.log2_lt (by omega)).2 hlt
      omega
    rcases hv with ⟨hv, _⟩ | ⟨hv, _⟩
    · exact ⟨q, s, hq2, hv, fun h => by have := hs12 h; omega⟩
    · by_cases hq : q + 1 < 2 ^ 53
      · exact ⟨q + 1, s, hq, hv, fun h => by have := hs12 h; omega⟩
      · refine ⟨2 ^ 52, s + 1, by omega, ?_, fun h => by have := hs12 h; omega⟩
        have : q + 1 = 2 ^ 53 := by omega
        rw [hv, this, Nat.pow_succ]; ring

/-- Rounding fixes representable integers. -/
theorem round53_of_rep (m e : Nat) (hm : m < 2 ^ 53) : Dbl.round53 (m * 2 ^ e) = m * 2 ^ e := by
  by_cases h : m * 2 ^ e < 2 ^ 53
  · exact round53_small h
  · obtain ⟨s, q, r, hs, hn, hr, hq1, hq2, hv, htie, hlog⟩ := round53_big h
    -- `2^s` divides `m * 2^e`, so `r = 0`
    have hse : s ≤ e := by
      by_contra hlt
      have h1 : e + 1 ≤ s := by omega
      have h2 : m * 2 ^ e < 2 ^ 53 * 2 ^ e := Nat.mul_lt_mul_of_pos_right hm (Nat.two_pow_pos _)
      have h3 : 2 ^ 52 * 2 ^ s ≤ m * 2 ^ e := by
        calc 2 ^ 52 * 2 ^ s ≤ q * 2 ^ s := Nat.mul_le_mul_right _ hq1
          _ ≤ _ := by omega
      have h4 : 2 ^ (e + 1) ≤ 2 ^ s := Nat.pow_le_pow_right (by omega) h1
      have h5 : 2 ^ 52 * 2 ^ (e + 1) ≤ 2 ^ 52 * 2 ^ s := Nat.mul_le_mul_left _ h4
      have h6 : 2 ^ 52 * 2 ^ (e + 1) = 2 ^ 53 * 2 ^ e := by rw [Nat.pow_succ]; ring
      omega
    have hdvd : 2 ^ s ∣ m * 2 ^ e := Dvd.dvd.mul_left (Nat.pow_dvd_pow _ hse) _
    have hr0 : r = 0 := by
      have : 2 ^ s ∣ r := by
        have h7 : 2 ^ s ∣ q * 2 ^ s + r := hn ▸ hdvd
        exact (Nat.dvd_add_right (Dvd.intro_left _ rfl)).1 h7
      exact Nat.eq_zero_of_dvd_of_lt this hr
    have hpos := Nat.two_pow_pos s
    rcases hv with ⟨hv, _⟩ | ⟨_, hv⟩
    · rw [hv]; omega
    · omega

/-- Rounding is monotone. -/
theorem round53_mono {a b : Nat} (hab : a ≤ b) : Dbl.round53 a ≤ Dbl.round53 b := by
  by_cases hb : b < 2 ^ 53
  · rw [round53_small hb, round53_small (by omega)]; exact hab
  · obtain ⟨sb, qb, rb, hsb, hnb, hrb, hqb1, hqb2, hvb, htb, hlb⟩ := round53_big hb
    have hb_low : qb * 2 ^ sb ≤ Dbl.round53 b := by
      rcases hvb with ⟨h, _⟩ | ⟨h, _⟩ <;> rw [h]
      apply Nat.mul_le_mul_right; omega
    by_cases ha : a < 2 ^ 53
    · rw [round53_small ha]
      have h1 : 2 ^ 52 * 2 ^ 1 ≤ qb * 2 ^ sb :=
        Nat.mul_le_mul hqb1 (Nat.pow_le_pow_right (by omega) hsb)
      omega
    · obtain ⟨sa, qa, ra, hsa, hna, hra, hqa1, hqa2, hva, hta, hla⟩ := round53_big ha
      have ha_hi : Dbl.round53 a ≤ (qa + 1) * 2 ^ sa := by
        rcases hva with ⟨h, _⟩ | ⟨h, _⟩ <;> rw [h]
        apply Nat.mul_le_mul_right; omega
      have hle : Nat.log2 a ≤ Nat.log2 b := by
        have h0 : a ≠ 0 := by omega
        exact (Nat.le_log2 (by omega)).2 (Nat.le_trans (Nat.log2_self_le h0) hab)
      have hs : sa ≤ sb := by omega
      rcases Nat.lt_or_eq_of_le hs with hlt | heq
      · have h1 : (qa + 1) * 2 ^ sa ≤ 2 ^ 53 * 2 ^ sa := Nat.mul_le_mul_right _ (by omega)
        have h2 : 2 ^ 53 * 2 ^ sa = 2 ^ 52 * 2 ^ (sa + 1) := by rw [Nat.pow_succ]; ring
        have h3 : 2 ^ 52 * 2 ^ (sa + 1) ≤ qb * 2 ^ sb :=
          Nat.mul_le_mul hqb1 (Nat.pow_le_pow_right (by omega) (by omega))
        omega
      · subst heq
        have hq : qa ≤ qb := by
          have : qa * 2 ^ sa < (qb + 1) * 2 ^ sa := by rw [Nat.add_mul, Nat.one_mul]; omega
          have := Nat.lt_of_mul_lt_mul_right this
          omega
        rcases Nat.lt_or_eq_of_le hq with hq | hq
        · have : (qa + 1) * 2 ^ sa ≤ qb * 2 ^ sa := Nat.mul_le_mul_right _ hq
          omega
        · subst hq
          have hrr : ra ≤ rb := by omega
          have e1 : (qa + 1) * 2 ^ sa = qa * 2 ^ sa + 2 ^ sa := by rw [Nat.add_mul, Nat.one_mul]
          have hp := Nat.two_pow_pos sa
          rcases hva with ⟨h1, h2⟩ | ⟨h1, h2⟩
          · omega
          · rcases hvb with ⟨h3, h4⟩ | ⟨h3, h4⟩
            · have t1 : 2 * ra = 2 ^ sa := by omega
              have t2 : 2 * rb = 2 ^ sa := by omega
              rw [hta t1, htb t2]
            · omega

theorem wf_ofInt (x : Int) (h : x.natAbs < 2 ^ 64) : (Dbl.ofInt x).WF := by
  obtain ⟨m, e, hm, he, hb⟩ := round53_rep x.natAbs
  exact ⟨m, e + 1074, hm, by have := hb h; omega, by
    rw [he, unit1, Nat.pow_add, Nat.mul_assoc]⟩

/-- A representable magnitude that is a whole number is a fixed point of rounding. -/
theorem round53_of_whole (k : Nat) (h : RepMag (k * unit1)) : Dbl.round53 k = k := by
  obtain ⟨m, e, hm, he, hk⟩ := h
  by_cases h1 : 1074 ≤ e
  · have : k = m * 2 ^ (e - 1074) := by
      have h2 : 2 ^ e = 2 ^ (e - 1074) * 2 ^ 1074 := by
        rw [← Nat.pow_add, show e - 1074 + 1074 = e by omega]
      rw [h2, ← Nat.mul_assoc] at hk
      exact Nat.eq_of_mul_eq_mul_right unit1_pos hk
    rw [this]; exact round53_of_rep _ _ hm
  · apply round53_small
    have h2 : unit1 = 2 ^ (1074 - e) * 2 ^ e := by
      rw [unit1, ← Nat.pow_add, show 1074 - e + e = 1074 by omega]
    rw [h2, ← Nat.mul_assoc] at hk
    have h3 := Nat.eq_of_mul_eq_mul_right (Nat.two_pow_pos e) hk
    have h4 := Nat.two_pow_pos (1074 - e)
    have h5 : k ≤ k * 2 ^ (1074 - e) := Nat.le_mul_of_pos_right _ h4
    omega

end Cel.Num

namespace Cel.Num
open Cel

theorem log2_mul_two_pow (n k : Nat) (hn : n ≠ 0) : Nat.log2 (n * 2 ^ k) = Nat.log2 n + k := by
  have hp := Nat.two_pow_pos k
  have h0 : n * 2 ^ k ≠ 0 := Nat.mul_ne_zero hn (by omega)
  apply Nat.le_antisymm
  · have : Nat.log2 (n * 2 ^ k) < Nat.log2 n + k + 1 := by
      rw [Nat.log2_lt h0, show Nat.log2 n + k + 1 = (Nat.log2 n + 1) + k by omega, Nat.pow_add]
      exact Nat.mul_lt_mul_of_pos_right Nat.lt_log2_self hp
    omega
  · rw [Nat.le_log2 h0, Nat.pow_add]
    exact Nat.mul_le_mul_right _ (Nat.log2_self_le hn)

/-- Rounding commutes with scaling by a power of two. -/
theorem round53_scale (n k : Nat) : Dbl.round53 (n * 2 ^ k) = Dbl.round53 n * 2 ^ k := by
  by_cases h : n < 2 ^ 53
  · rw [round53_small h, round53_of_rep _ _ h]
  · have hn : n ≠ 0 := by omega
    have hp := Nat.two_pow_pos k
    have hbig : ¬ n * 2 ^ k < 2 ^ 53 := by
      have : n ≤ n * 2 ^ k := Nat.le_mul_of_pos_right _ hp
      omega
    have hl1 : 53 ≤ Nat.log2 n := (Nat.le_log2 hn).2 (by omega)
    unfold Dbl.round53
    rw [if_neg h, if_neg hbig, log2_mul_two_pow n k hn]
    simp only
    rw [show Nat.log2 n + k - 52 = (Nat.log2 n - 52) + k by omega, Nat.pow_add]
    rw [Nat.mul_div_mul_right _ _ hp, Nat.mul_mod_mul_right]
    generalize n / 2 ^ (Nat.log2 n - 52) = q
    generalize n % 2 ^ (Nat.log2 n - 52) = r
    generalize 2 ^ (Nat.log2 n - 52) = t
    have e1 : (2 * (r * 2 ^ k) > t * 2 ^ k) ↔ (2 * r > t) := by
      rw [← Nat.mul_assoc]
      exact Nat.mul_lt_mul_right hp
    have e2 : (2 * (r * 2 ^ k) = t * 2 ^ k) ↔ (2 * r = t) := by
      rw [← Nat.mul_assoc]
      exact ⟨fun h => Nat.eq_of_mul_eq_mul_right hp h, fun h => by rw [h]⟩
    simp only [e1, e2]
    split <;> ring

/-- Rounding picks a nearest representable integer: no representable `w` is closer. -/
theorem round53_nearest (n m e : Nat) (hm : m < 2 ^ 53) :
    ((Dbl.round53 n : Int) - n).natAbs ≤ (((m * 2 ^ e : Nat) : Int) - n).natAbs := by
  by_cases h : n < 2 ^ 53
  · rw [round53_small h]; omega
  · obtain ⟨s, q, r, hs, hn, hr, hq1, hq2, hv, -, -⟩ := round53_big h
    have e1 : (q + 1) * 2 ^ s = q * 2 ^ s + 2 ^ s := by rw [Nat.add_mul, Nat.one_mul]
    -- no representable value lies strictly between the two neighbours
    have hgap : m * 2 ^ e ≤ q * 2 ^ s ∨ (q + 1) * 2 ^ s ≤ m * 2 ^ e := by
      by_contra hcon
      have hlo : q * 2 ^ s < m * 2 ^ e := by omega
      have hhi : m * 2 ^ e < (q + 1) * 2 ^ s := by omega
      have hse : s ≤ e := by
        by_contra hlt
        have h1 : e + 1 ≤ s := by omega
        have h2 : m * 2 ^ e < 2 ^ 53 * 2 ^ e := Nat.mul_lt_mul_of_pos_right hm (Nat.two_pow_pos _)
        have h3 : 2 ^ 52 * 2 ^ s ≤ q * 2 ^ s := Nat.mul_le_mul_right _ hq1
        have h4 : 2 ^ (e + 1) ≤ 2 ^ s := Nat.pow_le_pow_right (by omega) h1
        have h5 : 2 ^ 52 * 2 ^ (e + 1) ≤ 2 ^ 52 * 2 ^ s := Nat.mul_le_mul_left _ h4
        have h6 : 2 ^ 52 * 2 ^ (e + 1) = 2 ^ 53 * 2 ^ e := by rw [Nat.pow_succ]; ring
        omega
      have hk : m * 2 ^ e = (m * 2 ^ (e - s)) * 2 ^ s := by
        rw [Nat.mul_assoc, ← Nat.pow_add, show e - s + s = e by omega]
      rw [hk] at hlo hhi
      have := Nat.lt_of_mul_lt_mul_right hlo
      have := Nat.lt_of_mul_lt_mul_right hhi
      omega
    generalize m * 2 ^ e = w at *
    generalize hA : q * 2 ^ s = A at *
    generalize hB : 2 ^ s = B at *
    rcases hv with ⟨hv, _⟩ | ⟨hv, _⟩ <;> rw [hv] <;> omega

end Cel.Num
