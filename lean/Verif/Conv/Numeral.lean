import Verif.Base

/-!
# Numerals

The text of a whole number in a base, and what it means to read one.  `Reads` is the independent
specification; `numeral` is what the library number printers produce (`absl::StrCat`,
`absl::StrFormat("%d" / "%x" / "%o")`, which are third-party: their contract is to print the
canonical numeral).  Text is a list of bytes.
-/

set_option linter.unusedSimpArgs false

namespace Cel.Conv

/-- The byte of a digit: `0`…`9`, then `a`, `b`, … -/
def digitByte (d : Nat) : Nat := if d < 10 then 48 + d else 87 + d

/-- The value of a digit byte in a base. -/
def digitVal (b c : Nat) : Option Nat :=
  if 48 ≤ c ∧ c ≤ 57 ∧ c - 48 < b then some (c - 48)
  else if 97 ≤ c ∧ c ≤ 122 ∧ c - 87 < b then some (c - 87)
  else none

/-- Reading digits from the left, starting from `acc`. -/
def readFrom (b : Nat) : Nat → List Nat → Option Nat
  | acc, [] => some acc
  | acc, c :: cs =>
    match digitVal b c with
    | some d => readFrom b (acc * b + d) cs
    | none => none

/-- `text` is the canonical base-`b` numeral of `n`: digits only, at least one, no leading zero
except in `0` itself, and it denotes `n`. -/
structure Reads (b : Nat) (text : List Nat) (n : Nat) : Prop where
  nonempty : text ≠ []
  value : readFrom b 0 text = some n
  canonical : text.head? = some 48 → text = [48]

/-- Digits of `n`, least significant first; `fuel` bounds their number. -/
def revDigits (b : Nat) : Nat → Nat → List Nat
  | 0, n => [digitByte (n % b)]
  | fuel + 1, n =>
    if n < b then [digitByte n] else digitByte (n % b) :: revDigits b fuel (n / b)

/-- The canonical numeral (third-party: `absl::StrCat(n)`, `%d`, `%x`, `%o`). -/
def numeral (b n : Nat) : List Nat := (revDigits b n.log2 n).reverse

theorem digitVal_digitByte {b d : Nat} (h : d < b) (hb : b ≤ 16) :
    digitVal b (digitByte d) = some d := by
  unfold digitVal digitByte
  by_cases h10 : d < 10
  · rw [if_pos h10, if_pos (by omega)]; congr 1; omega
  · rw [if_neg h10, if_neg (by omega), if_pos (by omega)]; congr 1; omega

theorem digitVal_lt {b c d : Nat} (h : digitVal b c = some d) : d < b := by
  unfold digitVal at h
  split at h
  · injection h; omega
  · split at h
    · injection h; omega
    · cases h

theorem digitByte_of_val {b c d : Nat} (h : digitVal b c = some d) : digitByte d = c := by
  unfold digitVal at h
  split at h
  · injection h with h; subst h; unfold digitByte; rw [if_pos (by omega)]; omega
  · split at h
    · injection h with h; subst h; unfold digitByte; rw [if_neg (by omega)]; omega
    · cases h

theorem readFrom_append (b : Nat) : ∀ (xs ys : List Nat) (acc : Nat),
    readFrom b acc (xs ++ ys) = (readFrom b acc xs).bind fun a => readFrom b a ys
  | [], ys, acc => rfl
  | x :: xs, ys, acc => by
    simp only [List.cons_append, readFrom]
    cases digitVal b x with
    | none => rfl
    | some d => exact readFrom_append b xs ys _

theorem readFrom_snoc {b acc c n : Nat} {xs : List Nat} :
    readFrom b acc (xs ++ [c]) = some n ↔
      ∃ a d, readFrom b acc xs = some a ∧ digitVal b c = some d ∧ n = a * b + d := by
  rw [readFrom_append]
  constructor
  · intro h
    cases ha : readFrom b acc xs with
    | none => rw [ha] at h; cases h
    | some a =>
      rw [ha] at h
      simp only [Option.bind, readFrom] at h
      cases hd : digitVal b c with
      | none => rw [hd] at h; cases h
      | some d => rw [hd] at h; exact ⟨a, d, rfl, rfl, by injection h with h; exact h.symm⟩
  · rintro ⟨a, d, ha, hd, rfl⟩
    rw [ha]
    simp only [Option.bind, readFrom, hd]

theorem revDigits_ne_nil (b fuel n : Nat) : revDigits b fuel n ≠ [] := by
  cases fuel with
  | zero => simp [revDigits]
  | succ f => unfold revDigits; split <;> simp

theorem log2_div {b n : Nat} (hb : 2 ≤ b) (h : b ≤ n) : (n / b).log2 + 1 ≤ n.log2 := by
  have h2 : 2 ≤ n := by omega
  have h1 : n.log2 = (n / 2).log2 + 1 := by
    conv => lhs; rw [Nat.log2_def]
    rw [if_pos h2]
  rw [h1]
  have hle : n / b ≤ n / 2 := Nat.div_le_div_left hb (by omega)
  have hpos : 0 < n / b := Nat.div_pos h (by omega)
  have : 2 ^ (n / b).log2 ≤ n / 2 :=
    Nat.le_trans (Nat.log2_self_le (by omega)) hle
  have := (Nat.le_log2 (by omega)).2 this
  omega

theorem revDigits_reads (b : Nat) (hb : 2 ≤ b) (hb2 : b ≤ 16) : ∀ (fuel n : Nat), n.log2 ≤ fuel →
    readFrom b 0 (revDigits b fuel n).reverse = some n ∧
      ((revDigits b fuel n).reverse.head? = some 48 → (revDigits b fuel n).reverse = [48])
  | 0, n, h => by
    have hn : n < 2 := by
      have := Nat.lt_log2_self (n := n)
      rw [show n.log2 = 0 by omega] at this
      simpa using this
    have hm : n % b = n := Nat.mod_eq_of_lt (by omega)
    simp only [revDigits, List.reverse_singleton, hm, readFrom,
      digitVal_digitByte (show n < b by omega) hb2, Nat.zero_mul, Nat.zero_add]
    exact ⟨trivial, by simp⟩
  | fuel + 1, n, h => by
    unfold revDigits
    by_cases hlt : n < b
    · rw [if_pos hlt]
      simp only [List.reverse_singleton, readFrom, digitVal_digitByte hlt hb2, Nat.zero_mul,
        Nat.zero_add]
      exact ⟨trivial, by simp⟩
    · rw [if_neg hlt]
      have hfuel : (n / b).log2 ≤ fuel := by
        have := log2_div hb (show b ≤ n by omega); omega
      have ih := revDigits_reads b hb hb2 fuel (n / b) hfuel
      rw [List.reverse_cons]
      constructor
      · rw [readFrom_snoc]
        exact ⟨n / b, n % b, ih.1, digitVal_digitByte (Nat.mod_lt _ (by omega)) hb2,
          by rw [Nat.mul_comm]; exact (Nat.div_add_mod n b).symm⟩
      · intro hh
        have hne : (revDigits b fuel (n / b)).reverse ≠ [] := by simpa using revDigits_ne_nil b fuel (n / b)
        have hh' : (revDigits b fuel (n / b)).reverse.head? = some 48 := by
          cases hr : (revDigits b fuel (n / b)).reverse with
          | nil => exact absurd hr hne
          | cons x xs => rw [hr] at hh; simpa using hh
        have h48 := ih.2 hh'
        have := ih.1
        rw [h48] at this
        have hz : digitVal b 48 = some 0 := by
          have := digitVal_digitByte (show 0 < b by omega) hb2
          simpa [digitByte] using this
        simp only [readFrom, hz] at this
        have hpos : 0 < n / b := Nat.div_pos (by omega) (by omega)
        injection this with this
        omega

/-- The library numeral is the canonical numeral of its number. -/
theorem numeral_reads {b : Nat} (hb : 2 ≤ b) (hb2 : b ≤ 16) (n : Nat) : Reads b (numeral b n) n := by
  have h := revDigits_reads b hb hb2 n.log2 n (Nat.le_refl _)
  exact ⟨by simpa [numeral] using revDigits_ne_nil b n.log2 n, h.1, h.2⟩

theorem readFrom_mono (b : Nat) (hb : 1 ≤ b) : ∀ (xs : List Nat) (acc n : Nat),
    readFrom b acc xs = some n → acc ≤ n
  | [], acc, n, h => by simp only [readFrom] at h; injection h with h; omega
  | x :: xs, acc, n, h => by
    simp only [readFrom] at h
    cases hd : digitVal b x with
    | none => rw [hd] at h; cases h
    | some d =>
      rw [hd] at h
      have := readFrom_mono b hb xs _ _ h
      have : acc * 1 ≤ acc * b := Nat.mul_le_mul_left _ hb
      omega

/-- A numeral denotes at most one number. -/
theorem Reads.value_unique {b : Nat} {t : List Nat} {m n : Nat} (h1 : Reads b t m)
    (h2 : Reads b t n) : m = n := by
  have := h1.value; rw [h2.value] at this; injection this with this; exact this.symm

theorem snoc_cases {α} (l : List α) : l = [] ∨ ∃ xs x, l = xs ++ [x] := by
  rcases h : l.reverse with _ | ⟨x, xs⟩
  · left; simpa using h
  · right; exact ⟨xs.reverse, x, by have := congrArg List.reverse h; simpa using this⟩

theorem digitVal_zero {b c : Nat} (h : digitVal b c = some 0) : c = 48 := by
  have := digitByte_of_val h; simpa [digitByte] using this.symm

/-- A number has exactly one canonical numeral. -/
theorem Reads.text_unique {b : Nat} (hb : 2 ≤ b) : ∀ (k : Nat) {t s : List Nat} {n : Nat},
    t.length ≤ k → Reads b t n → Reads b s n → t = s := by
  intro k
  induction k with
  | zero =>
    intro t s n hk h1 h2
    have : t = [] := List.length_eq_zero_iff.1 (by omega)
    exact absurd this h1.nonempty
  | succ k ih =>
    intro t s n hk h1 h2
    rcases snoc_cases t with rfl | ⟨xs, x, rfl⟩
    · exact absurd rfl h1.nonempty
    rcases snoc_cases s with rfl | ⟨ys, y, rfl⟩
    · exact absurd rfl h2.nonempty
    obtain ⟨a, d, ha, hd, hn⟩ := readFrom_snoc.1 h1.value
    obtain ⟨a', d', ha', hd', hn'⟩ := readFrom_snoc.1 h2.value
    have hdl := digitVal_lt hd
    have hdl' := digitVal_lt hd'
    have haa : a = a' := by
      have h1 : n / b = a := by
        rw [hn, Nat.mul_comm, Nat.mul_add_div (by omega), Nat.div_eq_of_lt hdl]; rfl
      have h2 : n / b = a' := by
        rw [hn', Nat.mul_comm, Nat.mul_add_div (by omega), Nat.div_eq_of_lt hdl']; rfl
      omega
    have hdd : d = d' := by subst haa; omega
    have hxy : x = y := by rw [← digitByte_of_val hd, ← digitByte_of_val hd', hdd]
    subst haa hxy hdd
    -- a numeral with more than one digit does not start with zero, so its front part is a numeral
    have front : ∀ {zs : List Nat}, Reads b (zs ++ [x]) n → readFrom b 0 zs = some a → zs ≠ [] →
        Reads b zs a ∧ 0 < a := by
      intro zs h ha hne
      obtain ⟨z, zs', rfl⟩ : ∃ z zs', zs = z :: zs' := by
        cases zs with
        | nil => exact absurd rfl hne
        | cons z zs' => exact ⟨z, zs', rfl⟩
      have hz : z ≠ 48 := by
        rintro rfl
        have := h.canonical (by simp)
        simp at this
      refine ⟨⟨by simp, ha, by simp [hz]⟩, ?_⟩
      simp only [readFrom] at ha
      cases hv : digitVal b z with
      | none => rw [hv] at ha; cases ha
      | some v =>
        rw [hv] at ha
        have := readFrom_mono b (by omega) _ _ _ ha
        have : v ≠ 0 := by
          rintro rfl; exact hz (digitVal_zero hv)
        omega
    by_cases hx : xs = []
    · by_cases hy : ys = []
      · rw [hx, hy]
      · have h0 : a = 0 := by rw [hx] at ha; simp only [readFrom] at ha; injection ha with ha; exact ha.symm
        have := (front h2 ha' hy).2
        omega
    · by_cases hy : ys = []
      · have h0 : a = 0 := by rw [hy] at ha'; simp only [readFrom] at ha'; injection ha' with ha'; exact ha'.symm
        have := (front h1 ha hx).2
        omega
      · rw [ih (by simp at hk; omega) (front h1 ha hx).1 (front h2 ha' hy).1]

/-- Every canonical numeral is the one the library prints. -/
theorem Reads.eq_numeral {b : Nat} (hb : 2 ≤ b) (hb2 : b ≤ 16) {t : List Nat} {n : Nat}
    (h : Reads b t n) : t = numeral b n :=
  Reads.text_unique hb t.length (Nat.le_refl _) h (numeral_reads hb hb2 n)

/-- Two numbers with the same numeral are equal. -/
theorem numeral_inj {b : Nat} (hb : 2 ≤ b) (hb2 : b ≤ 16) {m n : Nat} (h : numeral b m = numeral b n) :
    m = n :=
  (numeral_reads hb hb2 m).value_unique (h ▸ numeral_reads hb hb2 n)

example : numeral 10 0 = [48] := by decide
example : numeral 10 9007199254740993 = "9007199254740993".toList.map Char.toNat := by decide
example : numeral 16 48879 = "beef".toList.map Char.toNat := by decide
example : numeral 2 10 = "1010".toList.map Char.toNat := by decide

/-! ### Signed numbers and fixed-width fields -/

/-- The byte of `-`. -/
def minus : Nat := 45

/-- `absl::StrCat(i)` / `%d` of a signed number: a minus sign if negative, then the numeral of the
magnitude (third-party contract). -/
def signedNumeral (b : Nat) (i : Int) : List Nat :=
  if i < 0 then minus :: numeral b i.natAbs else numeral b i.natAbs

/-- `text` is a minus sign iff `i` is negative, followed by the canonical numeral of `|i|`. -/
def ReadsSigned (b : Nat) (text : List Nat) (i : Int) : Prop :=
  (0 ≤ i ∧ Reads b text i.natAbs) ∨ (i < 0 ∧ ∃ t, text = minus :: t ∧ Reads b t i.natAbs)

theorem signedNumeral_reads {b : Nat} (hb : 2 ≤ b) (hb2 : b ≤ 16) (i : Int) :
    ReadsSigned b (signedNumeral b i) i := by
  unfold signedNumeral ReadsSigned
  split
  · exact .inr ⟨by omega, _, rfl, numeral_reads hb hb2 _⟩
  · exact .inl ⟨by omega, numeral_reads hb hb2 _⟩

theorem readFrom_minus (b acc : Nat) (t : List Nat) : readFrom b acc (minus :: t) = none := by
  have : digitVal b minus = none := by
    unfold digitVal minus
    rw [if_neg (by omega), if_neg (by omega)]
  simp only [readFrom, this]

theorem ReadsSigned.value_unique {b : Nat} {t : List Nat} {i j : Int} (h1 : ReadsSigned b t i)
    (h2 : ReadsSigned b t j) : i = j := by
  rcases h1 with ⟨hi, h1⟩ | ⟨hi, t1, rfl, h1⟩ <;> rcases h2 with ⟨hj, h2⟩ | ⟨hj, t2, ht, h2⟩
  · have := h1.value_unique h2; omega
  · have := h1.value; rw [ht, readFrom_minus] at this; cases this
  · have := h2.value; rw [readFrom_minus] at this; cases this
  · injection ht with _ ht; subst ht
    have := h1.value_unique h2; omega

theorem ReadsSigned.text_unique {b : Nat} (hb : 2 ≤ b) {t s : List Nat} {i : Int}
    (h1 : ReadsSigned b t i) (h2 : ReadsSigned b s i) : t = s := by
  rcases h1 with ⟨hi, h1⟩ | ⟨hi, t1, rfl, h1⟩ <;> rcases h2 with ⟨hj, h2⟩ | ⟨hj, t2, rfl, h2⟩
  · exact Reads.text_unique hb _ (Nat.le_refl _) h1 h2
  · omega
  · omega
  · rw [Reads.text_unique hb _ (Nat.le_refl _) h1 h2]

/-- Left padding with zeros to `w` bytes. -/
def padLeft (w : Nat) (t : List Nat) : List Nat := List.replicate (w - t.length) 48 ++ t

/-- `%0wd` of a natural number (third-party contract). -/
def padded (w n : Nat) : List Nat := padLeft w (numeral 10 n)

theorem readFrom_zeros (b : Nat) (hb : 2 ≤ b) (t : List Nat) : ∀ k,
    readFrom b 0 (List.replicate k 48 ++ t) = readFrom b 0 t
  | 0 => rfl
  | k + 1 => by
    rw [List.replicate_succ, List.cons_append]
    have hz : digitVal b 48 = some 0 := by unfold digitVal; rw [if_pos (by omega)]
    simp only [readFrom, hz, Nat.zero_mul, Nat.zero_add]
    exact readFrom_zeros b hb t k

theorem padded_value (w n : Nat) : readFrom 10 0 (padded w n) = some n := by
  unfold padded padLeft
  rw [readFrom_zeros 10 (by omega)]
  exact (numeral_reads (by omega) (by omega) n).value

theorem readFrom_lower {b : Nat} (hb : 1 ≤ b) : ∀ (xs : List Nat) (acc n : Nat),
    readFrom b acc xs = some n → acc * b ^ xs.length ≤ n
  | [], acc, n, h => by simp only [readFrom] at h; injection h with h; simp; omega
  | x :: xs, acc, n, h => by
    simp only [readFrom] at h
    cases hd : digitVal b x with
    | none => rw [hd] at h; cases h
    | some d =>
      rw [hd] at h
      have := readFrom_lower hb xs _ _ h
      rw [List.length_cons, Nat.pow_succ, Nat.mul_comm (b ^ xs.length) b, ← Nat.mul_assoc]
      exact Nat.le_trans (Nat.mul_le_mul_right _ (Nat.le_add_right _ _)) this

theorem readFrom_upper {b : Nat} (hb : 1 ≤ b) : ∀ (xs : List Nat) (acc n : Nat),
    readFrom b acc xs = some n → n < (acc + 1) * b ^ xs.length
  | [], acc, n, h => by simp only [readFrom] at h; injection h with h; simp; omega
  | x :: xs, acc, n, h => by
    simp only [readFrom] at h
    cases hd : digitVal b x with
    | none => rw [hd] at h; cases h
    | some d =>
      rw [hd] at h
      have h1 := readFrom_upper hb xs _ _ h
      have hd := digitVal_lt hd
      rw [List.length_cons, Nat.pow_succ, Nat.mul_comm (b ^ xs.length) b, ← Nat.mul_assoc]
      refine Nat.lt_of_lt_of_le h1 (Nat.mul_le_mul_right _ ?_)
      rw [Nat.add_mul, Nat.one_mul]; omega

/-- A numeral below `b^k` has at most `k` digits (`1 ≤ k`). -/
theorem numeral_length {b : Nat} (hb : 2 ≤ b) (hb2 : b ≤ 16) {n k : Nat} (hk : 1 ≤ k) (hn : n < b ^ k) :
    (numeral b n).length ≤ k := by
  have h := numeral_reads hb hb2 n
  cases ht : numeral b n with
  | nil => simp
  | cons x xs =>
    rw [ht] at h
    by_cases hz : x = 48
    · subst hz
      have := h.canonical (by simp)
      rw [this]; simpa using hk
    · have hv := h.value
      simp only [readFrom] at hv
      cases hd : digitVal b x with
      | none => rw [hd] at hv; cases hv
      | some d =>
        rw [hd] at hv
        have hd0 : 1 ≤ d := by
          rcases Nat.eq_zero_or_pos d with rfl | h
          · exact absurd (digitVal_zero hd) hz
          · exact h
        have := readFrom_lower (show 1 ≤ b by omega) xs _ _ hv
        simp only [Nat.zero_mul, Nat.zero_add] at this
        have h1 : b ^ xs.length ≤ n := Nat.le_trans (by simpa using Nat.mul_le_mul_right (b ^ xs.length) hd0) this
        have h2 : b ^ xs.length < b ^ k := Nat.lt_of_le_of_lt h1 hn
        have := (Nat.pow_lt_pow_iff_right (show 1 < b by omega)).1 h2
        simp only [List.length_cons]; omega

theorem padded_length {w n : Nat} (hw : 1 ≤ w) (hn : n < 10 ^ w) : (padded w n).length = w := by
  unfold padded padLeft
  have := numeral_length (b := 10) (by omega) (by omega) hw hn
  simp only [List.length_append, List.length_replicate]
  omega

/-- Same-width digit strings with the same value are equal. -/
theorem readFrom_inj {b : Nat} (hb : 2 ≤ b) : ∀ (xs ys : List Nat) (n : Nat), xs.length = ys.length →
    readFrom b 0 xs = some n → readFrom b 0 ys = some n → xs = ys := by
  suffices H : ∀ (k : Nat) (xs ys : List Nat) (n : Nat), xs.length = k → ys.length = k →
      readFrom b 0 xs = some n → readFrom b 0 ys = some n → xs = ys by
    intro xs ys n hl h1 h2; exact H _ xs ys n rfl hl.symm h1 h2
  intro k
  induction k with
  | zero =>
    intro xs ys n h1 h2 _ _
    rw [List.length_eq_zero_iff.1 h1, List.length_eq_zero_iff.1 h2]
  | succ k ih =>
    intro xs ys n h1 h2 hx hy
    rcases snoc_cases xs with rfl | ⟨xs, x, rfl⟩
    · simp at h1
    rcases snoc_cases ys with rfl | ⟨ys, y, rfl⟩
    · simp at h2
    obtain ⟨a, d, ha, hd, hn⟩ := readFrom_snoc.1 hx
    obtain ⟨a', d', ha', hd', hn'⟩ := readFrom_snoc.1 hy
    have hdl := digitVal_lt hd
    have hdl' := digitVal_lt hd'
    have haa : a = a' := by
      have h1 : n / b = a := by
        rw [hn, Nat.mul_comm, Nat.mul_add_div (by omega), Nat.div_eq_of_lt hdl]; rfl
      have h2 : n / b = a' := by
        rw [hn', Nat.mul_comm, Nat.mul_add_div (by omega), Nat.div_eq_of_lt hdl']; rfl
      omega
    have hdd : d = d' := by subst haa; omega
    have hxy : x = y := by rw [← digitByte_of_val hd, ← digitByte_of_val hd', hdd]
    rw [hxy, ih xs ys a (by simpa using h1) (by simpa using h2) ha (haa ▸ ha')]

/-- Digits only (what `absl::ascii_isdigit` accepts). -/
def IsDigit (c : Nat) : Prop := 48 ≤ c ∧ c ≤ 57

instance (c : Nat) : Decidable (IsDigit c) := inferInstanceAs (Decidable (_ ∧ _))

theorem digitVal10 {c : Nat} : IsDigit c ↔ digitVal 10 c = some (c - 48) ∧ 48 ≤ c ∧ c ≤ 57 := by
  unfold IsDigit digitVal
  constructor
  · intro h; exact ⟨by rw [if_pos (by omega)], h⟩
  · intro h; exact h.2

theorem isDigit_of_val {c d : Nat} (h : digitVal 10 c = some d) : IsDigit c := by
  unfold digitVal at h
  split at h
  · exact ⟨by omega, by omega⟩
  · split at h
    · omega
    · cases h

theorem digits_of_read : ∀ (xs : List Nat) (acc n : Nat), readFrom 10 acc xs = some n →
    ∀ c ∈ xs, IsDigit c
  | [], _, _, _, c, h => by cases h
  | x :: xs, acc, n, h, c, hc => by
    simp only [readFrom] at h
    cases hd : digitVal 10 x with
    | none => rw [hd] at h; cases h
    | some d =>
      rw [hd] at h
      rcases List.mem_cons.1 hc with rfl | hc
      · exact isDigit_of_val hd
      · exact digits_of_read xs _ _ h c hc

theorem read_of_digits : ∀ (xs : List Nat) (acc : Nat), (∀ c ∈ xs, IsDigit c) →
    ∃ n, readFrom 10 acc xs = some n
  | [], acc, _ => ⟨acc, rfl⟩
  | x :: xs, acc, h => by
    have hx := (digitVal10.1 (h x (List.mem_cons_self ..))).1
    simp only [readFrom, hx]
    exact read_of_digits xs _ fun c hc => h c (List.mem_cons_of_mem _ hc)

end Cel.Conv
