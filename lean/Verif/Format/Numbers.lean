import Verif.Format.Texts

/-!
# C66: the texts of numbers and durations, and absence of undefined behaviour
-/

set_option linter.unusedSimpArgs false
set_option linter.unusedVariables false
set_option exponentiation.threshold 3000

namespace Cel.Format
open Cel Cel.Num Cel.Conv

/-! ### Binary -/

/-- The low `i` bits of a number, most significant first. -/
def bits : Nat → Nat → List Nat
  | 0, _ => []
  | i + 1, v => bits i (v / 2) ++ [if v % 2 = 1 then 49 else 48]

theorem bits_length : ∀ i v, (bits i v).length = i
  | 0, _ => rfl
  | i + 1, v => by rw [bits, List.length_append, bits_length i]; rfl

theorem binLoop_eq : ∀ (i v : Nat) (s : List Nat), i ≤ s.length → binLoop i v s = bits i v ++ s.drop i
  | 0, v, s, _ => by simp [binLoop, bits]
  | i + 1, v, s, h => by
    rw [binLoop, binLoop_eq i _ _ (by rw [List.length_set]; omega), bits, List.append_assoc]
    congr 1
    have hl : i < (s.set i (if v % 2 = 1 then 49 else 48)).length := by rw [List.length_set]; omega
    rw [List.drop_eq_getElem_cons hl, List.getElem_set_self, List.singleton_append]
    congr 1
    rw [List.drop_set]
    simp

theorem bits_cons : ∀ (i v : Nat), bits (i + 1) v = (if v / 2 ^ i % 2 = 1 then 49 else 48) :: bits i v
  | 0, v => by simp [bits]
  | i + 1, v => by
    rw [bits, bits_cons i (v / 2), bits, List.cons_append, Nat.div_div_eq_div_mul, ← Nat.pow_succ']

theorem bits_value : ∀ (i v : Nat), readFrom 2 0 (bits i v) = some (v % 2 ^ i)
  | 0, v => by simp [bits, readFrom, Nat.mod_one]
  | i + 1, v => by
    rw [bits, readFrom_snoc]
    refine ⟨v / 2 % 2 ^ i, v % 2, bits_value i _, ?_, ?_⟩
    · rcases Nat.mod_two_eq_zero_or_one v with h | h <;> rw [h] <;> decide
    · have := Nat.mod_mul (x := v) (a := 2) (b := 2 ^ i)
      rw [Nat.pow_succ', this]; omega

theorem bits_canonical {v : Nat} (h : v ≠ 0) : Reads 2 (bits (bitWidth v) v) v := by
  unfold bitWidth
  rw [if_neg h]
  have hlo : 2 ^ v.log2 ≤ v := Nat.log2_self_le h
  have hhi : v < 2 ^ (v.log2 + 1) := Nat.lt_log2_self
  have hq : v / 2 ^ v.log2 = 1 := by
    apply Nat.div_eq_of_lt_le
    · rw [Nat.one_mul]; exact hlo
    · rw [show (1 + 1) * 2 ^ v.log2 = 2 ^ (v.log2 + 1) by rw [Nat.pow_succ]; omega]; exact hhi
  refine ⟨?_, ?_, ?_⟩
  · rw [bits_cons]; simp
  · rw [bits_value, Nat.mod_eq_of_lt hhi]
  · rw [bits_cons, hq]; simp

theorem binText_plain (v : Nat) : Reads 2 (binText v false) v := by
  unfold binText
  by_cases h : v = 0
  · subst h
    rw [if_pos rfl]
    exact ⟨by decide, by decide, by decide⟩
  · rw [if_neg h]
    simp only [Bool.false_eq_true, if_false, Nat.add_zero]
    rw [binLoop_eq _ _ _ (by simp)]
    simpa using bits_canonical h

theorem binText_neg {v : Nat} (h : v ≠ 0) : ∃ t, binText v true = minus :: t ∧ Reads 2 t v := by
  unfold binText
  rw [if_neg h]
  simp only [if_true]
  rw [binLoop_eq _ _ _ (by simp)]
  refine ⟨bits (bitWidth v) v, ?_, bits_canonical h⟩
  rw [bits_cons]
  simp

/-- The magnitude computed modulo 2^64 is the absolute value, also of the least int. -/
theorem negU64_eq {i : Int} (h1 : i64Min ≤ i) (h2 : i < 0) : negU64 i = i.natAbs := by
  unfold negU64 i64Min at *; omega

/-! ### Numbers -/

/-- A clause letter by its character. -/
abbrev conv (c : Char) : Nat := c.toNat

/-- **C66** `%d` of an int or uint is its decimal numeral. -/
theorem C66_decimal (p : Option Nat) :
    (∀ i : Int, ∃ t, formatClause (conv 'd') (.int i) p = .ok t ∧ ReadsSigned 10 t i) ∧
    (∀ u : Nat, ∃ t, formatClause (conv 'd') (.uint u) p = .ok t ∧ Reads 10 t u) := by
  refine ⟨fun i => ⟨signedNumeral 10 i, rfl, signedNumeral_reads (by decide) (by decide) i⟩,
    fun u => ⟨numeral 10 u, rfl, numeral_reads (by decide) (by decide) u⟩⟩

/-- **C66** `%b` of an int or uint is its binary numeral (with a minus sign and the magnitude for a
negative int, also for the least one). -/
theorem C66_binary (p : Option Nat) :
    (∀ i : Int, i64Min ≤ i → i ≤ i64Max → ∃ t, formatClause (conv 'b') (.int i) p = .ok t ∧ ReadsSigned 2 t i) ∧
    (∀ u : Nat, ∃ t, formatClause (conv 'b') (.uint u) p = .ok t ∧ Reads 2 t u) ∧
    (∀ b : Bool, formatClause (conv 'b') (.bool b) p = .ok (if b then asc "1" else asc "0")) := by
  refine ⟨fun i h1 h2 => ?_, fun u => ⟨_, rfl, binText_plain u⟩, fun b => rfl⟩
  by_cases h : i < 0
  · obtain ⟨t, ht, hr⟩ := binText_neg (v := negU64 i) (by rw [negU64_eq h1 h]; omega)
    refine ⟨minus :: t, ?_, .inr ⟨h, t, rfl, by rw [← negU64_eq h1 h]; exact hr⟩⟩
    show Res.ok (if i < 0 then binText (negU64 i) true else binText i.toNat false) = _
    rw [if_pos h, ht]
  · refine ⟨binText i.toNat false, ?_, .inl ⟨by omega, ?_⟩⟩
    · show Res.ok (if i < 0 then binText (negU64 i) true else binText i.toNat false) = _
      rw [if_neg h]
    · have := binText_plain i.toNat
      rwa [show i.natAbs = i.toNat by omega]

/-- **C66** `%o` of an int or uint is its octal numeral. -/
theorem C66_octal (p : Option Nat) :
    (∀ i : Int, i64Min ≤ i → i ≤ i64Max → ∃ t, formatClause (conv 'o') (.int i) p = .ok t ∧ ReadsSigned 8 t i) ∧
    (∀ u : Nat, ∃ t, formatClause (conv 'o') (.uint u) p = .ok t ∧ Reads 8 t u) := by
  refine ⟨fun i h1 h2 => ?_, fun u => ⟨_, rfl, numeral_reads (by decide) (by decide) u⟩⟩
  by_cases h : i < 0
  · refine ⟨minus :: numeral 8 i.natAbs, ?_, .inr ⟨h, _, rfl, numeral_reads (by decide) (by decide) _⟩⟩
    show Res.ok (if i < 0 then minus :: numeral 8 (negU64 i) else numeral 8 i.toNat) = _
    rw [if_pos h, negU64_eq h1 h]
  · refine ⟨numeral 8 i.natAbs, ?_, .inl ⟨by omega, numeral_reads (by decide) (by decide) _⟩⟩
    show Res.ok (if i < 0 then minus :: numeral 8 (negU64 i) else numeral 8 i.toNat) = _
    rw [if_neg h, show i.natAbs = i.toNat by omega]

/-- Upper case of ASCII letters. -/
def UpperOf (t s : List Nat) : Prop :=
  List.Forall₂ (fun a b => (97 ≤ a ∧ a ≤ 122 ∧ b + 32 = a) ∨ (¬ (97 ≤ a ∧ a ≤ 122) ∧ b = a)) t s

theorem upper_spec : ∀ t, UpperOf t (upper t)
  | [] => .nil
  | a :: r => by
    unfold upper
    rw [List.map_cons]
    refine .cons ?_ (upper_spec r)
    by_cases h : 97 ≤ a ∧ a ≤ 122
    · rw [if_pos h]; left; omega
    · rw [if_neg h]; right; exact ⟨h, rfl⟩

/-- Two hexadecimal digits for every byte. -/
inductive HexOf : List Nat → List Nat → Prop
  | nil : HexOf [] []
  | cons {b hi lo : Nat} {s t : List Nat} (x y : Nat) : digitVal 16 x = some hi → digitVal 16 y = some lo →
      b = hi * 16 + lo → HexOf s t → HexOf (b :: s) (x :: y :: t)

theorem hexBytes_spec : ∀ (s : List Nat), (∀ b ∈ s, b < 256) → HexOf s (hexBytes s)
  | [], _ => .nil
  | b :: s, h => by
    have hb := h b (List.mem_cons_self ..)
    show HexOf (b :: s) (digitByte (b / 16) :: digitByte (b % 16) :: hexBytes s)
    exact .cons _ _ (digitVal_digitByte (by omega) (by decide)) (digitVal_digitByte (by omega) (by decide)) (by omega)
      (hexBytes_spec s fun c hc => h c (List.mem_cons_of_mem _ hc))

/-- A text of hexadecimal digits stands for one byte sequence only. -/
theorem HexOf.unique {s s' t : List Nat} (h : HexOf s t) (h' : HexOf s' t) : s = s' := by
  induction h generalizing s' with
  | nil => cases h'; rfl
  | cons x y h1 h2 h3 h4 ih =>
    cases h' with
    | cons _ _ k1 k2 k3 k4 =>
      rw [h1] at k1; rw [h2] at k2
      injection k1 with k1; injection k2 with k2
      subst k1 k2
      rw [ih k4, h3, k3]

/-- **C66** `%x` of an int or uint is its hexadecimal numeral, of a string or bytes two digits a byte;
`%X` is the same in upper case. -/
theorem C66_hex (p : Option Nat) :
    (∀ i : Int, i64Min ≤ i → i ≤ i64Max → ∃ t, formatClause (conv 'x') (.int i) p = .ok t ∧ ReadsSigned 16 t i) ∧
    (∀ u : Nat, ∃ t, formatClause (conv 'x') (.uint u) p = .ok t ∧ Reads 16 t u) ∧
    (∀ s : List Nat, (∀ b ∈ s, b < 256) → ∃ t, formatClause (conv 'x') (.str s) p = .ok t ∧
      formatClause (conv 'x') (.bytes s) p = .ok t ∧ HexOf s t) ∧
    (∀ v t, formatClause (conv 'x') v p = .ok t → ∃ t', formatClause (conv 'X') v p = .ok t' ∧ UpperOf t t') ∧
    (∀ v t', formatClause (conv 'X') v p = .ok t' → ∃ t, formatClause (conv 'x') v p = .ok t) := by
  have hx : ∀ v, formatClause (conv 'x') v p = formatHex v false := fun v => rfl
  have hX : ∀ v, formatClause (conv 'X') v p = formatHex v true := fun v => rfl
  refine ⟨fun i h1 h2 => ?_, fun u => ⟨_, rfl, numeral_reads (by decide) (by decide) u⟩,
    fun s hs => ⟨hexBytes s, rfl, rfl, hexBytes_spec s hs⟩, ?_, ?_⟩
  · by_cases h : i < 0
    · refine ⟨minus :: numeral 16 i.natAbs, ?_, .inr ⟨h, _, rfl, numeral_reads (by decide) (by decide) _⟩⟩
      show Res.ok (if i < 0 then minus :: numeral 16 (negU64 i) else numeral 16 i.toNat) = _
      rw [if_pos h, negU64_eq h1 h]
    · refine ⟨numeral 16 i.natAbs, ?_, .inl ⟨by omega, numeral_reads (by decide) (by decide) _⟩⟩
      show Res.ok (if i < 0 then minus :: numeral 16 (negU64 i) else numeral 16 i.toNat) = _
      rw [if_neg h, show i.natAbs = i.toNat by omega]
  · intro v t h
    rw [hx] at h; rw [hX]
    cases v <;> first
      | (injection h with h; subst h; exact ⟨_, rfl, upper_spec _⟩)
      | cases h
  · intro v t' h
    rw [hX] at h; rw [hx]
    cases v <;> first
      | exact ⟨_, rfl⟩
      | cases h

/-- **C66** `%s` of the simple kinds. -/
theorem C66_scalars (p : Option Nat) :
    formatClause (conv 's') .null p = .ok (asc "null") ∧
    formatClause (conv 's') (.bool true) p = .ok (asc "true") ∧
    formatClause (conv 's') (.bool false) p = .ok (asc "false") ∧
    (∀ i, ∃ t, formatClause (conv 's') (.int i) p = .ok t ∧ ReadsSigned 10 t i) ∧
    (∀ u, ∃ t, formatClause (conv 's') (.uint u) p = .ok t ∧ Reads 10 t u) ∧
    (∀ s, formatClause (conv 's') (.str s) p = .ok s) ∧
    (∀ s, formatClause (conv 's') (.bytes s) p = .ok s) ∧
    (∀ n, formatClause (conv 's') (.typ n) p = .ok n) ∧
    (∃ e, formatClause (conv 's') .other p = .err e) := by
  have hs : ∀ v, formatClause (conv 's') v p = formatString v := fun v => rfl
  simp only [hs]
  refine ⟨?_, ?_, ?_, fun i => ⟨_, ?_, signedNumeral_reads (by decide) (by decide) i⟩,
    fun u => ⟨_, ?_, numeral_reads (by decide) (by decide) u⟩, fun s => ?_, fun s => ?_, fun n => ?_, ⟨invalid "could not convert argument to string", ?_⟩⟩
  all_goals (simp only [formatString] <;> rfl)

/-! ### Fixed-point -/

theorem roundDiv_spec (a b : Nat) (hb : 0 < b) :
    2 * a ≤ 2 * (roundDiv a b * b) + b ∧ 2 * (roundDiv a b * b) ≤ 2 * a + b := by
  unfold roundDiv
  have h := Nat.div_add_mod a b
  have hr := Nat.mod_lt a hb
  have hc : a / b * b = b * (a / b) := Nat.mul_comm ..
  have hc2 : (a / b + 1) * b = b * (a / b) + b := by rw [Nat.add_mul, hc]; omega
  simp only
  split
  · rw [hc]; omega
  · split
    · rw [hc2]; omega
    · split
      · rw [hc]; omega
      · rw [hc2]; omega

/-- **C66** `%.pf` of a finite double: a sign, a whole part, and exactly `p` decimals, which together
denote a multiple of `10^-p` at most half a unit of the last decimal away from the double (given the
contract of the library number printer). -/
theorem C66_fixed (neg : Bool) (mag : Nat) (prec : Option Nat) : ∃ t whole frac w f,
    formatClause (conv 'f') (.dbl (.fin neg mag)) prec = .ok t ∧
    t = (if neg then [minus] else []) ++ whole ++ (if prec.getD 6 = 0 then [] else 46 :: frac) ∧
    Reads 10 whole w ∧ frac.length = prec.getD 6 ∧ readFrom 10 0 frac = some f ∧
    -- with the value `mag / unit1` and the text `(w * 10^p + f) / 10^p`
    2 * (mag * 10 ^ prec.getD 6) ≤ 2 * ((w * 10 ^ prec.getD 6 + f) * unit1) + unit1 ∧
    2 * ((w * 10 ^ prec.getD 6 + f) * unit1) ≤ 2 * (mag * 10 ^ prec.getD 6) + unit1 := by
  generalize hp : prec.getD 6 = p
  have hu : 0 < unit1 := by unfold unit1; exact Nat.pos_of_ne_zero (by decide)
  have hf : formatClause (conv 'f') (.dbl (.fin neg mag)) prec = .ok (fixedText p neg mag) := by rw [← hp]; rfl
  generalize hq : roundDiv (mag * 10 ^ p) unit1 = q
  have hpos : 0 < 10 ^ p := Nat.pow_pos (by decide)
  have hsum : q / 10 ^ p * 10 ^ p + q % 10 ^ p = q := by rw [Nat.mul_comm]; exact Nat.div_add_mod ..
  have hspec := roundDiv_spec (mag * 10 ^ p) unit1 hu
  rw [hq] at hspec
  refine ⟨_, numeral 10 (q / 10 ^ p), if p = 0 then [] else padded p (q % 10 ^ p), q / 10 ^ p, q % 10 ^ p, hf, ?_,
    numeral_reads (by decide) (by decide) _, ?_, ?_, ?_, ?_⟩
  · unfold fixedText
    simp only [hq]
    by_cases h0 : p = 0
    · simp only [if_pos h0]
    · simp only [if_neg h0]
  · by_cases h0 : p = 0
    · rw [if_pos h0, h0]; rfl
    · rw [if_neg h0]; exact padded_length (by omega) (Nat.mod_lt _ hpos)
  · by_cases h0 : p = 0
    · rw [if_pos h0, h0]; simp [readFrom, Nat.mod_one]
    · rw [if_neg h0]; exact padded_value _ _
  · rw [hsum]; exact hspec.1
  · rw [hsum]; exact hspec.2

/-! ### Doubles with `%s` -/

/-- **C66** (limit) `%s` of a double prints six significant digits only: different doubles have the same text. -/
theorem C66_double_lossy_witness : ∃ x y : Dbl, x ≠ y ∧
    formatString (.dbl x) = .ok (asc "1.23457e+06") ∧ formatString (.dbl y) = .ok (asc "1.23457e+06") :=
  ⟨.fin false (unit1 * 1234567), .fin false (unit1 * 1234568), by decide, by decide, by decide⟩

/-! ### Durations -/

/-- **C66** `%s` of a duration in range, made of whole nanoseconds, is the text `string(duration)` gives;
it denotes the duration exactly. -/
theorem C66_duration (t : Int) (hr : DurInRange t) (hns : t % 4 = 0) (p : Option Nat) : ∃ out,
    formatClause (conv 's') (.dur (.fin t)) p = .ok out ∧ encodeDuration (.fin t) = .ok out ∧ SecondsText out t := by
  have hs : formatClause (conv 's') (.dur (.fin t)) p = .ok (formatDuration (.fin t)) := by
    show formatString (.dur (.fin t)) = _
    rw [formatString]
  obtain ⟨h1, h2⟩ := hr
  have he := encodeDuration_eq t h1 h2
  obtain ⟨out, ho, hsp⟩ := encodeDuration_spec t h1 h2 hns
  refine ⟨out, ?_, ho, hsp⟩
  rw [hs]
  rw [ho] at he
  injection he with he
  rw [he]
  congr 1
  unfold minDurTicks tps tpn at h1
  unfold maxDurTicks tps tpn at h2
  unfold formatDuration
  by_cases h0 : t = 0
  · subst h0; decide
  rw [if_neg (by intro h; injection h with h; exact h0 h)]
  have sat : ∀ x : Int, 0 ≤ x → x ≤ 1000000000000 → satI64 x = x := by
    intro x hx1 hx2
    unfold satI64 i64Min i64Max
    rw [if_neg (by omega), if_neg (by omega)]
  have key : ∀ a : Nat, a ≤ 1262304000000000000000 + 4000000000 → 
      toInt64Seconds (.fin (a : Int)) = ((a / 4000000000 : Nat) : Int) ∧
      toInt64Nanos (subSeconds (.fin (a : Int)) ((a / 4000000000 : Nat) : Int)) = ((a % 4000000000 / 4 : Nat) : Int) := by
    intro a hlim
    constructor
    · show satI64 (Int.tdiv (a : Int) tps) = _
      rw [tdiv_nonneg_eq (by omega)]
      unfold tps
      rw [sat _ (by omega) (by omega)]
      omega
    · show satI64 (Int.tdiv ((a : Int) - _ * tps) tpn) = _
      unfold tps tpn
      rw [tdiv_nonneg_eq (by omega), sat _ (by omega) (by omega)]
      omega
  have hsn : ∀ k : Nat, signedNumeral 10 (k : Int) = numeral 10 k := by
    intro k; unfold signedNumeral; rw [if_neg (by omega)]; simp
  have hlt : durLt (.fin t) (.fin 0) = decide (t < 0) := rfl
  have habs : (if decide (t < 0) = true then absDur (.fin t) else .fin t) = Dur.fin (t.natAbs : Int) := by
    by_cases h : t < 0
    · rw [if_pos (by simpa using h)]
      show Dur.fin (if t < 0 then -t else t) = _
      rw [if_pos h]; congr 1; omega
    · rw [if_neg (by simpa using h)]; congr 1; omega
  obtain ⟨k1, k2⟩ := key t.natAbs (by omega)
  simp only [hlt, habs, k1, k2, hsn]
  have hnz : t.natAbs / 4000000000 ≠ 0 ∨ t.natAbs % 4000000000 / 4 ≠ 0 := by omega
  generalize t.natAbs / 4000000000 = sec at *
  generalize t.natAbs % 4000000000 / 4 = n at *
  have hsign : (if decide (t < 0) = true then [minus] else []) = (if t < 0 ∧ (sec ≠ 0 ∨ n ≠ 0) then [minus] else []) := by
    by_cases h : t < 0
    · rw [if_pos (by simpa using h), if_pos ⟨h, hnz⟩]
    · rw [if_neg (by simpa using h), if_neg (fun hh => h hh.1)]
  rw [hsign]
  by_cases hn : n = 0
  · subst hn; simp
  · rw [if_pos (show (n : Int) ≠ 0 by omega), if_pos hn]
    simp [formatNanos]

example : DurInRange (-1500000000 * 4) ∧ (-1500000000 * 4 : Int) % 4 = 0 := by unfold DurInRange; decide
example : formatString (.dur (.fin (-6000000000))) = .ok (asc "-1.500s") := by decide

/-! ### No undefined behaviour -/

theorem bind_ne_ub {α β : Type} {x : Res α} {f : α → Res β} (h1 : x ≠ .ub) (h2 : ∀ a, x = .ok a → f a ≠ .ub) :
    (x >>= f) ≠ .ub := by
  cases x with
  | ok a => exact h2 a rfl
  | err s => intro h; cases h
  | ub => exact absurd rfl h1

theorem collect_ne_ub : ∀ (es : List (FVal × Res (List Nat) × Res (List Nat))) (tree : List (List Nat × Res (List Nat))),
    (∀ e ∈ es, e.2.1 ≠ .ub ∧ e.2.2 ≠ .ub) → (∀ e ∈ tree, e.2 ≠ .ub) →
    collect es tree ≠ .ub ∧ ∀ t, collect es tree = .ok t → ∀ e ∈ t, e.2 ≠ .ub
  | [], tree, _, h2 => by
    refine ⟨(by intro h; cases h), ?_⟩
    intro t h; injection h with h; subst h; exact h2
  | (key, kt, vt) :: r, tree, h1, h2 => by
    have hk := h1 _ (List.mem_cons_self ..)
    have hr : ∀ e ∈ r, e.2.1 ≠ .ub ∧ e.2.2 ≠ .ub := fun e he => h1 e (List.mem_cons_of_mem _ he)
    have hemp : ∀ (k : List Nat) (tr : List (List Nat × Res (List Nat))), (∀ e ∈ tr, e.2 ≠ .ub) →
        ∀ e ∈ emplace k vt tr, e.2 ≠ .ub := by
      intro k tr
      induction tr with
      | nil =>
        intro _ e he
        simp only [emplace, List.mem_singleton] at he
        subst he; exact hk.2
      | cons x xs ih =>
        intro hx e he
        rw [emplace] at he
        split at he
        · rcases List.mem_cons.1 he with rfl | he
          · exact hk.2
          · exact hx e he
        · split at he
          · rcases List.mem_cons.1 he with rfl | he
            · exact hx _ (List.mem_cons_self ..)
            · exact ih (fun e he => hx e (List.mem_cons_of_mem _ he)) e he
          · exact hx e he
    rw [collect]
    by_cases hkk : keyKindOk key = true
    · rw [if_pos hkk]
      cases kt with
      | ok k => exact collect_ne_ub r _ hr (hemp k tree h2)
      | err s => exact ⟨(by intro h; cases h), fun t h => by cases h⟩
      | ub => exact absurd rfl hk.1
    · rw [if_neg hkk]; exact ⟨(by intro h; cases h), fun t h => by cases h⟩

theorem appendEntries_ne_ub : ∀ (tree : List (List Nat × Res (List Nat))) (s : List Nat), (∀ e ∈ tree, e.2 ≠ .ub) →
    appendEntries tree s ≠ .ub
  | [], s, _ => by intro h; cases h
  | (k, vt) :: r, s, h => by
    rw [appendEntries]
    exact bind_ne_ub (h _ (List.mem_cons_self ..)) fun v _ =>
      appendEntries_ne_ub r _ fun e he => h e (List.mem_cons_of_mem _ he)

mutual
theorem formatString_ne_ub : ∀ v : FVal, formatString v ≠ .ub
  | .list l => by
    rw [formatString_list]
    exact bind_ne_ub (formatItems_ne_ub l _) fun a _ h => by cases h
  | .map m => by
    rw [formatString_map]
    have hc := collect_ne_ub (entryTexts m) [] (entryTexts_ne_ub m) (by simp)
    exact bind_ne_ub hc.1 fun t ht => bind_ne_ub (appendEntries_ne_ub t _ (hc.2 t ht)) fun a _ h => by cases h
  | .null => by rw [formatString]; intro h; cases h
  | .bool _ => by rw [formatString]; intro h; cases h
  | .int _ => by rw [formatString]; intro h; cases h
  | .uint _ => by rw [formatString]; intro h; cases h
  | .dbl .nan => by rw [formatString]; intro h; cases h
  | .dbl (.inf false) => by rw [formatString]; intro h; cases h
  | .dbl (.inf true) => by rw [formatString]; intro h; cases h
  | .dbl (.fin _ _) => by rw [formatString]; intro h; cases h
  | .str _ => by rw [formatString]; intro h; cases h
  | .bytes _ => by rw [formatString]; intro h; cases h
  | .dur _ => by rw [formatString]; intro h; cases h
  | .ts _ => by rw [formatString]; intro h; cases h
  | .typ _ => by rw [formatString]; intro h; cases h
  | .other => by rw [formatString]; intro h; cases h
theorem formatItems_ne_ub : ∀ (l : List FVal) (s : List Nat), formatItems l s ≠ .ub
  | [], s => by rw [formatItems]; intro h; cases h
  | v :: vs, s => by
    rw [formatItems]
    have hv := formatString_ne_ub v
    cases hf : formatString v with
    | ok t => exact formatItems_ne_ub vs _
    | err e => intro h; cases h
    | ub => exact absurd hf hv
theorem entryTexts_ne_ub : ∀ (m : List (FVal × FVal)), ∀ e ∈ entryTexts m, e.2.1 ≠ .ub ∧ e.2.2 ≠ .ub
  | [], e, h => by rw [entryTexts] at h; cases h
  | (k, v) :: r, e, h => by
    rw [entryTexts] at h
    rcases List.mem_cons.1 h with rfl | h
    · exact ⟨formatString_ne_ub k, formatString_ne_ub v⟩
    · exact entryTexts_ne_ub r e h
end

theorem formatClause_ne_ub (c : Nat) (v : FVal) (p : Option Nat) : formatClause c v p ≠ .ub := by
  have hd : formatDecimal v ≠ .ub := by cases v <;> (intro h; cases h)
  have hb : formatBinary v ≠ .ub := by cases v <;> (intro h; cases h)
  have ho : formatOctal v ≠ .ub := by cases v <;> (intro h; cases h)
  have hx : ∀ u, formatHex v u ≠ .ub := by intro u; cases v <;> (intro h; cases h)
  have hg : getDouble v ≠ .ub := by
    cases v with
    | str s =>
      rw [getDouble]
      split
      · intro h; cases h
      · split
        · intro h; cases h
        · split <;> (intro h; cases h)
    | _ => intro h; cases h
  have hf : ∀ b, formatFloat v p b ≠ .ub := fun b => bind_ne_ub hg fun a _ h => by cases h
  unfold formatClause
  split
  · exact formatString_ne_ub v
  split
  · exact hd
  split
  · exact hf _
  split
  · exact hf _
  split
  · exact hb
  split
  · exact hx _
  split
  · exact ho
  · intro h; cases h

theorem parseAndFormat_ne_ub (fmt : List Nat) (v : FVal) (maxP : Nat) (hne : fmt ≠ []) : parseAndFormat fmt v maxP ≠ .ub := by
  unfold parseAndFormat
  apply bind_ne_ub
  · unfold parsePrecision
    split
    · simp only
      split
      · intro h; cases h
      · split
        · intro h; cases h
        · split <;> (intro h; cases h)
    · intro h; cases h
  · rintro ⟨read, prec⟩ hp
    have hlt : read < fmt.length := by
      unfold parsePrecision at hp
      split at hp
      · rename_i r
        simp only at hp
        have hle := (List.takeWhile_prefix (l := r) (fun c => decide (IsDigit c))).length_le
        split at hp
        · cases hp
        · rename_i hnl
          split at hp
          · cases hp
          · split at hp
            · cases hp
            · injection hp with hp
              injection hp with hp _
              rw [← hp]
              simp only [List.length_cons]
              omega
      · injection hp with hp
        injection hp with hp _
        rw [← hp]
        exact List.length_pos_iff.2 hne
    simp only [List.getElem?_eq_getElem hlt]
    exact bind_ne_ub (formatClause_ne_ub _ _ _) fun a _ h => by cases h

theorem formatLoop_ne_ub (args : List FVal) (maxP : Nat) : ∀ (fuel : Nat) (fmt : List Nat) (i : Nat) (out : List Nat),
    fmt.length ≤ fuel → formatLoop args maxP fuel fmt i out ≠ .ub
  | fuel, [], i, out, _ => by rw [formatLoop]; intro h; cases h
  | 0, c :: r, i, out, h => by simp at h
  | fuel + 1, c :: r, i, out, h => by
    have hr : r.length ≤ fuel := by simpa using h
    unfold formatLoop
    split
    · exact formatLoop_ne_ub args maxP fuel r i _ hr
    · cases r with
      | nil => intro h; cases h
      | cons d r' =>
        have hr' : r'.length ≤ fuel := by simp at hr; omega
        simp only
        split
        · exact formatLoop_ne_ub args maxP fuel r' i _ hr'
        · cases ha : args[i]? with
          | none => intro h; cases h
          | some v =>
            simp only
            refine bind_ne_ub (parseAndFormat_ne_ub _ _ _ (by simp)) ?_
            rintro ⟨read, t⟩ _
            exact formatLoop_ne_ub args maxP fuel _ _ _ (by simp only [List.length_drop, List.length_cons]; simp at hr; omega)

/-- **C66** `format` never reads outside its template or its arguments: it gives a text or an error. -/
theorem C66_total (fmt : List Nat) (args : List FVal) (maxP : Nat) :
    (∃ out, format fmt args maxP = .ok out) ∨ ∃ s, format fmt args maxP = .err s := by
  have := formatLoop_ne_ub args maxP fmt.length fmt 0 [] (Nat.le_refl _)
  cases h : format fmt args maxP with
  | ok out => exact .inl ⟨out, rfl⟩
  | err s => exact .inr ⟨s, rfl⟩
  | ub => exact absurd h this

/-- **C66** (limit) The result of `format` need not be valid text: bytes are copied as they are. -/
theorem C66_bytes_witness : format (asc "%s") [.bytes [255]] 1000 = .ok [255] := by decide

end Cel.Format
