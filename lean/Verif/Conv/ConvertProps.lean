import Verif.Conv.Convert
import Verif.Conv.ClockProps
import Verif.Text.Utf8Props

/-!
# C68: conversions to and from strings
-/

set_option linter.unusedSimpArgs false
set_option linter.unusedVariables false

namespace Cel.Conv
open Cel Cel.Num

/-! ### Numbers -/

/-- The texts of whole numbers: optional surrounding space, optional sign, decimal digits. -/
def IntText (s : List Nat) (i : Int) : Prop :=
  ∃ (pre sign ds post : List Nat) (n : Nat), s = pre ++ (sign ++ ds) ++ post ∧
    (∀ c ∈ pre, IsSpace c) ∧ (∀ c ∈ post, IsSpace c) ∧ (sign = [] ∨ sign = [43] ∨ sign = [45]) ∧
    ds ≠ [] ∧ readFrom 10 0 ds = some n ∧ i = (if sign = [45] then -(n : Int) else n)

/-- The same without a minus sign. -/
def UintText (s : List Nat) (i : Int) : Prop :=
  ∃ (pre sign ds post : List Nat) (n : Nat), s = pre ++ (sign ++ ds) ++ post ∧
    (∀ c ∈ pre, IsSpace c) ∧ (∀ c ∈ post, IsSpace c) ∧ (sign = [] ∨ sign = [43]) ∧
    ds ≠ [] ∧ readFrom 10 0 ds = some n ∧ i = n

theorem dropWhile_all {p : Nat → Bool} : ∀ (xs ys : List Nat), (∀ c ∈ xs, p c = true) →
    (xs ++ ys).dropWhile p = ys.dropWhile p
  | [], ys, _ => rfl
  | x :: xs, ys, h => by
    rw [List.cons_append, List.dropWhile_cons_of_pos (h x (List.mem_cons_self ..))]
    exact dropWhile_all xs ys fun c hc => h c (List.mem_cons_of_mem _ hc)

/-- Trimming a text whose middle neither starts nor ends with space gives the middle. -/
theorem trim_mid {pre mid post : List Nat} (h1 : ∀ c ∈ pre, IsSpace c) (h2 : ∀ c ∈ post, IsSpace c)
    (hne : mid ≠ []) (ha : ∀ c, mid.head? = some c → ¬ IsSpace c) (hb : ∀ c, mid.getLast? = some c → ¬ IsSpace c) :
    trim (pre ++ mid ++ post) = mid := by
  unfold trim
  rw [List.append_assoc, dropWhile_all _ _ (by simpa using h1)]
  cases mid with
  | nil => exact absurd rfl hne
  | cons c cs =>
    have hc := ha c rfl
    rw [List.cons_append, List.dropWhile_cons_of_neg (by simpa using hc), ← List.cons_append, List.reverse_append,
      dropWhile_all _ _ (by simpa using h2)]
    rcases hr : (c :: cs).reverse with _ | ⟨d, ds⟩
    · simp at hr
    · have hl : (c :: cs).getLast? = some d := by
        rw [List.getLast?_eq_head?_reverse, hr]; rfl
      have hd := hb d hl
      rw [List.dropWhile_cons_of_neg (by simpa using hd), ← hr, List.reverse_reverse]

/-- Every text splits into space, its trimmed middle, and space. -/
theorem trim_split (s : List Nat) : ∃ pre post, s = pre ++ trim s ++ post ∧
    (∀ c ∈ pre, IsSpace c) ∧ (∀ c ∈ post, IsSpace c) := by
  have key : ∀ l : List Nat, ∃ p, l = p ++ (l.dropWhile fun c => decide (IsSpace c)) ∧ ∀ c ∈ p, IsSpace c := by
    intro l
    induction l with
    | nil => exact ⟨[], rfl, by simp⟩
    | cons x xs ih =>
      by_cases hx : IsSpace x
      · obtain ⟨p, h1, h2⟩ := ih
        refine ⟨x :: p, ?_, ?_⟩
        · rw [List.dropWhile_cons_of_pos (by simpa using hx), List.cons_append, ← h1]
        · intro c hc
          rcases List.mem_cons.1 hc with rfl | hc
          · exact hx
          · exact h2 c hc
      · exact ⟨[], by rw [List.dropWhile_cons_of_neg (by simpa using hx)]; rfl, by simp⟩
  obtain ⟨p, hp, hps⟩ := key s
  obtain ⟨q, hq, hqs⟩ := key (s.dropWhile fun c => decide (IsSpace c)).reverse
  refine ⟨p, q.reverse, ?_, hps, by simpa using hqs⟩
  have h2 := congrArg List.reverse hq
  rw [List.reverse_reverse, List.reverse_append] at h2
  unfold trim
  rw [List.append_assoc, ← h2, ← hp]

theorem parsePos_iff (vmax : Int) (hv : 0 ≤ vmax) : ∀ (ds : List Nat) (acc : Nat) (i : Int), (acc : Int) ≤ vmax →
    (parsePos vmax ds (acc : Int) = some i ↔ ∃ n : Nat, readFrom 10 acc ds = some n ∧ i = n ∧ i ≤ vmax)
  | [], acc, i, ha => by
    simp only [parsePos, readFrom]
    constructor
    · intro h; injection h with h; exact ⟨acc, rfl, h.symm, by omega⟩
    · rintro ⟨n, h, rfl, _⟩; injection h with h; rw [h]
  | c :: ds, acc, i, ha => by
    unfold parsePos
    by_cases hd : IsDigit c
    · rw [if_neg (fun h => h hd)]
      have hdv := (digitVal10.1 hd).1
      simp only [readFrom, hdv]
      have := hd.1
      have := hd.2
      have hcast : ((acc * 10 + (c - 48) : Nat) : Int) = (acc : Int) * 10 + ((c : Int) - 48) := by omega
      by_cases h1 : (acc : Int) > vmax / 10
      · rw [if_pos h1]
        constructor
        · intro h; cases h
        · rintro ⟨n, h, rfl, hle⟩
          have := readFrom_mono 10 (by omega) _ _ _ h
          omega
      · rw [if_neg h1]
        by_cases h2 : (acc : Int) * 10 > vmax - ((c : Int) - 48)
        · rw [if_pos h2]
          constructor
          · intro h; cases h
          · rintro ⟨n, h, rfl, hle⟩
            have := readFrom_mono 10 (by omega) _ _ _ h
            omega
        · rw [if_neg h2, ← hcast]
          exact parsePos_iff vmax hv ds _ i (by omega)
    · rw [if_pos hd]
      constructor
      · intro h; cases h
      · rintro ⟨n, h, _⟩
        exact absurd (digits_of_read _ _ _ h c (List.mem_cons_self ..)) hd

theorem parseNeg_iff : ∀ (ds : List Nat) (acc : Nat) (i : Int), i64Min ≤ -(acc : Int) →
    (parseNeg i64Min ds (-(acc : Int)) = some i ↔ ∃ n : Nat, readFrom 10 acc ds = some n ∧ i = -(n : Int) ∧ i64Min ≤ i)
  | [], acc, i, ha => by
    simp only [parseNeg, readFrom]
    constructor
    · intro h; injection h with h; exact ⟨acc, rfl, h.symm, by omega⟩
    · rintro ⟨n, h, rfl, _⟩; injection h with h; rw [h]
  | c :: ds, acc, i, ha => by
    unfold parseNeg
    have ht : Int.tdiv i64Min 10 = -922337203685477580 := by decide
    rw [ht]
    by_cases hd : IsDigit c
    · rw [if_neg (fun h => h hd)]
      have hdv := (digitVal10.1 hd).1
      simp only [readFrom, hdv]
      have := hd.1
      have := hd.2
      have hcast : -((acc * 10 + (c - 48) : Nat) : Int) = -(acc : Int) * 10 - ((c : Int) - 48) := by omega
      unfold i64Min at *
      by_cases h1 : -(acc : Int) < -922337203685477580
      · rw [if_pos h1]
        constructor
        · intro h; cases h
        · rintro ⟨n, h, rfl, hle⟩
          have := readFrom_mono 10 (by omega) _ _ _ h
          omega
      · rw [if_neg h1]
        by_cases h2 : -(acc : Int) * 10 < -9223372036854775808 + ((c : Int) - 48)
        · rw [if_pos h2]
          constructor
          · intro h; cases h
          · rintro ⟨n, h, rfl, hle⟩
            have := readFrom_mono 10 (by omega) _ _ _ h
            omega
        · rw [if_neg h2, ← hcast]
          exact parseNeg_iff ds _ i (by unfold i64Min; omega)
    · rw [if_pos hd]
      constructor
      · intro h; cases h
      · rintro ⟨n, h, _⟩
        exact absurd (digits_of_read _ _ _ h c (List.mem_cons_self ..)) hd

theorem digits_ends {sign ds : List Nat} {n : Nat} (hs : sign = [] ∨ sign = [43] ∨ sign = [45]) (hne : ds ≠ [])
    (h : readFrom 10 0 ds = some n) :
    sign ++ ds ≠ [] ∧ (∀ c, (sign ++ ds).head? = some c → ¬ IsSpace c) ∧
      (∀ c, (sign ++ ds).getLast? = some c → ¬ IsSpace c) := by
  have hd := digits_of_read _ _ _ h
  have hsp : ∀ c, IsDigit c → ¬ IsSpace c := by intro c h; unfold IsDigit at h; unfold IsSpace; omega
  refine ⟨by simp [hne], ?_, ?_⟩
  · intro c hc
    rcases hs with rfl | rfl | rfl
    · rw [List.nil_append] at hc
      exact hsp _ (hd c (List.mem_of_mem_head? hc))
    · simp at hc; subst hc; unfold IsSpace; omega
    · simp at hc; subst hc; unfold IsSpace; omega
  · intro c hc
    rcases snoc_cases ds with rfl | ⟨xs, x, rfl⟩
    · exact absurd rfl hne
    · rw [← List.append_assoc, List.getLast?_concat] at hc
      injection hc with hc; subst hc
      exact hsp _ (hd x (by simp))

theorem simpleAtoi64_iff (s : List Nat) (i : Int) : simpleAtoi64 s = some i ↔ IntText s i ∧ InI64 i := by
  constructor
  · intro h
    obtain ⟨pre, post, hs, hpre, hpost⟩ := trim_split s
    unfold simpleAtoi64 at h
    split at h
    · cases h
    · rename_i r heq
      split at h
      · cases h
      · rename_i hr
        obtain ⟨n, h1, h2, h3⟩ := (parseNeg_iff r 0 i (by decide)).1 (by simpa using h)
        refine ⟨⟨pre, [45], r, post, n, by rw [hs, heq]; simp, hpre, hpost, by simp, hr, h1, by simpa using h2⟩, ?_⟩
        unfold InI64; unfold i64Min i64Max at *; omega
    · rename_i r heq
      split at h
      · cases h
      · rename_i hr
        obtain ⟨n, h1, h2, h3⟩ := (parsePos_iff i64Max (by decide) r 0 i (by decide)).1 (by simpa using h)
        refine ⟨⟨pre, [43], r, post, n, by rw [hs, heq]; simp, hpre, hpost, by simp, hr, h1, by simpa using h2⟩, ?_⟩
        unfold InI64; unfold i64Min i64Max at *; omega
    · rename_i r hne h45 h43
      obtain ⟨n, h1, h2, h3⟩ := (parsePos_iff i64Max (by decide) (trim s) 0 i (by decide)).1 (by simpa using h)
      refine ⟨⟨pre, [], trim s, post, n, by simpa using hs, hpre, hpost, by simp, hne, h1, by simpa using h2⟩, ?_⟩
      unfold InI64; unfold i64Min i64Max at *; omega
  · rintro ⟨⟨pre, sign, ds, post, n, rfl, hpre, hpost, hsign, hne, hread, hi⟩, hin⟩
    obtain ⟨e1, e2, e3⟩ := digits_ends hsign hne hread
    unfold simpleAtoi64
    rw [trim_mid hpre hpost e1 e2 e3]
    unfold InI64 at hin
    rcases hsign with rfl | rfl | rfl
    · cases ds with
      | nil => exact absurd rfl hne
      | cons c cs =>
        have hd := digits_of_read _ _ _ hread c (List.mem_cons_self ..)
        unfold IsDigit at hd
        rw [List.nil_append]
        split
        · rename_i heq; cases heq
        · rename_i heq; injection heq with h1; omega
        · rename_i heq; injection heq with h1; omega
        · exact (parsePos_iff i64Max (by decide) _ 0 i (by decide)).2 ⟨n, hread, by simpa using hi, hin.2⟩
    · show (if ds = [] then none else parsePos i64Max ds 0) = _
      rw [if_neg hne]
      exact (parsePos_iff i64Max (by decide) _ 0 i (by decide)).2 ⟨n, hread, by simpa using hi, hin.2⟩
    · show (if ds = [] then none else parseNeg i64Min ds 0) = _
      rw [if_neg hne]
      exact (parseNeg_iff _ 0 i (by decide)).2 ⟨n, hread, by simpa using hi, hin.1⟩

theorem simpleAtoiU64_iff (s : List Nat) (i : Int) : simpleAtoiU64 s = some i ↔ UintText s i ∧ i ≤ u64Max := by
  constructor
  · intro h
    obtain ⟨pre, post, hs, hpre, hpost⟩ := trim_split s
    unfold simpleAtoiU64 at h
    split at h
    · cases h
    · cases h
    · rename_i r heq
      split at h
      · cases h
      · rename_i hr
        obtain ⟨n, h1, h2, h3⟩ := (parsePos_iff u64Max (by decide) r 0 i (by decide)).1 (by simpa using h)
        exact ⟨⟨pre, [43], r, post, n, by rw [hs, heq]; simp, hpre, hpost, by simp, hr, h1, by simpa using h2⟩, h3⟩
    · rename_i r hne h45 h43
      obtain ⟨n, h1, h2, h3⟩ := (parsePos_iff u64Max (by decide) (trim s) 0 i (by decide)).1 (by simpa using h)
      exact ⟨⟨pre, [], trim s, post, n, by simpa using hs, hpre, hpost, by simp, hne, h1, by simpa using h2⟩, h3⟩
  · rintro ⟨⟨pre, sign, ds, post, n, rfl, hpre, hpost, hsign, hne, hread, hi⟩, hin⟩
    obtain ⟨e1, e2, e3⟩ := digits_ends (sign := sign) (by rcases hsign with h | h <;> simp [h]) hne hread
    unfold simpleAtoiU64
    rw [trim_mid hpre hpost e1 e2 e3]
    rcases hsign with rfl | rfl
    · cases ds with
      | nil => exact absurd rfl hne
      | cons c cs =>
        have hd := digits_of_read _ _ _ hread c (List.mem_cons_self ..)
        unfold IsDigit at hd
        rw [List.nil_append]
        split
        · rename_i heq; cases heq
        · rename_i heq; injection heq with h1; omega
        · rename_i heq; injection heq with h1; omega
        · exact (parsePos_iff u64Max (by decide) _ 0 i (by decide)).2 ⟨n, hread, by simpa using hi, hin⟩
    · show (if ds = [] then none else parsePos u64Max ds 0) = _
      rw [if_neg hne]
      exact (parsePos_iff u64Max (by decide) _ 0 i (by decide)).2 ⟨n, hread, by simpa using hi, hin⟩

/-- **C68** `int(string)` accepts exactly the texts of the 64-bit integers, with their values. -/
theorem C68_int_of_string (s : List Nat) (i : Int) : intOfString s = .ok i ↔ IntText s i ∧ InI64 i := by
  unfold intOfString
  rw [← simpleAtoi64_iff]
  cases simpleAtoi64 s <;> simp

/-- **C68** `uint(string)` accepts exactly the unsigned texts of the 64-bit naturals. -/
theorem C68_uint_of_string (s : List Nat) (i : Int) : uintOfString s = .ok i ↔ UintText s i ∧ i ≤ u64Max := by
  unfold uintOfString
  rw [← simpleAtoiU64_iff]
  cases simpleAtoiU64 s <;> simp

/-- Everything else is the documented error. -/
theorem C68_int_of_string_error (s : List Nat) (h : ∀ i, ¬ (IntText s i ∧ InI64 i)) :
    intOfString s = .err ⟨.invalidArgument, "cannot convert string to int"⟩ := by
  cases hs : simpleAtoi64 s with
  | none => unfold intOfString; rw [hs]
  | some i => exact absurd ((simpleAtoi64_iff s i).1 hs) (h i)

theorem C68_uint_of_string_error (s : List Nat) (h : ∀ i, ¬ (UintText s i ∧ i ≤ u64Max)) :
    uintOfString s = .err ⟨.invalidArgument, "cannot convert string to uint"⟩ := by
  cases hs : simpleAtoiU64 s with
  | none => unfold uintOfString; rw [hs]
  | some i => exact absurd ((simpleAtoiU64_iff s i).1 hs) (h i)

/-- **C68** `int(string(i)) == i` for every `int`. -/
theorem C68_int_roundtrip (i : Int) (h : InI64 i) : intOfString (stringOfInt i) = .ok i := by
  rw [C68_int_of_string]
  refine ⟨?_, h⟩
  unfold stringOfInt signedNumeral
  have hr := numeral_reads (b := 10) (by omega) (by omega) i.natAbs
  split
  · exact ⟨[], [45], numeral 10 i.natAbs, [], i.natAbs, by simp [minus], by simp, by simp, by simp, hr.nonempty,
      hr.value, by simp; omega⟩
  · exact ⟨[], [], numeral 10 i.natAbs, [], i.natAbs, by simp, by simp, by simp, by simp, hr.nonempty,
      hr.value, by simp; omega⟩

/-- **C68** `uint(string(u)) == u` for every `uint`. -/
theorem C68_uint_roundtrip (u : Int) (h0 : 0 ≤ u) (h : u ≤ u64Max) : uintOfString (stringOfUint u) = .ok u := by
  rw [C68_uint_of_string]
  refine ⟨?_, h⟩
  unfold stringOfUint signedNumeral
  have hr := numeral_reads (b := 10) (by omega) (by omega) u.natAbs
  rw [if_neg (by omega)]
  exact ⟨[], [], numeral 10 u.natAbs, [], u.natAbs, by simp, by simp, by simp, by simp, hr.nonempty,
    hr.value, by omega⟩

/-- **C68** `bool(string(b)) == b`. -/
theorem C68_bool_roundtrip (b : Bool) : boolOfString (stringOfBool b) = .ok b := by
  cases b <;> decide

/-- **C68** `bool(string)` accepts exactly ten texts. -/
theorem C68_bool_of_string (s : List Nat) (b : Bool) : boolOfString s = .ok b ↔
    (b = true ∧ s ∈ [asc "true", asc "True", asc "TRUE", asc "t", asc "1"]) ∨
    (b = false ∧ s ∈ [asc "false", asc "False", asc "FALSE", asc "f", asc "0"]) := by
  unfold boolOfString
  simp only [List.mem_cons, List.not_mem_nil, or_false]
  constructor
  · intro h
    split at h
    · rename_i hc; injection h with h; subst h; exact .inl ⟨rfl, hc⟩
    · split at h
      · rename_i hc; injection h with h; subst h
        exact .inr ⟨rfl, by rcases hc with h | h | h | h | h <;> simp [h]⟩
      · cases h
  · rintro (⟨rfl, hc⟩ | ⟨rfl, hc⟩)
    · rw [if_pos hc]
    · rcases hc with rfl | rfl | rfl | rfl | rfl <;> decide

/-- **C68** `string(bytes)` succeeds exactly on well-formed UTF-8 and never changes a byte, so
`bytes(string(b)) == b`. -/
theorem C68_string_of_bytes (b : List Nat) (hb : Text.Spec.Bytes b) :
    (Text.Spec.WellFormed b → stringOfBytes b = .ok b) ∧
    (¬ Text.Spec.WellFormed b → stringOfBytes b = .err ⟨.invalidArgument, "malformed UTF-8 bytes"⟩) := by
  obtain ⟨⟨v, h1, h2⟩, _⟩ := Text.C13_validation_exact b hb
  unfold stringOfBytes
  rw [h1]
  cases v with
  | true => simp only [Res.mbind_ok]; exact ⟨fun _ => rfl, fun h => absurd (h2.1 rfl) h⟩
  | false => simp only [Res.mbind_ok]; exact ⟨fun h => absurd (h2.2 h) (by simp), fun _ => rfl⟩

/-- **C68** `string(bytes(s)) == s` for every string. -/
theorem C68_bytes_roundtrip (s : List Nat) (hb : Text.Spec.Bytes s) (hs : Text.Spec.WellFormed s) :
    stringOfBytes (bytesOfString s) = .ok s := (C68_string_of_bytes s hb).1 hs

/-! ### Durations -/

/-- **C68** `duration(string(d)) == d` for every duration in range made of whole nanoseconds. -/
theorem C68_duration_roundtrip (t : Int) (hr : DurInRange t) (hns : t % 4 = 0) :
    ∃ text, stringOfDuration (.fin t) = .ok text ∧ SecondsText text t ∧ durationOfString text = .ok (.fin t) := by
  obtain ⟨text, h1, h2⟩ := encodeDuration_spec t hr.1 hr.2 hns
  exact ⟨text, h1, h2, durationOfString_text h2 hr⟩

/-- **C68** A duration outside the range has no string, and no string denotes one. -/
theorem C68_duration_range (d : Dur) :
    (∀ t, d = .fin t → ¬ DurInRange t → ∃ s, stringOfDuration d = .err s) ∧
    (∀ b, d = .inf b → ∃ s, stringOfDuration d = .err s) ∧
    (∀ text, durationOfString text = .ok d → ∃ t, d = .fin t ∧ DurInRange t) := by
  have hval : ∀ d, validateDuration d = none ↔ ∃ t, d = .fin t ∧ DurInRange t := by
    intro d
    cases d with
    | inf b => cases b <;> simp [validateDuration, durLt]
    | fin t =>
      unfold validateDuration durLt DurInRange
      simp only [decide_eq_true_eq]
      constructor
      · intro h
        split at h
        · cases h
        · split at h
          · cases h
          · exact ⟨t, rfl, by omega, by omega⟩
      · rintro ⟨t', h, h1, h2⟩
        injection h with h; subst h
        rw [if_neg (by omega), if_neg (by omega)]
  refine ⟨?_, ?_, ?_⟩
  · rintro t rfl hr
    unfold stringOfDuration encodeDuration
    cases hv : validateDuration (.fin t) with
    | some s => exact ⟨s, rfl⟩
    | none =>
      obtain ⟨t', h, h'⟩ := (hval _).1 hv
      injection h with h; subst h; exact absurd h' hr
  · rintro b rfl
    unfold stringOfDuration encodeDuration
    cases hv : validateDuration (.inf b) with
    | some s => exact ⟨s, rfl⟩
    | none => obtain ⟨t', h, h'⟩ := (hval _).1 hv; cases h
  · intro text h
    unfold durationOfString at h
    split at h
    · cases h
    · rename_i d' _
      split at h
      · cases h
      · rename_i hv; injection h with h; subst h; exact (hval _).1 hv

end Cel.Conv
