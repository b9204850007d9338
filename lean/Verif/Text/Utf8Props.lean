import Verif.Text.Utf8Sim

set_option linter.unusedSimpArgs false
set_option linter.unusedVariables false

/-! # C13–C16: UTF-8 validation, decoding, encoding, counting -/

namespace Cel.Text
open Cel Spec

/-- C13: on every byte string `Utf8IsValid` returns (no undefined behaviour) and says true exactly
for well-formed UTF-8; `Utf8Validate` returns the same verdict together with the number of scalar
values in the longest well-formed prefix. -/
theorem C13_validation_exact (bs : List Nat) (hb : Bytes bs) :
    (∃ v, utf8IsValid bs = .ok v ∧ (v = true ↔ WellFormed bs)) ∧
    (∃ n v, utf8Validate bs = .ok (n, v) ∧ (v = true ↔ WellFormed bs) ∧
      (∃ cs, Scalars cs ∧ encAll cs <+: bs ∧ cs.length = n) ∧
      (∀ cs, Scalars cs → encAll cs <+: bs → cs.length ≤ n)) := by
  refine ⟨isValid_spec sim_string _ bs bs rfl (by omega) hb, ?_⟩
  obtain ⟨cs, rest, hv, hsc, e, hno⟩ := validate_spec sim_string _ 0 bs bs rfl (Nat.lt_succ_self _) hb
  refine ⟨cs.length, decide (rest = []), ?_, ?_, ⟨cs, hsc, ⟨rest, e.symm⟩, rfl⟩, ?_⟩
  · unfold utf8Validate; rw [hv, Nat.zero_add]
  · constructor
    · intro h
      simp only [decide_eq_true_eq] at h
      subst h; exact ⟨cs, hsc, by simpa using e⟩
    · intro hw
      simp only [decide_eq_true_eq]
      apply Classical.byContradiction; intro hne
      have key : ∀ cs, Scalars cs → WellFormed (encAll cs ++ rest) → WellFormed rest := by
        intro cs
        induction cs with
        | nil => intro _ h; simpa [encAll] using h
        | cons c cs ih =>
          intro hs h
          have h' : WellFormed (enc c ++ (encAll cs ++ rest)) := by
            simpa [encAll, List.append_assoc] using h
          exact ih (fun x hx => hs x (by simp [hx])) ((wf_cons (hs c (by simp))).1 h')
      exact not_wf_of_noPrefix hne (hno hne) (key cs hsc (e ▸ hw))
  · rintro ds hds ⟨t, ht⟩
    have key : ∀ cs ds : List Nat, Scalars cs → Scalars ds →
        encAll ds ++ t = encAll cs ++ rest → ds.length ≤ cs.length := by
      intro cs
      induction cs with
      | nil =>
        intro ds _ hd h
        cases ds with
        | nil => simp
        | cons d ds =>
          exfalso
          have h' : rest = enc d ++ (encAll ds ++ t) := by
            simpa [encAll, List.append_assoc] using h.symm
          have hne : rest ≠ [] := by
            intro hr; rw [hr] at h'
            exact enc_ne_nil d (List.append_eq_nil_iff.1 h'.symm).1
          exact hno hne d (hd d (by simp)) ⟨_, h'.symm⟩
      | cons c cs ih =>
        intro ds hc hd h
        cases ds with
        | nil => simp
        | cons d ds =>
          have h' : enc d ++ (encAll ds ++ t) = enc c ++ (encAll cs ++ rest) := by
            simpa [encAll, List.append_assoc] using h
          obtain ⟨-, h2⟩ := enc_inj (hd d (by simp)) (hc c (by simp)) h'
          have := ih ds (fun x hx => hc x (by simp [hx])) (fun x hx => hd x (by simp [hx])) h2
          simp; omega
    exact key cs ds hsc hds (ht.trans e)

/-- Non-vacuity: "é€😀" is well formed and accepted; an overlong slash and a surrogate are rejected. -/
example : Bytes (encAll [0xE9, 0x20AC, 0x1F600]) ∧ Scalars [0xE9, 0x20AC, 0x1F600] ∧
    utf8IsValid (encAll [0xE9, 0x20AC, 0x1F600]) = .ok true ∧
    utf8IsValid [0xC0, 0xAF] = .ok false ∧ utf8Validate [0x41, 0xED, 0xA0, 0x80] = .ok (1, false) := by
  refine ⟨?_, ?_, by decide, by decide, by decide⟩
  · unfold Bytes; decide
  · unfold Scalars; decide

/-! ## C14 -/

theorem encode_eq_enc (c : Nat) (h : IsScalar c) : utf8Encode c = enc c := by
  have hv : unicodeIsValid c = true := by
    unfold unicodeIsValid IsScalar at *
    simp only [Bool.or_eq_true, Bool.and_eq_true, decide_eq_true_eq]; omega
  have hle : c ≤ 0x10FFFF := by unfold IsScalar at h; omega
  have t : ∀ x, x < 64 → kTX ||| x = 0x80 + x := by
    intro x hx
    have := Nat.two_pow_add_eq_or_of_lt (i := 7) (b := x) (by omega) 1
    simpa [kTX] using this.symm
  unfold utf8Encode enc
  simp only [hv, if_true, kMaskX, and3f, Nat.shiftRight_eq_div_pow]
  by_cases h1 : c ≤ 0x7f
  · rw [if_pos h1, if_pos (by omega)]; congr 1; omega
  · rw [if_neg h1, if_neg (by omega : ¬ c < 0x80)]
    by_cases h2 : c ≤ 0x7ff
    · rw [if_pos h2, if_pos (by omega), t _ (by omega)]
      have a : kT2 ||| (c / 2 ^ 6 % 256) = 0xC0 + c / 64 := by
        have := Nat.two_pow_add_eq_or_of_lt (i := 6) (b := c / 2 ^ 6 % 256) (by omega) 3
        rw [show 2 ^ 6 * 3 = kT2 from rfl] at this; rw [← this]; simp only [kT2]; omega
      rw [a]; congr 2; omega
    · rw [if_neg h2, if_neg (by omega : ¬ c < 0x800)]
      by_cases h3 : c ≤ 0xffff
      · rw [if_pos h3, if_pos (by omega), t _ (by omega), t _ (by omega)]
        have a : kT3 ||| (c / 2 ^ 12 % 256) = 0xE0 + c / 4096 := by
          have := Nat.two_pow_add_eq_or_of_lt (i := 5) (b := c / 2 ^ 12 % 256) (by omega) 7
          rw [show 2 ^ 5 * 7 = kT3 from rfl] at this; rw [← this]; simp only [kT3]; omega
        rw [a]; congr 2
        · omega
        · congr 1; omega
      · rw [if_neg h3, if_neg (by omega : ¬ c < 0x10000), t _ (by omega), t _ (by omega), t _ (by omega)]
        have a : kT4 ||| (c / 2 ^ 18 % 256) = 0xF0 + c / 262144 := by
          have := Nat.two_pow_add_eq_or_of_lt (i := 4) (b := c / 2 ^ 18 % 256) (by omega) 15
          rw [show 2 ^ 4 * 15 = kT4 from rfl] at this; rw [← this]; simp only [kT4]; omega
        rw [a]; congr 2
        · omega
        · congr 1
          · omega
          · congr 1; omega

theorem decode_scalar (c : Nat) (h : IsScalar c) (r : List Nat) (hr : Bytes r) :
    utf8Decode (enc c ++ r) = .ok (c, (enc c).length) := by
  obtain ⟨b, t, hbt⟩ : ∃ b t, enc c ++ r = b :: t := by
    cases hh : enc c with
    | nil => exact absurd hh (enc_ne_nil c)
    | cons x y => exact ⟨x, y ++ r, rfl⟩
  have hbytes : Bytes (enc c ++ r) := by
    intro x hx; simp at hx; rcases hx with hx | hx
    · exact enc_bytes h x hx
    · exact hr x hx
  rw [hbt] at hbytes
  obtain ⟨hb0, ht⟩ := bytes_tail hbytes
  rw [hbt]
  unfold utf8Decode kUtf8RuneSelf
  rcases head_cases b t hb0 with ⟨k, hs, he⟩ | ⟨k, d, hd, hx, hle, h1, h3, hok, he, hdec⟩ | ⟨k, hno, hrej⟩
  · have : enc c ++ r = enc b ++ t := by rw [hbt, he]; rfl
    obtain ⟨rfl, -⟩ := enc_inj h hs this
    simp only [k, if_true, he]; rfl
  · have : enc c ++ r = enc d ++ t.drop ((kLeading b &&& 7) - 1) := by rw [hbt, accepts_split he]
    obtain ⟨rfl, -⟩ := enc_inj h hd this
    have hlen : (enc c).length = (kLeading b &&& 7) := by
      rw [he]; simp; omega
    simp only
    rw [if_neg (show ¬ b < 0x80 by omega), hlen]
    rw [if_neg hx, if_neg (show ¬ (kLeading b &&& 7) - 1 > t.length by omega), hdec t (.inl rfl)]
  · exact absurd ⟨r, hbt⟩ (hno c h)

theorem decode_bad (bs : List Nat) (hne : bs ≠ []) (hb : Bytes bs) (hno : NoScalarAt bs) :
    utf8Decode bs = .ok (0xFFFD, 1) := by
  cases bs with
  | nil => exact absurd rfl hne
  | cons b r =>
    obtain ⟨hb0, hr⟩ := bytes_tail hb
    unfold utf8Decode kUtf8RuneSelf
    rcases head_cases b r hb0 with ⟨k, hs, he⟩ | ⟨k, d, hd, hx, hle, h1, h3, hok, he, hdec⟩ | ⟨k, hno', hrej⟩
    · exact absurd ⟨r, by rw [he]; rfl⟩ (hno b hs)
    · exact absurd ⟨_, (accepts_split he).symm⟩ (hno d hd)
    · simp only [if_neg (show ¬ b < 0x80 by omega)]
      rcases hrej with hx | ⟨hx, hgt⟩ | ⟨hx, hle, h3, h1, hok, hdec⟩
      · rw [if_pos hx]; rfl
      · rw [if_neg hx, if_pos hgt]; rfl
      · rw [if_neg hx, if_neg (by omega), hdec r (.inl rfl)]; rfl

/-- C14: `Utf8Decode` reads back what `Utf8Encode` wrote, whatever bytes follow; encoding a scalar
value gives its UTF-8 form and encoding anything else gives U+FFFD; decoding is defined on every non-empty
input, consumes exactly the encoded scalar value when one starts there (so re-encoding gives back the
consumed bytes) and otherwise yields U+FFFD and consumes one byte. -/
theorem C14_encode_decode_roundtrip :
    (∀ c, IsScalar c → utf8Encode c = enc c ∧
      ∀ r, Bytes r → utf8Decode (utf8Encode c ++ r) = .ok (c, (utf8Encode c).length)) ∧
    (∀ c, ¬ IsScalar c → utf8Encode c = enc 0xFFFD) ∧
    (∀ bs, Bytes bs → bs ≠ [] →
      (∃ c n, utf8Decode bs = .ok (c, n) ∧ IsScalar c ∧ utf8Encode c = bs.take n ∧
        n = (enc c).length) ∨
      (NoScalarAt bs ∧ utf8Decode bs = .ok (0xFFFD, 1))) := by
  refine ⟨fun c h => ⟨encode_eq_enc c h, fun r hr => ?_⟩, fun c h => ?_, fun bs hb hne => ?_⟩
  · rw [encode_eq_enc c h]; exact decode_scalar c h r hr
  · have hv : unicodeIsValid c = false := by
      unfold unicodeIsValid IsScalar at *
      rw [Bool.or_eq_false_iff, Bool.and_eq_false_iff, decide_eq_false_iff_not,
        decide_eq_false_iff_not, decide_eq_false_iff_not]; omega
    have h2 : utf8Encode c = utf8Encode 0xFFFD := by
      unfold utf8Encode
      rw [hv]
      simp only [Bool.false_eq_true, if_false, kUnicodeReplacementCharacter]
      rfl
    rw [h2]; exact encode_eq_enc _ (.inr (by omega))
  · by_cases h : NoScalarAt bs
    · exact .inr ⟨h, decode_bad bs hne hb h⟩
    · unfold NoScalarAt at h
      simp only [Classical.not_forall, Classical.not_not] at h
      obtain ⟨c, hc, r, hr⟩ := h
      left
      have hbr : Bytes r := fun x hx => hb x (by rw [← hr]; simp [hx])
      refine ⟨c, (enc c).length, ?_, hc, ?_, rfl⟩
      · rw [← hr]; exact decode_scalar c hc r hbr
      · rw [encode_eq_enc c hc, ← hr]; simp

example : IsScalar 0x20AC ∧ Bytes [0xFF] ∧ utf8Encode 0x20AC = [0xE2, 0x82, 0xAC] ∧
    utf8Decode [0xE2, 0x82, 0xAC, 0xFF] = .ok (0x20AC, 3) ∧ ¬ IsScalar 0xD800 ∧
    utf8Encode 0xD800 = [0xEF, 0xBF, 0xBD] := by
  refine ⟨by decide, by unfold Bytes; decide, by decide, by decide, by decide, by decide⟩

/-! ## C16 -/

/-- C16: the code point count of any byte string is the number of steps of the left-to-right
segmentation (whole scalar values, single undecodable bytes), in particular the number of scalar
values for well-formed strings; it is additive when the left part is well formed. -/
theorem C16_code_point_count :
    (∀ bs, Bytes bs → ∃ n, utf8CodePointCount bs = .ok n ∧ ∀ m, Segments bs m ↔ m = n) ∧
    (∀ cs, Scalars cs → utf8CodePointCount (encAll cs) = .ok cs.length) ∧
    (∀ cs bs n, Scalars cs → Bytes bs → utf8CodePointCount bs = .ok n →
      utf8CodePointCount (encAll cs ++ bs) = .ok (cs.length + n)) := by
  have tot : ∀ bs, Bytes bs → ∃ n, utf8CodePointCount bs = .ok n ∧ Segments bs n := by
    intro bs hb
    obtain ⟨n, h1, h2⟩ := count_spec (bs.length + 1) 0 bs (Nat.lt_succ_self _) hb
    rw [Nat.zero_add] at h1
    exact ⟨n, h1, h2⟩
  have hbytes : ∀ cs, Scalars cs → Bytes (encAll cs) := by
    intro cs hcs x hx
    simp only [encAll, List.mem_flatMap] at hx
    obtain ⟨d, hd, hxd⟩ := hx
    exact enc_bytes (hcs d hd) x hxd
  refine ⟨fun bs hb => ?_, fun cs hcs => ?_, fun cs bs n hcs hb hn => ?_⟩
  · obtain ⟨n, h1, h2⟩ := tot bs hb
    exact ⟨n, h1, fun m => ⟨fun h => segments_unique h h2, fun h => h ▸ h2⟩⟩
  · have := count_wf_spec sim_string ((encAll cs).length + 1) 0 (encAll cs) cs hcs rfl
      (Nat.lt_succ_self _)
    rw [Nat.zero_add] at this; exact this
  · obtain ⟨m, h1, h2⟩ := tot bs hb
    have e : n = m := by rw [h1] at hn; cases hn; rfl
    subst e
    obtain ⟨k, h3, h4⟩ := tot (encAll cs ++ bs) (by
      intro x hx; simp only [List.mem_append] at hx
      rcases hx with hx | hx
      · exact hbytes cs hcs x hx
      · exact hb x hx)
    have h5 : Segments (encAll cs ++ bs) (cs.length + n) := by
      clear h3 h4
      induction cs with
      | nil => simpa [encAll] using h2
      | cons c cs ih =>
        have := Segments.scalar (hcs c (by simp)) (ih fun x hx => hcs x (by simp [hx]))
        have e1 : encAll (c :: cs) ++ bs = enc c ++ (encAll cs ++ bs) := by
          simp [encAll, List.append_assoc]
        have e2 : (c :: cs).length + n = cs.length + n + 1 := by simp; omega
        rw [e1, e2]; exact this
    rw [h3, segments_unique h4 h5]

example : Bytes [0xF1, 0x41, 0xE2, 0x82, 0xAC] ∧
    utf8CodePointCount [0xF1, 0x41, 0xE2, 0x82, 0xAC] = .ok 3 ∧
    utf8CodePointCount (encAll [0x1F600, 0x41]) = .ok 2 := by
  refine ⟨by unfold Bytes; decide, by decide, by decide⟩

/-! ## C15 -/

theorem cordGood_init (cap : Nat) (bs : List Nat) : CordGood (CordSt.init cap bs) bs :=
  ⟨rfl, rfl, rfl, rfl⟩

/-- `ChunkRemaining`/`Advance` see the same bytes as the flat string. -/
theorem cordAdvance_flatten : ∀ (it : CordIt) (n : Nat),
    (cordAdvance it n).flatten = it.flatten.drop n := by
  intro it
  induction it with
  | nil => intro n; simp [cordAdvance]
  | cons c cs ih =>
    intro n
    unfold cordAdvance
    split
    · rename_i h
      simp only [List.flatten_cons]
      rw [List.drop_append_of_le_length (by omega)]
    · rename_i h
      rw [ih, List.flatten_cons, List.drop_append, List.drop_eq_nil_of_le (show c.length ≤ n by omega), List.nil_append]

theorem cordAdvance_ne (it : CordIt) (h : ∀ c ∈ it, c ≠ []) : ∀ n, ∀ c ∈ cordAdvance it n, c ≠ [] := by
  induction it with
  | nil => intro n c hc; simp [cordAdvance] at hc
  | cons x xs ih =>
    intro n c hc
    unfold cordAdvance at hc
    split at hc
    · simp at hc
      rcases hc with rfl | hc
      · intro h0; have := congrArg List.length h0; simp at this; omega
      · exact h c (by simp [hc])
    · exact ih (fun y hy => h y (by simp [hy])) _ c hc

theorem fillBuffer_spec (size : Nat) (hsize : size ≤ 3) : ∀ fuel (cur : CordIt) (buf : List Nat),
    (∀ c ∈ cur, c ≠ []) → size - buf.length < fuel → buf.length ≤ 3 →
    (size ≤ buf.length + cur.flatten.length →
      ∃ k, fillBuffer size fuel cur buf = .ok (some (buf ++ cur.flatten.take k)) ∧
        (size - buf.length ≤ k)) ∧
    (¬ size ≤ buf.length + cur.flatten.length → fillBuffer size fuel cur buf = .ok none) := by
  intro fuel
  induction fuel with
  | zero => intro cur buf _ h; omega
  | succ fuel ih =>
    intro cur buf hne hf hb3
    unfold fillBuffer
    by_cases hlt : buf.length < size
    · rw [if_pos hlt]
      cases cur with
      | nil => simp; omega
      | cons c cs =>
        have hc : c ≠ [] := hne c (by simp)
        have hpos : 0 < c.length := List.length_pos_iff.2 hc
        simp only [hc, if_false]
        have hm1 : 1 ≤ min (3 - buf.length) c.length := by omega
        have hm2 : min (3 - buf.length) c.length ≤ c.length := by omega
        have hm3 : min (3 - buf.length) c.length ≤ 3 - buf.length := by omega
        generalize min (3 - buf.length) c.length = m at *
        have hcopy : (c.take m).length = m := by
          rw [List.length_take]; omega
        have hfl := cordAdvance_flatten (c :: cs) m
        obtain ⟨i1, i2⟩ := ih (cordAdvance (c :: cs) m)
          (buf ++ c.take m)
          (cordAdvance_ne _ hne _) (by rw [List.length_append, hcopy]; omega)
          (by rw [List.length_append, hcopy]; omega)
        rw [hfl] at i1 i2
        rw [List.length_append, hcopy] at i1 i2
        have htk : c.take m =
            (c :: cs).flatten.take m := by
          rw [List.flatten_cons, List.take_append_of_le_length (by omega)]
        have hlen : (c :: cs).flatten.length = c.length + cs.flatten.length := by simp
        rw [List.length_drop] at i1 i2
        constructor
        · intro hs
          obtain ⟨k, hk, hk2⟩ := i1 (by omega)
          refine ⟨m + k, ?_, by clear i1 i2 ih hk; omega⟩
          rw [hk, List.append_assoc, htk]
          congr 3
          rw [List.take_add]
        · intro hs
          exact i2 (by omega)
    · rw [if_neg hlt]
      constructor
      · intro _; exact ⟨0, by simp, by omega⟩
      · intro h; omega

/-- C15 (partial): for every byte string and whatever buffer capacity, validating a Cord gives the
same answer as validating the flat string; decoding at a Cord position gives the same as decoding
the flat bytes, for every split into (non-empty) chunks; counting code points agrees on well-formed
input. Missing: counting on ill-formed input, where the statement is false (next theorem). -/
theorem C15_cord_agrees_with_string_partial (cap : Nat) :
    (∀ bs, Bytes bs → utf8IsValidCord cap bs = utf8IsValid bs) ∧
    (∀ bs, Bytes bs → utf8ValidateCord cap bs = utf8Validate bs) ∧
    (∀ bs, WellFormed bs → utf8CodePointCountCord cap bs = utf8CodePointCount bs) ∧
    (∀ chunks : CordIt, chunks ≠ [] → (∀ c ∈ chunks, c ≠ []) → Bytes chunks.flatten →
      utf8DecodeCord chunks = utf8Decode chunks.flatten) := by
  refine ⟨fun bs hb => ?_, fun bs hb => ?_, ?_, ?_⟩
  · obtain ⟨v, h1, h2⟩ := isValid_spec sim_cord (bs.length + 1) _ bs (cordGood_init cap bs) (by omega) hb
    obtain ⟨w, h3, h4⟩ := isValid_spec sim_string (bs.length + 1) bs bs rfl (by omega) hb
    unfold utf8IsValidCord utf8IsValid
    rw [h1, h3]
    congr 1
    rw [Bool.eq_iff_iff, h2, h4]
  · obtain ⟨cs, r, h1, h2, h3, h4⟩ :=
      validate_spec sim_cord (bs.length + 1) 0 _ bs (cordGood_init cap bs) (by omega) hb
    obtain ⟨cs', r', h1', h2', h3', h4'⟩ :=
      validate_spec sim_string (bs.length + 1) 0 bs bs rfl (by omega) hb
    unfold utf8ValidateCord utf8Validate
    rw [h1, h1']
    have key : ∀ cs cs' : List Nat, Scalars cs → Scalars cs' →
        encAll cs ++ r = encAll cs' ++ r' → cs = cs' ∧ r = r' := by
      intro cs
      induction cs with
      | nil =>
        intro ds _ hd h
        cases ds with
        | nil => exact ⟨rfl, by simpa [encAll] using h⟩
        | cons d ds =>
          exfalso
          have h' : r = enc d ++ (encAll ds ++ r') := by simpa [encAll, List.append_assoc] using h
          have hne : r ≠ [] := by
            intro hr; rw [hr] at h'
            exact enc_ne_nil d (List.append_eq_nil_iff.1 h'.symm).1
          exact h4 hne d (hd d (by simp)) ⟨_, h'.symm⟩
      | cons c cs ih =>
        intro ds hc hd h
        cases ds with
        | nil =>
          exfalso
          have h' : r' = enc c ++ (encAll cs ++ r) := by
            simpa [encAll, List.append_assoc] using h.symm
          have hne : r' ≠ [] := by
            intro hr; rw [hr] at h'
            exact enc_ne_nil c (List.append_eq_nil_iff.1 h'.symm).1
          exact h4' hne c (hc c (by simp)) ⟨_, h'.symm⟩
        | cons d ds =>
          have h' : enc c ++ (encAll cs ++ r) = enc d ++ (encAll ds ++ r') := by
            simpa [encAll, List.append_assoc] using h
          obtain ⟨e1, e2⟩ := enc_inj (hc c (by simp)) (hd d (by simp)) h'
          obtain ⟨e3, e4⟩ := ih ds (fun x hx => hc x (by simp [hx])) (fun x hx => hd x (by simp [hx])) e2
          exact ⟨by rw [e1, e3], e4⟩
    obtain ⟨e1, e2⟩ := key cs cs' h2 h2' (h3.symm.trans h3')
    rw [e1, e2]
  · rintro bs ⟨cs, hcs, rfl⟩
    unfold utf8CodePointCountCord utf8CodePointCount
    rw [count_wf_spec sim_cord _ 0 _ cs hcs (cordGood_init cap _) (Nat.lt_succ_self _),
      count_wf_spec sim_string _ 0 _ cs hcs rfl (Nat.lt_succ_self _)]
  · intro chunks hne hnn hb
    cases chunks with
    | nil => exact absurd rfl hne
    | cons c rest =>
      cases c with
      | nil => exact absurd rfl (hnn [] (by simp))
      | cons b str =>
        have hflat : ((b :: str) :: rest).flatten = b :: (str ++ rest.flatten) := by simp
        rw [hflat] at hb ⊢
        obtain ⟨hb0, hb1⟩ := bytes_tail hb
        unfold utf8DecodeCord utf8Decode kUtf8RuneSelf
        simp only
        split
        · rfl
        · rename_i hge
          split
          · rfl
          · rename_i hx
            have hdrop := cordAdvance_flatten ((b :: str) :: rest) 1
            rw [hflat] at hdrop
            simp only [List.drop_succ_cons, List.drop_zero] at hdrop
            have hnn' := cordAdvance_ne _ hnn 1
            generalize cordAdvance ((b :: str) :: rest) 1 = cur at *
            generalize hS : (kLeading b &&& 7) - 1 = size at *
            have hS3 : size ≤ 3 := by
              rcases accepts_or_rejects b (str ++ rest.flatten) hb0 (by omega) with
                ⟨_, _, _, _, _, h, _⟩ | ⟨_, h | ⟨_, h⟩ | ⟨_, _, h, _⟩⟩
              · omega
              · exact absurd h hx
              · rcases kLeading_class ⟨b, hb0⟩ (by simp only; omega) with ⟨-, hl⟩ | ⟨-, -, hl⟩ | ⟨-, hl⟩ |
                  ⟨-, hl⟩ | ⟨-, hl⟩ | ⟨-, hl⟩ | ⟨-, -, hl⟩ | ⟨-, hl⟩ <;>
                  (simp only at hl; rw [hl] at hS; revert hS; simp; omega)
              · omega
            have hdec : ∀ r', (r' = str ++ rest.flatten ∨
                ∃ k, size ≤ k ∧ r' = (str ++ rest.flatten).take k) → size ≤ (str ++ rest.flatten).length →
                utf8DecodeImpl b (kLeading b) size r' =
                  utf8DecodeImpl b (kLeading b) size (str ++ rest.flatten) := by
              intro r' hr' hsz
              rcases accepts_or_rejects b (str ++ rest.flatten) hb0 (by omega) with
                ⟨_, _, _, _, _, _, _, _, h⟩ | ⟨_, h | ⟨_, h⟩ | ⟨_, _, _, _, _, h⟩⟩
              · rw [hS] at h; rw [h r' hr', h _ (.inl rfl)]
              · exact absurd h hx
              · omega
              · rw [hS] at h; rw [h r' hr', h _ (.inl rfl)]
            by_cases hfast : size ≤ str.length
            · have hlen : size ≤ (str ++ rest.flatten).length := by simp; omega
              rw [if_pos hfast, if_neg (by omega)]
              by_cases hz : str = (str ++ rest.flatten).take str.length
              · exact hdec str (.inr ⟨str.length, hfast, hz⟩) hlen
              · exact absurd (by simp) hz
            · rw [if_neg hfast]
              obtain ⟨f1, f2⟩ := fillBuffer_spec size hS3 4 cur [] hnn' (by simp; omega) (by simp)
              rw [hdrop] at f1 f2
              simp only [List.length_nil, Nat.zero_add, List.nil_append, Nat.sub_zero] at f1 f2
              by_cases hsz : size ≤ (str ++ rest.flatten).length
              · obtain ⟨k, hk, hk2⟩ := f1 hsz
                rw [hk, if_neg (by omega)]
                simp only [Res.mbind_ok]
                exact hdec _ (.inr ⟨k, hk2, rfl⟩) hsz
              · rw [f2 hsz, if_pos (by omega)]; rfl

example : Bytes ([[0xF0, 0x9F], [0x98], [0x80, 0x41]] : CordIt).flatten ∧
    utf8DecodeCord [[0xF0, 0x9F], [0x98], [0x80, 0x41]] = .ok (0x1F600, 4) := by
  refine ⟨by unfold Bytes; decide, by decide⟩

/-- C15, negative part: on ill-formed input the Cord reader's `Peek` overwrites bytes it has not
consumed yet (`CopyCordToString` replaces the buffer, utf8.cc:160) and reads outside its buffer:
`size` of the bytes F1 41 E2 82 AC is 3 as a string and undefined behaviour as a Cord (15 is
libstdc++'s small-string capacity; the same happens for 22, libc++'s). -/
theorem C15_cord_count_undefined_on_ill_formed :
    utf8CodePointCount [0xF1, 0x41, 0xE2, 0x82, 0xAC] = .ok 3 ∧
    utf8CodePointCountCord 15 [0xF1, 0x41, 0xE2, 0x82, 0xAC] = .ub ∧
    utf8CodePointCountCord 22 [0xF1, 0x41, 0xE2, 0x82, 0xAC] = .ub := by decide

end Cel.Text
