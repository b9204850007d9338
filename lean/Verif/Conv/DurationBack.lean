import Verif.Conv.Duration

/-!
# Duration texts read back
-/

set_option linter.unusedSimpArgs false
set_option linter.unusedVariables false

namespace Cel.Conv
open Cel Cel.Num

/-- The text does not continue with a digit. -/
def NoDigit : List Nat → Prop
  | [] => True
  | c :: _ => ¬ IsDigit c

theorem consumeInt_stop {rest : List Nat} (h : NoDigit rest) (acc : Int) :
    consumeInt rest acc = some (acc, rest) := by
  cases rest with
  | nil => rfl
  | cons c cs => unfold consumeInt; rw [if_neg h]

theorem consumeInt_digits : ∀ (ds rest : List Nat) (acc n : Nat), readFrom 10 acc ds = some n →
    (n : Int) ≤ i64Max → NoDigit rest → consumeInt (ds ++ rest) (acc : Int) = some ((n : Int), rest)
  | [], rest, acc, n, h, hn, hr => by
    simp only [readFrom] at h; injection h with h; subst h
    exact consumeInt_stop hr _
  | c :: ds, rest, acc, n, h, hn, hr => by
    have hd := digits_of_read _ _ _ h c (List.mem_cons_self ..)
    have hv := (digitVal10.1 hd).1
    simp only [readFrom, hv] at h
    have hle := readFrom_mono 10 (by omega) _ _ _ h
    have hcast : ((acc * 10 + (c - 48) : Nat) : Int) = (acc : Int) * 10 + ((c : Int) - 48) := by
      have := hd.1; omega
    have ih := consumeInt_digits ds rest _ n h hn hr
    rw [List.cons_append]
    unfold consumeInt
    unfold i64Max at *
    have := hd.1
    have := hd.2
    rw [if_pos hd, if_neg (by omega), if_neg (by omega), ← hcast, ih]

theorem consumeFrac_digits : ∀ (ds rest : List Nat) (part scale f : Nat), readFrom 10 part ds = some f →
    scale * 10 ^ ds.length ≤ 10 ^ 18 → NoDigit rest →
    consumeFrac (ds ++ rest) (part : Int) (scale : Int) = ((f : Int), ((scale * 10 ^ ds.length : Nat) : Int), rest)
  | [], rest, part, scale, f, h, hs, hr => by
    simp only [readFrom] at h; injection h with h; subst h
    cases rest with
    | nil => simp [consumeFrac]
    | cons c cs => simp only [List.nil_append]; unfold consumeFrac; rw [if_neg hr]; simp
  | c :: ds, rest, part, scale, f, h, hs, hr => by
    have hd := digits_of_read _ _ _ h c (List.mem_cons_self ..)
    have hv := (digitVal10.1 hd).1
    simp only [readFrom, hv] at h
    have hcast : ((part * 10 + (c - 48) : Nat) : Int) = (part : Int) * 10 + ((c : Int) - 48) := by
      have := hd.1; omega
    have e : scale * 10 ^ (c :: ds).length = scale * 10 * 10 ^ ds.length := by
      rw [List.length_cons, Nat.pow_succ, Nat.mul_comm (10 ^ ds.length) 10, ← Nat.mul_assoc]
    rw [e] at hs ⊢
    have hsc : scale * 10 ≤ 10 ^ 18 := Nat.le_trans (Nat.le_mul_of_pos_right _ (Nat.pow_pos (by omega))) hs
    have ih := consumeFrac_digits ds rest (part * 10 + (c - 48)) (scale * 10) f h hs hr
    rw [List.cons_append]
    unfold consumeFrac
    rw [if_pos hd, if_pos (by unfold i64Max; omega), ← hcast, show (scale : Int) * 10 = ((scale * 10 : Nat) : Int) by omega, ih]

theorem Reads.head_digit {t : List Nat} {n : Nat} (h : Reads 10 t n) : ∃ c cs, t = c :: cs ∧ IsDigit c := by
  cases t with
  | nil => exact absurd rfl h.nonempty
  | cons c cs => exact ⟨c, cs, rfl, digits_of_read _ _ _ h.value c (List.mem_cons_self ..)⟩

/-- A whole number of units. -/
theorem consumeNumber_whole {ds rest : List Nat} {n : Nat} (hne : ds ≠ []) (h : readFrom 10 0 ds = some n)
    (hn : (n : Int) ≤ i64Max) (hr : NoDigit rest) (hdot : rest.head? ≠ some 46) :
    consumeNumber (ds ++ rest) = some ⟨n, 0, 1, rest⟩ := by
  have hc := consumeInt_digits ds rest 0 n h hn hr
  unfold consumeNumber
  rw [show (0 : Int) = ((0 : Nat) : Int) from rfl, hc]
  have hl : ¬ rest.length = (ds ++ rest).length := by
    have := List.length_pos_iff.2 hne
    simp only [List.length_append]; omega
  cases rest with
  | nil => simp only; rw [if_neg hl]
  | cons c cs =>
    simp only [List.head?_cons, ne_eq, Option.some.injEq] at hdot
    split
    · rename_i heq; cases heq
    · rename_i heq; injection heq with heq; injection heq with h1 h2; injection h2 with h2; exact absurd h2 hdot
    · rename_i heq; injection heq with heq; injection heq with h1 h2; subst h1; subst h2; rw [if_neg hl]

/-- A number with a fraction. -/
theorem consumeNumber_frac {ds fs rest : List Nat} {n f : Nat} (hne : ds ≠ []) (h : readFrom 10 0 ds = some n)
    (hn : (n : Int) ≤ i64Max) (hf : readFrom 10 0 fs = some f) (hfl : fs.length ≤ 18) (hr : NoDigit rest) :
    consumeNumber (ds ++ 46 :: (fs ++ rest)) = some ⟨n, f, ((10 ^ fs.length : Nat) : Int), rest⟩ := by
  have hc := consumeInt_digits ds (46 :: (fs ++ rest)) 0 n h hn (by unfold NoDigit IsDigit; omega)
  have hfc := consumeFrac_digits fs rest 0 1 f hf
    (by rw [Nat.one_mul]; exact Nat.pow_le_pow_right (by omega) hfl) hr
  unfold consumeNumber
  rw [show (0 : Int) = ((0 : Nat) : Int) from rfl, hc]
  simp only
  rw [show (1 : Int) = ((1 : Nat) : Int) from rfl, hfc]
  have hh : ¬ (ds ++ 46 :: (fs ++ rest)).head? = some 46 := by
    cases ds with
    | nil => exact absurd rfl hne
    | cons c cs =>
      have := digits_of_read _ _ _ h c (List.mem_cons_self ..)
      simp only [List.cons_append, List.head?_cons, Option.some.injEq]
      unfold IsDigit at this; omega
  rw [if_neg (fun h => hh h.1)]
  simp

/-- The ticks a duration may have. -/
def DurInRange (t : Int) : Prop := minDurTicks ≤ t ∧ t ≤ maxDurTicks

theorem satDur_range {t : Int} (h1 : -(400000000000 * 4000000000) ≤ t) (h2 : t ≤ 400000000000 * 4000000000) :
    satDur t = .fin t := by
  unfold satDur
  rw [if_pos]
  unfold InI64 i64Min i64Max tps
  omega

theorem parseLoop_nil (sg : Int) (fuel : Nat) (dur : Dur) : parseLoop sg fuel [] dur = some dur := by
  cases fuel <;> rfl

theorem parseLoop_step {sg : Int} {fuel : Nat} {s r : List Nat} {dur : Dur} {n : DurNum} {u : Int} (hs : s ≠ [])
    (hn : consumeNumber s = some n) (hu : consumeUnit n.rest = some (u, r)) :
    parseLoop sg (fuel + 1) s dur = parseLoop sg fuel r (addPart sg n u dur) := by
  cases s with
  | nil => exact absurd rfl hs
  | cons c cs => simp only [parseLoop, hn, hu]

theorem parseUnsigned_seconds {sg : Int} (hsg : sg = 1 ∨ sg = -1) {whole frac : List Nat} {w f : Nat} {t : Int}
    (hw : Reads 10 whole w)
    (hf : frac = [] ∧ f = 0 ∨ (frac.length = 3 ∨ frac.length = 6 ∨ frac.length = 9) ∧ readFrom 10 0 frac = some f)
    (ht : t * 10 ^ frac.length = sg * (((w : Int) * 10 ^ frac.length + f) * tps)) (hr : DurInRange t) :
    parseUnsigned sg (whole ++ (if frac = [] then [] else 46 :: frac) ++ [115]) = some (.fin t) := by
  obtain ⟨c, cs, rfl, hc⟩ := hw.head_digit
  unfold DurInRange minDurTicks maxDurTicks tps tpn at hr
  unfold parseUnsigned
  rw [if_neg (by simp)]
  rw [if_neg (by
    intro h
    simp only [List.cons_append, List.append_assoc] at h
    injection h with h1 h2
    have := congrArg List.length h2
    simp at this)]
  rw [if_neg (by
    intro h
    simp only [List.cons_append, List.append_assoc] at h
    have : c = 105 := by
      have := congrArg List.head? h
      simpa [asc] using this
    unfold IsDigit at hc; omega)]
  rw [List.length_append, List.length_append]
  simp only [List.length_cons, List.length_nil, List.append_assoc]
  have hadd0 : ∀ x : Int, -(400000000000 * 4000000000) ≤ x → x ≤ 400000000000 * 4000000000 → ∀ y : Int,
      -(400000000000 * 4000000000) ≤ x + y → x + y ≤ 400000000000 * 4000000000 →
      addDur (.fin x) (.fin y) = .fin (x + y) := fun x _ _ y h1 h2 => satDur_range h1 h2
  rcases hf with ⟨rfl, rfl⟩ | ⟨hl, hfv⟩
  · simp only [if_true, List.nil_append, List.length_nil]
    simp only [List.length_nil, Int.pow_zero, Int.mul_one, Int.natCast_zero, Int.add_zero, tps] at ht
    have hw1 : (w : Int) ≤ 315576000001 := by rcases hsg with rfl | rfl <;> omega
    have hcn := consumeNumber_whole (rest := [115]) hw.nonempty hw.value (by unfold i64Max; omega)
      (by unfold NoDigit IsDigit; omega) (by simp)
    rw [parseLoop_step (by simp) hcn rfl, parseLoop_nil]
    unfold addPart
    simp only [ne_eq, not_true_eq_false, if_false]
    congr 1
    by_cases hw0 : (w : Int) = 0
    · rw [if_neg (by omega)]; congr 1; rw [hw0] at ht; omega
    · rw [if_pos hw0]
      unfold mulDur
      rw [satDur_range (by unfold tps; rcases hsg with rfl | rfl <;> omega) (by unfold tps; rcases hsg with rfl | rfl <;> omega)]
      rw [hadd0 _ (by omega) (by omega) _ (by unfold tps; rcases hsg with rfl | rfl <;> omega) (by unfold tps; rcases hsg with rfl | rfl <;> omega)]
      congr 1
      unfold tps; rcases hsg with rfl | rfl <;> omega
  · have hne : frac ≠ [] := by rintro rfl; simp at hl
    rw [if_neg hne]
    have hlt := readFrom_upper (show 1 ≤ 10 by omega) _ _ _ hfv
    rw [Nat.zero_add, Nat.one_mul] at hlt
    have hf9 : frac.length ≤ 18 := by omega
    have hw1 : (w : Int) ≤ 315576000001 := by
      unfold tps at ht
      rcases hl with hl | hl | hl <;> rw [hl] at ht <;> rcases hsg with rfl | rfl <;> omega
    have hcn := consumeNumber_frac (rest := [115]) hw.nonempty hw.value (by unfold i64Max; omega) hfv hf9
      (by unfold NoDigit IsDigit; omega)
    rw [show (46 :: frac : List Nat) ++ [115] = 46 :: (frac ++ [115]) from rfl]
    rw [parseLoop_step (by simp) hcn rfl, parseLoop_nil]
    unfold addPart
    simp only
    congr 1
    have hwhole : (if (w : Int) ≠ 0 then addDur (.fin 0) (mulDur (sg * w) tps) else .fin 0) = Dur.fin (sg * w * tps) := by
      by_cases hw0 : (w : Int) = 0
      · rw [if_neg (by omega), hw0]; simp
      · rw [if_pos hw0]
        unfold mulDur
        rw [satDur_range (by unfold tps; rcases hsg with rfl | rfl <;> omega) (by unfold tps; rcases hsg with rfl | rfl <;> omega)]
        rw [hadd0 _ (by omega) (by omega) _ (by unfold tps; rcases hsg with rfl | rfl <;> omega) (by unfold tps; rcases hsg with rfl | rfl <;> omega)]
        simp
    rw [hwhole]
    by_cases hf0 : (f : Int) = 0
    · rw [if_neg (by omega)]; congr 1
      rw [hf0] at ht; unfold tps at ht ⊢
      rcases hl with hl | hl | hl <;> rw [hl] at ht <;> rcases hsg with rfl | rfl <;> omega
    · rw [if_pos hf0]
      unfold mulDur
      have hdiv : ∃ e : Int, Int.tdiv (sg * f * tps) ((10 ^ frac.length : Nat) : Int) = e ∧ sg * w * tps + e = t := by
        refine ⟨t - sg * w * tps, ?_, by omega⟩
        apply Int.tdiv_eq_of_eq_mul_left
        · rcases hl with hl | hl | hl <;> rw [hl] <;> decide
        · unfold tps at ht ⊢
          rcases hl with hl | hl | hl <;> rw [hl] at ht ⊢ <;> rcases hsg with rfl | rfl <;> omega
      obtain ⟨e, he, het⟩ := hdiv
      have hfb : (f : Int) < 1000000000 := by
        rcases hl with hl | hl | hl <;> rw [hl] at hlt <;> omega
      rw [satDur_range (by unfold tps; rcases hsg with rfl | rfl <;> omega) (by unfold tps; rcases hsg with rfl | rfl <;> omega)]
      unfold divDur
      simp only
      rw [he]
      show satDur _ = _
      rw [het]
      exact satDur_range (by omega) (by omega)

/-- Every text of the specified form reads back as the duration it denotes. -/
theorem durationOfString_text {text : List Nat} {t : Int} (h : SecondsText text t) (hr : DurInRange t) :
    durationOfString text = .ok (.fin t) := by
  obtain ⟨neg, whole, frac, w, f, rfl, hw, hf, ht⟩ := h
  have hp : parseDuration ((if neg then [minus] else []) ++ whole ++ (if frac = [] then [] else 46 :: frac) ++ [115])
      = some (.fin t) := by
    cases neg with
    | true =>
      have := parseUnsigned_seconds (sg := -1) (.inr rfl) hw hf (by simpa using ht) hr
      unfold parseDuration minus
      simp only [if_true, List.cons_append, List.nil_append, List.append_assoc] at this ⊢
      exact this
    | false =>
      have := parseUnsigned_seconds (sg := 1) (.inl rfl) hw hf (by simpa using ht) hr
      obtain ⟨c, cs, rfl, hc⟩ := hw.head_digit
      unfold IsDigit at hc
      unfold parseDuration
      simp only [List.cons_append, List.nil_append, List.append_assoc] at this ⊢
      have h45 : c ≠ 45 := by omega
      have h43 : c ≠ 43 := by omega
      split
      · rename_i heq; simp at heq; exact absurd heq.1 h45
      · rename_i heq; simp at heq; exact absurd heq.1 h43
      · simpa using this
  unfold durationOfString
  rw [hp]
  unfold DurInRange at hr
  have hv : validateDuration (.fin t) = none := by
    unfold validateDuration durLt
    simp only [decide_eq_true_eq]
    rw [if_neg (by omega), if_neg (by omega)]
  simp only [hv]

/-- `duration(string(d)) == d` for every duration in range made of whole nanoseconds. -/
theorem duration_string_roundtrip (t : Int) (hr : DurInRange t) (hns : t % 4 = 0) :
    ∃ text, encodeDuration (.fin t) = .ok text ∧ durationOfString text = .ok (.fin t) := by
  obtain ⟨text, h1, h2⟩ := encodeDuration_spec t hr.1 hr.2 hns
  exact ⟨text, h1, durationOfString_text h2 hr⟩

example : DurInRange (-6000000004) ∧ (-6000000004 : Int) % 4 = 0 := ⟨⟨by decide, by decide⟩, by decide⟩

end Cel.Conv
