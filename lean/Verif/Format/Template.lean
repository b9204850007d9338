import Verif.Format.Model
import Verif.Conv.ConvertProps

/-!
# C66: what a format template means
-/

set_option linter.unusedSimpArgs false
set_option linter.unusedVariables false
set_option exponentiation.threshold 3000

namespace Cel.Format
open Cel Cel.Num Cel.Conv

/-! ### Specification -/

/-- A piece of a template: a byte copied to the output, or an argument with a precision and a
conversion letter. -/
inductive Piece where
  | lit (c : Nat)
  | arg (precision : Option Nat) (conv : Nat)
  deriving DecidableEq, Repr

/-- The conversion letters `s d f e b x X o`. -/
def letters : List Nat := [115, 100, 102, 101, 98, 120, 88, 111]

/-- `Template maxP text pieces`: how a template reads.  Bytes other than `%` stand for themselves,
`%%` for `%`, `%L` and `%.NL` for an argument; `N` is a decimal number of at most `maxP`. -/
inductive Template (maxP : Nat) : List Nat → List Piece → Prop
  | nil : Template maxP [] []
  | lit {c : Nat} {r : List Nat} {ps : List Piece} : c ≠ 37 → Template maxP r ps → Template maxP (c :: r) (.lit c :: ps)
  | percent {r : List Nat} {ps : List Piece} : Template maxP r ps → Template maxP (37 :: 37 :: r) (.lit 37 :: ps)
  | plain {c : Nat} {r : List Nat} {ps : List Piece} : c ∈ letters → Template maxP r ps →
      Template maxP (37 :: c :: r) (.arg none c :: ps)
  | precise {ds : List Nat} {n c : Nat} {r : List Nat} {ps : List Piece} : ds ≠ [] → readFrom 10 0 ds = some n →
      n ≤ maxP → c ∈ letters → Template maxP r ps →
      Template maxP (37 :: 46 :: (ds ++ c :: r)) (.arg (some n) c :: ps)

/-- `Render pieces args out`: literal bytes are copied and the n-th argument piece is replaced by the
text of the n-th argument; there must be enough arguments, and further ones are not looked at. -/
inductive Render : List Piece → List FVal → List Nat → Prop
  | nil {args : List FVal} : Render [] args []
  | lit {c : Nat} {ps : List Piece} {args : List FVal} {out : List Nat} : Render ps args out →
      Render (.lit c :: ps) args (c :: out)
  | arg {p : Option Nat} {c : Nat} {v : FVal} {t : List Nat} {ps : List Piece} {args : List FVal} {out : List Nat} :
      formatClause c v p = .ok t → Render ps args out → Render (.arg p c :: ps) (v :: args) (t ++ out)

/-! ### Proofs -/

theorem formatClause_letter {c : Nat} {v : FVal} {p : Option Nat} {t : List Nat} (h : formatClause c v p = .ok t) :
    c ∈ letters := by
  unfold formatClause at h
  unfold letters
  by_cases h1 : c = 115
  · simp [h1]
  rw [if_neg h1] at h
  by_cases h2 : c = 100
  · simp [h2]
  rw [if_neg h2] at h
  by_cases h3 : c = 102
  · simp [h3]
  rw [if_neg h3] at h
  by_cases h4 : c = 101
  · simp [h4]
  rw [if_neg h4] at h
  by_cases h5 : c = 98
  · simp [h5]
  rw [if_neg h5] at h
  by_cases h6 : c = 120 ∨ c = 88
  · rcases h6 with h6 | h6 <;> simp [h6]
  rw [if_neg h6] at h
  by_cases h7 : c = 111
  · simp [h7]
  rw [if_neg h7] at h
  cases h

theorem takeWhile_digits {ds r : List Nat} (hd : ∀ c ∈ ds, IsDigit c) (hr : NoDigit r) :
    (ds ++ r).takeWhile (fun c => decide (IsDigit c)) = ds := by
  induction ds with
  | nil =>
    cases r with
    | nil => rfl
    | cons x xs => rw [List.nil_append, List.takeWhile_cons_of_neg (by have h : ¬ IsDigit x := hr; simpa using h)]
  | cons x xs ih =>
    rw [List.cons_append, List.takeWhile_cons_of_pos (by simpa using hd x (List.mem_cons_self ..)),
      ih fun c hc => hd c (List.mem_cons_of_mem _ hc)]

theorem takeWhile_split (r : List Nat) :
    ∃ q, r = r.takeWhile (fun c => decide (IsDigit c)) ++ q ∧ NoDigit q ∧
      ∀ c ∈ r.takeWhile (fun c => decide (IsDigit c)), IsDigit c := by
  induction r with
  | nil => exact ⟨[], rfl, trivial, by simp⟩
  | cons x xs ih =>
    by_cases hx : IsDigit x
    · obtain ⟨q, h1, h2, h3⟩ := ih
      rw [List.takeWhile_cons_of_pos (by simpa using hx)]
      refine ⟨q, by rw [List.cons_append, ← h1], h2, ?_⟩
      intro c hc
      rcases List.mem_cons.1 hc with rfl | hc
      · exact hx
      · exact h3 c hc
    · rw [List.takeWhile_cons_of_neg (by simpa using hx)]
      exact ⟨x :: xs, rfl, hx, by simp⟩

theorem atoi32_iff (ds : List Nat) (p : Int) : atoi32 ds = some p ↔
    ds ≠ [] ∧ ∃ n : Nat, readFrom 10 0 ds = some n ∧ p = n ∧ p ≤ 2147483647 := by
  unfold atoi32
  by_cases h : ds = []
  · rw [if_pos h]; simp [h]
  · rw [if_neg h]
    have := parsePos_iff 2147483647 (by decide) ds 0 p (by decide)
    simp only [Int.natCast_zero] at this
    rw [this]; simp [h]

theorem letter_not_digit {c : Nat} (h : c ∈ letters) : ¬ IsDigit c ∧ c ≠ 37 ∧ c ≠ 46 := by
  unfold letters at h
  simp only [List.mem_cons, List.not_mem_nil, or_false] at h
  unfold IsDigit
  omega

/-- A clause is read and formatted exactly as the specification says. -/
theorem parseAndFormat_iff (fmt : List Nat) (v : FVal) (maxP : Nat) (hmax : maxP ≤ 2147483647) (hne : fmt ≠ [])
    (read : Nat) (t : List Nat) : parseAndFormat fmt v maxP = .ok (read, t) ↔
      ∃ c, formatClause c v none = .ok t ∧ (∃ r, fmt = c :: r) ∧ read = 0 ∧ c ≠ 46 ∨
        ∃ ds n r, fmt = 46 :: (ds ++ c :: r) ∧ ds ≠ [] ∧ readFrom 10 0 ds = some n ∧ n ≤ maxP ∧ ¬ IsDigit c ∧
          formatClause c v (some n) = .ok t ∧ read = 1 + ds.length := by
  cases fmt with
  | nil => exact absurd rfl hne
  | cons x r =>
    by_cases hx : x = 46
    · subst hx
      obtain ⟨q, hq1, hq2, hq3⟩ := takeWhile_split r
      unfold parseAndFormat parsePrecision
      simp only
      generalize hds : r.takeWhile (fun c => decide (IsDigit c)) = ds at *
      cases q with
      | nil =>
        rw [if_pos (by rw [hq1]; simp)]
        constructor
        · intro h; cases h
        · rintro ⟨c, ⟨_, ⟨r', hr'⟩, _, hc⟩ | ⟨ds', n, r', heq, hne', hn, hle, hnd, hf, hread⟩⟩
          · injection hr' with h1 _; exact absurd h1.symm hc
          · injection heq with _ heq
            exfalso
            have : c ∈ ds := by rw [List.append_nil] at hq1; rw [← hq1, heq]; simp
            exact hnd (hq3 c this)
      | cons c q =>
        rw [if_neg (by rw [hq1]; simp)]
        cases ha : atoi32 ds with
        | none =>
          constructor
          · intro h; cases h
          · rintro ⟨c', ⟨_, ⟨r', hr'⟩, _, hc⟩ | ⟨ds', n, r', heq, hne', hn, hle, hnd, hf, hread⟩⟩
            · injection hr' with h1 _; exact absurd h1.symm hc
            · injection heq with _ heq
              have e := takeWhile_digits (digits_of_read _ _ _ hn) (show NoDigit (c' :: r') from hnd)
              rw [← heq, hds] at e
              subst e
              have := (atoi32_iff ds n).2 ⟨hne', n, hn, rfl, by omega⟩
              rw [ha] at this; cases this
        | some p =>
          obtain ⟨hdne, n, hn, rfl, hple⟩ := (atoi32_iff ds p).1 ha
          simp only
          have hget : (46 :: r : List Nat)[1 + ds.length]? = some c := by
            rw [hq1, Nat.add_comm, List.getElem?_cons_succ, List.getElem?_append_right (Nat.le_refl _)]
            simp
          by_cases hle : (n : Int) > (maxP : Int)
          · rw [if_pos hle]
            constructor
            · intro h; cases h
            · rintro ⟨c', ⟨_, ⟨r', hr'⟩, _, hc⟩ | ⟨ds', n', r', heq, hne', hn', hle', hnd, hf, hread⟩⟩
              · injection hr' with h1 _; exact absurd h1.symm hc
              · injection heq with _ heq
                have e := takeWhile_digits (digits_of_read _ _ _ hn') (show NoDigit (c' :: r') from hnd)
                rw [← heq, hds] at e
                subst e
                rw [hn] at hn'; injection hn' with hn'; omega
          · rw [if_neg hle]
            simp only [Res.mbind_ok, hget]
            have hnn : ((n : Int)).toNat = n := by omega
            rw [hnn]
            constructor
            · intro h
              cases hf : formatClause c v (some n) with
              | ok t' =>
                rw [hf] at h
                simp only [Res.mbind_ok] at h
                injection h with h
                injection h with h1 h2
                subst h1 h2
                exact ⟨c, .inr ⟨ds, n, q, by rw [hq1], hdne, hn, by omega, hq2, hf, rfl⟩⟩
              | err s => rw [hf] at h; cases h
              | ub => rw [hf] at h; cases h
            · rintro ⟨c', ⟨_, ⟨r', hr'⟩, _, hc⟩ | ⟨ds', n', r', heq, hne', hn', hle', hnd, hf, hread⟩⟩
              · injection hr' with h1 _; exact absurd h1.symm hc
              · injection heq with _ heq
                have e := takeWhile_digits (digits_of_read _ _ _ hn') (show NoDigit (c' :: r') from hnd)
                rw [← heq, hds] at e
                subst e
                rw [hn] at hn'; injection hn' with hn'; subst hn'
                have hcc : c = c' := by
                  have : ds ++ c :: q = ds ++ c' :: r' := by rw [← hq1, heq]
                  have := List.append_cancel_left this
                  injection this
                subst hcc
                rw [hf, hread]; rfl
    · have hp : parsePrecision (x :: r) maxP = .ok (0, none) := by
        unfold parsePrecision
        split
        · rename_i heq; injection heq with h1 _; exact absurd h1 hx
        · rfl
      unfold parseAndFormat
      rw [hp]
      simp only [Res.mbind_ok, List.getElem?_cons_zero]
      constructor
      · intro h
        cases hf : formatClause x v none with
        | ok t' =>
          rw [hf] at h
          simp only [Res.mbind_ok] at h
          injection h with h
          injection h with h1 h2
          subst h1 h2
          exact ⟨x, .inl ⟨hf, ⟨r, rfl⟩, rfl, hx⟩⟩
        | err s => rw [hf] at h; cases h
        | ub => rw [hf] at h; cases h
      · rintro ⟨c, ⟨hf, ⟨r', hr'⟩, hread, hc⟩ | ⟨ds, n, r', heq, _⟩⟩
        · injection hr' with h1 _; subst h1
          rw [hf, hread]; rfl
        · injection heq with h1 _; exact absurd h1 hx

theorem formatLoop_iff (args : List FVal) (maxP : Nat) (hmax : maxP ≤ 2147483647) : ∀ (fuel : Nat) (fmt : List Nat)
    (idx : Nat) (res out : List Nat), fmt.length ≤ fuel →
    (formatLoop args maxP fuel fmt idx res = .ok out ↔
      ∃ ps o, Template maxP fmt ps ∧ Render ps (args.drop idx) o ∧ out = res ++ o)
  | fuel, [], idx, res, out, _ => by
    have : formatLoop args maxP fuel [] idx res = .ok res := by cases fuel <;> rfl
    rw [this]
    constructor
    · intro h; injection h with h; exact ⟨[], [], .nil, .nil, by simp [h]⟩
    · rintro ⟨ps, o, hT, hR, rfl⟩
      cases hT; cases hR; simp
  | 0, c :: rest, idx, res, out, hl => by simp at hl
  | fuel + 1, c :: rest, idx, res, out, hl => by
    unfold formatLoop
    by_cases hc : c = 37
    · subst hc
      rw [if_neg (by simp)]
      cases rest with
      | nil =>
        simp only
        constructor
        · intro h; cases h
        · rintro ⟨ps, o, hT, _⟩
          cases hT with
          | lit h _ => exact absurd rfl h
      | cons d rest =>
        simp only
        by_cases hd : d = 37
        · subst hd
          rw [if_pos rfl, formatLoop_iff args maxP hmax fuel rest idx _ out (by simp at hl; omega)]
          constructor
          · rintro ⟨ps, o, hT, hR, rfl⟩
            exact ⟨.lit 37 :: ps, 37 :: o, .percent hT, .lit hR, by simp⟩
          · rintro ⟨ps, o, hT, hR, rfl⟩
            cases hT with
            | lit h _ => exact absurd rfl h
            | percent hT =>
              cases hR with
              | lit hR => exact ⟨_, _, hT, hR, by simp⟩
            | plain hcl _ => exact absurd rfl (letter_not_digit hcl).2.1
        · rw [if_neg hd]
          cases hv : args[idx]? with
          | none =>
            simp only
            constructor
            · intro h; cases h
            · rintro ⟨ps, o, hT, hR, rfl⟩
              have hdrop : args.drop idx = [] := List.drop_eq_nil_of_le (List.getElem?_eq_none_iff.1 hv)
              rw [hdrop] at hR
              cases hT with
              | lit h _ => exact absurd rfl h
              | percent _ => exact absurd rfl hd
              | plain _ _ => cases hR
              | precise _ _ _ _ _ => cases hR
          | some v =>
            simp only
            have hdrop : args.drop idx = v :: args.drop (idx + 1) := by
              obtain ⟨hi, hg⟩ := List.getElem?_eq_some_iff.1 hv
              rw [← hg]; exact (List.drop_eq_getElem_cons hi)
            constructor
            · intro h
              cases hpf : parseAndFormat (d :: rest) v maxP with
              | ok p =>
                obtain ⟨read, t⟩ := p
                rw [hpf] at h
                simp only [Res.mbind_ok] at h
                have hdl : ((d :: rest).drop (read + 1)).length ≤ fuel := by simp at hl ⊢; omega
                obtain ⟨ps, o, hT, hR, rfl⟩ := (formatLoop_iff args maxP hmax fuel _ _ _ _ hdl).1 h
                obtain ⟨c, ⟨hf, ⟨r', hr'⟩, hread, hc⟩ | ⟨ds, n, r', heq, hne', hn, hle, hnd, hf, hread⟩⟩ :=
                  (parseAndFormat_iff _ _ _ hmax (by simp) _ _).1 hpf
                · injection hr' with h1 h2; subst h1 h2 hread
                  refine ⟨.arg none d :: ps, t ++ o, .plain (formatClause_letter hf) (by simpa using hT), ?_, by simp⟩
                  rw [hdrop]; exact .arg hf hR
                · subst hread
                  rw [heq] at hT ⊢
                  have hdd : (46 :: (ds ++ c :: r')).drop (1 + ds.length + 1) = r' := by
                    rw [show 1 + ds.length + 1 = (ds.length + 1) + 1 by omega, List.drop_succ_cons,
                      List.drop_append]
                    simp
                  rw [hdd] at hT
                  refine ⟨.arg (some n) c :: ps, t ++ o, .precise hne' hn hle (formatClause_letter hf) hT, ?_, by simp⟩
                  rw [hdrop]; exact .arg hf hR
              | err s => rw [hpf] at h; cases h
              | ub => rw [hpf] at h; cases h
            · rintro ⟨ps, o, hT, hR, rfl⟩
              rw [hdrop] at hR
              cases hT with
              | lit h _ => exact absurd rfl h
              | percent _ => exact absurd rfl hd
              | plain hcl hT =>
                cases hR with
                | arg hf hR =>
                  have hpf := (parseAndFormat_iff (d :: rest) v maxP hmax (by simp) 0 _).2
                    ⟨d, .inl ⟨hf, ⟨rest, rfl⟩, rfl, (letter_not_digit hcl).2.2⟩⟩
                  rw [hpf]
                  simp only [Res.mbind_ok]
                  exact (formatLoop_iff args maxP hmax fuel _ _ _ _ (by simp at hl ⊢; omega)).2
                    ⟨_, _, by simpa using hT, hR, by simp⟩
              | @precise ds n c r ps hne' hn hle hcl hT =>
                cases hR with
                | arg hf hR =>
                  have hpf := (parseAndFormat_iff (46 :: (ds ++ c :: r)) v maxP hmax (by simp) (1 + ds.length) _).2
                    ⟨c, .inr ⟨ds, n, r, rfl, hne', hn, hle, (letter_not_digit hcl).1, hf, rfl⟩⟩
                  rw [hpf]
                  simp only [Res.mbind_ok]
                  have hdd : (46 :: (ds ++ c :: r)).drop (1 + ds.length + 1) = r := by
                    rw [show 1 + ds.length + 1 = (ds.length + 1) + 1 by omega, List.drop_succ_cons,
                      List.drop_append]
                    simp
                  rw [hdd]
                  exact (formatLoop_iff args maxP hmax fuel _ _ _ _ (by simp at hl ⊢; omega)).2
                    ⟨_, _, hT, hR, by simp⟩
    · rw [if_pos hc, formatLoop_iff args maxP hmax fuel rest idx _ out (by simp at hl; omega)]
      constructor
      · rintro ⟨ps, o, hT, hR, rfl⟩
        exact ⟨.lit c :: ps, c :: o, .lit hc hT, .lit hR, by simp⟩
      · rintro ⟨ps, o, hT, hR, rfl⟩
        cases hT with
        | lit _ hT =>
          cases hR with
          | lit hR => exact ⟨_, _, hT, hR, by simp⟩
        | percent _ => exact absurd rfl hc
        | plain _ _ => exact absurd rfl hc
        | precise _ _ _ _ _ => exact absurd rfl hc

theorem effectiveMax_le (o : Int) : effectiveMax o ≤ 1000 := by
  unfold effectiveMax; repeat' split <;> omega

/-- **C66** `template.format(args)` succeeds with `out` exactly when the template can be read and
`out` is the template with the n-th clause replaced by the text of the n-th argument. -/
theorem C66_format (fmt : List Nat) (args : List FVal) (option : Int) (out : List Nat) :
    format fmt args (effectiveMax option) = .ok out ↔
      ∃ ps, Template (effectiveMax option) fmt ps ∧ Render ps args out := by
  have hm := effectiveMax_le option
  unfold format
  rw [formatLoop_iff args _ (by omega) _ _ _ _ _ (Nat.le_refl _)]
  simp only [List.drop_zero, List.nil_append]
  constructor
  · rintro ⟨ps, o, h1, h2, rfl⟩; exact ⟨ps, h1, h2⟩
  · rintro ⟨ps, h1, h2⟩; exact ⟨ps, out, h1, h2, rfl⟩

/-- A template reads in one way only. -/
theorem Template.unique {maxP : Nat} : ∀ {fmt : List Nat} {ps qs : List Piece}, Template maxP fmt ps →
    Template maxP fmt qs → ps = qs := by
  intro fmt ps qs h
  induction h generalizing qs with
  | nil => intro h2; cases h2; rfl
  | lit hc h ih =>
    intro h2
    cases h2 with
    | lit _ h2 => rw [ih h2]
    | percent _ => exact absurd rfl hc
    | plain _ _ => exact absurd rfl hc
    | precise _ _ _ _ _ => exact absurd rfl hc
  | percent h ih =>
    intro h2
    cases h2 with
    | lit hc _ => exact absurd rfl hc
    | percent h2 => rw [ih h2]
    | plain hl _ => exact absurd rfl (letter_not_digit hl).2.1
  | plain hl h ih =>
    intro h2
    cases h2 with
    | lit hc _ => exact absurd rfl hc
    | percent _ => exact absurd rfl (letter_not_digit hl).2.1
    | plain _ h2 => rw [ih h2]
    | precise _ _ _ _ _ => exact absurd rfl (letter_not_digit hl).2.2
  | @precise ds n c r ps hne hn hle hl h ih =>
    intro h2
    generalize hf : 37 :: 46 :: (ds ++ c :: r) = fmt at h2
    cases h2 with
    | nil => cases hf
    | lit hc _ => injection hf with h1 _; exact absurd h1.symm hc
    | percent _ => injection hf with _ hf; injection hf with h1 _; cases h1
    | plain hl' _ => injection hf with _ hf; injection hf with h1 _; exact absurd h1.symm (letter_not_digit hl').2.2
    | @precise ds' n' c' r' ps' hne' hn' hle' hl' h2 =>
      injection hf with _ hf
      injection hf with _ hf
      have e1 := takeWhile_digits (digits_of_read _ _ _ hn) (show NoDigit (c :: r) from (letter_not_digit hl).1)
      have e2 := takeWhile_digits (digits_of_read _ _ _ hn') (show NoDigit (c' :: r') from (letter_not_digit hl').1)
      rw [hf, e2] at e1
      subst e1
      have := List.append_cancel_left hf
      injection this with h1 h3
      subst h1 h3
      rw [hn] at hn'; injection hn' with hn'; subst hn'
      rw [ih h2]

end Cel.Format
