import Verif.Conv.Convert
import Verif.Conv.ClockProps

/-!
# C68: timestamps as text
-/

set_option linter.unusedSimpArgs false
set_option linter.unusedVariables false

namespace Cel.Conv
open Cel Cel.Num

/-- `text` is exactly `w` decimal digits denoting `n`. -/
def Field (w : Nat) (text : List Nat) (n : Int) : Prop :=
  text.length = w ∧ ∃ k : Nat, readFrom 10 0 text = some k ∧ n = k

/-- Specification (RFC 3339, section 5.6, in UTC): `text` is `YYYY-MM-DDThh:mm:ss[.fraction]Z` and
denotes exactly the instant `t`. -/
def Rfc3339 (text : List Nat) (t : Int) : Prop :=
  ∃ (y mo d hh mm ss frac : List Nat) (date : Date) (h m s sub : Int),
    text = y ++ 45 :: (mo ++ 45 :: (d ++ 84 :: (hh ++ 58 :: (mm ++ 58 :: (ss ++
      ((if frac = [] then [] else 46 :: frac) ++ [90])))))) ∧
    Field 4 y date.y ∧ Field 2 mo date.m ∧ Field 2 d date.d ∧ Field 2 hh h ∧ Field 2 mm m ∧ Field 2 ss s ∧
    (∃ f : Nat, readFrom 10 0 frac = some f ∧ sub * 10 ^ frac.length = (f : Int) * tps) ∧
    Shown t date h m s sub

theorem Field.unique {w : Nat} {text : List Nat} {a b : Int} (x : Field w text a) (y : Field w text b) : a = b := by
  obtain ⟨_, k, h, rfl⟩ := x
  obtain ⟨_, k', h', rfl⟩ := y
  rw [h] at h'; injection h' with h'; rw [h']

theorem append_split {a b c d : List Nat} (h : a ++ b = c ++ d) (hl : a.length = c.length) : a = c ∧ b = d :=
  List.append_inj h hl

/-- A text denotes at most one instant. -/
theorem Rfc3339.unique {text : List Nat} {t u : Int} (h1 : Rfc3339 text t) (h2 : Rfc3339 text u) : t = u := by
  obtain ⟨y, mo, d, hh, mm, ss, fr, date, h, m, s, sub, rfl, fy, fmo, fd, fh, fm, fs, ⟨f, hf, hsub⟩, sh⟩ := h1
  obtain ⟨y', mo', d', hh', mm', ss', fr', date', h', m', s', sub', heq, fy', fmo', fd', fh', fm', fs', ⟨f', hf', hsub'⟩, sh'⟩ := h2
  obtain ⟨e0, q0⟩ := append_split heq (by rw [fy.1, fy'.1])
  have p0 := (List.cons.inj q0).2
  obtain ⟨e1, q1⟩ := append_split p0 (by rw [fmo.1, fmo'.1])
  have p1 := (List.cons.inj q1).2
  obtain ⟨e2, q2⟩ := append_split p1 (by rw [fd.1, fd'.1])
  have p2 := (List.cons.inj q2).2
  obtain ⟨e3, q3⟩ := append_split p2 (by rw [fh.1, fh'.1])
  have p3 := (List.cons.inj q3).2
  obtain ⟨e4, q4⟩ := append_split p3 (by rw [fm.1, fm'.1])
  have p4 := (List.cons.inj q4).2
  obtain ⟨e5, q5⟩ := append_split p4 (by rw [fs.1, fs'.1])
  subst e0 e1 e2 e3 e4 e5
  have heq := q5
  have hfr : fr = fr' := by
    by_cases e1 : fr = [] <;> by_cases e2 : fr' = []
    · rw [e1, e2]
    · rw [if_pos e1, if_neg e2] at heq; simp at heq
    · rw [if_neg e1, if_pos e2] at heq; simp at heq
    · rw [if_neg e1, if_neg e2] at heq
      simpa using heq
  subst hfr
  have hd : date = date' := by
    have h1 := fy.unique fy'
    have h2 := fmo.unique fmo'
    have h3 := fd.unique fd'
    cases date; cases date'; simp only at h1 h2 h3; rw [h1, h2, h3]
  have e4 := fh.unique fh'
  have e5 := fm.unique fm'
  have e6 := fs.unique fs'
  subst hd e4 e5 e6
  have hff : f = f' := by rw [hf] at hf'; injection hf' 
  subst hff
  have hs : sub = sub' := by
    have hp : (0 : Int) < 10 ^ fr.length := Int.pow_pos (by omega)
    exact Int.eq_of_mul_eq_mul_right (by omega) (hsub.trans hsub'.symm)
  subst hs
  rw [← sh.total, ← sh'.total]

theorem field_padded {w : Nat} (hw : 1 ≤ w) {n : Int} (h0 : 0 ≤ n) (h1 : n < (10 ^ w : Nat)) :
    Field w (padded w n.toNat) n :=
  ⟨padded_length hw (by omega), n.toNat, padded_value _ _, by omega⟩

/-- Years of the timestamps in range. -/
theorem year_range {t : Int} {date : Date} {h m s sub : Int} (sh : Shown t date h m s sub)
    (hmin : minTsTicks ≤ t) (hmax : t ≤ maxTsTicks) : 1 ≤ date.y ∧ date.y ≤ 9999 := by
  obtain ⟨v, ⟨_, _⟩, ⟨_, _⟩, ⟨_, _⟩, ⟨_, _⟩, ht⟩ := sh
  have hb := monthStart_bound v
  unfold minTsTicks maxTsTicks tps tpn at *
  have hl : dayNumber date ≤ 2932896 := by omega
  have hg : -719162 ≤ dayNumber date := by omega
  unfold dayNumber at hl hg
  have h1 : yearStart 1 = 0 := by decide
  have h2 : yearStart 10000 = 3652059 := by decide
  constructor
  · rcases Int.lt_or_le date.y 1 with hlt | hle
    · have h3 := yearStart_succ date.y
      have : yearStart (date.y + 1) ≤ yearStart 1 := by
        rcases Int.lt_or_eq_of_le (show date.y + 1 ≤ 1 by omega) with h | h
        · have := yearStart_mono h; omega
        · rw [h]; exact Int.le_refl _
      omega
    · exact hle
  · rcases Int.lt_or_le date.y 10000 with hlt | hle
    · omega
    · have : yearStart 10000 ≤ yearStart date.y := by
        rcases Int.lt_or_eq_of_le hle with h | h
        · have := yearStart_mono h; omega
        · rw [← h]; exact Int.le_refl _
      omega

theorem monthLen_le (y m : Int) : monthLen y m ≤ 31 := by unfold monthLen; repeat' split <;> omega

theorem clockText_eq (c : Civil) (rest : List Nat) : clockText c ++ rest =
    45 :: (padded 2 c.date.m.toNat ++ 45 :: (padded 2 c.date.d.toNat ++ 84 :: (padded 2 c.hh.toNat ++
      58 :: (padded 2 c.mm.toNat ++ 58 :: (padded 2 c.ss.toNat ++ rest))))) := by
  unfold clockText
  simp

/-- Encoding never fails in range, and the text denotes exactly the timestamp. -/
theorem encodeTimestamp_spec (t : Int) (hmin : minTsTicks ≤ t) (hmax : t ≤ maxTsTicks) (hns : t % 4 = 0) :
    ∃ text, encodeTimestamp (.fin t) = .ok text ∧ Rfc3339 text t := by
  have hv : validateTimestamp (.fin t) = none := by
    unfold validateTimestamp
    simp only
    rw [if_neg (by omega), if_neg (by omega)]
  unfold encodeTimestamp
  rw [hv]
  refine ⟨_, rfl, ?_⟩
  have hfull := atUtc_shown t
  have hsame : atUtc (.fin (t / tps * tps)) = { atUtc (.fin t) with sub := .fin 0 } := by
    have e1 : t / tps * tps / tps = t / tps := by unfold tps; omega
    have e2 : t / tps * tps % tps = 0 := by unfold tps; omega
    simp only [atUtc, e1, e2]
  have hy := year_range hfull hmin hmax
  have hn : nanosPast t (t / tps) = t % tps / 4 := by
    unfold nanosPast
    rw [tdiv_nonneg_eq (by unfold tps; omega)]
    unfold tps tpn; omega
  simp only [hsame, hn]
  generalize hc : atUtc (.fin t) = c at *
  obtain ⟨v, ⟨h0, h1⟩, ⟨m0, m1⟩, ⟨s0, s1⟩, ⟨b0, b1⟩, ht⟩ := id hfull
  obtain ⟨v1, v2, v3, v4⟩ := id v
  have v5 := monthLen_le c.date.y c.date.m
  rw [List.append_assoc, List.append_assoc, clockText_eq]
  have hsub9 : t % tps < 4000000000 := b1
  have f1 : Field 4 (padded 4 c.date.y.toNat) c.date.y := field_padded (by omega) (by omega) (by simp only [Nat.reducePow]; omega)
  have f2 : Field 2 (padded 2 c.date.m.toNat) c.date.m := field_padded (by omega) (by omega) (by simp only [Nat.reducePow]; omega)
  have f3 : Field 2 (padded 2 c.date.d.toNat) c.date.d := field_padded (by omega) (by omega) (by simp only [Nat.reducePow]; omega)
  have f4 : Field 2 (padded 2 c.hh.toNat) c.hh := field_padded (by omega) (by omega) (by simp only [Nat.reducePow]; omega)
  have f5 : Field 2 (padded 2 c.mm.toNat) c.mm := field_padded (by omega) (by omega) (by simp only [Nat.reducePow]; omega)
  have f6 : Field 2 (padded 2 c.ss.toNat) c.ss := field_padded (by omega) (by omega) (by simp only [Nat.reducePow]; omega)
  by_cases hz : t % tps = 0
  · rw [if_neg (show ¬ t % tps / 4 > 0 by omega)]
    exact ⟨_, _, _, _, _, _, [], c.date, c.hh, c.mm, c.ss, t % tps, by rw [if_pos rfl], f1, f2, f3, f4, f5, f6,
      ⟨0, rfl, by rw [hz]; simp⟩, hfull⟩
  · have hpos : 0 < t % tps / 4 := by unfold tps at *; omega
    have hlt : t % tps / 4 < 1000000000 := by omega
    obtain ⟨f, hl, hf, hf0, he⟩ := formatNanos_spec hpos hlt
    have hne := formatNanos_ne hpos hlt
    rw [if_pos (show t % tps / 4 > 0 from hpos)]
    refine ⟨_, _, _, _, _, _, formatNanos (t % tps / 4), c.date, c.hh, c.mm, c.ss, t % tps, by rw [if_neg hne],
      f1, f2, f3, f4, f5, f6, ⟨f, hf, ?_⟩, hfull⟩
    have h4 : t % tps = t % tps / 4 * 4 := by unfold tps; omega
    generalize (formatNanos (t % tps / 4)).length = L at *
    rw [h4, Int.mul_assoc, Int.mul_comm 4, ← Int.mul_assoc, he]
    unfold tps; omega

/-- **C68** `string(timestamp)` is RFC 3339 text denoting exactly the timestamp, for every timestamp
in range made of whole nanoseconds; outside the range it is an error. -/
theorem C68_string_of_timestamp (t : Int) (hns : t % 4 = 0) :
    (minTsTicks ≤ t → t ≤ maxTsTicks → ∃ text, stringOfTimestamp (.fin t) = .ok text ∧ Rfc3339 text t) ∧
    (t < minTsTicks ∨ maxTsTicks < t → ∃ s, stringOfTimestamp (.fin t) = .err s) := by
  refine ⟨fun h1 h2 => encodeTimestamp_spec t h1 h2 hns, fun h => ?_⟩
  unfold stringOfTimestamp encodeTimestamp
  cases hv : validateTimestamp (.fin t) with
  | some s => exact ⟨s, rfl⟩
  | none =>
    unfold validateTimestamp at hv
    simp only at hv
    split at hv
    · cases hv
    · split at hv
      · cases hv
      · omega

/-- **C68** Different timestamps have different strings. -/
theorem C68_timestamp_text_injective (t u : Int) (ht : t % 4 = 0) (hu : u % 4 = 0) (text : List Nat)
    (h1 : stringOfTimestamp (.fin t) = .ok text) (h2 : stringOfTimestamp (.fin u) = .ok text) : t = u := by
  have inr : ∀ x, stringOfTimestamp (.fin x) = .ok text → minTsTicks ≤ x ∧ x ≤ maxTsTicks := by
    intro x hx
    unfold stringOfTimestamp encodeTimestamp validateTimestamp at hx
    simp only at hx
    constructor
    · rcases Int.lt_or_le x minTsTicks with h | h
      · rw [if_pos h] at hx; cases hx
      · exact h
    · rcases Int.lt_or_le maxTsTicks x with h | h
      · rw [if_neg (by unfold minTsTicks maxTsTicks tps tpn at *; omega), if_pos h] at hx; cases hx
      · exact h
  obtain ⟨x, hx, rx⟩ := encodeTimestamp_spec t (inr t h1).1 (inr t h1).2 ht
  obtain ⟨y, hy, ry⟩ := encodeTimestamp_spec u (inr u h2).1 (inr u h2).2 hu
  unfold stringOfTimestamp at h1 h2
  rw [h1] at hx; rw [h2] at hy
  injection hx with hx; injection hy with hy
  subst hx hy
  exact rx.unique ry

/-- What the third-party parser promises: RFC 3339 text is read as the instant it denotes. -/
def ParserReads (parse : List Nat → Option Tm) : Prop := ∀ text t, Rfc3339 text t → parse text = some (.fin t)

/-- **C68** `timestamp(string(t)) == t` for every timestamp in range made of whole nanoseconds, with
the overflow checks on or off. -/
theorem C68_timestamp_roundtrip (parse : List Nat → Option Tm) (hp : ParserReads parse) (checks : Bool) (t : Int)
    (hmin : minTsTicks ≤ t) (hmax : t ≤ maxTsTicks) (hns : t % 4 = 0) :
    ∃ text, stringOfTimestamp (.fin t) = .ok text ∧ timestampOfString parse checks text = .ok (.fin t) := by
  obtain ⟨text, h1, h2⟩ := encodeTimestamp_spec t hmin hmax hns
  refine ⟨text, h1, ?_⟩
  unfold timestampOfString
  rw [hp _ _ h2]
  have hv : validateTimestamp (.fin t) = none := by
    unfold validateTimestamp
    simp only
    rw [if_neg (by omega), if_neg (by omega)]
  simp [checkTs, hv]

/-- A parser with that promise exists, because a text denotes at most one instant. -/
theorem parserReads_satisfiable : ∃ parse, ParserReads parse := by
  classical
  refine ⟨fun text => if h : ∃ t, Rfc3339 text t then some (.fin h.choose) else none, ?_⟩
  intro text t h
  have hex : ∃ t, Rfc3339 text t := ⟨t, h⟩
  show (if h : ∃ t, Rfc3339 text t then some (Tm.fin h.choose) else none) = _
  rw [dif_pos hex, hex.choose_spec.unique h]

/-- **C68** `int(timestamp(i)) == i` whenever `timestamp(i)` succeeds; it succeeds exactly in range
when the checks are on, and always when they are off. -/
theorem C68_timestamp_of_int (i : Int) :
    (∀ checks t, timestampOfInt checks i = .ok t → intOfTimestamp t = i) ∧
    ((∃ t, timestampOfInt true i = .ok t) ↔ -62135596800 ≤ i ∧ i ≤ 253402300799) ∧
    (∃ t, timestampOfInt false i = .ok t) := by
  refine ⟨?_, ?_, ⟨.fin (i * tps), by simp [timestampOfInt, checkTs]⟩⟩
  · intro checks t h
    unfold timestampOfInt checkTs at h
    split at h
    · cases h
    · injection h with h; subst h
      simp only [intOfTimestamp, toUnixSeconds]; unfold tps; omega
  · have hv : validateTimestamp (.fin (i * tps)) = none ↔ -62135596800 ≤ i ∧ i ≤ 253402300799 := by
      unfold validateTimestamp minTsTicks maxTsTicks tps tpn
      simp only
      constructor
      · intro h
        split at h
        · cases h
        · split at h
          · cases h
          · omega
      · intro h
        rw [if_neg (by omega), if_neg (by omega)]
    rw [← hv]
    unfold timestampOfInt checkTs
    cases validateTimestamp (.fin (i * tps)) <;> simp

/-- **C68** `int(timestamp)` is the whole seconds, rounded down. -/
theorem C68_int_of_timestamp (t : Int) :
    intOfTimestamp (.fin t) * tps ≤ t ∧ t < (intOfTimestamp (.fin t) + 1) * tps := by
  simp only [intOfTimestamp, toUnixSeconds]; unfold tps; omega

/-- The text used in diagnostics and by `%s` is not RFC 3339 before the year 1000: the year is not
padded. -/
theorem C68_raw_text_witness : ∃ t, minTsTicks ≤ t ∧ t ≤ maxTsTicks ∧ rawTimestamp t = asc "999-12-31T23:59:59Z" ∧
    ∀ u, ¬ Rfc3339 (rawTimestamp t) u := by
  refine ⟨-30610224001 * tps, by decide, by decide, by decide, ?_⟩
  have : rawTimestamp (-30610224001 * tps) = asc "999-12-31T23:59:59Z" := by decide
  rw [this]
  rintro u ⟨y, mo, d, hh, mm, ss, frac, date, h, m, s, sub, heq, fy, _⟩
  match y, fy with
  | [a, b, c, e], ⟨_, k, hk, _⟩ =>
    have he : e = 45 := by
      simp only [asc, List.cons_append] at heq
      injection heq with _ heq
      injection heq with _ heq
      injection heq with _ heq
      injection heq with heq _
      exact heq.symm
    have := digits_of_read _ _ _ hk e (by simp)
    unfold IsDigit at this
    omega

end Cel.Conv
