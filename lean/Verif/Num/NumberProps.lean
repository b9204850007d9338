import Verif.Num.NumberLemmas
import Verif.Num.IntProps
import Mathlib.Tactic.Push

set_option linter.unusedSimpArgs false
set_option linter.unusedVariables false

/-!
# C05, C10–C12: doubles and cross-type numeric comparison
-/

namespace Cel.Num
open Cel Spec

/-! ## Helpers -/

/-- Exact value in units of 2^-1074 of a finite number. -/
def uv : Number → Option Int
  | .int i => some (i * unit1)
  | .uint i => some (i * unit1)
  | .dbl (.fin s m) => some (Dbl.sval s m)
  | .dbl _ => none

theorem unit1_rat : ((unit1 : ℕ) : ℚ) = 2 ^ 1074 := by
  unfold unit1; push_cast; rfl

theorem unitQ_pos : (0 : ℚ) < 2 ^ 1074 := by
  have : (0 : ℚ) < 2 := by norm_num
  exact pow_pos this 1074

theorem int_as_units (i : Int) : (i : ℚ) = ((i * unit1 : Int) : ℚ) / 2 ^ 1074 := by
  have hp := unitQ_pos
  rw [Int.cast_mul, Int.cast_natCast, unit1_rat]
  generalize (2 : ℚ) ^ 1074 = t at hp
  field_simp

theorem value_of_uv {a : Number} {x : Int} (h : uv a = some x) :
    value a = some (.num ((x : ℚ) / 2 ^ 1074)) := by
  have hp := unitQ_pos
  cases a with
  | int i =>
    simp only [uv, Option.some.injEq] at h
    subst h
    rw [← int_as_units]; rfl
  | uint i =>
    simp only [uv, Option.some.injEq] at h
    subst h
    rw [← int_as_units]; rfl
  | dbl d =>
    cases d with
    | nan => simp [uv] at h
    | inf s => simp [uv] at h
    | fin s m =>
      simp only [uv, Option.some.injEq] at h
      subst h
      simp only [value, Dbl.sval]
      cases s <;> simp

theorem num_lt_iff (x y : Int) :
    Ext.lt (.num ((x : ℚ) / 2 ^ 1074)) (.num ((y : ℚ) / 2 ^ 1074)) ↔ x < y := by
  have hp := unitQ_pos
  simp only [Ext.lt]
  generalize (2 : ℚ) ^ 1074 = t at hp
  rw [div_lt_div_iff_of_pos_right hp]
  exact Int.cast_lt

theorem num_eq_iff (x y : Int) :
    Ext.num ((x : ℚ) / 2 ^ 1074) = Ext.num ((y : ℚ) / 2 ^ 1074) ↔ x = y := by
  have hp := unitQ_pos
  rw [Ext.num.injEq]
  generalize (2 : ℚ) ^ 1074 = t at hp
  constructor
  · intro h
    have h2 := (div_left_inj' (ne_of_gt hp)).1 h
    exact_mod_cast h2
  · rintro rfl; rfl

theorem compareInt_cases (x y : Int) :
    (x < y → compareInt x y = .lesser) ∧ (x = y → compareInt x y = .equal) ∧
    (x > y → compareInt x y = .greater) := by
  unfold compareInt
  refine ⟨fun h => ?_, fun h => ?_, fun h => ?_⟩
  · rw [if_neg (by omega), if_neg (by omega)]
  · rw [if_neg (by omega), if_pos h]
  · rw [if_pos h]

theorem compareInt_unit (x y : Int) : compareInt (x * unit1) (y * unit1) = compareInt x y := by
  rcases Int.lt_trichotomy x y with h | h | h
  · rw [(compareInt_cases _ _).1 h, (compareInt_cases _ _).1 (unit1_mul_lt h)]
  · rw [(compareInt_cases _ _).2.1 h, (compareInt_cases _ _).2.1 (by rw [h])]
  · rw [(compareInt_cases _ _).2.2 h, (compareInt_cases _ _).2.2 (unit1_mul_lt h)]

theorem roundI_of_exact (x : Int) (h : ExactInDouble x) : roundI x = x := by
  obtain ⟨m, e, hm, hx⟩ := h
  have h1 : Dbl.round53 x.natAbs = x.natAbs := by rw [hx]; exact round53_of_rep m e hm
  unfold roundI Dbl.sval
  rw [h1]
  by_cases hneg : x < 0
  · simp only [hneg, decide_true, if_true]; omega
  · simp only [hneg, decide_false, Bool.false_eq_true, if_false]; omega

/-- Comparison of two finite numbers in terms of their exact values. -/
theorem cmp_core (a b : Number) (ha : a.WF) (hb : b.WF) (x y : Int)
    (hx : uv a = some x) (hy : uv b = some y) :
    (x < y → a.compare b ≠ .greater) ∧ (x > y → a.compare b ≠ .lesser) ∧
    (x = y → a.compare b = .equal) ∧ a.compare b ≠ .nanInequal ∧
    (NoRounding a b → a.compare b = compareInt x y) := by
  have hne : ∀ p q, compareInt p q ≠ .nanInequal := by
    intro p q; unfold compareInt; split
    · simp
    · split <;> simp
  -- exact case
  have exact_case : a.compare b = compareInt x y →
      ((x < y → a.compare b ≠ .greater) ∧ (x > y → a.compare b ≠ .lesser) ∧
      (x = y → a.compare b = .equal) ∧ a.compare b ≠ .nanInequal ∧
      (NoRounding a b → a.compare b = compareInt x y)) := by
    intro h
    obtain ⟨c1, c2, c3⟩ := compareInt_cases x y
    refine ⟨fun k => ?_, fun k => ?_, fun k => ?_, ?_, fun _ => h⟩
    · rw [h, c1 k]; simp
    · rw [h, c3 k]; simp
    · rw [h, c2 k]
    · rw [h]; exact hne _ _
  -- one double, one integer
  have mixed : ∀ (s : Bool) (m : Nat) (i : Int), RepMag m →
      (Dbl.sval s m < i * unit1 → compareInt (Dbl.sval s m) (roundI i * unit1) ≠ .greater) ∧
      (Dbl.sval s m > i * unit1 → compareInt (Dbl.sval s m) (roundI i * unit1) ≠ .lesser) ∧
      (Dbl.sval s m = i * unit1 → compareInt (Dbl.sval s m) (roundI i * unit1) = .equal) := by
    intro s m i hm
    obtain ⟨r1, r2, r3⟩ := round_vs s m hm i
    obtain ⟨c1, c2, c3⟩ := compareInt_cases (Dbl.sval s m) (roundI i * unit1)
    refine ⟨fun h hc => ?_, fun h hc => ?_, fun h => c2 (r3 h)⟩
    · have := r1 h
      rcases Int.lt_or_eq_of_le this with h' | h'
      · have := c1 h'; rw [hc] at this; cases this
      · have := c2 h'; rw [hc] at this; cases this
    · have := r2 h
      rcases Int.lt_or_eq_of_le this with h' | h'
      · have := c3 h'; rw [hc] at this; cases this
      · have := c2 h'.symm; rw [hc] at this; cases this
  have e := compare_eq a b ha hb
  cases a with
  | dbl v =>
    cases v with
    | nan => simp [uv] at hx
    | inf s => simp [uv] at hx
    | fin s m =>
      simp only [uv, Option.some.injEq] at hx
      cases b with
      | dbl w =>
        cases w with
        | nan => simp [uv] at hy
        | inf s => simp [uv] at hy
        | fin t n =>
          simp only [uv, Option.some.injEq] at hy
          apply exact_case
          rw [e]; simp only [bothInt, asDbl]; rw [doubleCompare_fin, hx, hy]
      | int i =>
        simp only [uv, Option.some.injEq] at hy
        simp only [bothInt, asDbl] at e
        rw [ofInt_eq, doubleCompare_fin, sval_ofInt, hx] at e
        obtain ⟨k1, k2, k3⟩ := mixed s m i ha
        rw [hx, hy] at k1 k2 k3
        rw [e]
        refine ⟨k1, k2, k3, hne _ _, fun hn => ?_⟩
        rw [roundI_of_exact i hn, hy]
      | uint i =>
        simp only [uv, Option.some.injEq] at hy
        simp only [bothInt, asDbl] at e
        rw [ofInt_eq, doubleCompare_fin, sval_ofInt, hx] at e
        obtain ⟨k1, k2, k3⟩ := mixed s m i ha
        rw [hx, hy] at k1 k2 k3
        rw [e]
        refine ⟨k1, k2, k3, hne _ _, fun hn => ?_⟩
        rw [roundI_of_exact i hn, hy]
  | int i =>
    simp only [uv, Option.some.injEq] at hx
    cases b with
    | dbl w =>
      cases w with
      | nan => simp [uv] at hy
      | inf s => simp [uv] at hy
      | fin s m =>
        simp only [uv, Option.some.injEq] at hy
        simp only [bothInt, asDbl] at e
        rw [ofInt_eq, doubleCompare_fin, sval_ofInt, hy] at e
        obtain ⟨k1, k2, k3⟩ := mixed s m i hb
        rw [hx, hy] at k1 k2 k3
        rw [← compareInt_invert] at e
        refine ⟨fun h hc => ?_, fun h hc => ?_, fun h => ?_, ?_, fun hn => ?_⟩
        · apply k2 h; rw [hc] at e
          cases hh : compareInt y (roundI i * unit1) <;> rw [hh] at e <;> simp [CmpResult.invert] at e ⊢
        · apply k1 h; rw [hc] at e
          cases hh : compareInt y (roundI i * unit1) <;> rw [hh] at e <;> simp [CmpResult.invert] at e ⊢
        · rw [e, k3 h.symm]; rfl
        · rw [e, compareInt_invert]; exact hne _ _
        · rw [e, compareInt_invert, roundI_of_exact i hn, hx]
    | int j =>
      simp only [uv, Option.some.injEq] at hy
      apply exact_case
      rw [e, ← hx, ← hy, compareInt_unit]; rfl
    | uint j =>
      simp only [uv, Option.some.injEq] at hy
      apply exact_case
      rw [e, ← hx, ← hy, compareInt_unit]; rfl
  | uint i =>
    simp only [uv, Option.some.injEq] at hx
    cases b with
    | dbl w =>
      cases w with
      | nan => simp [uv] at hy
      | inf s => simp [uv] at hy
      | fin s m =>
        simp only [uv, Option.some.injEq] at hy
        simp only [bothInt, asDbl] at e
        rw [ofInt_eq, doubleCompare_fin, sval_ofInt, hy] at e
        obtain ⟨k1, k2, k3⟩ := mixed s m i hb
        rw [hx, hy] at k1 k2 k3
        rw [← compareInt_invert] at e
        refine ⟨fun h hc => ?_, fun h hc => ?_, fun h => ?_, ?_, fun hn => ?_⟩
        · apply k2 h; rw [hc] at e
          cases hh : compareInt y (roundI i * unit1) <;> rw [hh] at e <;> simp [CmpResult.invert] at e ⊢
        · apply k1 h; rw [hc] at e
          cases hh : compareInt y (roundI i * unit1) <;> rw [hh] at e <;> simp [CmpResult.invert] at e ⊢
        · rw [e, k3 h.symm]; rfl
        · rw [e, compareInt_invert]; exact hne _ _
        · rw [e, compareInt_invert, roundI_of_exact i hn, hx]
    | int j =>
      simp only [uv, Option.some.injEq] at hy
      apply exact_case
      rw [e, ← hx, ← hy, compareInt_unit]; rfl
    | uint j =>
      simp only [uv, Option.some.injEq] at hy
      apply exact_case
      rw [e, ← hx, ← hy, compareInt_unit]; rfl

/-- Every number is NaN, an infinity, or finite. -/
theorem number_cases (a : Number) :
    value a = none ∨ value a = some .posInf ∨ value a = some .negInf ∨ ∃ x, uv a = some x := by
  cases a with
  | int i => exact .inr (.inr (.inr ⟨_, rfl⟩))
  | uint i => exact .inr (.inr (.inr ⟨_, rfl⟩))
  | dbl d =>
    cases d with
    | nan => exact .inl rfl
    | inf s => cases s; exacts [.inr (.inl rfl), .inr (.inr (.inl rfl))]
    | fin s m => exact .inr (.inr (.inr ⟨_, rfl⟩))

theorem value_posInf {a : Number} (h : value a = some .posInf) : a = .dbl (.inf false) := by
  cases a with
  | int i => simp [value] at h
  | uint i => simp [value] at h
  | dbl d => cases d with
    | nan => simp [value] at h
    | inf s => cases s <;> simp [value] at h ⊢
    | fin s m => simp [value] at h
theorem value_negInf {a : Number} (h : value a = some .negInf) : a = .dbl (.inf true) := by
  cases a with
  | int i => simp [value] at h
  | uint i => simp [value] at h
  | dbl d => cases d with
    | nan => simp [value] at h
    | inf s => cases s <;> simp [value] at h ⊢
    | fin s m => simp [value] at h
theorem value_none {a : Number} (h : value a = none) : a = .dbl .nan := by
  cases a with
  | int i => simp [value] at h
  | uint i => simp [value] at h
  | dbl d => cases d with
    | nan => rfl
    | inf s => cases s <;> simp [value] at h
    | fin s m => simp [value] at h

/-- Comparison with an infinity on the left. -/
theorem compare_inf_left (s : Bool) (b : Number) (hb : b.WF) :
    (Number.dbl (.inf s)).compare b =
      match value b with
      | none => .nanInequal
      | some .posInf => if s then .lesser else .equal
      | some .negInf => if s then .equal else .greater
      | some (.num _) => if s then .lesser else .greater := by
  rw [compare_eq _ _ (by trivial) hb]
  cases b with
  | int i =>
    simp only [bothInt, asDbl, value, ofInt_eq, doubleCompare, eq_self, Dbl.isNaN, Dbl.gt, Dbl.eq,
      Dbl.cmp]
    cases s <;> simp
  | uint i =>
    simp only [bothInt, asDbl, value, ofInt_eq, doubleCompare, eq_self, Dbl.isNaN, Dbl.gt, Dbl.eq,
      Dbl.cmp]
    cases s <;> simp
  | dbl d =>
    cases d with
    | nan => simp [bothInt, asDbl, value, doubleCompare, eq_self, Dbl.isNaN]
    | inf t => cases s <;> cases t <;> rfl
    | fin t m =>
      simp only [bothInt, asDbl, value, ofInt_eq, doubleCompare, eq_self, Dbl.isNaN, Dbl.gt, Dbl.eq,
        Dbl.cmp]
      cases s <;> simp

/-- Swapping the operands inverts the comparison. -/
theorem compare_swap (a b : Number) (ha : a.WF) (hb : b.WF) :
    b.compare a = (a.compare b).invert := by
  rw [compare_eq a b ha hb, compare_eq b a hb ha]
  cases a <;> cases b <;> simp only [bothInt, compareInt_invert, doubleCompare_invert]

/-- NaN on either side. -/
theorem compare_nan (a b : Number) (ha : a.WF) (hb : b.WF)
    (h : value a = none ∨ value b = none) : a.compare b = .nanInequal := by
  have key : ∀ c : Number, c.WF → (Number.dbl .nan).compare c = .nanInequal := by
    intro c hc
    rw [compare_eq _ _ (by trivial) hc]
    cases c <;> simp [bothInt, asDbl, doubleCompare, eq_self, Dbl.isNaN]
  rcases h with h | h
  · rw [value_none h]; exact key b hb
  · rw [compare_swap b a hb ha, value_none h, key a ha]; rfl

theorem compare_not_nan (a b : Number) (ha : a.WF) (hb : b.WF)
    (h1 : value a ≠ none) (h2 : value b ≠ none) : a.compare b ≠ .nanInequal := by
  have inf_case : ∀ s (c : Number), c.WF → value c ≠ none →
      (Number.dbl (.inf s)).compare c ≠ .nanInequal := by
    intro s c hc hv
    rw [compare_inf_left s c hc]
    cases hvc : value c with
    | none => exact absurd hvc hv
    | some e => cases e <;> cases s <;> simp
  have inv : ∀ r : CmpResult, r ≠ .nanInequal → r.invert ≠ .nanInequal := by
    intro r; cases r <;> simp [CmpResult.invert]
  rcases number_cases a with h | h | h | ⟨x, hx⟩
  · exact absurd h h1
  · rw [value_posInf h]; exact inf_case _ _ hb h2
  · rw [value_negInf h]; exact inf_case _ _ hb h2
  · rcases number_cases b with h | h | h | ⟨y, hy⟩
    · exact absurd h h2
    · rw [compare_swap b a hb ha]; apply inv; rw [value_posInf h]; exact inf_case _ _ ha h1
    · rw [compare_swap b a hb ha]; apply inv; rw [value_negInf h]; exact inf_case _ _ ha h1
    · exact (cmp_core a b ha hb x y hx hy).2.2.2.1

/-! ## C10 -/

/-- C10: the six operators are mutually consistent, for every pair of CEL numbers. -/
theorem C10_comparison_operators_consistent (a b : Number) (ha : a.WF) (hb : b.WF) :
    -- not NaN: exactly one of <, ==, >
    (value a ≠ none → value b ≠ none →
      (a.lt b = true ∧ a.eq b = false ∧ a.gt b = false) ∨
      (a.lt b = false ∧ a.eq b = true ∧ a.gt b = false) ∨
      (a.lt b = false ∧ a.eq b = false ∧ a.gt b = true)) ∧
    -- NaN: everything false, != true
    (value a = none ∨ value b = none →
      a.lt b = false ∧ a.eq b = false ∧ a.gt b = false ∧ a.le b = false ∧ a.ge b = false ∧
      a.ne b = true) ∧
    -- derived operators
    a.le b = (a.lt b || a.eq b) ∧ a.ge b = (a.gt b || a.eq b) ∧ a.ne b = !(a.eq b) ∧
    -- swapping operands
    b.gt a = a.lt b ∧ b.lt a = a.gt b ∧ b.eq a = a.eq b ∧ b.ge a = a.le b ∧ b.le a = a.ge b := by
  have hs := compare_swap a b ha hb
  refine ⟨fun h1 h2 => ?_, fun h => ?_, ?_⟩
  · have hn := compare_not_nan a b ha hb h1 h2
    unfold Number.lt Number.eq Number.gt
    cases hc : a.compare b <;> simp_all
  · have hn := compare_nan a b ha hb h
    unfold Number.lt Number.eq Number.gt Number.le Number.ge Number.ne
    simp [hn]
  · unfold Number.lt Number.eq Number.gt Number.le Number.ge Number.ne
    rw [hs]
    cases a.compare b <;> decide

/-- Non-vacuity: three numbers of different types that exist, ordered; and NaN. -/
example : (Number.int (-3)).WF ∧ (Number.uint 4).WF ∧ (Number.dbl (Dbl.ofInt 1)).WF ∧
    value (.int (-3)) ≠ none := by
  refine ⟨by unfold Number.WF InI64 i64Min i64Max; omega,
    by unfold Number.WF InU64 u64Max; omega, wf_ofInt 1 (by omega), by simp [value]⟩

/-! ## C11 -/

theorem lesser_iff_of (a b : Number) (va vb : Ext) (h : Ext.lt va vb) : ¬ Ext.lt vb va := by
  cases va <;> cases vb <;> simp_all [Ext.lt]
  exact le_of_lt h

/-- C11: comparison never reverses the mathematical order, and mathematically equal numbers
compare equal – for every pair of operand types and values. -/
theorem C11_comparison_never_reverses_order (a b : Number) (ha : a.WF) (hb : b.WF) (va vb : Ext)
    (h1 : value a = some va) (h2 : value b = some vb) :
    (Ext.lt va vb → a.gt b = false) ∧ (Ext.lt vb va → a.lt b = false) ∧
    (va = vb → a.eq b = true) := by
  rcases number_cases a with h | h | h | ⟨x, hx⟩
  · rw [h] at h1; cases h1
  · rw [h] at h1; cases h1
    have := compare_inf_left false b hb
    rw [h2] at this
    rw [value_posInf h]
    unfold Number.gt Number.lt Number.eq
    rw [this]
    cases vb <;> simp [Ext.lt]
  · rw [h] at h1; cases h1
    have := compare_inf_left true b hb
    rw [h2] at this
    rw [value_negInf h]
    unfold Number.gt Number.lt Number.eq
    rw [this]
    cases vb <;> simp [Ext.lt]
  · rcases number_cases b with h | h | h | ⟨y, hy⟩
    · rw [h] at h2; cases h2
    · rw [h] at h2; cases h2
      have := compare_inf_left false a ha
      rw [h1] at this
      unfold Number.gt Number.lt Number.eq
      rw [compare_swap b a hb ha, value_posInf h, this]
      cases va <;> simp [Ext.lt, CmpResult.invert]
    · rw [h] at h2; cases h2
      have := compare_inf_left true a ha
      rw [h1] at this
      unfold Number.gt Number.lt Number.eq
      rw [compare_swap b a hb ha, value_negInf h, this]
      cases va <;> simp [Ext.lt, CmpResult.invert]
    · obtain ⟨k1, k2, k3, k4, k5⟩ := cmp_core a b ha hb x y hx hy
      rw [value_of_uv hx] at h1; cases h1
      rw [value_of_uv hy] at h2; cases h2
      rw [num_lt_iff, num_lt_iff, num_eq_iff]
      unfold Number.gt Number.lt Number.eq
      refine ⟨fun h => ?_, fun h => ?_, fun h => ?_⟩
      · simpa using k1 h
      · simpa using k2 h
      · simpa using k3 h

/-- C11: when no integer operand has to be rounded to a double (in particular for every int/uint,
int/int, uint/uint and double/double pair, and whenever the integer is at most 2^53 in magnitude)
the comparison is mathematically exact. -/
theorem C11_comparison_exact_without_rounding (a b : Number) (ha : a.WF) (hb : b.WF) (va vb : Ext)
    (h1 : value a = some va) (h2 : value b = some vb) (hr : NoRounding a b) :
    (a.lt b = true ↔ Ext.lt va vb) ∧ (a.gt b = true ↔ Ext.lt vb va) ∧
    (a.eq b = true ↔ va = vb) := by
  rcases number_cases a with h | h | h | ⟨x, hx⟩
  · rw [h] at h1; cases h1
  · rw [h] at h1; cases h1
    have := compare_inf_left false b hb
    rw [h2] at this
    rw [value_posInf h]
    unfold Number.gt Number.lt Number.eq
    rw [this]
    cases vb <;> simp [Ext.lt]
  · rw [h] at h1; cases h1
    have := compare_inf_left true b hb
    rw [h2] at this
    rw [value_negInf h]
    unfold Number.gt Number.lt Number.eq
    rw [this]
    cases vb <;> simp [Ext.lt]
  · rcases number_cases b with h | h | h | ⟨y, hy⟩
    · rw [h] at h2; cases h2
    · rw [h] at h2; cases h2
      have := compare_inf_left false a ha
      rw [h1] at this
      unfold Number.gt Number.lt Number.eq
      rw [compare_swap b a hb ha, value_posInf h, this]
      cases va <;> simp [Ext.lt, CmpResult.invert]
    · rw [h] at h2; cases h2
      have := compare_inf_left true a ha
      rw [h1] at this
      unfold Number.gt Number.lt Number.eq
      rw [compare_swap b a hb ha, value_negInf h, this]
      cases va <;> simp [Ext.lt, CmpResult.invert]
    · obtain ⟨k1, k2, k3, k4, k5⟩ := cmp_core a b ha hb x y hx hy
      rw [value_of_uv hx] at h1; cases h1
      rw [value_of_uv hy] at h2; cases h2
      rw [num_lt_iff, num_lt_iff, num_eq_iff]
      unfold Number.gt Number.lt Number.eq
      rw [k5 hr]
      obtain ⟨c1, c2, c3⟩ := compareInt_cases x y
      rcases Int.lt_trichotomy x y with h | h | h
      · rw [c1 h]; simp; omega
      · rw [c2 h]; simp; omega
      · rw [c3 h]; simp; omega

/-- Integers of magnitude up to 2^53 need no rounding. -/
theorem exactInDouble_of_small (x : Int) (h : x.natAbs ≤ 2 ^ 53) : ExactInDouble x := by
  by_cases h1 : x.natAbs < 2 ^ 53
  · exact ⟨x.natAbs, 0, h1, by simp⟩
  · exact ⟨1, 53, by omega, by omega⟩

example : NoRounding (.int 9007199254740992) (.dbl (Dbl.ofInt 9007199254740992)) ∧
    (Number.dbl (Dbl.ofInt 9007199254740992)).WF :=
  ⟨exactInDouble_of_small _ (by omega), wf_ofInt _ (by omega)⟩

/-- C11: a double beyond the integer range compares exactly with every integer of that range. -/
theorem C11_out_of_range_double_exact (s : Bool) (m : Nat) (i : Int)
    (hm : (Dbl.fin s m).WF) :
    (InI64 i → m > 2 ^ 63 * unit1 →
      (Number.dbl (.fin s m)).lt (.int i) = s ∧ (Number.dbl (.fin s m)).gt (.int i) = !s) ∧
    (InU64 i → m > 2 ^ 64 * unit1 →
      (Number.dbl (.fin s m)).lt (.uint i) = s ∧ (Number.dbl (.fin s m)).gt (.uint i) = !s) := by
  have hbound : ∀ k : Nat, ∀ i : Int, i.natAbs ≤ 2 ^ k → (roundI i).natAbs ≤ 2 ^ k := by
    intro k i h
    have h1 := @round53_mono i.natAbs (2 ^ k) h
    have h2 : Dbl.round53 (2 ^ k) = 2 ^ k := by
      have := round53_of_rep 1 k (by omega); simpa using this
    unfold roundI Dbl.sval
    split <;> omega
  have key : ∀ k : Nat, ∀ i : Int, i.natAbs ≤ 2 ^ k → m > 2 ^ k * unit1 →
      doubleCompare (.fin s m) (Dbl.ofInt i) = if s then .lesser else .greater := by
    intro k i hi hgt
    rw [ofInt_eq, doubleCompare_fin, sval_ofInt]
    have hb := hbound k i hi
    have h1 : (roundI i * unit1).natAbs ≤ 2 ^ k * unit1 := by
      rw [Int.natAbs_mul]; exact Nat.mul_le_mul_right _ hb
    obtain ⟨c1, c2, c3⟩ := compareInt_cases (Dbl.sval s m) (roundI i * unit1)
    generalize roundI i * (unit1 : Int) = R at *
    generalize 2 ^ k * unit1 = B at *
    cases s
    · rw [c3 (by unfold Dbl.sval; simp only [Bool.false_eq_true, if_false]; omega)]; rfl
    · rw [c1 (by unfold Dbl.sval; simp only [if_true]; omega)]; rfl
  constructor
  · intro hi hgt
    have hk := key 63 i (by unfold InI64 i64Min i64Max at hi; omega) hgt
    unfold Number.lt Number.gt Number.compare
    simp only [doubleVsInt_eq _ _ hi, hk]
    cases s <;> simp
  · intro hi hgt
    have hk := key 64 i (by unfold InU64 u64Max at hi; omega) hgt
    unfold Number.lt Number.gt Number.compare
    simp only [doubleVsUint_eq _ _ hi, hk]
    cases s <;> simp

/-- C11, negative part: full exactness and transitivity of `==` are false of the code. The int
2^53+1, the double 2^53 and the int 2^53: the first two compare equal, the last two compare equal,
the first and last do not. -/
theorem C11_equality_not_transitive :
    (Number.int 9007199254740993).eq (.dbl (Dbl.ofInt 9007199254740992)) = true ∧
    (Number.dbl (Dbl.ofInt 9007199254740992)).eq (.int 9007199254740992) = true ∧
    (Number.int 9007199254740993).eq (.int 9007199254740992) = false ∧
    (Number.int 9007199254740993).WF ∧ (Number.dbl (Dbl.ofInt 9007199254740992)).WF ∧
    (Number.int 9007199254740992).WF := by
  refine ⟨by decide +kernel, by decide +kernel, by decide +kernel, ?_, ?_, ?_⟩
  · show InI64 _; decide
  · exact wf_ofInt _ (by omega)
  · show InI64 _; decide

/-! ## C12 -/

/-- `d` is the double of mathematical value `i`. -/
def IsIntegerValue (d : Dbl) (i : Int) : Prop := Spec.value (.dbl d) = some (.num i)

theorem isIntegerValue_fin (s : Bool) (m : Nat) (i : Int) :
    IsIntegerValue (.fin s m) i ↔ Dbl.sval s m = i * unit1 := by
  unfold IsIntegerValue
  rw [value_of_uv (a := .dbl (.fin s m)) rfl]
  have h2 : value (.int i) = some (.num (((i * unit1 : Int) : ℚ) / 2 ^ 1074)) :=
    value_of_uv (a := .int i) rfl
  have h3 : value (.int i) = some (.num i) := rfl
  rw [h3] at h2
  rw [Option.some.injEq] at h2 ⊢
  rw [h2, num_eq_iff]

theorem ofInt_const_vals :
    roundI i64Max = 2 ^ 63 ∧ roundI i64Min = -2 ^ 63 ∧ roundI u64Max = 2 ^ 64 ∧ roundI 0 = 0 ∧
    roundI (i64Max - roundingErrorI) = 2 ^ 63 - 1024 ∧
    roundI (u64Max - roundingErrorU) = 2 ^ 64 - 2048 := by decide +kernel

theorem truncInt_of_whole (s : Bool) (m : Nat) (i : Int) (h : Dbl.sval s m = i * unit1) :
    Dbl.truncInt s m = i := by
  have hu := unit1_pos
  have hm : m = i.natAbs * unit1 := by
    have : (Dbl.sval s m).natAbs = m := by unfold Dbl.sval; split <;> omega
    rw [h, Int.natAbs_mul] at this
    rw [← this]; simp
  unfold Dbl.truncInt
  rw [hm, Nat.mul_div_cancel _ hu]
  have hu' : (0 : Int) < unit1 := by omega
  unfold Dbl.sval at *
  cases s
  · simp only [Bool.false_eq_true, if_false] at *
    have : 0 ≤ i := by
      by_contra hneg
      have := Int.mul_neg_of_neg_of_pos (show i < 0 by omega) hu'
      omega
    omega
  · simp only [if_true] at *
    have : i ≤ 0 := by
      by_contra hneg
      have := Int.mul_pos (show 0 < i by omega) hu'
      omega
    omega

/-- Truncation brackets the value. -/
theorem truncInt_bracket (s : Bool) (m : Nat) :
    (Dbl.truncInt s m).natAbs * unit1 ≤ m ∧ m < ((Dbl.truncInt s m).natAbs + 1) * unit1 := by
  have hu := unit1_pos
  have h1 : (Dbl.truncInt s m).natAbs = m / unit1 := by
    unfold Dbl.truncInt; generalize m / unit1 = k; unfold Dbl.sval; split <;> omega
  rw [h1]
  refine ⟨Nat.div_mul_le_self _ _, ?_⟩
  have := Nat.lt_div_mul_add (a := m) hu
  rw [Nat.add_mul, Nat.one_mul]; exact this

theorem ge_le_fin (s : Bool) (m : Nat) (lo hi : Int) :
    (Dbl.ge (.fin s m) (Dbl.ofInt lo) && Dbl.le (.fin s m) (Dbl.ofInt hi)) =
      decide (roundI lo * unit1 ≤ Dbl.sval s m ∧ Dbl.sval s m ≤ roundI hi * unit1) := by
  unfold Dbl.ge Dbl.le
  rw [ofInt_eq, ofInt_eq, gt_fin, lt_fin, eq_fin, eq_fin, sval_ofInt, sval_ofInt]
  rw [Bool.eq_iff_iff]
  simp only [Bool.and_eq_true, Bool.or_eq_true, decide_eq_true_eq]
  omega

theorem truncInt_range (s : Bool) (m : Nat) (lo hi : Int)
    (h1 : lo * unit1 ≤ Dbl.sval s m) (h2 : Dbl.sval s m ≤ hi * unit1) (hlo : lo ≤ 0) (hhi : 0 ≤ hi) :
    lo ≤ Dbl.truncInt s m ∧ Dbl.truncInt s m ≤ hi := by
  have hu := unit1_pos
  unfold Dbl.truncInt
  have hd : (m / unit1) * unit1 ≤ m := Nat.div_mul_le_self _ _
  generalize m / unit1 = k at *
  have hk : ((k * unit1 : Nat) : Int) ≤ m := by omega
  push_cast at hk
  unfold Dbl.sval at *
  have hu' : (0 : Int) < unit1 := by omega
  cases s
  · simp only [Bool.false_eq_true, if_false] at *
    refine ⟨by omega, ?_⟩
    have : (k : Int) * unit1 ≤ hi * unit1 := by omega
    exact Int.le_of_mul_le_mul_right this hu'
  · simp only [if_true] at *
    refine ⟨?_, by omega⟩
    have : lo * unit1 ≤ (-(k : Int)) * unit1 := by rw [Int.neg_mul]; omega
    exact Int.le_of_mul_le_mul_right this hu'

/-- Spacing of representable doubles: below 2^k the largest representable integer is
`2^k - 2^(k-53)`. -/
theorem rep_gap (k : Nat) (hk : 53 ≤ k) (m : Nat) (h : RepMag m) (hlt : m < 2 ^ k * unit1) :
    m ≤ (2 ^ k - 2 ^ (k - 53)) * unit1 := by
  obtain ⟨c, e, hc, he, rfl⟩ := h
  obtain ⟨t, hu⟩ : ∃ t, unit1 = 2 ^ t := ⟨1074, rfl⟩
  rw [hu] at hlt ⊢
  clear hu he
  obtain ⟨j, rfl⟩ : ∃ j, k = 53 + j := ⟨k - 53, by omega⟩
  rw [show 53 + j - 53 = j by omega]
  have h1 : (2 ^ (53 + j) - 2 ^ j) * 2 ^ t = (2 ^ 53 - 1) * 2 ^ (j + t) := by
    have : 2 ^ (53 + j) - 2 ^ j = (2 ^ 53 - 1) * 2 ^ j := by
      rw [Nat.sub_mul, Nat.pow_add]; omega
    rw [this, Nat.pow_add, Nat.mul_assoc]
  have h2 : 2 ^ (53 + j) * 2 ^ t = 2 ^ 53 * 2 ^ (j + t) := by
    rw [← Nat.pow_add, ← Nat.pow_add, Nat.add_assoc]
  rw [h1]; rw [h2] at hlt
  by_cases hcase : e ≤ j + t
  · exact Nat.mul_le_mul (by omega) (Nat.pow_le_pow_right (by omega) hcase)
  · obtain ⟨d, rfl⟩ : ∃ d, e = d + (j + t) := ⟨e - (j + t), by omega⟩
    rw [Nat.pow_add, ← Nat.mul_assoc] at hlt ⊢
    have := Nat.lt_of_mul_lt_mul_right hlt
    exact Nat.mul_le_mul_right _ (by omega)

/-- C12 (int): a number reports itself losslessly convertible to int exactly when its mathematical
value is an integer of int64 range; the check itself is never undefined, and the conversion then
yields that very integer. -/
theorem C12_lossless_to_int (a : Number) (ha : a.WF) :
    (∃ b, a.losslessToInt = .ok b) ∧
    (a.losslessToInt = .ok true ↔ ∃ i, InI64 i ∧ value a = some (.num i)) ∧
    (∀ i, InI64 i → value a = some (.num i) → a.asInt = .ok i) := by
  have hcast : ∀ x y : Int, (some (Ext.num (x : ℚ)) = some (Ext.num (y : ℚ))) ↔ x = y := by
    intro x y; rw [Option.some.injEq, Ext.num.injEq]; exact Int.cast_inj
  cases a with
  | int v =>
    refine ⟨⟨true, rfl⟩, ⟨fun _ => ⟨v, ha, rfl⟩, fun _ => rfl⟩, fun i hi hv => ?_⟩
    simp only [value, hcast] at hv
    subst hv; rfl
  | uint v =>
    refine ⟨⟨_, rfl⟩, ⟨fun h => ?_, fun h => ?_⟩, fun i hi hv => ?_⟩
    · simp only [Number.losslessToInt, Res.ok.injEq, decide_eq_true_eq] at h
      refine ⟨v, ?_, rfl⟩
      unfold Number.WF InU64 at ha
      unfold InI64 i64Min; omega
    · obtain ⟨i, hi, hv⟩ := h
      simp only [value, hcast] at hv
      subst hv
      simp [Number.losslessToInt, hi.2]
    · simp only [value, hcast] at hv
      subst hv
      simp only [Number.asInt, (wrapI64_eq_iff v).2 hi]
  | dbl d =>
    cases d with
    | nan => simp [Number.losslessToInt, Dbl.ge, Dbl.gt, Dbl.eq, Dbl.cmp, value]
    | inf s =>
      cases s <;> simp [Number.losslessToInt, Dbl.ge, Dbl.gt, Dbl.eq, Dbl.le, Dbl.lt, Dbl.cmp, value,
        ofInt_eq, kDoubleToIntMin, kMaxDoubleRepresentableAsInt]
    | fin s m =>
      have hrep : RepMag m := ha
      obtain ⟨-, k2, -, -, k5, -⟩ := ofInt_const_vals
      have hval : ∀ i : Int, value (.dbl (.fin s m)) = some (.num i) ↔ Dbl.sval s m = i * unit1 :=
        isIntegerValue_fin s m
      have hcond := ge_le_fin s m i64Min (i64Max - roundingErrorI)
      rw [k2, k5] at hcond
      have hasInt : ∀ i, InI64 i → value (.dbl (.fin s m)) = some (.num i) →
          (Number.dbl (.fin s m)).asInt = .ok i := by
        intro i hi hv
        rw [hval] at hv
        simp only [Number.asInt, Dbl.toI64, truncInt_of_whole s m i hv, hi, if_true]
      unfold Number.losslessToInt kDoubleToIntMin kMaxDoubleRepresentableAsInt
      simp only [hcond]
      by_cases hr : (-2 ^ 63 : Int) * unit1 ≤ Dbl.sval s m ∧ Dbl.sval s m ≤ (2 ^ 63 - 1024) * unit1
      · have htr := truncInt_range s m (-2 ^ 63) (2 ^ 63 - 1024) hr.1 hr.2 (by omega) (by omega)
        have hin : InI64 (Dbl.truncInt s m) := by unfold InI64 i64Min i64Max; omega
        simp only [hr, and_self, decide_true, if_true, Dbl.toI64, hin, Res.mbind_ok]
        refine ⟨⟨_, rfl⟩, ⟨fun h => ?_, fun h => ?_⟩, hasInt⟩
        · refine ⟨Dbl.truncInt s m, hin, (hval _).2 ?_⟩
          rw [Res.ok.injEq, ofInt_eq, eq_fin, sval_ofInt, decide_eq_true_eq] at h
          -- the value is a rounded integer, hence whole, hence its own truncation
          have h2 := truncInt_of_whole s m _ h
          rw [h2]; exact h
        · obtain ⟨i, hi, hv⟩ := h
          rw [hval] at hv
          rw [truncInt_of_whole s m i hv, ofInt_eq, eq_fin, sval_ofInt]
          have := (round_vs s m hrep i).2.2 hv
          rw [this]; simp
      · simp only [hr, decide_false, Bool.false_eq_true, if_false]
        refine ⟨⟨_, rfl⟩, ⟨fun h => (by simp at h), fun h => ?_⟩, hasInt⟩
        exfalso; apply hr
        obtain ⟨i, hi, hv⟩ := h
        rw [hval] at hv
        unfold InI64 i64Min i64Max at hi
        have l1 := @unit1_mul_le (-2 ^ 63) i (by omega)
        have l2 := @unit1_mul_lt i (2 ^ 63) (by omega)
        refine ⟨by omega, ?_⟩
        -- representable doubles below 2^63 are at most 2^63 - 1024
        cases s
        · have hm : m < 2 ^ 63 * unit1 := by
            unfold Dbl.sval at hv; simp only [Bool.false_eq_true, if_false] at hv
            have : ((m : Nat) : Int) < ((2 ^ 63 * unit1 : Nat) : Int) := by push_cast; omega
            exact_mod_cast this
          have h3 := rep_gap 63 (by omega) m hrep hm
          have h4 : ((m : Nat) : Int) ≤ (((2 ^ 63 - 2 ^ (63 - 53)) * unit1 : Nat) : Int) := by
            exact_mod_cast h3
          unfold Dbl.sval; simp only [Bool.false_eq_true, if_false]
          rw [Nat.cast_mul] at h4
          exact h4
        · have hup := @unit1_mul_le 0 (2 ^ 63 - 1024) (by omega)
          unfold Dbl.sval; simp only [if_true]
          omega

/-- C12 (uint). -/
theorem C12_lossless_to_uint (a : Number) (ha : a.WF) :
    (∃ b, a.losslessToUint = .ok b) ∧
    (a.losslessToUint = .ok true ↔ ∃ i, InU64 i ∧ value a = some (.num i)) ∧
    (∀ i, InU64 i → value a = some (.num i) → a.asUint = .ok i) := by
  have hcast : ∀ x y : Int, (some (Ext.num (x : ℚ)) = some (Ext.num (y : ℚ))) ↔ x = y := by
    intro x y; rw [Option.some.injEq, Ext.num.injEq]; exact Int.cast_inj
  cases a with
  | uint v =>
    refine ⟨⟨true, rfl⟩, ⟨fun _ => ⟨v, ha, rfl⟩, fun _ => rfl⟩, fun i hi hv => ?_⟩
    simp only [value, hcast] at hv
    subst hv; rfl
  | int v =>
    refine ⟨⟨_, rfl⟩, ⟨fun h => ?_, fun h => ?_⟩, fun i hi hv => ?_⟩
    · simp only [Number.losslessToUint, Res.ok.injEq, decide_eq_true_eq] at h
      refine ⟨v, ?_, rfl⟩
      unfold Number.WF InI64 i64Max at ha
      unfold InU64 u64Max; omega
    · obtain ⟨i, hi, hv⟩ := h
      simp only [value, hcast] at hv
      subst hv
      simp [Number.losslessToUint, hi.1]
    · simp only [value, hcast] at hv
      subst hv
      simp only [Number.asUint, (wrapU64_eq_iff v).2 hi]
  | dbl d =>
    cases d with
    | nan => simp [Number.losslessToUint, Dbl.ge, Dbl.gt, Dbl.eq, Dbl.cmp, value]
    | inf s =>
      cases s <;> simp [Number.losslessToUint, Dbl.ge, Dbl.gt, Dbl.eq, Dbl.le, Dbl.lt, Dbl.cmp, value,
        ofInt_eq, dblZero, kMaxDoubleRepresentableAsUint]
    | fin s m =>
      have hrep : RepMag m := ha
      obtain ⟨-, -, -, k4, -, k6⟩ := ofInt_const_vals
      have hval : ∀ i : Int, value (.dbl (.fin s m)) = some (.num i) ↔ Dbl.sval s m = i * unit1 :=
        isIntegerValue_fin s m
      have hcond := ge_le_fin s m 0 (u64Max - roundingErrorU)
      rw [k4, k6] at hcond
      have hasUint : ∀ i, InU64 i → value (.dbl (.fin s m)) = some (.num i) →
          (Number.dbl (.fin s m)).asUint = .ok i := by
        intro i hi hv
        rw [hval] at hv
        simp only [Number.asUint, Dbl.toU64, truncInt_of_whole s m i hv, hi, if_true]
      unfold Number.losslessToUint dblZero kMaxDoubleRepresentableAsUint
      simp only [hcond]
      by_cases hr : (0 : Int) * unit1 ≤ Dbl.sval s m ∧ Dbl.sval s m ≤ (2 ^ 64 - 2048) * unit1
      · have htr := truncInt_range s m 0 (2 ^ 64 - 2048) hr.1 hr.2 (by omega) (by omega)
        have hin : InU64 (Dbl.truncInt s m) := by unfold InU64 u64Max; omega
        simp only [hr, and_self, decide_true, if_true, Dbl.toU64, hin, Res.mbind_ok]
        refine ⟨⟨_, rfl⟩, ⟨fun h => ?_, fun h => ?_⟩, hasUint⟩
        · refine ⟨Dbl.truncInt s m, hin, (hval _).2 ?_⟩
          rw [Res.ok.injEq, ofInt_eq, eq_fin, sval_ofInt, decide_eq_true_eq] at h
          have h2 := truncInt_of_whole s m _ h
          rw [h2]; exact h
        · obtain ⟨i, hi, hv⟩ := h
          rw [hval] at hv
          rw [truncInt_of_whole s m i hv, ofInt_eq, eq_fin, sval_ofInt]
          have := (round_vs s m hrep i).2.2 hv
          rw [this]; simp
      · simp only [hr, decide_false, Bool.false_eq_true, if_false]
        refine ⟨⟨_, rfl⟩, ⟨fun h => (by simp at h), fun h => ?_⟩, hasUint⟩
        exfalso; apply hr
        obtain ⟨i, hi, hv⟩ := h
        rw [hval] at hv
        unfold InU64 u64Max at hi
        have l1 := @unit1_mul_le 0 i (by omega)
        have l2 := @unit1_mul_lt i (2 ^ 64) (by omega)
        refine ⟨by omega, ?_⟩
        cases s
        · have hm : m < 2 ^ 64 * unit1 := by
            unfold Dbl.sval at hv; simp only [Bool.false_eq_true, if_false] at hv
            have : ((m : Nat) : Int) < ((2 ^ 64 * unit1 : Nat) : Int) := by push_cast; omega
            exact_mod_cast this
          have h3 := rep_gap 64 (by omega) m hrep hm
          have h4 : ((m : Nat) : Int) ≤ (((2 ^ 64 - 2 ^ (64 - 53)) * unit1 : Nat) : Int) := by
            exact_mod_cast h3
          unfold Dbl.sval; simp only [Bool.false_eq_true, if_false]
          rw [Nat.cast_mul] at h4
          exact h4
        · have hup := @unit1_mul_le 0 (2 ^ 64 - 2048) (by omega)
          unfold Dbl.sval; simp only [if_true]
          omega

/-- Non-vacuity and boundary: -2^63 is accepted, 2^63 is not, 0.5 is not. -/
example : (Number.dbl (Dbl.ofInt i64Min)).losslessToInt = .ok true ∧
    (Number.dbl (Dbl.ofInt i64Max)).losslessToInt = .ok false ∧
    (Number.dbl (.fin false (2 ^ 1073))).losslessToInt = .ok false ∧
    (Number.dbl (Dbl.ofInt 18446744073709549568)).losslessToUint = .ok true ∧
    (Dbl.ofInt i64Min).WF := by
  refine ⟨by decide +kernel, by decide +kernel, by decide +kernel, by decide +kernel, wf_ofInt _ (by decide)⟩

/-! ## C05 -/

/-- C05 (int): for every double, the conversion is not undefined; it succeeds exactly for finite
values strictly between -2^63 and 2^63 and then yields the truncation toward zero `i`
(|i| ≤ |d| < |i| + 1, same sign); otherwise the documented error. -/
theorem C05_double_to_int (d : Dbl) :
    (∀ s m, d = .fin s m → m < 2 ^ 63 * unit1 →
      ∃ i, checkedDoubleToI64 d = .ok i ∧ InI64 i ∧
        i.natAbs * unit1 ≤ m ∧ m < (i.natAbs + 1) * unit1 ∧
        (s = false → 0 ≤ i) ∧ (s = true → i ≤ 0)) ∧
    ((∀ s m, d = .fin s m → ¬ m < 2 ^ 63 * unit1) →
      checkedDoubleToI64 d = .err ⟨.outOfRange, "double out of int64 range"⟩) := by
  obtain ⟨k1, k2, -⟩ := ofInt_const_vals
  have hu := unit1_pos
  have hguard : ∀ s m, (Dbl.lt (.fin s m) (Dbl.ofInt i64Max) && Dbl.gt (.fin s m) (Dbl.ofInt i64Min))
      = decide (m < 2 ^ 63 * unit1) := by
    intro s m
    rw [ofInt_eq, ofInt_eq, lt_fin, gt_fin, sval_ofInt, sval_ofInt, k1, k2]
    have h2 : (2 ^ 63 : Int) * unit1 = ((2 ^ 63 * unit1 : Nat) : Int) := by push_cast; rfl
    have h3 : (-2 ^ 63 : Int) * unit1 = -((2 ^ 63 * unit1 : Nat) : Int) := by push_cast; ring
    rw [h2, h3]
    have hB : 0 < 2 ^ 63 * unit1 := Nat.mul_pos (by omega) hu
    generalize 2 ^ 63 * unit1 = B at *
    unfold Dbl.sval
    rw [Bool.eq_iff_iff]
    cases s <;> simp only [Bool.and_eq_true, decide_eq_true_eq, Bool.false_eq_true, if_false, if_true] <;> omega
  constructor
  · rintro s m rfl hm
    have hb := truncInt_bracket s m
    refine ⟨Dbl.truncInt s m, ?_, ?_, hb.1, hb.2, ?_, ?_⟩
    · have hin : InI64 (Dbl.truncInt s m) := by
        have h5 : (Dbl.truncInt s m).natAbs < 2 ^ 63 := Nat.lt_of_mul_lt_mul_right (Nat.lt_of_le_of_lt hb.1 hm)
        unfold InI64 i64Min i64Max; omega
      unfold checkedDoubleToI64
      rw [Bool.and_assoc, hguard]
      simp only [hm, decide_true, Dbl.isFinite, Bool.and_true, Bool.true_and, checkRange, if_true, Res.mbind_ok, Dbl.toI64, hin]
    · have h5 : (Dbl.truncInt s m).natAbs < 2 ^ 63 := Nat.lt_of_mul_lt_mul_right (Nat.lt_of_le_of_lt hb.1 hm)
      unfold InI64 i64Min i64Max; omega
    · rintro rfl; unfold Dbl.truncInt; generalize m / unit1 = k; unfold Dbl.sval; simp only [Bool.false_eq_true, if_false]; omega
    · rintro rfl; unfold Dbl.truncInt; generalize m / unit1 = k; unfold Dbl.sval; simp only [if_true]; omega
  · intro h
    cases d with
    | nan => simp [checkedDoubleToI64, Dbl.isFinite, checkRange]
    | inf s => simp [checkedDoubleToI64, Dbl.isFinite, checkRange]
    | fin s m =>
      have hm := h s m rfl
      unfold checkedDoubleToI64
      rw [Bool.and_assoc, hguard]
      simp only [hm, decide_false, Bool.and_false, checkRange, Bool.false_eq_true, if_false, Res.mbind_err]

/-- C05 (uint). Succeeds exactly for finite `d` with 0 ≤ d < 2^64 (including -0.0). -/
theorem C05_double_to_uint (d : Dbl) :
    (∀ s m, d = .fin s m → m < 2 ^ 64 * unit1 → (s = true → m = 0) →
      ∃ i, checkedDoubleToU64 d = .ok i ∧ InU64 i ∧
        i.natAbs * unit1 ≤ m ∧ m < (i.natAbs + 1) * unit1) ∧
    ((∀ s m, d = .fin s m → ¬ (m < 2 ^ 64 * unit1 ∧ (s = true → m = 0))) →
      checkedDoubleToU64 d = .err ⟨.outOfRange, "double out of uint64 range"⟩) := by
  obtain ⟨-, -, -, k4, -⟩ := ofInt_const_vals
  have hu := unit1_pos
  have hguard : ∀ s m, (Dbl.ge (.fin s m) dblZero && Dbl.lt (.fin s m) kDoubleTwoTo64)
      = decide (m < 2 ^ 64 * unit1 ∧ (s = true → m = 0)) := by
    intro s m
    unfold dblZero kDoubleTwoTo64 Dbl.ge
    rw [ofInt_eq, gt_fin, eq_fin, lt_fin, sval_ofInt, k4]
    have hB : 0 < 2 ^ 64 * unit1 := Nat.mul_pos (by omega) hu
    generalize 2 ^ 64 * unit1 = B at *
    unfold Dbl.sval
    rw [Bool.eq_iff_iff]
    cases s <;> simp only [Bool.and_eq_true, Bool.or_eq_true, decide_eq_true_eq, Bool.false_eq_true, if_false, if_true, true_implies, false_implies, and_true] <;> omega
  constructor
  · rintro s m rfl hm hs
    have hb := truncInt_bracket s m
    have h5 : (Dbl.truncInt s m).natAbs < 2 ^ 64 := Nat.lt_of_mul_lt_mul_right (Nat.lt_of_le_of_lt hb.1 hm)
    have h6 : 0 ≤ Dbl.truncInt s m := by
      unfold Dbl.truncInt
      cases s
      · generalize m / unit1 = k; unfold Dbl.sval; simp only [Bool.false_eq_true, if_false]; omega
      · have := hs rfl; subst this
        unfold Dbl.sval
        simp only [if_true, Nat.zero_div]; omega
    have hin : InU64 (Dbl.truncInt s m) := by unfold InU64 u64Max; omega
    refine ⟨Dbl.truncInt s m, ?_, hin, hb.1, hb.2⟩
    unfold checkedDoubleToU64
    rw [Bool.and_assoc, hguard]
    rw [decide_eq_true (⟨hm, hs⟩ : m < 2 ^ 64 * unit1 ∧ (s = true → m = 0))]
    simp only [ Dbl.isFinite, Bool.and_true, checkRange, if_true, Res.mbind_ok, Dbl.toU64, hin]
  · intro h
    cases d with
    | nan => simp [checkedDoubleToU64, Dbl.isFinite, checkRange]
    | inf s => simp [checkedDoubleToU64, Dbl.isFinite, checkRange]
    | fin s m =>
      have hm := h s m rfl
      unfold checkedDoubleToU64
      rw [Bool.and_assoc, hguard]
      simp only [hm, decide_false, Bool.and_false, checkRange, Bool.false_eq_true, if_false, Res.mbind_err]

/-- The exact double -2^63 is representable as an int64 but is rejected (strict comparison), while
`LosslessConvertibleToInt` accepts it: the two entry points disagree at this single value. -/
theorem C05_int64_min_rejected :
    checkedDoubleToI64 (Dbl.ofInt i64Min) = .err ⟨.outOfRange, "double out of int64 range"⟩ ∧
    (Number.dbl (Dbl.ofInt i64Min)).losslessToInt = .ok true := by
  constructor <;> decide +kernel

example : checkedDoubleToI64 (.fin true (5 * 2 ^ 1073)) = .ok (-2) ∧
    checkedDoubleToU64 (Dbl.ofInt u64Max) = .err ⟨.outOfRange, "double out of uint64 range"⟩ := by
  constructor <;> decide +kernel

end Cel.Num
