import Verif.Base

/-!
# Specification of CEL integer arithmetic

"The exact mathematical result when representable, otherwise the given error."
-/

namespace Cel.Num.Spec
open Cel

/-- `r` is the exact integer `e` when `e` lies in `[lo, hi]`, and the error `s` otherwise. -/
def ExactOr (lo hi e : Int) (s : Status) (r : Res Int) : Prop :=
  (lo ≤ e ∧ e ≤ hi → r = .ok e) ∧ (¬ (lo ≤ e ∧ e ≤ hi) → r = .err s)

/-- `q` and `m` are quotient and remainder of `x` by `y`, truncating toward zero: the division
law, the remainder is smaller than the divisor, and it has the sign of the dividend. -/
def TruncDiv (x y q m : Int) : Prop :=
  x = q * y + m ∧ m.natAbs < y.natAbs ∧ (0 ≤ x → 0 ≤ m) ∧ (x ≤ 0 → m ≤ 0)

end Cel.Num.Spec
