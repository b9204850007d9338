import Verif.Num.Number

/-! # Specification: the number line that CEL numbers live on -/

namespace Cel.Num.Spec
open Cel Cel.Num

/-- The extended rational line. -/
inductive Ext where
  | negInf
  | num (q : ℚ)
  | posInf

def Ext.lt : Ext → Ext → Prop
  | .negInf, .negInf => False
  | .negInf, _ => True
  | .num _, .negInf => False
  | .num a, .num b => a < b
  | .num _, .posInf => True
  | .posInf, _ => False

/-- Mathematical value of a CEL number; `none` for NaN. -/
noncomputable def value : Number → Option Ext
  | .int i => some (.num i)
  | .uint u => some (.num u)
  | .dbl .nan => none
  | .dbl (.inf true) => some .negInf
  | .dbl (.inf false) => some .posInf
  | .dbl (.fin s m) => some (.num ((if s then -(m : ℚ) else (m : ℚ)) / 2 ^ 1074))

/-- An integer that binary64 represents exactly: at most 53 significant bits. -/
def ExactInDouble (x : Int) : Prop := ∃ m e : Nat, m < 2 ^ 53 ∧ x.natAbs = m * 2 ^ e

/-- A comparison of `a` with `b` in which any integer compared with a double is exactly
representable as a double. -/
def NoRounding : Number → Number → Prop
  | .int i, .dbl _ => ExactInDouble i
  | .uint i, .dbl _ => ExactInDouble i
  | .dbl _, .int i => ExactInDouble i
  | .dbl _, .uint i => ExactInDouble i
  | _, _ => True

end Cel.Num.Spec
