import Verif.Data.Equal
import Verif.Num.NumberSpec

/-!
# Specification vocabulary for data values

What it means for a value to be *data*, which keys of a map are the same key, and which properties
hold throughout a value.
-/

namespace Cel.Data.Spec
open Cel Cel.Num Cel.Eval Cel.Data

mutual
/-- The value itself and every value nested inside it (list elements, map keys and values, the
content of an optional). -/
def nested : Value → List Value
  | .list l => .list l :: nestedList l
  | .map m => .map m :: nestedMap m
  | .opt (some v) => .opt (some v) :: nested v
  | v => [v]
def nestedList : List Value → List Value
  | [] => []
  | v :: l => nested v ++ nestedList l
def nestedMap : List (Value × Value) → List Value
  | [] => []
  | (k, v) :: m => nested k ++ nested v ++ nestedMap m
end

/-- `P` holds of the value and of everything nested inside it. -/
def Deep (P : Value → Prop) (v : Value) : Prop := ∀ w ∈ nested v, P w

/-- Identity of a map key: booleans, strings, and integers *by value* (the `int` 1 and the `uint` 1u
are the same key). -/
inductive KeyId where
  | b (b : Bool)
  | n (i : Int)
  | s (s : String)
deriving DecidableEq

def keyId : Value → Option KeyId
  | .bool b => some (.b b)
  | .int i => some (.n i)
  | .uint i => some (.n i)
  | .str s => some (.s s)
  | _ => none

/-- What a single value must satisfy to be ordinary data: numbers are in range, map keys are of a
permitted kind and no key is stored twice (with the same type), and it is not an error or unknown. -/
def Ordinary : Value → Prop
  | .int i => InI64 i
  | .uint i => InU64 i
  | .dbl d => d.WF
  | .map m => (∀ e ∈ m, keyKind e.1 = true) ∧ m.Pairwise (fun e f => keyEq e.1 f.1 = false)
  | .error _ => False
  | .unknown _ => False
  | _ => True

/-- Ordinary data, throughout. -/
def IsData (v : Value) : Prop := Deep Ordinary v

/-- A map does not use an `int` and a `uint` key of the same value at once. -/
def UnmixedKeys : Value → Prop
  | .map m => (m.map fun e => keyId e.1).Nodup
  | _ => True

def NotNaN : Value → Prop
  | .dbl .nan => False
  | _ => True

/-- Integers are exactly representable as doubles (in particular every |i| ≤ 2^53). -/
def ExactNumber : Value → Prop
  | .int i => Num.Spec.ExactInDouble i
  | .uint i => Num.Spec.ExactInDouble i
  | _ => True

/-- The key `k` written in an expression denotes the stored key `stored`: numbers are matched by
mathematical value across `int`, `uint` and `double`, booleans and strings by identity. -/
def Denotes (k stored : Value) : Prop :=
  match numOf k with
  | some n => ∃ i : Int, Num.Spec.value n = some (.num i) ∧ keyId stored = some (.n i)
  | none => keyId k ≠ none ∧ keyId k = keyId stored

end Cel.Data.Spec
