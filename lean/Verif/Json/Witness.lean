import Verif.Json.Backed

/-! # JSON conversion: witnesses -/

set_option linter.dupNamespace false
set_option linter.unusedSimpArgs false

namespace Cel.Json
open Cel Cel.Num Cel.Eval Cel.Data Cel.Data.Spec Cel.Json.Spec

/-- `{"a": [1, 2u, true, null], "b": {}}`. -/
def sampleValue : Value :=
  .map [(.str "a", .list [.int 1, .uint 2, .bool true, .null]), (.str "b", .map [])]

theorem sample_data : IsData sampleValue ∧ Deep Native sampleValue ∧ Deep NoMessage sampleValue ∧
    Deep HasJson sampleValue := by
  refine ⟨?_, ?_, ?_, ?_⟩ <;>
  · intro w hw
    simp only [sampleValue, nested, nestedMap, nestedList, List.cons_append, List.nil_append,
      List.append_nil, List.mem_cons, List.not_mem_nil, or_false] at hw
    rcases hw with rfl | rfl | rfl | rfl | rfl | rfl | rfl | rfl | rfl <;>
      simp [Ordinary, Native, NoMessage, HasJson, keyKind, keyEq, InI64, InU64, i64Min, i64Max, u64Max]

theorem C76_witness_sample (O : Lib) (p : Json) :
    convert O sampleValue p = .ok (.obj [("a", .arr [.num (Dbl.ofInt 1), .num (Dbl.ofInt 2), .bool true, .null]),
      ("b", .obj [])]) := by
  simp [sampleValue, convert, convertMap, convertList, setInt, setUint, jsonMinInt, jsonMaxInt, jsonMaxUint,
    field, setField]

/-- Beyond 53 bits an integer becomes a string: reading it back gives an unequal value, and a double
that is equal to it has another JSON form. -/
theorem C76_witness_big_integer (O : Lib) (p : Json) :
    convert O (.int (2 ^ 53)) p = .ok (.str "9007199254740992") ∧
    valueEqual (.int (2 ^ 53)) (fromJson (.str "9007199254740992")) = some false ∧
    valueEqual (.int (2 ^ 53)) (.dbl (Dbl.ofInt (2 ^ 53))) = some true ∧
    convert O (.dbl (Dbl.ofInt (2 ^ 53))) p = .ok (.num (Dbl.ofInt (2 ^ 53))) := by
  refine ⟨?_, rfl, ?_, rfl⟩
  · have : decimal (2 ^ 53) = "9007199254740992" := by
      unfold decimal Conv.signedNumeral
      have : Conv.numeral 10 (2 ^ 53) = "9007199254740992".toList.map Char.toNat := by decide
      rw [if_neg (by omega)]
      rw [show (2 ^ 53 : Int).natAbs = 2 ^ 53 from rfl, this]
      rfl
    simp only [convert]
    rw [setInt, if_pos (by unfold jsonMinInt jsonMaxInt; omega), this]
  · have h := cEqual_intDbl (2 ^ 53) (by decide)
    exact congrArg some h

/-- Different values with the same JSON. -/
theorem C76_witness_bytes (O : Lib) (p : Json) (b : List Nat) (hb : b ≠ []) :
    convert O (.bytes []) p = convert O (.str "") p ∧
    convert O (.bytes b) p = convert O (.str (O.base64 b)) p ∧
    valueEqual (.bytes []) (.str "") = some false := by
  refine ⟨rfl, ?_, rfl⟩
  cases b with
  | nil => exact (hb rfl).elim
  | cons x b => rfl

/-- A map with a key that is not a string has no JSON. -/
theorem C76_witness_key (O : Lib) (p : Json) :
    IsData (.map [(.int 1, .str "a")]) ∧
    convert O (.map [(.int 1, .str "a")]) p =
      .err ⟨.invalidArgument, "type conversion error from 'int' to 'string'"⟩ := by
  constructor
  · intro w hw
    simp only [nested, nestedMap, List.cons_append, List.nil_append, List.append_nil, List.mem_cons,
      List.not_mem_nil, or_false] at hw
    rcases hw with rfl | rfl | rfl <;>
      simp [Ordinary, keyKind, InI64, i64Min, i64Max]
  · rfl

/-- NaN is a JSON number but does not come back equal. -/
theorem C76_witness_nan (O : Lib) (p : Json) :
    convert O (.dbl .nan) p = .ok (.num .nan) ∧ valueEqual (.dbl .nan) (fromJson (.num .nan)) = some false :=
  ⟨rfl, rfl⟩

/-- Two handles of the same JSON list holding a NaN are `Value::Equal` by address although the
contents are not equal, so `x in [x]` holds and `x == x` does not. -/
theorem C77_witness_identity (p : Nat) :
    handleEquals p p (.arr [.num .nan]) (.arr [.num .nan]) = true ∧
    jsonEquals (.arr [.num .nan]) (.arr [.num .nan]) = false ∧
    valueEqual (fromJson (.arr [.num .nan])) (fromJson (.arr [.num .nan])) = some false := by
  refine ⟨by simp [handleEquals], rfl, rfl⟩

/-- Handles of different messages, and all handles of contents without NaN, are compared by
contents. -/
theorem C77_handles (p q : Nat) (a b : Json) (ha : WF a) (h : p = q → a = b ∧ Deep NotNaN (fromJson a)) :
    handleEquals p q a b = cEqual (fromJson a) (fromJson b) := by
  unfold handleEquals
  by_cases hp : p = q
  · obtain ⟨rfl, hn⟩ := h hp
    rw [if_pos hp, (cEqual_self_iff _ (fromJson_isData ha)).2 hn]
  · rw [if_neg hp, jsonEquals_eq]

example : WF (.obj [("a", .arr [.num (Dbl.ofInt 1), .unset]), ("b", .null)]) := by
  refine .obj _ (by decide) ?_
  intro e he
  simp only [List.mem_cons, List.not_mem_nil, or_false] at he
  rcases he with rfl | rfl
  · refine .arr _ ?_
    intro j hj
    simp only [List.mem_cons, List.not_mem_nil, or_false] at hj
    rcases hj with rfl | rfl
    · exact .num _ (wf_ofInt 1 (by decide))
    · exact .unset
  · exact .null

example : backedContains [.num (Dbl.ofInt 1), .unset] .null = .bool true := rfl
example : backedFind [("a", .bool true)] (.str "a") = some (.bool true) := rfl
example : backedFind [("1", .bool true)] (.int 1) = none := rfl

end Cel.Json
