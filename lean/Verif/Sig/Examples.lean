import Verif.Sig.Canon
import Verif.Sig.DeclProps

/-!
# Signatures and declarations: concrete cases
-/

namespace Cel.Sig

set_option linter.unusedSimpArgs false

open Cel.Checker

/-- A name with characters of every kind the writer escapes. -/
def oddName : Text := "a.b(c,<d>~\"\\".toList

theorem oddName_ok : TypeName oddName := by
  refine ⟨⟨by decide, by decide⟩, by decide, ?_⟩
  rw [← hasDotDot_iff]; decide

/-- `map<~T.1, function<dyn, type<int>>>` inside a parameterized type with an odd name. -/
def exType : TypeSpec :=
  .abstract oddName
    [.map (.param "T.1".toList) (.func .unspec [.type (.prim .int)]), .message "p.M".toList,
     .list .unspec]

theorem exType_ordinary : Ordinary exType := by
  have hM : TypeName "p.M".toList := by
    refine ⟨⟨by decide, by decide⟩, by decide, ?_⟩
    rw [← hasDotDot_iff]; decide
  simp only [exType, Ordinary, Ordinaries, and_true, true_and, or_true, true_or]
  exact ⟨oddName_ok, ⟨.inr ⟨by decide, by decide⟩, .inr (by decide)⟩, hM⟩

example : makeType exType = some
    "a.b\\(c\\,\\<d\\>\\~\\\"\\\\<map<~T\\.1,function<dyn,type<int>>>,p.M,list<dyn>>".toList := by rfl

example : ∃ s, makeType exType = some s ∧ parseTypeSpec s = some (norm exType) :=
  C58_type_round_trip exType exType_ordinary

/-- The overload `exType.f.g(int)`; the dot of the function name is escaped. -/
example : ∃ s, makeOverload "f.g".toList [exType, .prim .int] true = some s ∧
    parseFunction s = some ⟨"f.g".toList, true, [norm exType, .prim .int]⟩ := by
  have := C58_overload_round_trip "f.g".toList [exType, .prim .int] true
    ⟨by decide, by decide⟩ (by
      intro t ht
      simp only [List.mem_cons, List.not_mem_nil, or_false] at ht
      rcases ht with rfl | rfl
      · exact exType_ordinary
      · rw [Ordinary]; decide) (by simp)
  simpa [norm] using this

example : makeOverload "f.g".toList [.message "p.M".toList, .prim .int] true =
    some "p.M.f\\.g(int)".toList := by rfl

/-- Reading a hand-written signature with blanks, and its canonical form. -/
example : parseFunction " google.protobuf.Struct . merge ( list < x . Y > , map ) ".toList =
    some ⟨"merge".toList, true, [.map (.prim .string) .dyn, .list (.abstract "x.Y".toList []),
      .map .dyn .dyn]⟩ := by rfl

/-- A declaration with two overloads, one of them with its signature as id, and a refused third. -/
example : ∃ d, Built "f".toList d ∧ d.overloads.map (·.id) = ["f(int)".toList, "my_id".toList] ∧
    findById d "f(string)".toList = some ⟨"my_id".toList, [.b .string], false⟩ := by
  refine ⟨_, .call ⟨[], [.b .dyn], false⟩ (.call ⟨"my_id".toList, [.b .string], false⟩
    (.call ⟨[], [.b .int], false⟩ .new)), ?_, ?_⟩ <;> rfl

end Cel.Sig
