import Verif.Data.MemberProps

/-!
# C40: the sets extension (`extensions/sets_functions.cc`)

A `ListValue` is a list of values; reading an element never fails.
-/

set_option linter.unusedSimpArgs false
set_option linter.unusedVariables false

namespace Cel.Ext
open Cel Cel.Num Cel.Eval Cel.Data Cel.Data.Spec

/-! ## Model -/

/-- `ListValue::ForEach` (`common/values/custom_list_value.cc` lines 294-311, `common/values/value_builder.cc` lines 280-293): the callback gets each element and a state, and
says whether to go on. -/
def forEach {σ : Type} (f : Value → σ → σ × Bool) : List Value → σ → σ
  | [], s => s
  | v :: vs, s => if (f v s).2 then forEach f vs (f v s).1 else (f v s).1

/-- `SetsContains` (`extensions/sets_functions.cc` lines 41-62); the state is `any_missing`. `ListValue::Contains` gives a
bool always (lines 326-347 of `custom_list_value.cc`), so the branch for a CEL error is not taken. -/
def setsContains (list sublist : List Value) : Value :=
  .bool (!(forEach (fun e _ => let missing := !(listContains list e); (missing, !missing)) sublist false))

/-- `SetsIntersects` (`extensions/sets_functions.cc` lines 64-85); the state is `exists`. -/
def setsIntersects (list sublist : List Value) : Value :=
  .bool (forEach (fun e _ => let found := listContains sublist e; (found, !found)) list false)

/-- `SetsEquivalent` (`extensions/sets_functions.cc` lines 87-101). -/
def setsEquivalent (list sublist : List Value) : Value :=
  match setsContains list sublist with
  | .bool false => .bool false
  | _ => setsContains sublist list

/-! ## Specification -/

/-- The value is `==` to some element. -/
def Member (x : Value) (l : List Value) : Prop := ∃ e ∈ l, valueEqual e x = some true

/-! ## Lemmas -/

theorem forEach_missing (p : Value → Bool) (l : List Value) (b : Bool) :
    forEach (fun e _ => let missing := !(p e); (missing, !missing)) l b = if l = [] then b else !(l.all p) := by
  induction l generalizing b with
  | nil => rfl
  | cons v l ih =>
    rw [forEach]
    simp only [Bool.not_not] at ih ⊢
    cases hp : p v with
    | true =>
      simp only [if_true, List.all_cons, hp, Bool.true_and]
      rw [ih]
      by_cases hl : l = []
      · simp [hl]
      · simp [hl]
    | false => simp [hp]

theorem forEach_found (p : Value → Bool) (l : List Value) (b : Bool) :
    forEach (fun e _ => let found := p e; (found, !found)) l b = if l = [] then b else l.any p := by
  induction l generalizing b with
  | nil => rfl
  | cons v l ih =>
    rw [forEach]
    simp only [] at ih ⊢
    cases hp : p v with
    | false =>
      simp only [Bool.not_false, if_true, List.any_cons, hp, Bool.false_or]
      rw [ih]
      by_cases hl : l = []
      · simp [hl]
      · simp [hl]
    | true => simp [hp]

theorem setsContains_eq (a b : List Value) : setsContains a b = .bool (b.all (listContains a)) := by
  unfold setsContains
  rw [forEach_missing]
  by_cases h : b = []
  · simp [h]
  · simp [h]

theorem setsIntersects_eq (a b : List Value) : setsIntersects a b = .bool (a.any (listContains b)) := by
  unfold setsIntersects
  rw [forEach_found]
  by_cases h : a = []
  · simp [h]
  · simp [h]

theorem setsEquivalent_eq (a b : List Value) :
    setsEquivalent a b = .bool (b.all (listContains a) && a.all (listContains b)) := by
  unfold setsEquivalent
  rw [setsContains_eq, setsContains_eq]
  cases b.all (listContains a) <;> rfl

theorem listContains_iff (l : List Value) (x : Value) : listContains l x = true ↔ ∃ e ∈ l, cEqual e x = true := by
  simp [listContains, List.any_eq_true]

theorem listContains_member {l : List Value} {x : Value} (hl : IsData (.list l)) (hx : IsData x)
    (h : listContains l x = true) : Member x l := by
  obtain ⟨e, he, h⟩ := (listContains_iff l x).1 h
  exact ⟨e, he, cEqual_imp_valueEqual e x ((deep_list.1 hl).2 e he) hx h⟩

theorem member_listContains {l : List Value} {x : Value} (hl : IsData (.list l)) (hx : IsData x)
    (n1 : Deep NoUintKeys (.list l)) (n2 : Deep NoUintKeys x) (h : Member x l) : listContains l x = true := by
  obtain ⟨e, he, h⟩ := h
  exact (listContains_iff l x).2 ⟨e, he, valueEqual_imp_cEqual e x ((deep_list.1 hl).2 e he) hx ((deep_list.1 n1).2 e he) n2 h⟩

/-- Computes an answer on literals. -/
local macro "sets_compute" : tactic => `(tactic|
  (first | rw [setsContains_eq] | rw [setsIntersects_eq] | rw [setsEquivalent_eq]) <;> exact congrArg Value.bool (by decide +kernel))

/-! ## C40 -/

/-- **C40 (against `in`).** `sets.contains(a, b)` is `b.all(y, y in a)`, `sets.intersects(a, b)` is `a.exists(x, x in b)`,
and `sets.equivalent(a, b)` is `sets.contains(a, b) && sets.contains(b, a)`, for all lists; the result is always a bool. -/
theorem C40_sets_against_in (c : StepCfg) (hu : c.unknowns = false) (a b : List Value) (ha : IsData (.list a))
    (hb : IsData (.list b)) :
    ∃ p q r, setsContains a b = .bool p ∧ setsIntersects a b = .bool q ∧ setsEquivalent a b = .bool r ∧
      (p = true ↔ ∀ y ∈ b, inStep c [⟨y, none⟩, ⟨.list a, none⟩] = .ok ⟨.bool true, none⟩) ∧
      (q = true ↔ ∃ x ∈ a, inStep c [⟨x, none⟩, ⟨.list b, none⟩] = .ok ⟨.bool true, none⟩) ∧
      (r = true ↔ setsContains a b = .bool true ∧ setsContains b a = .bool true) := by
  have hin : ∀ (l : List Value) (x : Value), IsData x →
      (inStep c [⟨x, none⟩, ⟨.list l, none⟩] = .ok ⟨.bool true, none⟩ ↔ listContains l x = true) := by
    intro l x hx
    have h1 : inStep c [⟨x, none⟩, ⟨.list l, none⟩] = .ok ⟨.bool (listContains l x), none⟩ := by
      have := hx.self
      cases x <;> simp_all [inStep, inEval, Ordinary]
    rw [h1]; simp
  refine ⟨_, _, _, setsContains_eq a b, setsIntersects_eq a b, setsEquivalent_eq a b, ?_, ?_, ?_⟩
  · rw [List.all_eq_true]
    exact ⟨fun h y hy => (hin a y ((deep_list.1 hb).2 y hy)).2 (h y hy), fun h y hy => (hin a y ((deep_list.1 hb).2 y hy)).1 (h y hy)⟩
  · rw [List.any_eq_true]
    exact ⟨fun ⟨x, hx, h⟩ => ⟨x, hx, (hin b x ((deep_list.1 ha).2 x hx)).2 h⟩, fun ⟨x, hx, h⟩ => ⟨x, hx, (hin b x ((deep_list.1 ha).2 x hx)).1 h⟩⟩
  · rw [setsContains_eq, setsContains_eq]; simp

/-- **C40 (against `==`).** Full claim: `sets.contains(a, b)` iff every element of `b` is `==` to one of `a`, and so on.
Proved: a positive answer is right; and for data in which no map has `uint` keys, every answer is. -/
theorem C40_sets_against_equality_partial (a b : List Value) (ha : IsData (.list a)) (hb : IsData (.list b)) :
    (setsContains a b = .bool true → ∀ y ∈ b, Member y a) ∧
    (setsIntersects a b = .bool true → ∃ x ∈ a, Member x b) ∧
    (setsEquivalent a b = .bool true → (∀ y ∈ b, Member y a) ∧ ∀ x ∈ a, Member x b) ∧
    (Deep NoUintKeys (.list a) → Deep NoUintKeys (.list b) →
      (setsContains a b = .bool true ↔ ∀ y ∈ b, Member y a) ∧
      (setsIntersects a b = .bool true ↔ ∃ x ∈ a, Member x b) ∧
      (setsEquivalent a b = .bool true ↔ (∀ y ∈ b, Member y a) ∧ ∀ x ∈ a, Member x b)) := by
  have da := fun x hx => (deep_list.1 ha).2 x hx
  have db := fun x hx => (deep_list.1 hb).2 x hx
  rw [setsContains_eq, setsIntersects_eq, setsEquivalent_eq]
  simp only [Value.bool.injEq, List.all_eq_true, List.any_eq_true, Bool.and_eq_true]
  have p1 : (∀ y ∈ b, listContains a y = true) → ∀ y ∈ b, Member y a :=
    fun h y hy => listContains_member ha (db y hy) (h y hy)
  have p2 : (∀ y ∈ a, listContains b y = true) → ∀ y ∈ a, Member y b :=
    fun h y hy => listContains_member hb (da y hy) (h y hy)
  have p3 : (∃ x ∈ a, listContains b x = true) → ∃ x ∈ a, Member x b :=
    fun ⟨x, hx, h⟩ => ⟨x, hx, listContains_member hb (da x hx) h⟩
  refine ⟨p1, p3, fun h => ⟨p1 h.1, p2 h.2⟩, fun na nb => ?_⟩
  have q1 : (∀ y ∈ b, Member y a) → ∀ y ∈ b, listContains a y = true :=
    fun h y hy => member_listContains ha (db y hy) na ((deep_list.1 nb).2 y hy) (h y hy)
  have q2 : (∀ y ∈ a, Member y b) → ∀ y ∈ a, listContains b y = true :=
    fun h y hy => member_listContains hb (da y hy) nb ((deep_list.1 na).2 y hy) (h y hy)
  have q3 : (∃ x ∈ a, Member x b) → ∃ x ∈ a, listContains b x = true :=
    fun ⟨x, hx, h⟩ => ⟨x, hx, member_listContains hb (da x hx) nb ((deep_list.1 na).2 x hx) h⟩
  exact ⟨⟨p1, q1⟩, ⟨p3, q3⟩, fun h => ⟨p1 h.1, p2 h.2⟩, fun h => ⟨q1 h.1, q2 h.2⟩⟩

/-- What is false of the full claim: `{1: 2} == {1u: 2}`, but neither contains nor intersects nor is equivalent. -/
theorem C40_sets_disagree_on_uint_keys :
    let a := Value.map [(.int 1, .int 2)]
    let b := Value.map [(.uint 1, .int 2)]
    IsData (.list [a]) ∧ IsData (.list [b]) ∧ Member b [a] ∧ setsContains [a] [b] = .bool false ∧
      setsIntersects [a] [b] = .bool false ∧ setsEquivalent [a] [b] = .bool false := by
  have h := C35_in_list_disagrees_on_uint_keys
  refine ⟨?_, ?_, ⟨_, List.mem_singleton.2 rfl, h.2.2.1⟩, by sets_compute, by sets_compute, by sets_compute⟩
  · exact deep_list.2 ⟨trivial, by intro x hx; simp at hx; subst hx; exact h.1⟩
  · exact deep_list.2 ⟨trivial, by intro x hx; simp at hx; subst hx; exact h.2.1⟩

/-- **C40 (reflexivity).** A list of data without NaN contains itself and is equivalent to itself; and intersects itself
unless empty. -/
theorem C40_reflexive (a : List Value) (ha : IsData (.list a)) (hn : Deep NotNaN (.list a)) :
    setsContains a a = .bool true ∧ setsEquivalent a a = .bool true ∧ (a ≠ [] → setsIntersects a a = .bool true) := by
  have h : ∀ x ∈ a, listContains a x = true := fun x hx => (listContains_iff a x).2
    ⟨x, hx, (cEqual_self_iff x ((deep_list.1 ha).2 x hx)).2 ((deep_list.1 hn).2 x hx)⟩
  have hall : a.all (listContains a) = true := List.all_eq_true.2 h
  rw [setsContains_eq, setsEquivalent_eq, setsIntersects_eq, hall]
  refine ⟨rfl, rfl, fun hne => ?_⟩
  cases a with
  | nil => exact absurd rfl hne
  | cons x l => rw [Value.bool.injEq, List.any_eq_true]; exact ⟨x, List.mem_cons_self .., h x (List.mem_cons_self ..)⟩

/-- A NaN is in no set. -/
theorem C40_nan_not_contained (a b : List Value) (h : Value.dbl .nan ∈ b) : setsContains a b = .bool false := by
  rw [setsContains_eq, Value.bool.injEq, List.all_eq_false]
  refine ⟨_, h, ?_⟩
  rw [listContains_iff]
  rintro ⟨e, -, he⟩
  cases e with
  | int i => simp only [cEqual] at he; revert he; simp [Number.eq, Number.compare, doubleVsInt, doubleCompare, CmpResult.invert, Dbl.lt, Dbl.gt, Dbl.eq, Dbl.cmp, Dbl.ge, Dbl.le]
  | uint i => simp only [cEqual] at he; revert he; simp [Number.eq, Number.compare, doubleVsUint, doubleCompare, CmpResult.invert, Dbl.lt, Dbl.gt, Dbl.eq, Dbl.cmp, Dbl.ge, Dbl.le]
  | dbl d => simp only [cEqual] at he; revert he; cases d <;> simp [Dbl.eq, Dbl.cmp]
  | _ => simp [cEqual] at he

/-- **C40 (symmetry).** `intersects` and `equivalent` do not depend on the order of their arguments, for all data. -/
theorem C40_symmetric (a b : List Value) (ha : IsData (.list a)) (hb : IsData (.list b)) :
    setsIntersects a b = setsIntersects b a ∧ setsEquivalent a b = setsEquivalent b a := by
  constructor
  · have key : ∀ a b : List Value, IsData (.list a) → IsData (.list b) → a.any (listContains b) = true → b.any (listContains a) = true := by
      intro a b ha hb h
      obtain ⟨x, hx, h⟩ := List.any_eq_true.1 h
      obtain ⟨y, hy, h⟩ := (listContains_iff b x).1 h
      exact List.any_eq_true.2 ⟨y, hy, (listContains_iff a y).2 ⟨x, hx, cEqual_symm y x ((deep_list.1 hb).2 y hy) ((deep_list.1 ha).2 x hx) h⟩⟩
    rw [setsIntersects_eq, setsIntersects_eq, Value.bool.injEq, Bool.eq_iff_iff]
    exact ⟨key a b ha hb, key b a hb ha⟩
  · rw [setsEquivalent_eq, setsEquivalent_eq, Bool.and_comm]

/-- **C40 (transitivity).** Full claim: containment and equivalence are transitive.  Proved: they are where the integers
are exact as doubles. -/
theorem C40_transitive_partial (a b c : List Value) (ha : IsData (.list a)) (hb : IsData (.list b)) (hc : IsData (.list c))
    (ea : Deep ExactNumber (.list a)) (eb : Deep ExactNumber (.list b)) (ec : Deep ExactNumber (.list c)) :
    (setsContains a b = .bool true → setsContains b c = .bool true → setsContains a c = .bool true) ∧
    (setsEquivalent a b = .bool true → setsEquivalent b c = .bool true → setsEquivalent a c = .bool true) := by
  have key : ∀ a b c : List Value, IsData (.list a) → IsData (.list b) → IsData (.list c) → Deep ExactNumber (.list a) →
      Deep ExactNumber (.list b) → Deep ExactNumber (.list c) → (∀ y ∈ b, listContains a y = true) →
      (∀ y ∈ c, listContains b y = true) → ∀ y ∈ c, listContains a y = true := by
    intro a b c ha hb hc ea eb ec h1 h2 z hz
    obtain ⟨y, hy, hyz⟩ := (listContains_iff _ _).1 (h2 z hz)
    obtain ⟨x, hx, hxy⟩ := (listContains_iff _ _).1 (h1 y hy)
    exact (listContains_iff _ _).2 ⟨x, hx, cEqual_trans x y z ((deep_list.1 ha).2 x hx) ((deep_list.1 hb).2 y hy)
      ((deep_list.1 hc).2 z hz) ((deep_list.1 ea).2 x hx) ((deep_list.1 eb).2 y hy) ((deep_list.1 ec).2 z hz) hxy hyz⟩
  simp only [setsContains_eq, setsEquivalent_eq, Value.bool.injEq, Bool.and_eq_true, List.all_eq_true]
  exact ⟨key a b c ha hb hc ea eb ec, fun h1 h2 => ⟨key a b c ha hb hc ea eb ec h1.1 h2.1, key c b a hc hb ha ec eb ea h2.2 h1.2⟩⟩

/-- What is false of the full claim: the ints 2^53+1 and 2^53 are both equal to the double 2^53. -/
theorem C40_not_transitive :
    let d := Value.dbl (Dbl.ofInt 9007199254740992)
    setsEquivalent [.int 9007199254740993] [d] = .bool true ∧ setsEquivalent [d] [.int 9007199254740992] = .bool true ∧
      setsContains [.int 9007199254740993] [.int 9007199254740992] = .bool false := by
  refine ⟨by sets_compute, by sets_compute, by sets_compute⟩

/-- **C40 (order and repetition).** The answers depend only on which values occur. -/
theorem C40_order_insensitive (a a' b b' : List Value) (ha : ∀ x, x ∈ a ↔ x ∈ a') (hb : ∀ x, x ∈ b ↔ x ∈ b') :
    setsContains a b = setsContains a' b' ∧ setsIntersects a b = setsIntersects a' b' ∧
      setsEquivalent a b = setsEquivalent a' b' := by
  have hl : ∀ {l l' : List Value}, (∀ x, x ∈ l ↔ x ∈ l') → ∀ x, listContains l x = listContains l' x := by
    intro l l' h x
    rw [Bool.eq_iff_iff, listContains_iff, listContains_iff]; simp only [h]
  have hall : ∀ {l l' : List Value}, (∀ x, x ∈ l ↔ x ∈ l') → ∀ {p q : Value → Bool}, (∀ x, p x = q x) → l.all p = l'.all q := by
    intro l l' h p q hpq
    rw [Bool.eq_iff_iff, List.all_eq_true, List.all_eq_true]; simp only [h, hpq]
  have hany : ∀ {l l' : List Value}, (∀ x, x ∈ l ↔ x ∈ l') → ∀ {p q : Value → Bool}, (∀ x, p x = q x) → l.any p = l'.any q := by
    intro l l' h p q hpq
    rw [Bool.eq_iff_iff, List.any_eq_true, List.any_eq_true]; simp only [h, hpq]
  rw [setsContains_eq, setsContains_eq, setsIntersects_eq, setsIntersects_eq, setsEquivalent_eq, setsEquivalent_eq,
    hall hb (hl ha), hany ha (hl hb), hall ha (hl hb)]
  exact ⟨rfl, rfl, rfl⟩

/-! ## Concrete cases -/

def exA : List Value := [.int 1, .str "a", .list [.uint 2]]
def exB : List Value := [.list [.int 2], .int 1, .int 1]

example : setsContains exA exB = .bool true ∧ setsContains exB exA = .bool false ∧ setsIntersects exB exA = .bool true ∧
    setsEquivalent exA exB = .bool false ∧ setsContains exA [] = .bool true ∧ setsIntersects exA [] = .bool false := by
  refine ⟨by sets_compute, by sets_compute, by sets_compute, by sets_compute, by sets_compute, by sets_compute⟩

/-- The premises of the theorems above are met. -/
example : IsData (.list exA) ∧ Deep NoUintKeys (.list exA) ∧ Deep NotNaN (.list exA) ∧ Deep ExactNumber (.list exA) := by
  refine ⟨?_, ?_, ?_, ?_⟩ <;> intro w hw <;> simp [exA, nested, nestedList] at hw <;>
    rcases hw with rfl | rfl | rfl | rfl | rfl <;> simp [Ordinary, InI64, InU64, i64Min, i64Max, u64Max, NoUintKeys, NotNaN, ExactNumber]
  · exact exactInDouble_of_small 1 (by decide)
  · exact exactInDouble_of_small 2 (by decide)

end Cel.Ext
