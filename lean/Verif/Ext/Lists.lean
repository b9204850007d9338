import Verif.Data.MemberProps
import Verif.Eval.Order

/-!
# C41: the lists extension (`extensions/lists_functions.cc`)

A `ListValue` is a list of values; reading an element never fails, and building a list from elements of lists never
fails (`ListValueBuilder::Add` only rejects errors and unknowns, which no list holds:
`common/values/value_builder.cc` lines 69-78).
-/

set_option linter.unusedSimpArgs false
set_option linter.unusedVariables false

namespace Cel.Ext
open Cel Cel.Num Cel.Eval Cel.Data Cel.Data.Spec

/-! ## Model -/

/-- `ListDistinctHeterogeneousImpl` (`extensions/lists_functions.cc` lines 72-97), from the remaining elements, the values seen
and what has been built. -/
def distinctSlow : List Value → List Value → List Value → List Value
  | [], _, out => out
  | v :: rest, seen, out =>
    if seen.any (fun s => cEqual v s) then distinctSlow rest seen out
    else distinctSlow rest (seen ++ [v]) (out ++ [v])

/-- `ListDistinctHomogeneousHashableImpl` (`extensions/lists_functions.cc` lines 101-130).  The hash set compares two values
of one kind exactly (`keyEq`).  `order` is the iteration order of the hash set, any function that permutes: it decides the order
of the vector given to the slow implementation. -/
def distinctFast (isT : Value → Bool) (order : List Value → List Value) : List Value → List Value → List Value → List Value
  | [], _, out => out
  | v :: rest, seen, out =>
    if isT v then
      if seen.any (fun s => keyEq s v) then distinctFast isT order rest seen out
      else distinctFast isT order rest (v :: seen) (out ++ [v])
    else distinctSlow (v :: rest) (order seen) out

def isBool : Value → Bool | .bool _ => true | _ => false
def isStr : Value → Bool | .str _ => true | _ => false

/-- `ListDistinct` (`extensions/lists_functions.cc` lines 132-188). -/
def listDistinct (order : List Value → List Value) (l : List Value) : List Value :=
  match l with
  | [] => l
  | [_] => l
  | .int _ :: _ => distinctFast isInt order l [] []
  | .uint _ :: _ => distinctFast isUint order l [] []
  | .bool _ :: _ => distinctFast isBool order l [] []
  | .str _ :: _ => distinctFast isStr order l [] []
  | _ => distinctSlow l [] []

/-- `ListFlattenImpl` (`extensions/lists_functions.cc` lines 190-209); the depth is not negative here. -/
def flattenImpl (remaining : Nat) (l out : List Value) : List Value :=
  match remaining with
  | 0 => l.foldl (fun out v => out ++ [v]) out
  | d + 1 => l.foldl (fun out v => match v with
      | .list m => flattenImpl d m out
      | v => out ++ [v]) out

/-- `ListFlatten` (`extensions/lists_functions.cc` lines 211-224). -/
def listFlatten (l : List Value) (depth : Int) : Value :=
  if depth < 0 then .error ⟨.invalidArgument, "flatten(): level must be non-negative"⟩
  else .list (flattenImpl depth.toNat l [])

/-- The loop of `ListRange`: `for (i = start; i < end; ++i) builder->Add(IntValue(i))`. -/
def rangeLoop : Nat → Int → List Value
  | 0, _ => []
  | n + 1, i => .int i :: rangeLoop n (i + 1)

/-- `ListRange` (`extensions/lists_functions.cc` lines 226-236).  `builder->Reserve(end)` takes a `size_t`
(`common/values/value_builder.cc` line 232): a negative argument asks for more than `std::vector::max_size()` elements, which
ends the process (`std::length_error`).  That memory can run out for a large positive argument is not modelled. -/
def listRange (n : Int) : Res (List Value) :=
  if n < 0 then .ub else .ok (rangeLoop n.toNat 0)

/-- `ListReverse` (`extensions/lists_functions.cc` lines 238-251): `for (i = size - 1; i >= 0; --i)`. -/
def reverseLoop (l : List Value) : Nat → List Value
  | 0 => []
  | i + 1 => (l[i]?).toList ++ reverseLoop l i

def listReverse (l : List Value) : List Value := reverseLoop l l.length

/-- The loop of `ListSlice` (lines 274-278). -/
def sliceLoop (l : List Value) : Nat → Nat → List Value
  | 0, _ => []
  | n + 1, i => (l[i]?).toList ++ sliceLoop l n (i + 1)

/-- `ListSlice` (`extensions/lists_functions.cc` lines 253-280); the text of the messages is abbreviated (the numbers are not
printed). The list has fewer than 2^63 elements. -/
def listSlice (l : List Value) (start «end» : Int) : Value :=
  if start < 0 ∨ «end» < 0 then .error ⟨.invalidArgument, "negative indexes not supported"⟩
  else if start > «end» then .error ⟨.invalidArgument, "start index must be less than or equal to end index"⟩
  else if (l.length : Int) < «end» then .error ⟨.invalidArgument, "list is length"⟩
  else .list (sliceLoop l («end».toNat - start.toNat) start.toNat)

/-- `operator<` on `absl::Duration`. -/
def durLt : Dur → Dur → Bool
  | .inf a, .inf b => a && !b
  | .inf a, .fin _ => a
  | .fin _, .inf b => !b
  | .fin x, .fin y => decide (x < y)

/-- `operator<` on `absl::Time`. -/
def tmLt : Tm → Tm → Bool
  | .inf a, .inf b => a && !b
  | .inf a, .fin _ => a
  | .fin _, .inf b => !b
  | .fin x, .fin y => decide (x < y)

/-- `keys_vec[a] < keys_vec[b]` (`extensions/lists_functions.cc` line 312) for two keys of one kind: the `operator<` of
`IntValue`, `UintValue`, `DoubleValue`, `BoolValue` (by conversion to the native type), `StringValue`, `BytesValue`,
`DurationValue` and `TimestampValue`. -/
def keyLess : Value → Value → Bool
  | .int a, .int b => decide (a < b)
  | .uint a, .uint b => decide (a < b)
  | .dbl a, .dbl b => Dbl.lt a b
  | .bool a, .bool b => !a && b
  | .str a, .str b => strLt a b
  | .bytes a, .bytes b => lexLoop natLt natEq false a b
  | .dur a, .dur b => durLt a b
  | .ts a, .ts b => tmLt a b
  | _, _ => false

/-- What `std::sort` requires of its comparison on the elements of its range (C++ [alg.sorting]). -/
def strictWeakOn {α : Type} (lt : α → α → Bool) (l : List α) : Bool :=
  l.all fun a => l.all fun b => (!(lt a b && lt b a)) && l.all fun c => !(lt a b) || lt a c || lt c b

/-- What `std::sort` guarantees: any implementation. -/
structure StdSort where
  run : (Nat → Nat → Bool) → List Nat → List Nat
  perm : ∀ lt l, strictWeakOn lt l = true → (run lt l).Perm l
  sorted : ∀ lt l, strictWeakOn lt l = true → (run lt l).Pairwise (fun a b => lt b a = false)

/-- The kinds that can be sorted (the `switch` of lines 361-390). -/
def sortable (k : Nat) : Bool :=
  k == kInt || k == kUint || k == kDouble || k == kBool || k == kString || k == kTimestamp || k == kDuration || k == kBytes

/-- The comparison given to `std::sort` (lines 310-312): positions compared by their keys. -/
def lessAt (keys : List Value) (a b : Nat) : Bool :=
  match keys[a]?, keys[b]? with
  | some x, some y => keyLess x y
  | _, _ => false

/-- `ListSortByAssociatedKeysNative` (`extensions/lists_functions.cc` lines 282-324) for the kind of the first key. -/
def sortNative (sort : StdSort) (kind : Nat) (list keys : List Value) : Res Value :=
  if list.length < 2 then .ok (.list list)
  else if keys.all (fun k => k.kind == kind) then
    if strictWeakOn (lessAt keys) (List.range keys.length) then
      .ok (.list ((sort.run (lessAt keys) (List.range keys.length)).filterMap (fun i => list[i]?)))
    else .ub
  else .ok (.error ⟨.invalidArgument, "sort(): list elements must have the same type"⟩)

/-- `ListSortByAssociatedKeys` (`extensions/lists_functions.cc` lines 340-391), `typeName` being `Value::GetTypeName`; the
numbers in the first message are left out. -/
def sortByKeys (sort : StdSort) (typeName : Value → String) (list keys : List Value) : Res Value :=
  if list.length ≠ keys.length then .ok (.error ⟨.invalidArgument, "@sortByAssociatedKeys() expected a list of the same size"⟩)
  else match keys with
    | [] => .ok (.list list)
    | first :: _ =>
      if sortable first.kind then sortNative sort first.kind list keys
      else .ok (.error ⟨.invalidArgument, "sort(): unsupported type " ++ typeName first⟩)

/-- `ListSort` (`extensions/lists_functions.cc` lines 480-487). -/
def listSort (sort : StdSort) (typeName : Value → String) (list : List Value) : Res Value :=
  sortByKeys sort typeName list list

/-! ## distinct -/

theorem distinctSlow_append (l1 l2 seen out : List Value) :
    ∃ seen' out', distinctSlow l1 seen out = out' ∧ distinctSlow (l1 ++ l2) seen out = distinctSlow l2 seen' out' ∧
      (seen = out → seen' = out') := by
  induction l1 generalizing seen out with
  | nil => exact ⟨seen, out, rfl, rfl, id⟩
  | cons v l1 ih =>
    simp only [List.cons_append, distinctSlow]
    split
    · exact ih seen out
    · obtain ⟨s, o, h1, h2, h3⟩ := ih (seen ++ [v]) (out ++ [v])
      exact ⟨s, o, h1, h2, fun h => h3 (by rw [h])⟩

theorem distinctSlow_snoc (l : List Value) (x : Value) :
    distinctSlow (l ++ [x]) [] [] =
      if (distinctSlow l [] []).any (fun s => cEqual x s) then distinctSlow l [] [] else distinctSlow l [] [] ++ [x] := by
  obtain ⟨s, o, h1, h2, h3⟩ := distinctSlow_append l [x] [] []
  have h3 := h3 rfl
  subst h3
  rw [h2, h1]
  simp only [distinctSlow]

theorem distinctSlow_perm (l seen seen' out : List Value) (h : ∀ x, x ∈ seen ↔ x ∈ seen') :
    distinctSlow l seen out = distinctSlow l seen' out := by
  induction l generalizing seen seen' out with
  | nil => rfl
  | cons v l ih =>
    have : seen.any (fun s => cEqual v s) = seen'.any (fun s => cEqual v s) := by
      rw [Bool.eq_iff_iff, List.any_eq_true, List.any_eq_true]; simp only [h]
    simp only [distinctSlow, this]
    split
    · exact ih _ _ _ h
    · exact ih _ _ _ (by intro x; simp [h])

theorem distinctFast_eq (isT : Value → Bool) (hT : ∀ a b, isT a = true → isT b = true → keyEq b a = cEqual a b)
    (order : List Value → List Value) (ho : ∀ l, (order l).Perm l) (l seen out : List Value) (hs : ∀ s ∈ seen, isT s = true) :
    distinctFast isT order l seen out = distinctSlow l seen out := by
  induction l generalizing seen out with
  | nil => rfl
  | cons v l ih =>
    rw [distinctFast]
    by_cases hv : isT v = true
    · have h1 : seen.any (fun s => keyEq s v) = seen.any (fun s => cEqual v s) := by
        rw [Bool.eq_iff_iff, List.any_eq_true, List.any_eq_true]
        constructor <;> rintro ⟨s, h, h'⟩ <;> refine ⟨s, h, ?_⟩
        · rw [← hT v s hv (hs s h)]; exact h'
        · rw [hT v s hv (hs s h)]; exact h'
      rw [if_pos hv, h1, distinctSlow]
      split
      · exact ih _ _ hs
      · rw [ih _ _ (by intro s h; rcases List.mem_cons.1 h with rfl | h; exacts [hv, hs s h])]
        exact distinctSlow_perm _ _ _ _ (by intro x; simp [or_comm])
    · rw [if_neg hv]
      exact distinctSlow_perm _ _ _ _ (fun x => (ho seen).mem_iff)

theorem listDistinct_eq (order : List Value → List Value) (ho : ∀ l, (order l).Perm l) (l : List Value) :
    listDistinct order l = distinctSlow l [] [] := by
  have hint : ∀ x y : Int, keyEq (.int y) (.int x) = cEqual (.int x) (.int y) := by
    intro x y; rw [Bool.eq_iff_iff]; simp [keyEq, cEqual]; exact eq_comm
  have huint : ∀ x y : Int, keyEq (.uint y) (.uint x) = cEqual (.uint x) (.uint y) := by
    intro x y; rw [Bool.eq_iff_iff]; simp [keyEq, cEqual]; exact eq_comm
  have hbool : ∀ x y : Bool, keyEq (.bool y) (.bool x) = cEqual (.bool x) (.bool y) := by decide
  have hstr : ∀ x y : String, keyEq (.str y) (.str x) = cEqual (.str x) (.str y) := by
    intro x y; rw [Bool.eq_iff_iff]; simp [keyEq, cEqual]; exact eq_comm
  unfold listDistinct
  split
  · rfl
  · simp [distinctSlow]
  · exact distinctFast_eq _ (by intro a b ha hb; cases a <;> simp [isInt] at ha; cases b <;> simp [isInt] at hb; exact hint _ _) order ho _ _ _ (by simp)
  · exact distinctFast_eq _ (by intro a b ha hb; cases a <;> simp [isUint] at ha; cases b <;> simp [isUint] at hb; exact huint _ _) order ho _ _ _ (by simp)
  · exact distinctFast_eq _ (by intro a b ha hb; cases a <;> simp [isBool] at ha; cases b <;> simp [isBool] at hb; exact hbool _ _) order ho _ _ _ (by simp)
  · exact distinctFast_eq _ (by intro a b ha hb; cases a <;> simp [isStr] at ha; cases b <;> simp [isStr] at hb; exact hstr _ _) order ho _ _ _ (by simp)
  · rfl

/-- **C41 (distinct, exactly).** Whatever the order of the hash set: `[].distinct()` is `[]`, and one more element at the end is
kept unless it is equal to one that is kept.  These two equations determine `distinct` for every list. -/
theorem C41_distinct_greedy (order : List Value → List Value) (ho : ∀ l, (order l).Perm l) (l : List Value) (x : Value) :
    listDistinct order [] = [] ∧
    ((∃ y ∈ listDistinct order l, cEqual x y = true) → listDistinct order (l ++ [x]) = listDistinct order l) ∧
    ((∀ y ∈ listDistinct order l, cEqual x y = false) → listDistinct order (l ++ [x]) = listDistinct order l ++ [x]) := by
  rw [listDistinct_eq order ho, listDistinct_eq order ho, listDistinct_eq order ho, distinctSlow_snoc]
  refine ⟨rfl, fun h => if_pos (List.any_eq_true.2 h), fun h => if_neg ?_⟩
  rw [List.any_eq_true]
  rintro ⟨y, hy, h'⟩
  rw [h y hy] at h'; exact absurd h' (by simp)

/-- **C41 (distinct).** The result is a sublist; no element of it is equal to an earlier one; and every element of the list is in
it or equal to an element of it. -/
theorem C41_distinct (order : List Value → List Value) (ho : ∀ l, (order l).Perm l) (l : List Value) :
    (listDistinct order l).Sublist l ∧
    (listDistinct order l).Pairwise (fun earlier later => cEqual later earlier = false) ∧
    ∀ x ∈ l, x ∈ listDistinct order l ∨ ∃ y ∈ listDistinct order l, cEqual x y = true := by
  rw [listDistinct_eq order ho]
  induction l using List.reverseRecOn with
  | nil => exact ⟨List.Sublist.refl _, List.Pairwise.nil, by simp⟩
  | append_singleton l x ih =>
    obtain ⟨h1, h2, h3⟩ := ih
    rw [distinctSlow_snoc]
    split
    · rename_i h
      refine ⟨h1.trans (List.sublist_append_left l [x]), h2, fun y hy => ?_⟩
      rcases List.mem_append.1 hy with hy | hy
      · exact h3 y hy
      · rw [List.mem_singleton] at hy; subst hy
        exact .inr (List.any_eq_true.1 h)
    · rename_i h
      refine ⟨h1.append_right [x], ?_, fun y hy => ?_⟩
      · rw [List.pairwise_append]
        refine ⟨h2, List.pairwise_singleton .., fun a ha b hb => ?_⟩
        rw [List.mem_singleton] at hb; subst hb
        cases hc : cEqual b a with
        | false => rfl
        | true => exact absurd (List.any_eq_true.2 ⟨a, ha, hc⟩) h
      · rcases List.mem_append.1 hy with hy | hy
        · rcases h3 y hy with h3 | ⟨z, hz, h3⟩
          · exact .inl (List.mem_append_left _ h3)
          · exact .inr ⟨z, List.mem_append_left _ hz, h3⟩
        · exact .inl (List.mem_append_right _ hy)

/-- The elements of a list that are not `==` to an earlier one. -/
def FirstOccurrences (l r : List Value) : Prop :=
  ∃ keep : List Nat, (∀ i, i ∈ keep ↔ i < l.length ∧ ∀ j < i, ∀ x y, l[i]? = some x → l[j]? = some y → valueEqual x y ≠ some true) ∧
    keep.Pairwise (· < ·) ∧ r = keep.filterMap (fun i => l[i]?)

/-- **C41 (distinct, against `==`).** Full claim: `distinct` keeps the first occurrence of each value, for all lists.  Proved: for
data whose integers are exact as doubles and whose maps have no `uint` keys. -/
theorem C41_distinct_first_occurrences_partial (order : List Value → List Value) (ho : ∀ l, (order l).Perm l) (l : List Value)
    (hd : IsData (.list l)) (he : Deep ExactNumber (.list l)) (hk : Deep NoUintKeys (.list l)) :
    FirstOccurrences l (listDistinct order l) := by
  rw [listDistinct_eq order ho]
  induction l using List.reverseRecOn with
  | nil => exact ⟨[], by simp, List.Pairwise.nil, rfl⟩
  | append_singleton l x ih =>
    have sub : ∀ {P : Value → Prop}, Deep P (.list (l ++ [x])) → (∀ y ∈ l, Deep P y) ∧ Deep P x := fun h =>
      ⟨fun y hy => (deep_list.1 h).2 y (List.mem_append_left _ hy), (deep_list.1 h).2 x (by simp)⟩
    have dl := sub hd; have el := sub he; have kl := sub hk
    obtain ⟨keep, h1, h2, h3⟩ := ih (deep_list.2 ⟨trivial, dl.1⟩) (deep_list.2 ⟨trivial, el.1⟩) (deep_list.2 ⟨trivial, kl.1⟩)
    have hin := (C41_distinct order ho l)
    rw [listDistinct_eq order ho] at hin
    obtain ⟨i1, i2, i3⟩ := hin
    have hmono : ∀ i ∈ keep, (l ++ [x])[i]? = l[i]? := fun i hi => List.getElem?_append_left ((h1 i).1 hi).1
    have hmap : keep.filterMap (fun i => (l ++ [x])[i]?) = keep.filterMap (fun i => l[i]?) :=
      List.filterMap_congr hmono
    -- the condition for earlier positions does not change
    have hold : ∀ i, i < l.length → ((∀ j < i, ∀ a b, (l ++ [x])[i]? = some a → (l ++ [x])[j]? = some b → valueEqual a b ≠ some true) ↔
        (∀ j < i, ∀ a b, l[i]? = some a → l[j]? = some b → valueEqual a b ≠ some true)) := by
      intro i hi
      constructor <;> intro h j hj a b ha hb
      · exact h j hj a b (by rw [List.getElem?_append_left hi]; exact ha) (by rw [List.getElem?_append_left (by omega)]; exact hb)
      · exact h j hj a b (by rw [List.getElem?_append_left hi] at ha; exact ha) (by rw [List.getElem?_append_left (by omega)] at hb; exact hb)
    -- equal to a kept element iff equal to an earlier element
    have hsome : (∃ y ∈ distinctSlow l [] [], cEqual x y = true) ↔ ∃ y ∈ l, valueEqual x y = some true := by
      constructor
      · rintro ⟨y, hy, h⟩
        exact ⟨y, i1.subset hy, cEqual_imp_valueEqual x y dl.2 (dl.1 y (i1.subset hy)) h⟩
      · rintro ⟨y, hy, h⟩
        have h := valueEqual_imp_cEqual x y dl.2 (dl.1 y hy) kl.2 (kl.1 y hy) h
        rcases i3 y hy with hm | ⟨z, hz, h'⟩
        · exact ⟨y, hm, h⟩
        · have hzl := i1.subset hz
          exact ⟨z, hz, cEqual_trans x y z dl.2 (dl.1 y hy) (dl.1 z hzl) el.2 (el.1 y hy) (el.1 z hzl) h h'⟩
    rw [distinctSlow_snoc]
    by_cases hx : ∃ y ∈ l, valueEqual x y = some true
    · rw [if_pos (List.any_eq_true.2 (hsome.2 hx))]
      refine ⟨keep, fun i => ?_, h2, by rw [hmap]; exact h3⟩
      rw [h1]
      constructor
      · rintro ⟨hi, h⟩
        exact ⟨by simp; omega, (hold i hi).2 h⟩
      · rintro ⟨hi, h⟩
        by_cases hil : i < l.length
        · exact ⟨hil, (hold i hil).1 h⟩
        · have : i = l.length := by simp at hi; omega
          subst this
          obtain ⟨y, hy, hxy⟩ := hx
          obtain ⟨j, hj, hjy⟩ := List.getElem_of_mem hy
          exact absurd hxy (h j hj x y (by simp) (by rw [List.getElem?_append_left hj, List.getElem?_eq_getElem hj, hjy]))
    · rw [if_neg (by rw [List.any_eq_true]; exact fun h => hx (hsome.1 h))]
      refine ⟨keep ++ [l.length], fun i => ?_, ?_, ?_⟩
      · rw [List.mem_append, h1, List.mem_singleton]
        constructor
        · rintro (⟨hi, h⟩ | rfl)
          · exact ⟨by simp; omega, (hold i hi).2 h⟩
          · refine ⟨by simp, fun j hj a b ha hb => ?_⟩
            rw [List.getElem?_append_left hj] at hb
            simp at ha; subst ha
            exact fun h => hx ⟨b, List.mem_of_getElem? hb, h⟩
        · rintro ⟨hi, h⟩
          by_cases hil : i < l.length
          · exact .inl ⟨hil, (hold i hil).1 h⟩
          · exact .inr (by simp at hi; omega)
      · rw [List.pairwise_append]
        refine ⟨h2, List.pairwise_singleton .., fun a ha b hb => ?_⟩
        rw [List.mem_singleton] at hb; subst hb
        exact ((h1 a).1 ha).1
      · rw [List.filterMap_append, hmap, ← h3]; simp

/-! ## flatten -/

/-- Removes one level of nesting. -/
def flat1 (l : List Value) : List Value := l.flatMap (fun v => match v with | .list m => m | v => [v])

theorem flattenImpl_zero (l out : List Value) : flattenImpl 0 l out = out ++ l := by
  rw [flattenImpl]
  induction l generalizing out with
  | nil => simp
  | cons v l ih => rw [List.foldl_cons, ih]; simp

theorem flattenImpl_out (d : Nat) : ∀ l out : List Value, flattenImpl d l out = out ++ flattenImpl d l [] := by
  induction d with
  | zero => intro l out; rw [flattenImpl_zero, flattenImpl_zero]; simp
  | succ d ih =>
    intro l
    induction l with
    | nil => intro out; simp [flattenImpl]
    | cons v l ihl =>
      intro out
      cases v with
      | list m =>
        have e1 : flattenImpl (d + 1) (.list m :: l) out = flattenImpl (d + 1) l (flattenImpl d m out) := by
          simp only [flattenImpl, List.foldl_cons]
        have e2 : flattenImpl (d + 1) (.list m :: l) [] = flattenImpl (d + 1) l (flattenImpl d m []) := by
          simp only [flattenImpl, List.foldl_cons]
        rw [e1, e2, ihl, ihl (flattenImpl d m []), ih m out]; simp
      | _ =>
        simp only [flattenImpl, List.foldl_cons] at ihl ⊢
        rw [ihl, ihl ([] ++ _)]; simp

theorem flattenImpl_cons (d : Nat) (v : Value) (l : List Value) :
    flattenImpl d (v :: l) [] = flattenImpl d [v] [] ++ flattenImpl d l [] := by
  cases d with
  | zero => simp [flattenImpl_zero]
  | succ d =>
    have : flattenImpl (d + 1) (v :: l) [] = flattenImpl (d + 1) l (flattenImpl (d + 1) [v] []) := by
      simp only [flattenImpl, List.foldl_cons, List.foldl_nil]
    rw [this, flattenImpl_out]

theorem flattenImpl_append (d : Nat) (a b : List Value) :
    flattenImpl d (a ++ b) [] = flattenImpl d a [] ++ flattenImpl d b [] := by
  induction a with
  | nil => cases d <;> simp [flattenImpl]
  | cons v a ih => rw [List.cons_append, flattenImpl_cons, ih, flattenImpl_cons d v a, List.append_assoc]

theorem flattenImpl_succ (d : Nat) (l : List Value) : flattenImpl (d + 1) l [] = flattenImpl d (flat1 l) [] := by
  induction l with
  | nil => cases d <;> simp [flattenImpl, flat1]
  | cons v l ih =>
    rw [flattenImpl_cons, ih, flat1, flat1, List.flatMap_cons, flattenImpl_append]
    congr 1
    cases v <;> first | rfl | (cases d <;> simp [flattenImpl])

/-- **C41 (flatten).** `l.flatten(n)` removes one level of nesting `n` times; a negative `n` is an error. -/
theorem C41_flatten (l : List Value) (n : Int) :
    (n < 0 → ∃ s, listFlatten l n = .error s ∧ s.code = .invalidArgument) ∧
    (0 ≤ n → listFlatten l n = .list (flat1^[n.toNat] l)) := by
  refine ⟨fun h => ⟨_, if_pos h, rfl⟩, fun h => ?_⟩
  rw [listFlatten, if_neg (by omega)]
  congr 1
  generalize n.toNat = k
  induction k generalizing l with
  | zero => simp [flattenImpl_zero]
  | succ k ih => rw [flattenImpl_succ, ih, Function.iterate_succ_apply]

/-- Nesting depth: 0 for a list with no lists in it. -/
def HasDepth : Nat → List Value → Prop
  | 0, l => ∀ v ∈ l, ∀ m, v ≠ .list m
  | d + 1, l => ∀ v ∈ l, ∀ m, v = .list m → HasDepth d m

theorem flat1_depth (d : Nat) (l : List Value) (h : HasDepth (d + 1) l) : HasDepth d (flat1 l) := by
  cases d with
  | zero =>
    intro v hv m he
    obtain ⟨w, hw, hv⟩ := List.mem_flatMap.1 hv
    cases w with
    | list k => exact h _ hw k rfl v hv m he
    | _ => simp only [List.mem_singleton] at hv; subst hv; cases he
  | succ d =>
    intro v hv m he
    obtain ⟨w, hw, hv⟩ := List.mem_flatMap.1 hv
    cases w with
    | list k => exact h _ hw k rfl v hv m he
    | _ => simp only [List.mem_singleton] at hv; subst hv; cases he

/-- **C41 (flatten removes all nesting).** Flattening by the nesting depth leaves no list among the elements. -/
theorem C41_flatten_all (l : List Value) (n : Nat) (h : HasDepth n l) :
    ∃ r, listFlatten l n = .list r ∧ ∀ v ∈ r, ∀ m, v ≠ .list m := by
  refine ⟨_, (C41_flatten l n).2 (by omega), ?_⟩
  rw [Int.toNat_natCast]
  induction n generalizing l with
  | zero => exact h
  | succ n ih => rw [Function.iterate_succ_apply]; exact ih _ (flat1_depth n l h)

/-! ## range, reverse, slice -/

theorem rangeLoop_eq (n : Nat) (i : Int) : rangeLoop n i = (List.range n).map (fun k : Nat => Value.int (i + k)) := by
  induction n generalizing i with
  | zero => rfl
  | succ n ih =>
    rw [rangeLoop, ih, List.range_succ_eq_map, List.map_cons, List.map_map]
    congr 1
    · simp
    · apply List.map_congr_left; intro k _; simp; omega

/-- **C41 (range).** `lists.range(n)` is `[0, …, n-1]` for `n ≥ 0`. -/
theorem C41_range (n : Nat) : listRange n = .ok ((List.range n).map (fun k : Nat => Value.int k)) := by
  rw [listRange, if_neg (by omega), rangeLoop_eq]; simp

/-- What is wrong with a negative argument: the process ends, where the language has an empty list. -/
theorem C41_range_negative (n : Int) (h : n < 0) : listRange n = .ub := if_pos h

theorem reverseLoop_eq (l : List Value) (n : Nat) (h : n ≤ l.length) : reverseLoop l n = (l.take n).reverse := by
  induction n with
  | zero => simp [reverseLoop]
  | succ n ih =>
    rw [reverseLoop, ih (by omega), List.take_add_one, List.reverse_append]
    congr 1
    cases l[n]? <;> rfl

theorem sliceLoop_eq (l : List Value) (n i : Nat) : sliceLoop l n i = (l.drop i).take n := by
  induction n generalizing i with
  | zero => simp [sliceLoop]
  | succ n ih =>
    rw [sliceLoop, ih]
    by_cases h : i < l.length
    · rw [List.drop_eq_getElem_cons h, List.take_succ_cons, List.getElem?_eq_getElem h]; rfl
    · rw [List.getElem?_eq_none (by omega), List.drop_eq_nil_of_le (by omega), List.drop_eq_nil_of_le (by omega)]; simp

/-- **C41 (reverse).** Element `i` of the result is element `n-1-i` of the list; reversing twice gives the list. -/
theorem C41_reverse (l : List Value) :
    (listReverse l).length = l.length ∧ (∀ i < l.length, (listReverse l)[i]? = l[l.length - 1 - i]?) ∧
      listReverse (listReverse l) = l := by
  have h : ∀ l, listReverse l = l.reverse := fun l => by rw [listReverse, reverseLoop_eq l _ (Nat.le_refl _), List.take_length]
  rw [h, h]
  exact ⟨List.length_reverse, fun i hi => List.getElem?_reverse hi, List.reverse_reverse l⟩

/-- **C41 (slice).** With `0 ≤ start ≤ end ≤ size`, `l.slice(start, end)` has `end - start` elements, element `i` of it being element
`start + i` of the list; with any other bounds it is an error, and never a wrong list. -/
theorem C41_slice (l : List Value) (s e : Int) :
    (0 ≤ s ∧ s ≤ e ∧ e ≤ l.length → ∃ r, listSlice l s e = .list r ∧ (r.length : Int) = e - s ∧
      ∀ i : Nat, (i : Int) < e - s → r[i]? = l[s.toNat + i]?) ∧
    (¬ (0 ≤ s ∧ s ≤ e ∧ e ≤ l.length) → ∃ st, listSlice l s e = .error st ∧ st.code = .invalidArgument) := by
  constructor
  · rintro ⟨h1, h2, h3⟩
    refine ⟨sliceLoop l (e.toNat - s.toNat) s.toNat, ?_, ?_, ?_⟩
    · rw [listSlice, if_neg (by omega), if_neg (by omega), if_neg (by omega)]
    · rw [sliceLoop_eq, List.length_take, List.length_drop]; omega
    · intro i hi
      rw [sliceLoop_eq, List.getElem?_take_of_lt (by omega), List.getElem?_drop]
  · intro h
    rw [listSlice]
    split
    · exact ⟨_, rfl, rfl⟩
    · split
      · exact ⟨_, rfl, rfl⟩
      · split
        · exact ⟨_, rfl, rfl⟩
        · omega

/-- **C41 (slices concatenate).** -/
theorem C41_slice_split (l : List Value) (i j k : Int) (h0 : 0 ≤ i) (h1 : i ≤ j) (h2 : j ≤ k) (h3 : k ≤ l.length) :
    ∃ a b, listSlice l i j = .list a ∧ listSlice l j k = .list b ∧ listSlice l i k = .list (a ++ b) ∧
      listSlice l 0 l.length = .list l := by
  refine ⟨sliceLoop l (j.toNat - i.toNat) i.toNat, sliceLoop l (k.toNat - j.toNat) j.toNat, ?_, ?_, ?_, ?_⟩
  · rw [listSlice, if_neg (by omega), if_neg (by omega), if_neg (by omega)]
  · rw [listSlice, if_neg (by omega), if_neg (by omega), if_neg (by omega)]
  · rw [listSlice, if_neg (by omega), if_neg (by omega), if_neg (by omega), sliceLoop_eq, sliceLoop_eq, sliceLoop_eq]
    congr 1
    have : k.toNat - i.toNat = (j.toNat - i.toNat) + (k.toNat - j.toNat) := by omega
    rw [this, List.take_add, List.drop_drop]
    congr 3; omega
  · rw [listSlice, if_neg (by omega), if_neg (by omega), if_neg (by omega), sliceLoop_eq]; simp

/-! ## sort -/

theorem durLt_asymm (a b : Dur) (h : durLt a b = true) : durLt b a = false := by
  cases a <;> cases b <;> simp_all [durLt]; omega
theorem durLt_cotrans (a b c : Dur) (h : durLt a b = true) : durLt a c = true ∨ durLt c b = true := by
  cases a with
  | inf a => cases a <;> cases b <;> cases c <;> simp_all [durLt]
  | fin x =>
    cases b with
    | inf b => cases b <;> cases c <;> simp_all [durLt]
    | fin y =>
      cases c with
      | inf c => cases c <;> simp_all [durLt]
      | fin z => simp_all [durLt]; omega
theorem tmLt_asymm (a b : Tm) (h : tmLt a b = true) : tmLt b a = false := by
  cases a <;> cases b <;> simp_all [tmLt]; omega
theorem tmLt_cotrans (a b c : Tm) (h : tmLt a b = true) : tmLt a c = true ∨ tmLt c b = true := by
  cases a with
  | inf a => cases a <;> cases b <;> cases c <;> simp_all [tmLt]
  | fin x =>
    cases b with
    | inf b => cases b <;> cases c <;> simp_all [tmLt]
    | fin y =>
      cases c with
      | inf c => cases c <;> simp_all [tmLt]
      | fin z => simp_all [tmLt]; omega

theorem dblLt_fin (a b : Bool) (m n : Nat) : Dbl.lt (.fin a m) (.fin b n) = true ↔ Dbl.sval a m < Dbl.sval b n := by
  simp [Dbl.lt, Dbl.cmp, Int.compare_eq_lt]

theorem dblLt_asymm (a b : Dbl) (h : Dbl.lt a b = true) : Dbl.lt b a = false := by
  cases a with
  | nan => simp [Dbl.lt, Dbl.cmp] at h
  | inf a => cases b with
    | nan => rfl
    | inf b => revert h; cases a <;> cases b <;> simp [Dbl.lt, Dbl.cmp]
    | fin b n => revert h; cases a <;> simp [Dbl.lt, Dbl.cmp]
  | fin a m => cases b with
    | nan => rfl
    | inf b => revert h; cases b <;> simp [Dbl.lt, Dbl.cmp]
    | fin b n =>
      rw [dblLt_fin] at h
      rw [Bool.eq_false_iff, ne_eq, dblLt_fin]; omega

theorem dblLt_cotrans (a b c : Dbl) (hc : c ≠ .nan) (h : Dbl.lt a b = true) : Dbl.lt a c = true ∨ Dbl.lt c b = true := by
  cases c with
  | nan => exact absurd rfl hc
  | inf c =>
    cases a with
    | nan => simp [Dbl.lt, Dbl.cmp] at h
    | inf a => cases b with
      | nan => simp [Dbl.lt, Dbl.cmp] at h
      | inf b => revert h; cases a <;> cases b <;> cases c <;> simp [Dbl.lt, Dbl.cmp]
      | fin b n => revert h; cases a <;> cases c <;> simp [Dbl.lt, Dbl.cmp]
    | fin a m => cases b with
      | nan => simp [Dbl.lt, Dbl.cmp] at h
      | inf b => revert h; cases b <;> cases c <;> simp [Dbl.lt, Dbl.cmp]
      | fin b n => cases c <;> simp [Dbl.lt, Dbl.cmp]
  | fin c k =>
    cases a with
    | nan => simp [Dbl.lt, Dbl.cmp] at h
    | inf a => cases b with
      | nan => simp [Dbl.lt, Dbl.cmp] at h
      | inf b => revert h; cases a <;> cases b <;> simp [Dbl.lt, Dbl.cmp]
      | fin b n => revert h; cases a <;> simp [Dbl.lt, Dbl.cmp]
    | fin a m => cases b with
      | nan => simp [Dbl.lt, Dbl.cmp] at h
      | inf b => revert h; cases b <;> simp [Dbl.lt, Dbl.cmp]
      | fin b n => rw [dblLt_fin] at h; rw [dblLt_fin, dblLt_fin]; omega

theorem keyLess_asymm (a b : Value) (h : keyLess a b = true) : keyLess b a = false := by
  cases a <;> cases b <;> simp only [keyLess, reduceCtorEq] at h ⊢
  · simp_all
  · simp_all; omega
  · simp_all; omega
  · exact dblLt_asymm _ _ h
  · exact strLt_sw.asymm _ _ h
  · exact lexLoop_asymm natOrder (by simp) _ _ h
  · exact durLt_asymm _ _ h
  · exact tmLt_asymm _ _ h

theorem keyLess_cotrans (a b c : Value) (hk : c.kind = a.kind) (hc : NotNaN c) (h : keyLess a b = true) :
    keyLess a c = true ∨ keyLess c b = true := by
  cases a <;> cases b <;> simp only [keyLess, reduceCtorEq] at h <;> cases c
  all_goals try (simp only [Value.kind] at hk; exfalso; revert hk; decide)
  all_goals simp only [keyLess]
  · simp_all
  · simp_all; omega
  · simp_all; omega
  · exact dblLt_cotrans _ _ _ (by rintro rfl; exact hc) h
  · exact strLt_sw.cotrans _ _ _ h
  · exact lexLoop_cotrans natOrder (by simp) _ _ _ h
  · exact durLt_cotrans _ _ _ h
  · exact tmLt_cotrans _ _ _ h

theorem keyLess_kind (a b : Value) (h : keyLess a b = true) : b.kind = a.kind := by
  cases a <;> cases b <;> first | rfl | simp [keyLess] at h

theorem lessAt_some {keys : List Value} {a b : Nat} (h : lessAt keys a b = true) :
    ∃ x y, keys[a]? = some x ∧ keys[b]? = some y ∧ keyLess x y = true := by
  unfold lessAt at h
  split at h
  · rename_i x y h1 h2; exact ⟨x, y, h1, h2, h⟩
  · simp at h

theorem lessAt_eq {keys : List Value} {a b : Nat} {x y : Value} (h1 : keys[a]? = some x) (h2 : keys[b]? = some y) :
    lessAt keys a b = keyLess x y := by
  unfold lessAt; rw [h1, h2]

theorem strictWeakOn_true {α : Type} (lt : α → α → Bool) (l : List α) :
    strictWeakOn lt l = true ↔ (∀ a ∈ l, ∀ b ∈ l, ¬ (lt a b = true ∧ lt b a = true)) ∧
      (∀ a ∈ l, ∀ b ∈ l, ∀ c ∈ l, lt a b = true → lt a c = true ∨ lt c b = true) := by
  simp only [strictWeakOn, List.all_eq_true, Bool.and_eq_true, Bool.not_eq_true', Bool.or_eq_true, Bool.and_eq_false_iff]
  constructor
  · intro h
    refine ⟨fun a ha b hb hh => ?_, fun a ha b hb c hc hh => ?_⟩
    · have := (h a ha b hb).1; rw [hh.1, hh.2] at this; simp at this
    · have := (h a ha b hb).2 c hc
      rw [hh] at this; simpa using this
  · rintro ⟨h1, h2⟩ a ha b hb
    refine ⟨?_, fun c hc => ?_⟩
    · cases h : lt a b with
      | false => exact .inl rfl
      | true => cases h' : lt b a with
        | false => exact .inr rfl
        | true => exact absurd ⟨h, h'⟩ (h1 a ha b hb)
    · cases h : lt a b with
      | false => exact .inl (.inl rfl)
      | true => rcases h2 a ha b hb c hc h with h' | h'
                · exact .inl (.inr h')
                · exact .inr h'

/-- The comparison is a strict weak order unless doubles with a NaN among them are compared. -/
theorem strictWeak_keys (keys : List Value) (k : Nat) (hk : ∀ x ∈ keys, x.kind = k) (hn : ∀ x ∈ keys, NotNaN x) :
    strictWeakOn (lessAt keys) (List.range keys.length) = true := by
  rw [strictWeakOn_true]
  refine ⟨fun a _ b _ h => ?_, fun a _ b _ c hc h => ?_⟩
  · obtain ⟨x, y, hx, hy, h1⟩ := lessAt_some h.1
    have := h.2
    rw [lessAt_eq hy hx, keyLess_asymm x y h1] at this
    simp at this
  · obtain ⟨x, y, hx, hy, h1⟩ := lessAt_some h
    have hc := List.mem_range.1 hc
    obtain ⟨z, hz⟩ : ∃ z, keys[c]? = some z := ⟨_, List.getElem?_eq_getElem hc⟩
    have hzm := List.mem_of_getElem? hz
    rw [lessAt_eq hx hz, lessAt_eq hz hy]
    exact keyLess_cotrans x y z (by rw [hk z hzm, hk x (List.mem_of_getElem? hx)]) (hn z hzm) h1

theorem filterMap_zip (list keys : List Value) (h : list.length = keys.length) (is : List Nat) (hi : ∀ i ∈ is, i < keys.length) :
    is.filterMap (fun i => list[i]?) = (is.filterMap (fun i => (list.zip keys)[i]?)).map Prod.fst := by
  induction is with
  | nil => rfl
  | cons i is ih =>
    have hi' := hi i (List.mem_cons_self ..)
    have e1 : list[i]? = some (list[i]'(by omega)) := List.getElem?_eq_getElem (by omega)
    have e2 : (list.zip keys)[i]? = some (list[i]'(by omega), keys[i]) := by
      rw [List.getElem?_eq_getElem (by rw [List.length_zip]; omega)]; simp
    rw [List.filterMap_cons_some e1, List.filterMap_cons_some e2, List.map_cons, ih (fun j hj => hi j (List.mem_cons_of_mem _ hj))]

theorem filterMap_range {α : Type} (l : List α) : (List.range l.length).filterMap (fun i => l[i]?) = l := by
  apply List.ext_getElem?
  intro i
  have : (List.range l.length).filterMap (fun i => l[i]?) = (List.range l.length).pmap (fun i (h : i < l.length) => l[i]) (by simp) := by
    have gen : ∀ is : List Nat, ∀ h : ∀ i ∈ is, i < l.length, is.filterMap (fun i => l[i]?) = is.pmap (fun i (h : i < l.length) => l[i]) h := by
      intro is
      induction is with
      | nil => intro h; rfl
      | cons i is ih =>
        intro h
        rw [List.filterMap_cons_some (List.getElem?_eq_getElem (h i (List.mem_cons_self ..))), List.pmap_cons, ih]
    exact gen _ _
  rw [this]
  by_cases hi : i < l.length
  · rw [List.getElem?_eq_getElem (by simpa using hi), List.getElem?_eq_getElem hi]; simp
  · rw [List.getElem?_eq_none (by simpa using hi), List.getElem?_eq_none (by omega)]

theorem sortByKeys_cons (sort : StdSort) (tn : Value → String) (list keys : List Value) (hl : list.length = keys.length)
    (f : Value) (rest : List Value) (hks : keys = f :: rest) :
    sortByKeys sort tn list keys = if sortable f.kind then sortNative sort f.kind list keys
      else .ok (.error ⟨.invalidArgument, "sort(): unsupported type " ++ tn f⟩) := by
  subst hks
  unfold sortByKeys
  rw [if_neg (by simp [hl])]

/-! ## The order of keys, independently of the code -/

/-- Lexicographic order of sequences of numbers. -/
def LexBelow (a b : List Nat) : Prop :=
  ∃ p, (a = p ∧ ∃ y t, b = p ++ y :: t) ∨ ∃ x s y t, a = p ++ x :: s ∧ b = p ++ y :: t ∧ x < y

/-- The order of two keys of one kind: numbers by value, `false` before `true`, strings by code points, bytes by bytes, durations and
timestamps by length and instant, the infinite ones outside all others. -/
inductive Below : Value → Value → Prop
  | int {a b} : a < b → Below (.int a) (.int b)
  | uint {a b} : a < b → Below (.uint a) (.uint b)
  | dbl {a b x y} : a.toRat = some x → b.toRat = some y → x < y → Below (.dbl a) (.dbl b)
  | dblNegInf {b} : b ≠ .nan → b ≠ .inf true → Below (.dbl (.inf true)) (.dbl b)
  | dblPosInf {a} : a ≠ .nan → a ≠ .inf false → Below (.dbl a) (.dbl (.inf false))
  | bool : Below (.bool false) (.bool true)
  | str {a b} : LexBelow (a.toList.map Char.toNat) (b.toList.map Char.toNat) → Below (.str a) (.str b)
  | bytes {a b} : LexBelow a b → Below (.bytes a) (.bytes b)
  | dur {x y} : x < y → Below (.dur (.fin x)) (.dur (.fin y))
  | durNegInf {b} : b ≠ .inf true → Below (.dur (.inf true)) (.dur b)
  | durPosInf {a} : a ≠ .inf false → Below (.dur a) (.dur (.inf false))
  | ts {x y} : x < y → Below (.ts (.fin x)) (.ts (.fin y))
  | tsNegInf {b} : b ≠ .inf true → Below (.ts (.inf true)) (.ts b)
  | tsPosInf {a} : a ≠ .inf false → Below (.ts a) (.ts (.inf false))

theorem lexLoop_below : ∀ a b : List Nat, lexLoop natLt natEq false a b = true ↔ LexBelow a b := by
  intro a
  induction a with
  | nil =>
    intro b
    cases b with
    | nil =>
      simp only [lexLoop, Bool.false_eq_true, false_iff]
      rintro ⟨p, ⟨h, y, t, h2⟩ | ⟨x, s, y, t, h, -⟩⟩
      · simp at h2
      · simp at h
    | cons y t => simp only [lexLoop, true_iff]; exact ⟨[], .inl ⟨rfl, y, t, rfl⟩⟩
  | cons x s ih =>
    intro b
    cases b with
    | nil =>
      simp only [lexLoop, Bool.false_eq_true, false_iff]
      rintro ⟨p, ⟨h, y, t, h2⟩ | ⟨x, s, y, t, h, h2, -⟩⟩ <;> simp at h2
    | cons y t =>
      simp only [lexLoop, natLt, natEq, decide_eq_true_eq, Bool.not_eq_true', decide_eq_false_iff_not]
      by_cases h1 : x < y
      · simp only [h1, if_true, true_iff]
        exact ⟨[], .inr ⟨x, s, y, t, rfl, rfl, h1⟩⟩
      · rw [if_neg h1]
        by_cases h2 : x = y
        · subst h2
          simp only [not_true_eq_false, if_false]
          rw [ih t]
          constructor
          · rintro ⟨p, ⟨h, y, r, h2⟩ | ⟨u, v, w, z, h, h2, h3⟩⟩
            · exact ⟨x :: p, .inl ⟨by rw [h], y, r, by rw [h2]; rfl⟩⟩
            · exact ⟨x :: p, .inr ⟨u, v, w, z, by rw [h]; rfl, by rw [h2]; rfl, h3⟩⟩
          · rintro ⟨p, ⟨h, y, r, h2⟩ | ⟨u, v, w, z, h, h2, h3⟩⟩
            · cases p with
              | nil => cases h
              | cons c p =>
                simp only [List.cons_append, List.cons.injEq] at h h2
                exact ⟨p, .inl ⟨h.2, y, r, h2.2⟩⟩
            · cases p with
              | nil => simp only [List.nil_append, List.cons.injEq] at h h2; omega
              | cons c p =>
                simp only [List.cons_append, List.cons.injEq] at h h2
                exact ⟨p, .inr ⟨u, v, w, z, h.2, h2.2, h3⟩⟩
        · rw [if_pos h2]
          simp only [Bool.false_eq_true, false_iff]
          rintro ⟨p, ⟨h, y, r, h3⟩ | ⟨u, v, w, z, h, h3, h4⟩⟩
          · cases p with
            | nil => cases h
            | cons c p => simp only [List.cons_append, List.cons.injEq] at h h3; omega
          · cases p with
            | nil => simp only [List.nil_append, List.cons.injEq] at h h3; omega
            | cons c p => simp only [List.cons_append, List.cons.injEq] at h h3; omega

theorem rat_div_lt {U : ℚ} (hU : 0 < U) (a b : Int) : (a : ℚ) / U < (b : ℚ) / U ↔ a < b := by
  rw [div_lt_div_iff_of_pos_right hU]
  exact_mod_cast Iff.rfl

theorem sval_rat (s : Bool) (m : Nat) : (if s = true then -(m : ℚ) else (m : ℚ)) = ((Dbl.sval s m : Int) : ℚ) := by
  cases s <;> simp [Dbl.sval]

/-- **C41 (the order).** The comparison sorting uses is the order on the values, and every kind that has an order can be sorted. -/
theorem C41_key_order (x y : Value) :
    (keyLess x y = true ↔ Below x y) ∧
    (sortable x.kind = true ↔ x.kind ∈ [kBool, kInt, kUint, kDouble, kString, kBytes, kDuration, kTimestamp]) := by
  constructor
  · constructor
    · intro h
      cases x <;> cases y <;> simp only [keyLess, reduceCtorEq, Bool.false_eq_true] at h
      case bool.bool a b => cases a <;> cases b <;> simp at h; exact .bool
      case int.int a b => exact .int (by simpa using h)
      case uint.uint a b => exact .uint (by simpa using h)
      case dbl.dbl a b =>
        cases a with
        | nan => simp [Dbl.lt, Dbl.cmp] at h
        | inf a =>
          cases b with
          | nan => simp [Dbl.lt, Dbl.cmp] at h
          | inf b =>
            cases a <;> cases b <;> simp [Dbl.lt, Dbl.cmp] at h
            exact .dblNegInf (by simp) (by simp)
          | fin t n =>
            cases a <;> simp [Dbl.lt, Dbl.cmp] at h
            exact .dblNegInf (by simp) (by simp)
        | fin s m =>
          cases b with
          | nan => simp [Dbl.lt, Dbl.cmp] at h
          | inf b =>
            cases b <;> simp [Dbl.lt, Dbl.cmp] at h
            exact .dblPosInf (by simp) (by simp)
          | fin t n =>
            rw [dblLt_fin] at h
            refine Below.dbl (x := ((Dbl.sval s m : Int) : ℚ) / 2 ^ 1074) (y := ((Dbl.sval t n : Int) : ℚ) / 2 ^ 1074)
              (by rw [Dbl.toRat, sval_rat]) (by rw [Dbl.toRat, sval_rat]) ?_
            exact (rat_div_lt (pow_pos two_pos _) _ _).mpr h
      case str.str a b => exact .str ((lexLoop_below _ _).mp h)
      case bytes.bytes a b => exact .bytes ((lexLoop_below _ _).mp h)
      case dur.dur a b =>
        cases a with
        | inf a => cases b with
          | inf b => cases a <;> cases b <;> simp [durLt] at h; exact .durNegInf (by simp)
          | fin y => cases a <;> simp [durLt] at h; exact .durNegInf (by simp)
        | fin x => cases b with
          | inf b => cases b <;> simp [durLt] at h; exact .durPosInf (by simp)
          | fin y => exact .dur (by simpa [durLt] using h)
      case ts.ts a b =>
        cases a with
        | inf a => cases b with
          | inf b => cases a <;> cases b <;> simp [tmLt] at h; exact .tsNegInf (by simp)
          | fin y => cases a <;> simp [tmLt] at h; exact .tsNegInf (by simp)
        | fin x => cases b with
          | inf b => cases b <;> simp [tmLt] at h; exact .tsPosInf (by simp)
          | fin y => exact .ts (by simpa [tmLt] using h)
    · intro h
      cases h with
      | int h => simpa [keyLess] using h
      | uint h => simpa [keyLess] using h
      | bool => rfl
      | str h => exact (lexLoop_below _ _).mpr h
      | bytes h => exact (lexLoop_below _ _).mpr h
      | @dbl a b x y h1 h2 h3 =>
        cases a <;> simp only [Dbl.toRat, reduceCtorEq, Option.some.injEq] at h1
        cases b <;> simp only [Dbl.toRat, reduceCtorEq, Option.some.injEq] at h2
        rw [sval_rat] at h1 h2
        rw [← h1, ← h2] at h3
        rw [keyLess, dblLt_fin]
        exact (rat_div_lt (pow_pos two_pos _) _ _).mp h3
      | @dblNegInf b h1 h2 =>
        cases b with
        | nan => exact absurd rfl h1
        | inf b => cases b <;> first | exact absurd rfl h2 | simp [keyLess, Dbl.lt, Dbl.cmp]
        | fin s m => simp [keyLess, Dbl.lt, Dbl.cmp]
      | @dblPosInf a h1 h2 =>
        cases a with
        | nan => exact absurd rfl h1
        | inf b => cases b <;> first | exact absurd rfl h2 | simp [keyLess, Dbl.lt, Dbl.cmp]
        | fin s m => simp [keyLess, Dbl.lt, Dbl.cmp]
      | dur h => simpa [keyLess, durLt] using h
      | @durNegInf b h => cases b with
        | inf b => cases b <;> first | exact absurd rfl h | rfl
        | fin y => rfl
      | @durPosInf b h => cases b with
        | inf b => cases b <;> first | exact absurd rfl h | rfl
        | fin y => rfl
      | ts h => simpa [keyLess, tmLt] using h
      | @tsNegInf b h => cases b with
        | inf b => cases b <;> first | exact absurd rfl h | rfl
        | fin y => rfl
      | @tsPosInf b h => cases b with
        | inf b => cases b <;> first | exact absurd rfl h | rfl
        | fin y => rfl
  · simp [sortable]
    tauto

/-- In terms of the code's comparison, **C41 (sort).** For keys of one sortable kind without NaN, `list.@sortByAssociatedKeys(keys)` (what `sortBy` calls) is a
rearrangement of the list, each element with its key, with no key before a smaller one, whatever `std::sort` does. -/
theorem core_sort_by (sort : StdSort) (tn : Value → String) (list keys : List Value) (hl : list.length = keys.length)
    (k : Nat) (hs : sortable k = true) (hk : ∀ x ∈ keys, x.kind = k) (hn : ∀ x ∈ keys, NotNaN x) :
    ∃ pairs : List (Value × Value), pairs.Perm (list.zip keys) ∧ pairs.Pairwise (fun p q => keyLess q.2 p.2 = false) ∧
      sortByKeys sort tn list keys = .ok (.list (pairs.map Prod.fst)) := by
  have hfst : (list.zip keys).map Prod.fst = list := List.map_fst_zip (by omega)
  cases hks : keys with
  | nil =>
    subst hks
    have : list = [] := List.length_eq_zero_iff.1 (by simpa using hl)
    subst this
    exact ⟨[], List.Perm.refl _, List.Pairwise.nil, rfl⟩
  | cons first rest =>
    rw [← hks]
    have hf : first ∈ keys := by rw [hks]; exact List.mem_cons_self ..
    rw [sortByKeys_cons sort tn list keys hl first rest hks, if_pos (by rw [hk first hf]; exact hs), sortNative]
    by_cases h2 : list.length < 2
    · rw [if_pos h2]
      refine ⟨list.zip keys, List.Perm.refl _, ?_, by rw [hfst]⟩
      have : (list.zip keys).length < 2 := by rw [List.length_zip]; omega
      match hz : list.zip keys, this with
      | [], _ => exact List.Pairwise.nil
      | [_], _ => exact List.pairwise_singleton ..
    · have hsw := strictWeak_keys keys k hk hn
      rw [if_neg h2, if_pos (by rw [List.all_eq_true]; intro x hx; rw [hk x hx, hk first hf]; simp), if_pos hsw]
      have hp := sort.perm _ _ hsw
      have hso := sort.sorted _ _ hsw
      have hmem : ∀ i ∈ sort.run (lessAt keys) (List.range keys.length), i < keys.length := fun i hi =>
        List.mem_range.1 (hp.mem_iff.1 hi)
      refine ⟨(sort.run (lessAt keys) (List.range keys.length)).filterMap (fun i => (list.zip keys)[i]?), ?_, ?_, ?_⟩
      · have := hp.filterMap (fun i => (list.zip keys)[i]?)
        have hz : (list.zip keys).length = keys.length := by rw [List.length_zip]; omega
        rw [← hz, filterMap_range, hz] at this
        exact this
      · rw [List.pairwise_filterMap]
        refine hso.imp ?_
        intro a b hab p hp q hq
        have hp2 : keys[a]? = some p.2 := by
          obtain ⟨h1, h2⟩ := List.getElem?_eq_some_iff.1 hp
          rw [List.getElem_zip] at h2; rw [← h2]; exact List.getElem?_eq_getElem _
        have hq2 : keys[b]? = some q.2 := by
          obtain ⟨h1, h2⟩ := List.getElem?_eq_some_iff.1 hq
          rw [List.getElem_zip] at h2; rw [← h2]; exact List.getElem?_eq_getElem _
        rw [← lessAt_eq hq2 hp2]; exact hab
      · rw [filterMap_zip list keys hl _ hmem]

/-- In terms of the code's comparison, **C41 (`sort()`).** -/
theorem core_sort (sort : StdSort) (tn : Value → String) (list : List Value)
    (k : Nat) (hs : sortable k = true) (hk : ∀ x ∈ list, x.kind = k) (hn : ∀ x ∈ list, NotNaN x) :
    ∃ r : List Value, r.Perm list ∧ r.Pairwise (fun x y => keyLess y x = false) ∧ listSort sort tn list = .ok (.list r) := by
  obtain ⟨pairs, h1, h2, h3⟩ := core_sort_by sort tn list list rfl k hs hk hn
  refine ⟨pairs.map Prod.fst, ?_, ?_, h3⟩
  · have := h1.map Prod.fst
    rwa [List.map_fst_zip (by omega)] at this
  · rw [List.pairwise_map]
    have hsame : ∀ p ∈ pairs, p.1 = p.2 := by
      intro p hp
      have := h1.mem_iff.1 hp
      obtain ⟨i, hi, he⟩ := List.getElem_of_mem this
      rw [List.getElem_zip] at he; rw [← he]
    refine List.Pairwise.imp_of_mem ?_ h2
    intro p q hp hq h
    rw [hsame p hp, hsame q hq]; exact h

/-- In terms of the code's comparison, **C41 (the order of equal keys).** Any two implementations of `std::sort` give the same list if the keys are pairwise
comparable. -/
theorem core_sort_unique (s1 s2 : StdSort) (tn : Value → String) (list keys : List Value) (hl : list.length = keys.length)
    (k : Nat) (hs : sortable k = true) (hk : ∀ x ∈ keys, x.kind = k) (hn : ∀ x ∈ keys, NotNaN x)
    (hd : ∀ (i j : Nat) (x y : Value), keys[i]? = some x → keys[j]? = some y → keyLess x y = false → keyLess y x = false → i = j) :
    sortByKeys s1 tn list keys = sortByKeys s2 tn list keys := by
  have hsw := strictWeak_keys keys k hk hn
  have : s1.run (lessAt keys) (List.range keys.length) = s2.run (lessAt keys) (List.range keys.length) := by
    refine List.Perm.eq_of_pairwise ?_ (s1.sorted _ _ hsw) (s2.sorted _ _ hsw) ((s1.perm _ _ hsw).trans (s2.perm _ _ hsw).symm)
    intro a b ha hb h1 h2
    have ha := List.mem_range.1 ((s1.perm _ _ hsw).mem_iff.1 ha)
    have hb := List.mem_range.1 ((s2.perm _ _ hsw).mem_iff.1 hb)
    rw [lessAt_eq (List.getElem?_eq_getElem hb) (List.getElem?_eq_getElem ha)] at h1
    rw [lessAt_eq (List.getElem?_eq_getElem ha) (List.getElem?_eq_getElem hb)] at h2
    exact hd a b _ _ (List.getElem?_eq_getElem ha) (List.getElem?_eq_getElem hb) h2 h1
  unfold sortByKeys
  split
  · rfl
  · split
    · rfl
    · split
      · simp only [sortNative, this]
      · rfl

/-- In terms of the code's comparison, **C41 (errors of sort).** Lists of different lengths, keys of a kind that has no order, and keys of two kinds are errors
(never a partial sort). -/
theorem core_sort_errors (sort : StdSort) (tn : Value → String) (list keys : List Value) :
    (list.length ≠ keys.length → ∃ s, sortByKeys sort tn list keys = .ok (.error s)) ∧
    (list.length = keys.length → (∃ x rest, keys = x :: rest ∧ sortable x.kind = false) →
      ∃ s, sortByKeys sort tn list keys = .ok (.error s)) ∧
    (list.length = keys.length → (∃ x ∈ keys, ∃ y ∈ keys, x.kind ≠ y.kind) →
      ∃ s, sortByKeys sort tn list keys = .ok (.error s)) := by
  refine ⟨fun h => ⟨_, if_pos h⟩, ?_, ?_⟩
  · rintro h ⟨x, rest, rfl, hx⟩
    rw [sortByKeys_cons sort tn list _ h x rest rfl, if_neg (by simp [hx])]
    exact ⟨_, rfl⟩
  · rintro h ⟨x, hx, y, hy, hxy⟩
    cases hks : keys with
    | nil => rw [hks] at hx; cases hx
    | cons f rest =>
      rw [← hks, sortByKeys_cons sort tn list keys h f rest hks]
      by_cases hf : sortable f.kind = true
      · rw [if_pos hf, sortNative, if_neg ?_, if_neg ?_]
        · exact ⟨_, rfl⟩
        · rw [List.all_eq_true]
          intro hall
          have h1 := hall x hx; have h2 := hall y hy
          simp only [beq_iff_eq] at h1 h2
          exact hxy (h1.trans h2.symm)
        · intro hlt
          rw [h] at hlt
          match keys, hx, hy, hlt with
          | [z], hx, hy, _ => rw [List.mem_singleton] at hx hy; subst hx; subst hy; exact hxy rfl
      · exact ⟨_, if_neg hf⟩

/-- In terms of the code's comparison, **C41 (NaN).** What is wrong: sorting is undefined behaviour exactly if the keys are all doubles, a NaN is among them, and two of
them differ (the comparison given to `std::sort` is then no strict weak order). -/
theorem core_sort_undefined_iff (sort : StdSort) (tn : Value → String) (list keys : List Value) (hl : list.length = keys.length) :
    sortByKeys sort tn list keys = .ub ↔
      (∀ x ∈ keys, x.kind = kDouble) ∧ Value.dbl .nan ∈ keys ∧ ∃ x ∈ keys, ∃ y ∈ keys, keyLess x y = true := by
  constructor
  · intro h
    cases hks : keys with
    | nil => subst hks; rw [sortByKeys.eq_def, if_neg (by simp [hl])] at h; cases h
    | cons f rest =>
      rw [← hks]
      rw [sortByKeys_cons sort tn list keys hl f rest hks] at h
      split at h
      · rw [sortNative] at h
        split at h
        · cases h
        · split at h
          · rename_i hall
            split at h
            · cases h
            · rename_i hsw
              have hall : ∀ x ∈ keys, x.kind = f.kind := by
                intro x hx; simpa using List.all_eq_true.1 hall x hx
              -- a NaN is there
              have hnan : Value.dbl .nan ∈ keys := by
                by_contra hc
                refine hsw (strictWeak_keys keys f.kind hall ?_)
                intro x hx
                cases x with
                | dbl d => cases d with
                  | nan => exact absurd hx hc
                  | _ => trivial
                | _ => trivial
              have hkd : f.kind = kDouble := by rw [← hall _ hnan]; rfl
              refine ⟨fun x hx => by rw [hall x hx, hkd], hnan, ?_⟩
              by_contra hc
              refine hsw ((strictWeakOn_true _ _).2 ⟨fun a _ b _ h => ?_, fun a _ b _ c _ h => ?_⟩)
              · obtain ⟨x, y, hx, hy, h1⟩ := lessAt_some h.1
                exact hc ⟨x, List.mem_of_getElem? hx, y, List.mem_of_getElem? hy, h1⟩
              · obtain ⟨x, y, hx, hy, h1⟩ := lessAt_some h
                exact absurd ⟨x, List.mem_of_getElem? hx, y, List.mem_of_getElem? hy, h1⟩ hc
          · cases h
      · cases h
  · rintro ⟨hk, hnan, x, hx, y, hy, hxy⟩
    cases hks : keys with
    | nil => rw [hks] at hx; cases hx
    | cons f rest =>
      rw [← hks, sortByKeys_cons sort tn list keys hl f rest hks]
      have hf : f ∈ keys := by rw [hks]; exact List.mem_cons_self ..
      have hfk := hk f hf
      rw [if_pos (by rw [hfk]; rfl), sortNative, if_neg ?_, if_pos ?_, if_neg ?_]
      · rw [strictWeakOn_true]
        rintro ⟨-, h⟩
        obtain ⟨i, hi, hie⟩ := List.getElem_of_mem hx
        obtain ⟨j, hj, hje⟩ := List.getElem_of_mem hy
        obtain ⟨n, hn, hne⟩ := List.getElem_of_mem hnan
        have ei : keys[i]? = some x := by rw [List.getElem?_eq_getElem hi, hie]
        have ej : keys[j]? = some y := by rw [List.getElem?_eq_getElem hj, hje]
        have en : keys[n]? = some (.dbl .nan) := by rw [List.getElem?_eq_getElem hn, hne]
        have := h i (List.mem_range.2 hi) j (List.mem_range.2 hj) n (List.mem_range.2 hn) (by rw [lessAt_eq ei ej]; exact hxy)
        rw [lessAt_eq ei en, lessAt_eq en ej] at this
        rcases this with h | h
        · have hxk := hk x hx
          cases x with
          | dbl d => cases d <;> simp [keyLess, Dbl.lt, Dbl.cmp] at h
          | _ => simp [keyLess] at h
        · cases y with
          | dbl d => simp [keyLess, Dbl.lt, Dbl.cmp] at h
          | _ => simp [keyLess] at h
      · rw [List.all_eq_true]; intro z hz; rw [hk z hz, hfk]; simp
      · intro hlt
        rw [hl] at hlt
        match keys, hx, hy, hlt with
        | [z], hx, hy, _ =>
          rw [List.mem_singleton] at hx hy; subst hx; subst hy
          have := keyLess_asymm _ _ hxy; rw [hxy] at this; cases this

/-! ## Concrete cases -/

/-- There is an implementation of `std::sort`: merge sort (`rev` says whether elements the comparison does not tell apart are
met in the reverse order). -/
def mergeSortImpl (rev : Bool) : StdSort where
  run lt l := (((if rev then l.attach.reverse else l.attach)).mergeSort (fun a b => !(lt b.1 a.1))).map Subtype.val
  perm lt l _ := by
    have h := (List.mergeSort_perm (if rev then l.attach.reverse else l.attach) (fun a b => !(lt b.1 a.1))).map Subtype.val
    refine h.trans ?_
    cases rev
    · simp
    · simp only [if_true]
      refine ((List.reverse_perm l.attach).map Subtype.val).trans ?_
      rw [List.attach_map_subtype_val]
  sorted lt l h := by
    obtain ⟨h1, h2⟩ := (strictWeakOn_true lt l).1 h
    rw [List.pairwise_map]
    refine (List.pairwise_mergeSort (le := fun (a b : {x // x ∈ l}) => !(lt b.1 a.1)) ?_ ?_ _).imp ?_
    · intro a b c hab hbc
      simp only [Bool.not_eq_true'] at hab hbc ⊢
      cases hh : lt c.1 a.1 with
      | false => rfl
      | true => rcases h2 c.1 c.2 a.1 a.2 b.1 b.2 hh with h | h
                · rw [h] at hbc; cases hbc
                · rw [h] at hab; cases hab
    · intro a b
      cases hab : lt b.1 a.1 with
      | false => rfl
      | true => cases hba : lt a.1 b.1 with
        | false => rfl
        | true => exact absurd ⟨hba, hab⟩ (h1 a.1 a.2 b.1 b.2)
    · intro a b h; simpa using h

theorem mergeSortImpl_ties (rev : Bool) (lt : Nat → Nat → Bool) (l : List Nat) (h : ∀ a ∈ l, ∀ b ∈ l, lt a b = false) :
    (mergeSortImpl rev).run lt l = if rev then l.reverse else l := by
  have hp : ∀ m : List {x // x ∈ l}, m.Pairwise (fun a b => (!(lt b.1 a.1)) = true) := by
    intro m
    induction m with
    | nil => exact List.Pairwise.nil
    | cons a m ih => exact List.pairwise_cons.2 ⟨fun b _ => by simp [h b.1 b.2 a.1 a.2], ih⟩
  show (List.mergeSort _ _).map Subtype.val = _
  rw [List.mergeSort_of_pairwise (hp _)]
  cases rev
  · simp
  · simp only [if_true, List.map_reverse, List.attach_map_subtype_val]

/-- **C41 (sort is not stable).** What elements with the same key do among themselves is up to `std::sort`: two correct
implementations give `["a", "b"]` and `["b", "a"]` for `["a", "b"].sortBy(x, 1)`. -/
theorem C41_sort_not_stable :
    ∃ s1 s2 : StdSort, sortByKeys s1 (fun _ => "") [.str "a", .str "b"] [.int 1, .int 1] = .ok (.list [.str "a", .str "b"]) ∧
      sortByKeys s2 (fun _ => "") [.str "a", .str "b"] [.int 1, .int 1] = .ok (.list [.str "b", .str "a"]) := by
  have hl : ∀ a b, lessAt [.int 1, .int 1] a b = false := by
    intro a b
    cases h : lessAt [.int 1, .int 1] a b with
    | false => rfl
    | true =>
      obtain ⟨x, y, hx, hy, hk⟩ := lessAt_some h
      have hx := List.mem_of_getElem? hx; have hy := List.mem_of_getElem? hy
      simp at hx hy; subst hx; subst hy; simp [keyLess] at hk
  have hsw : strictWeakOn (lessAt [.int 1, .int 1]) (List.range 2) = true := by
    rw [strictWeakOn_true]; simp [hl]
  refine ⟨mergeSortImpl false, mergeSortImpl true, ?_, ?_⟩
  all_goals
    rw [sortByKeys_cons _ _ _ _ (by rfl) (.int 1) [.int 1] rfl, if_pos (by decide), sortNative, if_neg (by decide), if_pos (by decide)]
    simp only [List.length_cons, List.length_nil, Nat.zero_add, Nat.reduceAdd]
    rw [if_pos hsw, mergeSortImpl_ties _ _ _ (fun a _ b _ => hl a b)]
    rfl

/-- The kinds that have an order. -/
def orderedKinds : List Nat := [kBool, kInt, kUint, kDouble, kString, kBytes, kDuration, kTimestamp]

theorem below_iff (x y : Value) : keyLess x y = false ↔ ¬ Below x y := by
  rw [← (C41_key_order x y).1]; simp

theorem sortable_iff (k : Nat) : sortable k = true ↔ k ∈ orderedKinds := by
  simp [sortable, orderedKinds]; tauto

/-- **C41 (sort).** For keys of one ordered kind without NaN, `list.@sortByAssociatedKeys(keys)` (what `sortBy` calls) is a
rearrangement of the list, each element with its key, with no key before a smaller one, whatever `std::sort` does. -/
theorem C41_sort_by (sort : StdSort) (tn : Value → String) (list keys : List Value) (hl : list.length = keys.length)
    (k : Nat) (hs : k ∈ orderedKinds) (hk : ∀ x ∈ keys, x.kind = k) (hn : ∀ x ∈ keys, NotNaN x) :
    ∃ pairs : List (Value × Value), pairs.Perm (list.zip keys) ∧ pairs.Pairwise (fun p q => ¬ Below q.2 p.2) ∧
      sortByKeys sort tn list keys = .ok (.list (pairs.map Prod.fst)) := by
  obtain ⟨pairs, h1, h2, h3⟩ := core_sort_by sort tn list keys hl k ((sortable_iff k).2 hs) hk hn
  exact ⟨pairs, h1, h2.imp (fun h => (below_iff _ _).1 h), h3⟩

/-- **C41 (`sort()`).** The result has the elements of the list, none before a smaller one. -/
theorem C41_sort (sort : StdSort) (tn : Value → String) (list : List Value)
    (k : Nat) (hs : k ∈ orderedKinds) (hk : ∀ x ∈ list, x.kind = k) (hn : ∀ x ∈ list, NotNaN x) :
    ∃ r : List Value, r.Perm list ∧ r.Pairwise (fun x y => ¬ Below y x) ∧ listSort sort tn list = .ok (.list r) := by
  obtain ⟨r, h1, h2, h3⟩ := core_sort sort tn list k ((sortable_iff k).2 hs) hk hn
  exact ⟨r, h1, h2.imp (fun h => (below_iff _ _).1 h), h3⟩

/-- **C41 (the order of equal keys).** Any two implementations of `std::sort` give the same list if no two keys are equivalent. -/
theorem C41_sort_unique (s1 s2 : StdSort) (tn : Value → String) (list keys : List Value) (hl : list.length = keys.length)
    (k : Nat) (hs : k ∈ orderedKinds) (hk : ∀ x ∈ keys, x.kind = k) (hn : ∀ x ∈ keys, NotNaN x)
    (hd : ∀ (i j : Nat) (x y : Value), keys[i]? = some x → keys[j]? = some y → ¬ Below x y → ¬ Below y x → i = j) :
    sortByKeys s1 tn list keys = sortByKeys s2 tn list keys :=
  core_sort_unique s1 s2 tn list keys hl k ((sortable_iff k).2 hs) hk hn
    (fun i j x y h1 h2 h3 h4 => hd i j x y h1 h2 ((below_iff _ _).1 h3) ((below_iff _ _).1 h4))

/-- **C41 (errors of sort).** Lists of different lengths, keys of a kind that has no order, and keys of two kinds are errors
(never a partial sort). -/
theorem C41_sort_errors (sort : StdSort) (tn : Value → String) (list keys : List Value) :
    (list.length ≠ keys.length → ∃ s, sortByKeys sort tn list keys = .ok (.error s)) ∧
    (list.length = keys.length → (∃ x rest, keys = x :: rest ∧ x.kind ∉ orderedKinds) →
      ∃ s, sortByKeys sort tn list keys = .ok (.error s)) ∧
    (list.length = keys.length → (∃ x ∈ keys, ∃ y ∈ keys, x.kind ≠ y.kind) →
      ∃ s, sortByKeys sort tn list keys = .ok (.error s)) := by
  obtain ⟨h1, h2, h3⟩ := core_sort_errors sort tn list keys
  refine ⟨h1, fun h ⟨x, rest, hx, hk⟩ => h2 h ⟨x, rest, hx, ?_⟩, h3⟩
  rw [← sortable_iff] at hk
  simpa using hk

/-- **C41 (NaN).** What is wrong: sorting is undefined behaviour exactly if the keys are all doubles, a NaN is among them, and two of
them differ (the comparison given to `std::sort` is then no strict weak order). -/
theorem C41_sort_undefined_iff (sort : StdSort) (tn : Value → String) (list keys : List Value) (hl : list.length = keys.length) :
    sortByKeys sort tn list keys = .ub ↔
      (∀ x ∈ keys, x.kind = kDouble) ∧ Value.dbl .nan ∈ keys ∧ ∃ x ∈ keys, ∃ y ∈ keys, Below x y := by
  rw [core_sort_undefined_iff sort tn list keys hl]
  simp only [← (C41_key_order _ _).1]

/-- The premises of the theorems on `sort` are met, and those of the theorem on undefined behaviour as well:
`[1.0, NaN, 2.0].sort()`. -/
example : (∀ x ∈ [Value.int 3, .int 1, .int 2], x.kind = kInt) ∧ kInt ∈ orderedKinds ∧ (∀ x ∈ [Value.int 3, .int 1, .int 2], NotNaN x) := by
  refine ⟨?_, by decide, ?_⟩ <;> simp [Value.kind, NotNaN]

theorem C41_sort_nan_undefined (s : StdSort) (tn : Value → String) :
    listSort s tn [.dbl (Dbl.ofInt 1), .dbl .nan, .dbl (Dbl.ofInt 2)] = .ub := by
  refine (core_sort_undefined_iff s tn _ _ rfl).2 ⟨?_, ?_, .dbl (Dbl.ofInt 1), by simp, .dbl (Dbl.ofInt 2), by simp, ?_⟩
  · simp [Value.kind]
  · simp
  · show Dbl.lt _ _ = true
    decide +kernel

/-- What is false of the full claim on `distinct`, first: `{1: 2} == {1u: 2}`, but both are kept. -/
theorem C41_distinct_keeps_equal_maps (order : List Value → List Value) (ho : ∀ l, (order l).Perm l) :
    let a := Value.map [(.int 1, .int 2)]
    let b := Value.map [(.uint 1, .int 2)]
    valueEqual a b = some true ∧ listDistinct order [a, b] = [a, b] := by
  refine ⟨C35_in_list_disagrees_on_uint_keys.2.2.1, ?_⟩
  have h1 := (C41_distinct_greedy order ho [.map [(.int 1, .int 2)]] (.map [(.uint 1, .int 2)])).2.2
  exact h1 (by intro y hy; have : y = .map [(.int 1, .int 2)] := by simpa [listDistinct] using hy
               subst this; decide +kernel)

/-- Second: the int 2^53 is equal to the double 2^53 before it, but kept, because that double is dropped in favour of the
int 2^53+1. -/
theorem C41_distinct_keeps_by_rounding (order : List Value → List Value) (ho : ∀ l, (order l).Perm l) :
    let a := Value.int 9007199254740993
    let d := Value.dbl (Dbl.ofInt 9007199254740992)
    let c := Value.int 9007199254740992
    valueEqual c d = some true ∧ listDistinct order [a, d, c] = [a, c] := by
  intro a d c
  have e1 : listDistinct order [a] = [a] := rfl
  have e2 : listDistinct order [a, d] = [a] :=
    ((C41_distinct_greedy order ho [a] d).2.1 ⟨a, by rw [e1]; simp, by decide +kernel⟩).trans e1
  have e3 : listDistinct order [a, d, c] = [a] ++ [c] := by
    have := (C41_distinct_greedy order ho [a, d] c).2.2 (by
      intro y hy; rw [e2] at hy; have : y = a := by simpa using hy
      subst this; decide +kernel)
    rw [e2] at this; exact this
  refine ⟨?_, e3⟩
  have : (valueEqual c d == some true) = true := by decide +kernel
  simpa using this

/-- `[1, 2u, 1u, "a", 2].distinct()` is `[1, 2u, "a"]`; the premises of `C41_distinct_first_occurrences_partial` are met. -/
example : listDistinct List.reverse [.int 1, .uint 2, .uint 1, .str "a", .int 2] = [.int 1, .uint 2, .str "a"] := by
  have hc : ∀ {c : Bool} {a b r : List Value}, c = true → a = r → (if c = true then a else b) = r := by
    intro c a b r h h'; rw [if_pos h]; exact h'
  have hn : ∀ {c : Bool} {a b r : List Value}, c = false → b = r → (if c = true then a else b) = r := by
    intro c a b r h h'; rw [if_neg (by rw [h]; simp)]; exact h'
  rw [listDistinct_eq _ (fun l => List.reverse_perm l)]
  refine hn (by decide +kernel) (hn (by decide +kernel) (hc (by decide +kernel) (hn (by decide +kernel) (hc (by decide +kernel) rfl))))

example : IsData (.list [.int 1, .uint 2, .str "a"]) ∧ Deep ExactNumber (.list [.int 1, .uint 2, .str "a"]) ∧
    Deep NoUintKeys (.list [.int 1, .uint 2, .str "a"]) := by
  refine ⟨?_, ?_, ?_⟩ <;> intro w hw <;> simp [nested, nestedList] at hw <;>
    rcases hw with rfl | rfl | rfl | rfl <;> simp [Ordinary, InI64, InU64, i64Min, i64Max, u64Max, NoUintKeys, ExactNumber]
  · exact exactInDouble_of_small 1 (by decide)
  · exact exactInDouble_of_small 2 (by decide)

/-- `[[1, [2]], 3].flatten()` and deeper; `slice`; errors. -/
example : listFlatten [.list [.int 1, .list [.int 2]], .int 3] 1 = .list [.int 1, .list [.int 2], .int 3] ∧
    listFlatten [.list [.int 1, .list [.int 2]], .int 3] 2 = .list [.int 1, .int 2, .int 3] ∧
    HasDepth 2 [.list [.int 1, .list [.int 2]], .int 3] ∧
    listSlice [.int 1, .int 2, .int 3] 1 3 = .list [.int 2, .int 3] ∧
    listReverse [.int 1, .int 2] = [.int 2, .int 1] := by
  refine ⟨rfl, rfl, ?_, rfl, rfl⟩
  simp [HasDepth]

end Cel.Ext
