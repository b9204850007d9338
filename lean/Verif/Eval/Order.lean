/-!
# Comparison loops and ordered sets

`operator<` of `cel::Attribute` and of `cel::FunctionDescriptor` are the same lexicographic loop;
`absl::btree_set` keeps the first of several equivalent keys.
-/

set_option linter.unusedSimpArgs false
set_option linter.unusedVariables false

namespace Cel.Eval

/-- The comparison loop of `base/attribute.cc` lines 276-296 and
`common/function_descriptor.cc` lines 75-95: walk both sequences; the first pair that is `<`
decides *true*; otherwise a pair that is not `==` decides *false*; if both end, `base`; if the left
one ends first, true.  `std::string`'s `operator<` is the same loop with `base = false`. -/
def lexLoop {α : Type} (lt eq : α → α → Bool) (base : Bool) : List α → List α → Bool
  | [], [] => base
  | [], _ :: _ => true
  | _ :: _, [] => false
  | a :: as, b :: bs =>
    if lt a b then true else if !(eq a b) then false else lexLoop lt eq base as bs

/-- What `std::set`-like containers require of `operator<` (C++ [alg.sorting]): asymmetric, and
incomparability is transitive (stated as negative transitivity). -/
structure StrictWeak {α : Type} (lt : α → α → Bool) : Prop where
  asymm : ∀ a b, lt a b = true → lt b a = false
  cotrans : ∀ a b c, lt a b = true → lt a c = true ∨ lt c b = true

namespace StrictWeak
variable {α : Type} {lt : α → α → Bool}

theorem irrefl (h : StrictWeak lt) (a : α) : lt a a = false := by
  cases hh : lt a a
  · rfl
  · have := h.asymm a a hh; simp [hh] at this

theorem trans (h : StrictWeak lt) {a b c : α} (h1 : lt a b = true) (h2 : lt b c = true) :
    lt a c = true := by
  rcases h.cotrans a b c h1 with h3 | h3
  · exact h3
  · have := h.asymm _ _ h2; simp [h3] at this

/-- Incomparability. -/
def Equiv (lt : α → α → Bool) (a b : α) : Prop := lt a b = false ∧ lt b a = false

theorem Equiv.symm {a b : α} (h : Equiv lt a b) : Equiv lt b a := ⟨h.2, h.1⟩

theorem equiv_refl (h : StrictWeak lt) (a : α) : Equiv lt a a := ⟨h.irrefl a, h.irrefl a⟩

theorem equiv_trans (h : StrictWeak lt) {a b c : α} (h1 : Equiv lt a b) (h2 : Equiv lt b c) :
    Equiv lt a c := by
  constructor
  · cases hh : lt a c
    · rfl
    · rcases h.cotrans _ _ b hh with h3 | h3
      · simp [h1.1] at h3
      · simp [h2.1] at h3
  · cases hh : lt c a
    · rfl
    · rcases h.cotrans _ _ b hh with h3 | h3
      · simp [h2.2] at h3
      · simp [h1.2] at h3

theorem lt_of_lt_equiv (h : StrictWeak lt) {a b c : α} (h1 : lt a b = true) (h2 : Equiv lt b c) :
    lt a c = true := by
  rcases h.cotrans a b c h1 with h3 | h3
  · exact h3
  · simp [h2.2] at h3

theorem lt_of_equiv_lt (h : StrictWeak lt) {a b c : α} (h1 : Equiv lt a b) (h2 : lt b c = true) :
    lt a c = true := by
  rcases h.cotrans b c a h2 with h3 | h3
  · simp [h1.2] at h3
  · exact h3

end StrictWeak

/-- Properties of element comparison under which the loop behaves. -/
structure ElemOrder {α : Type} (lt eq : α → α → Bool) : Prop where
  sw : StrictWeak lt
  eq_sound : ∀ a b, eq a b = true → a = b
  eq_complete : ∀ a b, eq a a = true → lt a b = false → lt b a = false → eq a b = true

theorem lexLoop_asymm {α : Type} {lt eq : α → α → Bool} (h : ElemOrder lt eq) {b1 b2 : Bool}
    (hb : b1 = true → b2 = false) :
    ∀ as bs : List α, lexLoop lt eq b1 as bs = true → lexLoop lt eq b2 bs as = false := by
  intro as
  induction as with
  | nil => intro bs; cases bs <;> simp [lexLoop]; exact hb
  | cons a as ih =>
    intro bs
    cases bs with
    | nil => simp [lexLoop]
    | cons b bs =>
      simp only [lexLoop]
      intro h1
      cases h2 : lt a b
      · simp [h2] at h1
        have hab := h.eq_sound _ _ h1.1
        subst hab
        simp [h2, h1.1, ih bs h1.2]
      · have h3 := h.sw.asymm _ _ h2
        have h4 : eq b a = false := by
          cases h5 : eq b a
          · rfl
          · have := h.eq_sound _ _ h5; subst this; simp [h2] at h3
        simp [h3, h4]

theorem lexLoop_cotrans {α : Type} {lt eq : α → α → Bool} (h : ElemOrder lt eq) {b12 b13 b32 : Bool}
    (hb : b12 = true → b13 = true ∨ b32 = true) :
    ∀ as bs cs : List α, lexLoop lt eq b12 as bs = true →
      lexLoop lt eq b13 as cs = true ∨ lexLoop lt eq b32 cs bs = true := by
  intro as
  induction as with
  | nil => intro bs cs; cases bs <;> cases cs <;> simp [lexLoop]; exact hb
  | cons a as ih =>
    intro bs cs
    cases bs with
    | nil => simp [lexLoop]
    | cons b bs =>
      cases cs with
      | nil => simp [lexLoop]
      | cons c cs =>
        simp only [lexLoop]
        intro h1
        cases h2 : lt a b
        · simp [h2] at h1
          have hab := h.eq_sound _ _ h1.1
          subst hab
          cases h3 : lt a c
          · cases h4 : lt c a
            · have h5 := h.eq_complete a c h1.1 h3 h4
              have hac := h.eq_sound _ _ h5
              subst hac
              simp [h3, h1.1]
              exact ih bs cs h1.2
            · simp [h4]
          · simp [h3]
        · rcases h.sw.cotrans a b c h2 with h3 | h3 <;> simp [h3]

/-! ### Byte/code-point lexicographic order on names -/

/-- `operator<` on `int`/`char` values. -/
def natLt (a b : Nat) : Bool := decide (a < b)
/-- `operator==` on `int`/`char` values. -/
def natEq (a b : Nat) : Bool := decide (a = b)

theorem natOrder : ElemOrder natLt natEq where
  sw := { asymm := by intro a b; simp [natLt]; omega
          cotrans := by intro a b c; simp [natLt]; omega }
  eq_sound := by intro a b; simp [natEq]
  eq_complete := by intro a b; simp [natLt, natEq]; omega

/-- `std::string::operator<`.  Simplified: compares code points instead of UTF-8 bytes, which is the
same order for well-formed UTF-8. -/
def strLt (a b : String) : Bool :=
  lexLoop natLt natEq false (a.toList.map Char.toNat) (b.toList.map Char.toNat)

theorem strLt_sw : StrictWeak strLt where
  asymm := fun _ _ => lexLoop_asymm natOrder (by simp) _ _
  cotrans := fun _ _ _ => lexLoop_cotrans natOrder (by simp) _ _ _

theorem lexLoop_total {α : Type} {lt eq : α → α → Bool} (h : ElemOrder lt eq) {b1 b2 : Bool} :
    ∀ as bs : List α, (∀ a ∈ as, eq a a = true) →
      lexLoop lt eq b1 as bs = false → lexLoop lt eq b2 bs as = false → as = bs ∧ b1 = false ∧ b2 = false := by
  intro as
  induction as with
  | nil => intro bs _; cases bs <;> simp [lexLoop]; exact fun a b => ⟨a, b⟩
  | cons a as ih =>
    intro bs hv
    cases bs with
    | nil => simp [lexLoop]
    | cons b bs =>
      simp only [lexLoop]
      intro h1 h2
      cases h3 : lt a b <;> simp [h3] at h1
      cases h4 : lt b a <;> simp [h4] at h2
      have h5 := h.eq_complete a b (hv a (by simp)) h3 h4
      have hab := h.eq_sound _ _ h5
      subst hab
      have := ih bs (fun x hx => hv x (by simp [hx])) (h1 h5) (h2 h5)
      simp [this]

theorem map_toNat_inj : ∀ (a b : List Char), a.map Char.toNat = b.map Char.toNat → a = b := by
  intro a
  induction a with
  | nil => intro b h; cases b <;> simp_all
  | cons x xs ih =>
    intro b h
    cases b with
    | nil => simp at h
    | cons y ys =>
      simp at h
      have h1 : x = y := Char.ext (UInt32.toNat_inj.mp h.1)
      rw [h1, ih ys h.2]

theorem strLt_total {a b : String} (h1 : strLt a b = false) (h2 : strLt b a = false) : a = b := by
  have h := (lexLoop_total (b1 := false) (b2 := false) natOrder _ _ (by simp [natEq]) h1 h2).1
  exact String.ext (map_toNat_inj _ _ h)

/-! ### `absl::btree_set` -/

/-- `absl::btree_set::insert` on the sorted contents: keeps the old element if an equivalent one is
present (abseil is not modelled further). -/
def setInsert {α : Type} (lt : α → α → Bool) (x : α) : List α → List α
  | [] => [x]
  | y :: ys => if lt x y then x :: y :: ys else if lt y x then y :: setInsert lt x ys else y :: ys

/-- Inserting all elements of `ys` in order (the `Add(const Set&)` loops of
`base/attribute_set.h` lines 93-97, `base/function_result_set.h` lines 94-98). -/
def setUnion {α : Type} (lt : α → α → Bool) (xs ys : List α) : List α :=
  ys.foldl (fun acc y => setInsert lt y acc) xs

/-- Strictly ascending: what a `btree_set` contains. -/
def Ascending {α : Type} (lt : α → α → Bool) : List α → Prop
  | [] => True
  | x :: xs => (∀ y ∈ xs, lt x y = true) ∧ Ascending lt xs

section
variable {α : Type} {lt : α → α → Bool}

theorem mem_setInsert {x z : α} : ∀ {l : List α}, z ∈ setInsert lt x l → z = x ∨ z ∈ l := by
  intro l
  induction l with
  | nil => simp [setInsert]
  | cons y ys ih =>
    unfold setInsert
    split
    · simp
    · split
      · intro h
        rcases List.mem_cons.mp h with h | h
        · simp [h]
        · rcases ih h with h | h <;> simp [h]
      · intro h; exact Or.inr h

theorem subset_setInsert {x z : α} : ∀ {l : List α}, z ∈ l → z ∈ setInsert lt x l := by
  intro l
  induction l with
  | nil => simp
  | cons y ys ih =>
    intro h
    unfold setInsert
    split
    · exact List.mem_cons_of_mem _ h
    · split
      · rcases List.mem_cons.mp h with h | h
        · simp [h]
        · simp [ih h]
      · exact h

theorem ascending_setInsert (sw : StrictWeak lt) {x : α} :
    ∀ {l : List α}, Ascending lt l → Ascending lt (setInsert lt x l) := by
  intro l
  induction l with
  | nil => simp [setInsert, Ascending]
  | cons y ys ih =>
    intro h
    unfold setInsert
    split
    · rename_i hxy
      refine ⟨?_, h⟩
      intro z hz
      rcases List.mem_cons.mp hz with hz | hz
      · rw [hz]; exact hxy
      · exact sw.trans hxy (h.1 z hz)
    · split
      · rename_i hyx
        refine ⟨?_, ih h.2⟩
        intro z hz
        rcases mem_setInsert hz with hz | hz
        · rw [hz]; exact hyx
        · exact h.1 z hz
      · exact h

/-- Some element equivalent to `x` is present after inserting `x`. -/
theorem setInsert_has (sw : StrictWeak lt) {x : α} :
    ∀ {l : List α}, ∃ z ∈ setInsert lt x l, StrictWeak.Equiv lt x z := by
  intro l
  induction l with
  | nil => exact ⟨x, by simp [setInsert], sw.equiv_refl x⟩
  | cons y ys ih =>
    unfold setInsert
    split
    · exact ⟨x, by simp, sw.equiv_refl x⟩
    · rename_i h1
      split
      · obtain ⟨z, hz, he⟩ := ih
        exact ⟨z, by simp [hz], he⟩
      · rename_i h2
        exact ⟨y, by simp, by simpa using h1, by simpa using h2⟩

theorem mem_setUnion {z : α} : ∀ {ys xs : List α}, z ∈ setUnion lt xs ys → z ∈ xs ∨ z ∈ ys := by
  intro ys
  induction ys with
  | nil => intro xs h; exact Or.inl h
  | cons y ys ih =>
    intro xs h
    rcases ih (xs := setInsert lt y xs) h with h | h
    · rcases mem_setInsert h with h | h <;> simp [h]
    · simp [h]

theorem ascending_setUnion (sw : StrictWeak lt) : ∀ {ys xs : List α}, Ascending lt xs →
    Ascending lt (setUnion lt xs ys) := by
  intro ys
  induction ys with
  | nil => intro xs h; exact h
  | cons y ys ih => intro xs h; exact ih (ascending_setInsert sw h)

theorem subset_setUnion_left {z : α} : ∀ {ys xs : List α}, z ∈ xs → z ∈ setUnion lt xs ys := by
  intro ys
  induction ys with
  | nil => intro xs h; exact h
  | cons y ys ih => intro xs h; exact ih (subset_setInsert h)

theorem setUnion_has_right (sw : StrictWeak lt) {z : α} : ∀ {ys xs : List α}, z ∈ ys →
    ∃ w ∈ setUnion lt xs ys, StrictWeak.Equiv lt z w := by
  intro ys
  induction ys with
  | nil => intro xs h; simp at h
  | cons y ys ih =>
    intro xs h
    rcases List.mem_cons.mp h with h | h
    · subst h
      obtain ⟨w, hw, he⟩ := setInsert_has (lt := lt) sw (x := z) (l := xs)
      exact ⟨w, subset_setUnion_left (ys := ys) hw, he⟩
    · exact ih (xs := setInsert lt y xs) h

/-- Two ascending lists with the same members are equal. -/
theorem ascending_ext (sw : StrictWeak lt) : ∀ {xs ys : List α}, Ascending lt xs → Ascending lt ys →
    (∀ z, z ∈ xs ↔ z ∈ ys) → xs = ys := by
  intro xs
  induction xs with
  | nil =>
    intro ys _ _ h
    cases ys with
    | nil => rfl
    | cons y ys => have := (h y).mpr (by simp); simp at this
  | cons x xs ih =>
    intro ys hx hy h
    cases ys with
    | nil => have := (h x).mp (by simp); simp at this
    | cons y ys =>
      have hxy : x = y := by
        have h1 := (h x).mp (by simp)
        have h2 := (h y).mpr (by simp)
        rcases List.mem_cons.mp h1 with h1 | h1
        · exact h1
        · rcases List.mem_cons.mp h2 with h2 | h2
          · exact h2.symm
          · have h3 := hy.1 x h1
            have h4 := sw.asymm _ _ (hx.1 y h2)
            simp [h3] at h4
      subst hxy
      have : xs = ys := by
        refine ih hx.2 hy.2 ?_
        intro z
        constructor
        · intro hz
          rcases List.mem_cons.mp ((h z).mp (by simp [hz])) with h1 | h1
          · subst h1
            have := sw.irrefl z
            simp [hx.1 z hz] at this
          · exact h1
        · intro hz
          rcases List.mem_cons.mp ((h z).mpr (by simp [hz])) with h1 | h1
          · subst h1
            have := sw.irrefl z
            simp [hy.1 z hz] at this
          · exact h1
      rw [this]

end

end Cel.Eval
