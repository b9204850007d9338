import Verif.LegacyOrder.Order

set_option linter.unusedSimpArgs false
set_option linter.unusedVariables false

/-!
# C88
-/

namespace Cel.LegacyOrder
open Cel Cel.Num

/-! ### Sorting -/

instance : Std.Total (fun a b : Key × V => keyCmp a.1 b.1 ≤ 0) :=
  ⟨fun a b => by
    have := (keyCmp_at a.1).flip b.1 trivial
    omega⟩

instance : IsTrans (Key × V) (fun a b : Key × V => keyCmp a.1 b.1 ≤ 0) :=
  ⟨fun a b c h1 h2 => by
    rcases Int.lt_or_eq_of_le h1 with h1 | h1
    · rcases Int.lt_or_eq_of_le h2 with h2 | h2
      · exact le_of_lt ((keyCmp_at a.1).trans b.1 c.1 trivial trivial h1 h2)
      · rw [← keyCmp_zero h2]; exact le_of_lt h1
    · rw [keyCmp_zero h1]; exact h2⟩

theorem sort_perm (es : List (Key × V)) : (sortEntries es).Perm es := List.perm_insertionSort _ es

theorem sort_sorted (es : List (Key × V)) : (sortEntries es).Pairwise fun a b => keyCmp a.1 b.1 ≤ 0 :=
  List.pairwise_insertionSort _ es

theorem zip_map (es : List (Key × V)) : (es.map (·.1)).zip (es.map (·.2)) = es := by
  induction es with
  | nil => rfl
  | cons e es ih => simp [ih]

theorem normAll_map : ∀ vs, normAll vs = vs.map norm
  | [] => by simp [normAll]
  | v :: vs => by simp [normAll, normAll_map vs]

theorem norm_entries (ks : List Key) (vs : List V) :
    norm (.map ks vs) = .map ((sortEntries (ks.zip (vs.map norm))).map (·.1)) ((sortEntries (ks.zip (vs.map norm))).map (·.2)) := by
  rw [norm, normAll_map]

mutual
theorem norm_ok : ∀ v, ok v = true → ok (norm v) = true
  | .null, _ | .bool _, _ | .int _, _ | .uint _, _ | .string _, _ | .bytes _, _ | .message _, _ | .duration _, _
  | .timestamp _, _ | .unknown _, _ | .type _, _ => by simp [norm, ok]
  | .double d, h => by simpa [norm] using h
  | .error _ _, h => by simp [ok] at h
  | .list es, h => by
    rw [norm, ok]
    exact normAll_ok es (by simpa [ok] using h)
  | .map ks vs, h => by
    have h1 := okAll_mem.1 (normAll_ok vs (by simp only [ok, Bool.and_eq_true] at h; exact h.2))
    rw [norm]
    refine ok_map.2 ⟨by simp, ?_⟩
    intro v hv
    obtain ⟨e, he, rfl⟩ := List.mem_map.1 hv
    exact h1 _ (List.of_mem_zip ((sort_perm _).mem_iff.1 he)).2
theorem normAll_ok : ∀ vs, okAll vs = true → okAll (normAll vs) = true
  | [], _ => by simp [normAll, okAll]
  | v :: vs, h => by
    simp only [okAll, Bool.and_eq_true] at h
    simp only [normAll, okAll, Bool.and_eq_true]
    exact ⟨norm_ok v h.1, normAll_ok vs h.2⟩
end

theorem at_compare {x : V} (h : ok x = true) : At compare (fun y => ok y = true) x :=
  let a := at_all (norm x) (norm_ok x h)
  ⟨fun y hy => a.flip _ (norm_ok y hy), fun y z hy hz => a.eqL _ _ (norm_ok y hy) (norm_ok z hz),
    fun y z hy hz => a.eqR _ _ (norm_ok y hy) (norm_ok z hz), fun y z hy hz => a.trans _ _ (norm_ok y hy) (norm_ok z hz)⟩

theorem compare_self {x : V} (h : ok x = true) : compare x x = 0 := by
  have := (at_compare h).flip x h
  omega

/-! ### The theorems -/

/-- **C88.** On values with no NaN and no error inside, `CelValueLessThan` is a strict weak order:
what `std::set` and `std::sort` ask of a comparator. -/
theorem C88_strict_weak :
    (∀ x, ok x = true → lessThan x x = false) ∧
    (∀ x y, ok x = true → ok y = true → lessThan x y = true → lessThan y x = false) ∧
    (∀ x y z, ok x = true → ok y = true → ok z = true → lessThan x y = true → lessThan y z = true → lessThan x z = true) ∧
    (∀ x y z, ok x = true → ok y = true → ok z = true →
      (lessThan x y = false ∧ lessThan y x = false) → (lessThan y z = false ∧ lessThan z y = false) →
      (lessThan x z = false ∧ lessThan z x = false)) := by
  simp only [lessThan, decide_eq_true_eq, decide_eq_false_iff_not]
  refine ⟨?_, ?_, ?_, ?_⟩
  · intro x hx; rw [compare_self hx]; omega
  · intro x y hx hy h
    have := (at_compare hx).flip y hy
    omega
  · intro x y z hx hy hz h1 h2
    exact (at_compare hx).trans y z hy hz h1 h2
  · intro x y z hx hy hz h1 h2
    have e1 := (at_compare hx).flip y hy
    have e2 := (at_compare hy).flip z hz
    have e3 := (at_compare hx).flip z hz
    have := (at_compare hx).eqL y z hy hz (by omega)
    omega

/-- **C88.** The four functions fit together: of "less", "equal" and "greater" exactly one holds,
"greater" is "less" turned around, "equal" is an equivalence, and equal values are ordered the same
way against everything. -/
theorem C88_agree :
    (∀ x y, ok x = true → ok y = true → greaterThan x y = lessThan y x ∧ equal x y = equal y x ∧
      compare y x = - compare x y ∧
      ((lessThan x y = true ∧ equal x y = false ∧ greaterThan x y = false) ∨
        (lessThan x y = false ∧ equal x y = true ∧ greaterThan x y = false) ∨
        (lessThan x y = false ∧ equal x y = false ∧ greaterThan x y = true))) ∧
    (∀ x, ok x = true → equal x x = true) ∧
    (∀ x y z, ok x = true → ok y = true → ok z = true → equal x y = true →
      equal x z = equal y z ∧ lessThan x z = lessThan y z ∧ lessThan z x = lessThan z y) := by
  refine ⟨?_, ?_, ?_⟩
  · intro x y hx hy
    have e1 := (at_compare hx).flip y hy
    simp only [lessThan, equal, greaterThan, decide_eq_true_eq, decide_eq_false_iff_not, decide_eq_decide]
    omega
  · intro x hx
    simp [equal, compare_self hx]
  · intro x y z hx hy hz h
    simp only [lessThan, equal, decide_eq_true_eq] at *
    have e1 := (at_compare hx).eqL y z hy hz h
    have e2 := (at_compare hz).eqR x y hx hy h
    rw [e1, e2]
    simp

theorem lex_zero {c d : Int} : lex c d = 0 ↔ c = 0 ∧ d = 0 := by
  unfold lex
  split <;> simp_all

theorem cmpList_zero {X : Type} {c : X → X → Int} : ∀ {xs ys : List X}, xs.length = ys.length →
    (cmpList c xs ys = 0 ↔ List.Forall₂ (fun a b => c a b = 0) xs ys)
  | [], [], _ => by simp [cmpList]
  | [], _ :: _, h => by simp at h
  | _ :: _, [], h => by simp at h
  | x :: xs, y :: ys, h => by
    rw [cmpList, lex_zero, List.forall₂_cons, cmpList_zero (by simpa using h)]

theorem cmpLen_zero {X : Type} {c : X → X → Int} {xs ys : List X} :
    cmpLen c xs ys = 0 ↔ List.Forall₂ (fun a b => c a b = 0) xs ys := by
  unfold cmpLen
  by_cases h : xs.length = ys.length
  · rw [if_pos h, cmpList_zero h]
  · rw [if_neg h, lcmp_zero]
    exact ⟨fun e => absurd e h, fun e => e.length_eq⟩

/-- **C88.** Lists are equal if they are elementwise. -/
theorem C88_equal_lists (es fs : List V) :
    equal (.list es) (.list fs) = true ↔ List.Forall₂ (fun a b => equal a b = true) es fs := by
  simp only [equal, decide_eq_true_eq]
  have e : compare (.list es) (.list fs) = cmpLen cmpN (es.map norm) (fs.map norm) := by
    simp only [compare, norm, normAll_map, ← same_list]
    exact if_pos rfl
  rw [e, cmpLen_zero, List.forall₂_map_left_iff, List.forall₂_map_right_iff]
  rfl

theorem keyed {X : Type} [DecidableEq X] {A B : List (X × V)} {R : V → V → Prop}
    (hk : A.map (·.1) = B.map (·.1)) (hn : (B.map (·.1)).Nodup)
    (h : ∀ a ∈ A, ∃ w, (a.1, w) ∈ B ∧ R a.2 w) : List.Forall₂ (fun a b => a.1 = b.1 ∧ R a.2 b.2) A B := by
  induction A generalizing B with
  | nil => cases B <;> simp at hk ⊢
  | cons a A ih =>
    cases B with
    | nil => simp at hk
    | cons b B =>
      simp only [List.map_cons, List.cons.injEq, List.nodup_cons] at hk hn
      refine List.Forall₂.cons ⟨hk.1, ?_⟩ (ih hk.2 hn.2 ?_)
      · obtain ⟨w, hw, hr⟩ := h a (by simp)
        rcases List.mem_cons.1 hw with e | e
        · rw [← e]; exact hr
        · exact absurd (List.mem_map.2 ⟨_, e, hk.1⟩) hn.1
      · intro x hx
        obtain ⟨w, hw, hr⟩ := h x (by simp [hx])
        rcases List.mem_cons.1 hw with e | e
        · exfalso
          apply hn.1
          rw [← hk.2]
          exact List.mem_map.2 ⟨x, hx, by rw [← e]⟩
        · exact ⟨w, e, hr⟩

/-- **C88.** Maps are equal if they have as many entries and every key of one is a key of the
other, with an equal value – in whatever order `ListKeys` gives them. -/
theorem C88_equal_maps (ks ls : List Key) (vs ws : List V) (hk : ks.length = vs.length) (hl : ls.length = ws.length)
    (nk : ks.Nodup) (nl : ls.Nodup) :
    equal (.map ks vs) (.map ls ws) = true ↔
      ks.length = ls.length ∧ ∀ k v, (k, v) ∈ ks.zip vs → ∃ w, (k, w) ∈ ls.zip ws ∧ equal v w = true := by
  simp only [equal, decide_eq_true_eq]
  have e : ∀ a b c d, cmpN (.map a b) (.map c d) = same (.map a b) (.map c d) := fun a b c d => if_pos rfl
  rw [compare, norm_entries, norm_entries, e, same_map (by simp) (by simp), zip_map, zip_map, cmpLen_zero]
  generalize hA : ks.zip (vs.map norm) = A
  generalize hB : ls.zip (ws.map norm) = B
  have memA : ∀ k v', (k, v') ∈ A ↔ ∃ v, (k, v) ∈ ks.zip vs ∧ norm v = v' := by
    intro k v'
    rw [← hA, List.zip_map_right]
    simp only [List.mem_map, Prod.mk.injEq, Prod.map, id_eq, Prod.exists]
    constructor
    · rintro ⟨a, b, h, rfl, rfl⟩; exact ⟨b, h, rfl⟩
    · rintro ⟨v, h, rfl⟩; exact ⟨k, v, h, rfl, rfl⟩
  have memB : ∀ k v', (k, v') ∈ B ↔ ∃ v, (k, v) ∈ ls.zip ws ∧ norm v = v' := by
    intro k v'
    rw [← hB, List.zip_map_right]
    simp only [List.mem_map, Prod.mk.injEq, Prod.map, id_eq, Prod.exists]
    constructor
    · rintro ⟨a, b, h, rfl, rfl⟩; exact ⟨b, h, rfl⟩
    · rintro ⟨v, h, rfl⟩; exact ⟨k, v, h, rfl, rfl⟩
  have lA : A.map (·.1) = ks := by rw [← hA]; exact List.map_fst_zip (by simp [hk])
  have lB : B.map (·.1) = ls := by rw [← hB]; exact List.map_fst_zip (by simp [hl])
  have lenA : A.length = ks.length := by rw [← lA, List.length_map]
  have lenB : B.length = ls.length := by rw [← lB, List.length_map]
  constructor
  · intro h
    have hlen := h.length_eq
    rw [(sort_perm A).length_eq, (sort_perm B).length_eq, lenA, lenB] at hlen
    refine ⟨hlen, fun k v hv => ?_⟩
    have h1 : (k, norm v) ∈ sortEntries A := (sort_perm A).mem_iff.2 ((memA _ _).2 ⟨v, hv, rfl⟩)
    obtain ⟨i, hi, e⟩ := List.getElem_of_mem h1
    have hr := (List.forall₂_iff_get.1 h).2 i hi (by rw [← h.length_eq]; exact hi)
    simp only [List.get_eq_getElem, e, entryCmp, lex_zero] at hr
    have h2 : (sortEntries B)[i]'(by rw [← h.length_eq]; exact hi) ∈ B := (sort_perm B).mem_iff.1 (List.getElem_mem _)
    generalize (sortEntries B)[i]'(by rw [← h.length_eq]; exact hi) = b at hr h2
    have e1 := keyCmp_zero hr.1
    subst e1
    obtain ⟨w, hw, ew⟩ := (memB b.1 b.2).1 h2
    exact ⟨w, hw, by rw [compare, ew]; exact hr.2⟩
  · rintro ⟨hlen, h⟩
    have hsub : ∀ a ∈ sortEntries A, ∃ w, (a.1, w) ∈ sortEntries B ∧ cmpN a.2 w = 0 := by
      intro a ha
      obtain ⟨v, hv, e⟩ := (memA a.1 a.2).1 ((sort_perm A).mem_iff.1 ha)
      obtain ⟨w, hw, e'⟩ := h _ _ hv
      exact ⟨norm w, (sort_perm B).mem_iff.2 ((memB _ _).2 ⟨w, hw, rfl⟩), by rw [← e]; exact e'⟩
    have pA : ((sortEntries A).map (·.1)).Perm ks := by rw [← lA]; exact (sort_perm A).map _
    have pB : ((sortEntries B).map (·.1)).Perm ls := by rw [← lB]; exact (sort_perm B).map _
    have hperm : ks.Perm ls := by
      refine (List.subperm_of_subset nk ?_).perm_of_length_le (by omega)
      intro k hk'
      obtain ⟨a, ha, rfl⟩ := List.mem_map.1 (pA.mem_iff.2 hk')
      obtain ⟨w, hw, _⟩ := hsub a ha
      exact pB.mem_iff.1 (List.mem_map.2 ⟨_, hw, rfl⟩)
    have hkeys : (sortEntries A).map (·.1) = (sortEntries B).map (·.1) := by
      refine ((pA.trans hperm).trans pB.symm).eq_of_pairwise (le := fun a b => keyCmp a b ≤ 0) ?_ ?_ ?_
      · intro a b _ _ h1 h2
        have := (keyCmp_at a).flip b trivial
        exact keyCmp_zero (by omega)
      · exact List.pairwise_map.2 (sort_sorted A)
      · exact List.pairwise_map.2 (sort_sorted B)
    have := keyed (R := fun v w => cmpN v w = 0) hkeys (pB.nodup_iff.2 nl) hsub
    refine this.imp fun a b hab => ?_
    rw [entryCmp, lex_zero, hab.1]
    exact ⟨by have := (keyCmp_at b.1).flip b.1 trivial; omega, hab.2⟩

/-- **C88.** Values of different kinds are never equal – no number equals one of another kind –
and are ordered by kind; of one kind, without elements, they are equal if they are the same, doubles
if they are numerically. -/
theorem C88_equal_scalars :
    (∀ v w, ty v ≠ ty w → equal v w = false ∧ (lessThan v w = true ↔ ty v < ty w)) ∧
    (∀ a b, equal (.bool a) (.bool b) = true ↔ a = b) ∧ (∀ a b, equal (.int a) (.int b) = true ↔ a = b) ∧
    (∀ a b, equal (.uint a) (.uint b) = true ↔ a = b) ∧ (∀ a b, equal (.string a) (.string b) = true ↔ a = b) ∧
    (∀ a b, equal (.bytes a) (.bytes b) = true ↔ a = b) ∧ (∀ a b, equal (.message a) (.message b) = true ↔ a = b) ∧
    (∀ a b, equal (.duration a) (.duration b) = true ↔ a = b) ∧ (∀ a b, equal (.timestamp a) (.timestamp b) = true ↔ a = b) ∧
    (∀ a b, equal (.unknown a) (.unknown b) = true ↔ a = b) ∧ (∀ a b, equal (.type a) (.type b) = true ↔ a = b) ∧
    (∀ a b, a.isNaN = false → b.isNaN = false → (equal (.double a) (.double b) = true ↔ Dbl.eq a b = true)) ∧
    (∀ a b s t, equal (.error a s) (.error b t) = true ↔ s = t) := by
  have hty : ∀ v, ty (norm v) = ty v := by
    intro v; cases v <;> rw [norm] <;> first | rfl | (intros; contradiction)
  refine ⟨?_, ?_, ?_, ?_, ?_, ?_, ?_, ?_, ?_, ?_, ?_, ?_, ?_⟩
  · intro v w h
    simp only [equal, lessThan, compare, cmpN, hty, if_neg h, decide_eq_true_eq, decide_eq_false_iff_not, lcmp_neg]
    exact ⟨fun e => h (lcmp_zero.1 e), trivial⟩
  all_goals first
    | (intro a b; simp [equal, compare, norm, cmpN, ty, same, lcmp_zero]; done)
    | skip
  · intro a b ha hb
    simp only [equal, compare, norm, cmpN, ty, same, if_true, decide_eq_true_eq]
    cases a with
    | nan => cases ha
    | inf x => cases b with
      | nan => cases hb
      | inf y => cases x <;> cases y <;> simp [dcmp, Dbl.lt, Dbl.gt, Dbl.cmp, Dbl.eq]
      | fin y n => cases x <;> simp [dcmp, Dbl.lt, Dbl.gt, Dbl.cmp, Dbl.eq]
    | fin x m => cases b with
      | nan => cases hb
      | inf y => cases y <;> simp [dcmp, Dbl.lt, Dbl.gt, Dbl.cmp, Dbl.eq]
      | fin y n =>
        simp only [dcmp, Dbl.lt, Dbl.gt, Dbl.cmp, Dbl.eq]
        rcases lt_trichotomy (Dbl.sval x m) (Dbl.sval y n) with h | h | h
        · simp [h, compare_lt_iff_lt.2 h]
        · simp [h]
        · simp [h, compare_gt_iff_gt.2 h]
  · intro a b s t
    simp only [equal, compare, norm, cmpN, ty, same, if_true, decide_eq_true_eq, ecmp]
    by_cases h : s = t
    · simp [h]
    · by_cases h' : a < b <;> simp [h, h']

/-- The comparison of keys is the comparison of values – `set_util.cc:93`. -/
def keyVal : Key → V
  | .bool b => .bool b
  | .int i => .int i
  | .uint u => .uint u
  | .string s => .string s

theorem C88_keys (k l : Key) : keyCmp k l = compare (keyVal k) (keyVal l) := by
  cases k <;> cases l <;> simp [keyCmp, keyVal, compare, norm, cmpN, ty, same, lcmp]

/-- **C88, at NaN.** NaN is equal to both of two doubles that are not equal, inside lists too: no
strict weak order there. -/
theorem C88_boundary_nan :
    equal (.double .nan) (.double (.fin false 1)) = true ∧ equal (.double .nan) (.double (.fin false 2)) = true ∧
    equal (.double (.fin false 1)) (.double (.fin false 2)) = false ∧
    lessThan (.double (.fin false 1)) (.double (.fin false 2)) = true := by
  decide +kernel

/-- **C88, at errors.** Errors are equal by status and ordered by address: three errors, the first
before the second, the second before the third, and the third equal to the first. -/
theorem C88_boundary_error :
    lessThan (.error 1 7) (.error 2 8) = true ∧ lessThan (.error 2 8) (.error 3 7) = true ∧
    equal (.error 1 7) (.error 3 7) = true := by
  decide +kernel

/-- A case: two maps that differ in the order of their keys only are equal, and a map with a
smaller value at the first key in order is less. -/
theorem C88_example :
    ok (.map [.int 2, .int 1] [.string [97], .list [.double (.fin false 1)]]) = true ∧
    equal (.map [.int 2, .int 1] [.string [97], .list [.double (.fin false 1)]])
      (.map [.int 1, .int 2] [.list [.double (.fin false 1)], .string [97]]) = true ∧
    lessThan (.map [.int 2, .int 1] [.string [97], .list [.double (.fin false 0)]])
      (.map [.int 1, .int 2] [.list [.double (.fin false 1)], .null]) = true := by
  decide +kernel

end Cel.LegacyOrder
