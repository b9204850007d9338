import Verif.Eval.Attribute

/-!
# C30, C31 (and the set algebra part of C32): attributes, patterns and unknown sets

Specification vocabulary: `ValidQual`, `Covers` (pattern qualifier admits attribute qualifier).
-/

set_option linter.unusedSimpArgs false
set_option linter.unusedVariables false

namespace Cel.Eval

/-- A qualifier of a supported type (string, int, uint, bool). -/
def ValidQual (q : Qual) : Prop := ∀ k, q ≠ .invalid k
/-- An attribute all of whose qualifiers are of a supported type. -/
def ValidAttr (a : Attr) : Prop := ∀ q ∈ a.path, ValidQual q

theorem qualEq_iff (a b : Qual) : Qual.eq a b = true ↔ a = b ∧ ValidQual a := by
  cases a <;> cases b <;> simp [Qual.eq, ValidQual]

theorem qualLt_sw : StrictWeak Qual.lt where
  asymm := by
    intro a b
    cases a <;> cases b <;> simp [Qual.lt] <;> try omega
    · exact strLt_sw.asymm _ _
    · intro h1 h2 h3; simp_all
  cotrans := by
    intro a b c
    cases a <;> cases b <;> cases c <;> simp [Qual.lt] <;> try omega
    · exact strLt_sw.cotrans _ _ _
    · rename_i x y z; cases x <;> cases y <;> cases z <;> simp

theorem qualOrder : ElemOrder Qual.lt Qual.eq where
  sw := qualLt_sw
  eq_sound := fun a b h => ((qualEq_iff a b).mp h).1
  eq_complete := by
    intro a b
    cases a <;> cases b <;> simp [Qual.lt, Qual.eq] <;> try omega
    · exact strLt_total
    · rename_i x y; cases x <;> cases y <;> simp

theorem pathEq_iff : ∀ a b : List Qual, pathEq a b = true ↔ a = b ∧ ∀ q ∈ a, ValidQual q := by
  intro a
  induction a with
  | nil => intro b; cases b <;> simp [pathEq]
  | cons x xs ih =>
    intro b
    cases b with
    | nil => simp [pathEq]
    | cons y ys =>
      unfold pathEq
      by_cases h : Qual.eq x y = true
      · have h' := (qualEq_iff x y).mp h
        simp only [h, Bool.not_true, Bool.false_eq_true, if_false]
        rw [ih]
        obtain ⟨rfl, hv⟩ := h'
        simp [hv]
      · simp only [h, Bool.not_false, if_true]
        simp only [Bool.false_eq_true, false_iff]
        rintro ⟨he, hv⟩
        injection he with h1 h2
        subst h1
        exact h ((qualEq_iff x x).mpr ⟨rfl, hv x (by simp)⟩)

/-- **C30 (equality).** `a == b` on attributes holds exactly when they are the same variable and the
same path, and the path has no unsupported qualifier. -/
theorem attr_eq_iff (a b : Attr) : Attr.eq a b = true ↔ a = b ∧ ValidAttr a := by
  obtain ⟨v, p⟩ := a
  obtain ⟨w, q⟩ := b
  unfold Attr.eq ValidAttr
  by_cases h1 : v = w
  · by_cases h2 : p.length = q.length
    · simp only [h1, h2, ne_eq, not_true_eq_false, if_false]
      rw [pathEq_iff]
      simp
    · simp only [h1, h2, ne_eq, not_true_eq_false, not_false_eq_true, if_true, if_false]
      constructor
      · simp
      · rintro ⟨h, _⟩; injection h with _ h; exact absurd (by rw [h]) h2
  · simp [h1]

theorem attrLt_sw : StrictWeak Attr.lt where
  asymm := fun a b => lexLoop_asymm qualOrder (strLt_sw.asymm a.var b.var) _ _
  cotrans := fun a b c => lexLoop_cotrans qualOrder (strLt_sw.cotrans a.var b.var c.var) _ _ _

/-- **C30 (order laws).** `<` on attributes is a strict weak ordering, for *all* attributes:
irreflexive, asymmetric, transitive, and incomparability is transitive. -/
theorem attr_lt_strict_weak_order :
    (∀ a, Attr.lt a a = false) ∧
    (∀ a b, Attr.lt a b = true → Attr.lt b a = false) ∧
    (∀ a b c, Attr.lt a b = true → Attr.lt b c = true → Attr.lt a c = true) ∧
    (∀ a b c, Attr.lt a b = false → Attr.lt b a = false → Attr.lt b c = false → Attr.lt c b = false →
      Attr.lt a c = false ∧ Attr.lt c a = false) :=
  ⟨attrLt_sw.irrefl, attrLt_sw.asymm, fun _ _ _ => attrLt_sw.trans,
   fun _ _ _ h1 h2 h3 h4 => attrLt_sw.equiv_trans ⟨h1, h2⟩ ⟨h3, h4⟩⟩

/-- Every attribute is a legal operand: a path of mixed qualifiers, ordered bool < int < uint <
string, with the variable name compared last. -/
example : Attr.lt ⟨"z", [.bool true, .int 3]⟩ ⟨"a", [.bool true, .str "f"]⟩ = true ∧
    Attr.lt ⟨"a", [.int 1]⟩ ⟨"b", [.int 1]⟩ = true ∧ Attr.lt ⟨"a", [.int 1]⟩ ⟨"a", [.int 1, .uint 2]⟩ = true := by
  decide

/-- **C30 (order is compatible with equality), for supported qualifiers.** Two attributes whose
qualifiers are all of supported type are incomparable exactly when they are `==`.
Missing for the full property: attributes with unsupported qualifiers, for which it is false
(`attr_incomparable_not_equal`). -/
theorem attr_incomparable_iff_eq_partial (a b : Attr) (ha : ValidAttr a) :
    (Attr.lt a b = false ∧ Attr.lt b a = false) ↔ Attr.eq a b = true := by
  rw [attr_eq_iff]
  constructor
  · rintro ⟨h1, h2⟩
    have h := lexLoop_total qualOrder _ _ (fun q hq => (qualEq_iff q q).mpr ⟨rfl, ha q hq⟩) h1 h2
    obtain ⟨v, p⟩ := a
    obtain ⟨w, q⟩ := b
    refine ⟨?_, ha⟩
    have h3 : v = w := strLt_total h.2.1 h.2.2
    have h4 : p = q := h.1
    rw [h3, h4]
  · rintro ⟨rfl, _⟩
    exact ⟨attrLt_sw.irrefl a, attrLt_sw.irrefl a⟩

example : ValidAttr ⟨"a", [.str "b", .int 1, .bool false, .uint 7]⟩ := by
  intro q hq k; simp at hq; rcases hq with h | h | h | h <;> subst h <;> simp

/-- **C30 is false in general.** `a[1.5]` and `b[1.5]` (any unsupported qualifier) are incomparable
under `<` although they are different attributes of different variables (and `==` is false): a set of
attributes keeps only one of them. -/
theorem attr_incomparable_not_equal :
    ∃ a b : Attr, a.var ≠ b.var ∧ Attr.eq a b = false ∧ Attr.lt a b = false ∧ Attr.lt b a = false ∧
      attrUnion [a] [b] = [a] ∧ attrUnion [b] [a] = [b] :=
  ⟨⟨"a", [.invalid 0]⟩, ⟨"b", [.invalid 0, .int 1]⟩, by decide, by decide, by decide, by decide,
    by decide, by decide⟩

/-- **C30 (sets).** Whatever attributes are inserted in whatever order, the resulting set is strictly
ascending (no duplicates), contains only inserted attributes, and contains every inserted attribute
of supported type. -/
theorem attr_set_sound (xs : List Attr) :
    let s := attrUnion [] xs
    (s.Pairwise fun a b => Attr.lt a b = true) ∧ (∀ a ∈ s, a ∈ xs) ∧
    (∀ a ∈ xs, ValidAttr a → a ∈ s) := by
  have hasc := ascending_setUnion attrLt_sw (ys := xs) (xs := []) (by simp [Ascending])
  refine ⟨?_, ?_, ?_⟩
  · have : ∀ l : List Attr, Ascending Attr.lt l → l.Pairwise (fun a b => Attr.lt a b = true) := by
      intro l
      induction l with
      | nil => simp
      | cons x l ih => intro h; exact List.pairwise_cons.mpr ⟨h.1, ih h.2⟩
    exact this _ hasc
  · intro a ha
    rcases mem_setUnion ha with h | h
    · simp at h
    · exact h
  · intro a ha hv
    obtain ⟨w, hw, he⟩ := setUnion_has_right attrLt_sw (xs := []) ha
    have := (attr_incomparable_iff_eq_partial a w hv).mp he
    rw [((attr_eq_iff a w).mp this).1]
    exact hw

/-! ### C31: patterns -/

/-- A pattern qualifier admits an attribute qualifier: it is the wildcard, or the same qualifier of a
supported type. -/
def Covers (p : QualPat) (q : Qual) : Prop := p = none ∨ (p = some q ∧ ValidQual q)

theorem isMatch_iff_covers (p : QualPat) (q : Qual) : QualPat.isMatch p q = true ↔ Covers p q := by
  unfold QualPat.isMatch Covers
  cases p with
  | none => simp
  | some v =>
    rw [qualEq_iff]
    simp
    intro h; subst h; exact Iff.rfl

/-- Specification: the pattern's qualifiers admit the attribute's qualifiers position by position, as
far as both go. -/
def Consistent (p : Pattern) (a : Attr) : Prop :=
  p.var = a.var ∧ ∀ i (hp : i < p.path.length) (ha : i < a.path.length), Covers p.path[i] a.path[i]

theorem matchAt_iff (p : Pattern) (a : Attr) (i : Nat) (hp : i < p.path.length)
    (ha : i < a.path.length) : p.matchAt a i = true ↔ Covers p.path[i] a.path[i] := by
  unfold Pattern.matchAt
  rw [List.getElem?_eq_getElem hp, List.getElem?_eq_getElem ha]
  exact isMatch_iff_covers _ _

theorem isMatch_cases (p : Pattern) (a : Attr) :
    p.isMatch a = if p.var = a.var ∧ (∀ i, ∀ (hp : i < p.path.length) (ha : i < a.path.length), p.matchAt a i = true)
      then (if p.path.length > a.path.length then .partialMatch else .full) else .none := by
  unfold Pattern.isMatch
  by_cases hv : a.var = p.var
  · simp only [hv, ne_eq, not_true_eq_false, if_false, true_and]
    congr 1
    simp only [List.all_eq_true, List.mem_range]
    apply propext
    constructor
    · intro h i hp ha
      apply h
      split <;> omega
    · intro h i hi
      apply h
      · split at hi <;> omega
      · split at hi <;> omega
  · rw [if_pos hv, if_neg]
    rintro ⟨h, _⟩
    exact hv h.symm

theorem consistent_iff (p : Pattern) (a : Attr) : Consistent p a ↔
    (p.var = a.var ∧ (∀ i, ∀ (hp : i < p.path.length) (ha : i < a.path.length), p.matchAt a i = true)) := by
  unfold Consistent
  constructor
  · rintro ⟨h1, h2⟩; exact ⟨h1, fun i hp ha => (matchAt_iff p a i hp ha).mpr (h2 i hp ha)⟩
  · rintro ⟨h1, h2⟩; exact ⟨h1, fun i hp ha => (matchAt_iff p a i hp ha).mp (h2 i hp ha)⟩

/-- **C31 (full match).** A pattern fully matches an attribute iff the variables agree and every
pattern qualifier admits the attribute's qualifier at that position. -/
theorem pattern_full_iff (p : Pattern) (a : Attr) :
    p.isMatch a = .full ↔ p.path.length ≤ a.path.length ∧ Consistent p a := by
  rw [isMatch_cases, consistent_iff]
  by_cases hc : (p.var = a.var ∧ (∀ i, ∀ (hp : i < p.path.length) (ha : i < a.path.length), p.matchAt a i = true))
  · rw [if_pos hc]
    by_cases hl : p.path.length > a.path.length
    · rw [if_pos hl]; simp; omega
    · rw [if_neg hl]; simp; exact ⟨by omega, hc⟩
  · rw [if_neg hc]; exact ⟨fun h => by simp at h, fun h => absurd h.2 hc⟩

/-- **C31 (partial match).** A pattern partially matches iff the attribute's path is a proper prefix,
consistent with the pattern. -/
theorem pattern_partial_iff (p : Pattern) (a : Attr) :
    p.isMatch a = .partialMatch ↔ a.path.length < p.path.length ∧ Consistent p a := by
  rw [isMatch_cases, consistent_iff]
  by_cases hc : (p.var = a.var ∧ (∀ i, ∀ (hp : i < p.path.length) (ha : i < a.path.length), p.matchAt a i = true))
  · rw [if_pos hc]
    by_cases hl : p.path.length > a.path.length
    · rw [if_pos hl]; simp; exact ⟨by omega, hc⟩
    · rw [if_neg hl]; simp; omega
  · rw [if_neg hc]; exact ⟨fun h => by simp at h, fun h => absurd h.2 hc⟩

example : Pattern.isMatch ⟨"req", [some (.str "auth"), none]⟩ ⟨"req", [.str "auth", .int 3, .str "x"]⟩ = .full
    ∧ Pattern.isMatch ⟨"req", [some (.str "auth"), none]⟩ ⟨"req", [.str "auth"]⟩ = .partialMatch
    ∧ Pattern.isMatch ⟨"req", [some (.str "auth"), none]⟩ ⟨"req", [.str "path"]⟩ = .none := by decide

/-- **C31 (stability under extension).** Extending an attribute by further qualifiers never loses a
full match. -/
theorem pattern_full_extends (p : Pattern) (a : Attr) (qs : List Qual)
    (h : p.isMatch a = .full) : p.isMatch ⟨a.var, a.path ++ qs⟩ = .full := by
  rw [pattern_full_iff] at h ⊢
  obtain ⟨hl, hv, hc⟩ := h
  refine ⟨by simp; omega, hv, ?_⟩
  intro i hp ha
  have hi : i < a.path.length := by omega
  have := hc i hp hi
  simp only [List.getElem_append_left hi]
  exact this

/-- **C31 (partial matches can be completed).** If a pattern made of wildcards and supported
qualifiers partially matches an attribute, some extension of the attribute matches fully: a partial
match really means "something inside is selected". -/
theorem pattern_partial_completes (p : Pattern) (a : Attr)
    (hp : ∀ q, some q ∈ p.path → ValidQual q) (h : p.isMatch a = .partialMatch) :
    ∃ qs, p.isMatch ⟨a.var, a.path ++ qs⟩ = .full := by
  rw [pattern_partial_iff] at h
  obtain ⟨hl, hv, hc⟩ := h
  refine ⟨(p.path.drop a.path.length).map (fun o => o.getD (.int 0)), ?_⟩
  rw [pattern_full_iff]
  refine ⟨by simp; omega, hv, ?_⟩
  intro i hpi hai
  by_cases hi : i < a.path.length
  · simp only [List.getElem_append_left hi]
    exact hc i hpi hi
  · simp only [List.getElem_append_right (Nat.le_of_not_lt hi), List.getElem_map, List.getElem_drop]
    have hidx : a.path.length + (i - a.path.length) = i := by omega
    simp only [hidx]
    cases hq : p.path[i] with
    | none => exact Or.inl rfl
    | some q => exact Or.inr ⟨rfl, hp q (by rw [← hq]; exact List.getElem_mem hpi)⟩

/-- **C31 (wildcards).** The pattern `v.*…*` fully matches every attribute of `v` at least as long,
whatever its qualifiers (even unsupported ones). -/
theorem pattern_wildcards (v : String) (n : Nat) (path : List Qual) (h : n ≤ path.length) :
    Pattern.isMatch ⟨v, List.replicate n none⟩ ⟨v, path⟩ = .full := by
  rw [pattern_full_iff]
  refine ⟨by simpa using h, rfl, ?_⟩
  intro i hp ha
  left
  simp

theorem matchLoop_full (a : Attr) : ∀ (ps : List Pattern) (r : MatchType), r ≠ .full →
    (matchLoop a ps r = .full ↔ ∃ p ∈ ps, p.isMatch a = .full) := by
  intro ps
  induction ps with
  | nil => intro r h; simp [matchLoop, h]
  | cons p ps ih =>
    intro r h
    unfold matchLoop
    split
    · rename_i h1; simp [h1]
    · rename_i h1; rw [ih _ (by simp)]; simp [h1]
    · rename_i h1; rw [ih _ h]; simp [h1]

theorem matchLoop_none (a : Attr) : ∀ (ps : List Pattern) (r : MatchType),
    (matchLoop a ps r = .none ↔ r = .none ∧ ∀ p ∈ ps, p.isMatch a = .none) := by
  intro ps
  induction ps with
  | nil => intro r; simp [matchLoop]
  | cons p ps ih =>
    intro r
    unfold matchLoop
    split
    · rename_i h1; simp [h1]
    · rename_i h1; rw [ih]; simp [h1]
    · rename_i h1; rw [ih]; simp [h1]

/-- **C31 (several patterns).** Against a list of patterns: full iff some pattern fully matches;
none iff no pattern matches at all; partial otherwise. -/
theorem match_against_iff (ps : List Pattern) (a : Attr) :
    (matchAgainst ps a = .full ↔ ∃ p ∈ ps, p.isMatch a = .full) ∧
    (matchAgainst ps a = .none ↔ ∀ p ∈ ps, p.isMatch a = .none) := by
  refine ⟨matchLoop_full a ps .none (by simp), ?_⟩
  unfold matchAgainst
  rw [matchLoop_none]
  simp

/-- **C31 (extension, several patterns).** Once an attribute is (fully) unknown, everything below it
is unknown. -/
theorem unknown_is_inherited (ps : List Pattern) (a : Attr) (q : Qual)
    (h : checkUnknown ps (some a) false = true) :
    checkUnknown ps (Trail.step (some a) q) false = true := by
  unfold checkUnknown at h ⊢
  unfold Trail.step
  simp only at h ⊢
  have hf : matchAgainst ps a = .full := by
    cases hm : matchAgainst ps a <;> simp [hm] at h ⊢
  obtain ⟨p, hp, hpm⟩ := (match_against_iff ps a).1.mp hf
  have := (match_against_iff ps ⟨a.var, a.path ++ [q]⟩).1.mpr ⟨p, hp, pattern_full_extends p a [q] hpm⟩
  rw [this]

example : checkUnknown [⟨"a", [none]⟩] (some ⟨"a", [.int 1]⟩) false = true := by decide

/-! ### C32: the unknown-set algebra -/

theorem fnDescLt_sw : StrictWeak FnDesc.lt where
  asymm := by
    intro a b h
    unfold FnDesc.lt at h ⊢
    by_cases h1 : strLt a.name b.name = true
    · have h2 := strLt_sw.asymm _ _ h1
      have h3 : b.name ≠ a.name := by intro h4; rw [h4, strLt_sw.irrefl] at h1; simp at h1
      simp [h2, h3]
    · simp only [h1] at h
      by_cases hn : a.name = b.name
      · simp only [hn, ne_eq, not_true_eq_false, if_false] at h ⊢
        simp only [strLt_sw.irrefl, Bool.false_eq_true, if_false] at h ⊢
        by_cases hr : a.receiver = b.receiver
        · rw [hr] at h ⊢
          cases hb : b.receiver <;> simp [hb] at h ⊢ <;> exact lexLoop_asymm natOrder (by simp) _ _ h
        · cases ha : a.receiver <;> cases hb : b.receiver <;> simp [ha, hb] at h hr ⊢
      · simp [hn] at h
  cotrans := by
    intro a b c h
    unfold FnDesc.lt at h ⊢
    by_cases h1 : strLt a.name b.name = true
    · rcases strLt_sw.cotrans _ _ c.name h1 with h2 | h2 <;> simp [h2]
    · simp only [h1] at h
      by_cases hn : a.name = b.name
      · by_cases hac : strLt a.name c.name = true
        · simp [hac]
        · by_cases hcb : strLt c.name b.name = true
          · simp [hcb]
          · have hcn : a.name = c.name :=
              strLt_total (by simpa using hac) (by rw [hn]; simpa using hcb)
            have hcn' : c.name = b.name := hcn.symm.trans hn
            simp only [hac, hcb, hn, hcn', ne_eq, not_true_eq_false, if_false, Bool.false_eq_true, strLt_sw.irrefl] at h ⊢
            have hl := fun h => lexLoop_cotrans (b12 := false) (b13 := false) (b32 := false) natOrder (by simp) a.kinds b.kinds c.kinds h
            cases ha : a.receiver <;> cases hb : b.receiver <;> cases hc : c.receiver <;>
              simp [ha, hb, hc] at h ⊢ <;> exact hl h
      · simp [hn] at h

theorem fnResultLt_sw : StrictWeak FnResult.lt where
  asymm := fun a b => fnDescLt_sw.asymm a.desc b.desc
  cotrans := fun a b c => fnDescLt_sw.cotrans a.desc b.desc c.desc

/-- **C30 (function results).** The order on function descriptors is a strict weak ordering whose
incomparability is `==`. -/
theorem fn_desc_order :
    (∀ a, FnDesc.lt a a = false) ∧ (∀ a b, FnDesc.lt a b = true → FnDesc.lt b a = false) ∧
    (∀ a b c, FnDesc.lt a b = true → FnDesc.lt b c = true → FnDesc.lt a c = true) ∧
    (∀ a b, (FnDesc.lt a b = false ∧ FnDesc.lt b a = false) ↔ FnDesc.eq a b = true) := by
  refine ⟨fnDescLt_sw.irrefl, fnDescLt_sw.asymm, fun _ _ _ => fnDescLt_sw.trans, ?_⟩
  intro a b
  constructor
  · rintro ⟨h1, h2⟩
    unfold FnDesc.lt at h1 h2
    by_cases hs : strLt a.name b.name = true
    · simp [hs] at h1
    by_cases hs' : strLt b.name a.name = true
    · simp [hs'] at h2
    have hn : a.name = b.name := strLt_total (by simpa using hs) (by simpa using hs')
    simp only [hn, ne_eq, not_true_eq_false, if_false, Bool.false_eq_true, strLt_sw.irrefl] at h1 h2
    unfold FnDesc.eq
    have ht := fun h1 h2 => (lexLoop_total (b1 := false) (b2 := false) natOrder a.kinds b.kinds (by simp [natEq]) h1 h2).1
    cases ha : a.receiver <;> cases hb : b.receiver <;> simp [ha, hb] at h1 h2 ⊢ <;>
      exact ⟨hn, ht h1 h2⟩
  · intro h
    unfold FnDesc.eq at h
    simp at h
    obtain ⟨⟨h1, h2⟩, h3⟩ := h
    have key : ∀ x y : FnDesc, x.name = y.name → x.receiver = y.receiver → x.kinds = y.kinds → FnDesc.lt x y = false := by
      intro x y e1 e2 e3
      have hirr : lexLoop natLt natEq false y.kinds y.kinds = false := by
        have h0 := fnDescLt_sw.irrefl y
        unfold FnDesc.lt at h0
        simpa [strLt_sw.irrefl] using h0
      unfold FnDesc.lt
      rw [e1, e2, e3]
      simp [strLt_sw.irrefl, hirr]
    exact ⟨key a b h1 h2 h3, key b a h1.symm h2.symm h3.symm⟩

/-- An unknown set as the code can produce it from supported qualifiers: ascending sets. -/
def WellFormedUnknown (u : UnknownSet) : Prop :=
  Ascending Attr.lt u.attrs ∧ (∀ a ∈ u.attrs, ValidAttr a) ∧ Ascending FnResult.lt u.fns

theorem attr_equiv_eq {a b : Attr} (ha : ValidAttr a) (h : StrictWeak.Equiv Attr.lt a b) : a = b :=
  ((attr_eq_iff a b).mp ((attr_incomparable_iff_eq_partial a b ha).mp h)).1

theorem mem_attrUnion {xs ys : List Attr} (hy : ∀ a ∈ ys, ValidAttr a) (z : Attr) :
    z ∈ attrUnion xs ys ↔ z ∈ xs ∨ z ∈ ys := by
  constructor
  · exact mem_setUnion
  · rintro (h | h)
    · exact subset_setUnion_left h
    · obtain ⟨w, hw, he⟩ := setUnion_has_right attrLt_sw (xs := xs) h
      rw [attr_equiv_eq (hy z h) he]
      exact hw

/-- **C32 (merge is union of attribute sets).** For sets of supported attributes, merging unknown
sets has exactly the attributes of both. -/
theorem merge_attrs_mem (u v : UnknownSet) (hu : WellFormedUnknown u) (hv : WellFormedUnknown v)
    (a : Attr) : a ∈ (u.merge v).attrs ↔ a ∈ u.attrs ∨ a ∈ v.attrs := by
  unfold UnknownSet.merge
  simp only
  rw [mem_attrUnion hv.2.1, mem_attrUnion hu.2.1]
  simp

/-- **C32 (any merge).** Without any hypothesis, merging never invents attributes or function
results. -/
theorem merge_no_new (u v : UnknownSet) :
    (∀ a ∈ (u.merge v).attrs, a ∈ u.attrs ∨ a ∈ v.attrs) ∧
    (∀ f ∈ (u.merge v).fns, f ∈ u.fns ∨ f ∈ v.fns) := by
  constructor
  · intro a ha
    rcases mem_setUnion ha with h | h
    · rcases mem_setUnion h with h | h
      · simp at h
      · exact Or.inl h
    · exact Or.inr h
  · intro a ha
    rcases mem_setUnion ha with h | h
    · rcases mem_setUnion h with h | h
      · simp at h
      · exact Or.inl h
    · exact Or.inr h

theorem merge_wf (u v : UnknownSet) (hu : WellFormedUnknown u) (hv : WellFormedUnknown v) :
    WellFormedUnknown (u.merge v) := by
  refine ⟨?_, ?_, ?_⟩
  · exact ascending_setUnion attrLt_sw (ascending_setUnion attrLt_sw (by simp [Ascending]))
  · intro a ha
    rcases (merge_attrs_mem u v hu hv a).mp ha with h | h
    · exact hu.2.1 a h
    · exact hv.2.1 a h
  · exact ascending_setUnion fnResultLt_sw (ascending_setUnion fnResultLt_sw (by simp [Ascending]))

/-- **C32 (set algebra).** On unknown sets of supported attributes, merging is commutative,
associative and idempotent on the attributes. -/
theorem merge_attrs_algebra (u v w : UnknownSet) (hu : WellFormedUnknown u) (hv : WellFormedUnknown v)
    (hw : WellFormedUnknown w) :
    (u.merge v).attrs = (v.merge u).attrs ∧
    ((u.merge v).merge w).attrs = (u.merge (v.merge w)).attrs ∧
    (u.merge u).attrs = u.attrs := by
  have huv := merge_wf u v hu hv
  have hvu := merge_wf v u hv hu
  have hvw := merge_wf v w hv hw
  refine ⟨?_, ?_, ?_⟩
  · refine ascending_ext attrLt_sw huv.1 hvu.1 ?_
    intro z
    rw [merge_attrs_mem u v hu hv, merge_attrs_mem v u hv hu]
    exact or_comm
  · refine ascending_ext attrLt_sw (merge_wf _ _ huv hw).1 (merge_wf _ _ hu hvw).1 ?_
    intro z
    rw [merge_attrs_mem _ w huv hw, merge_attrs_mem u v hu hv, merge_attrs_mem u _ hu hvw,
      merge_attrs_mem v w hv hw]
    exact or_assoc
  · refine ascending_ext attrLt_sw (merge_wf _ _ hu hu).1 hu.1 ?_
    intro z
    rw [merge_attrs_mem u u hu hu]
    exact or_self_iff

/-- Function results in a set are compared by descriptor only; two sets *denote* the same results if
they have the same descriptors. -/
def SameFns (xs ys : List FnResult) : Prop :=
  (∀ f ∈ xs, ∃ g ∈ ys, FnDesc.eq f.desc g.desc = true) ∧
  (∀ g ∈ ys, ∃ f ∈ xs, FnDesc.eq g.desc f.desc = true)

theorem merge_fns_has (u v : UnknownSet) (f : FnResult) (h : f ∈ u.fns ∨ f ∈ v.fns) :
    ∃ g ∈ (u.merge v).fns, FnDesc.eq f.desc g.desc = true := by
  have conv : ∀ a b : FnResult, StrictWeak.Equiv FnResult.lt a b → FnDesc.eq a.desc b.desc = true :=
    fun a b h => (fn_desc_order.2.2.2 a.desc b.desc).mp h
  unfold UnknownSet.merge fnUnion
  simp only
  rcases h with h | h
  · obtain ⟨w, hw, he⟩ := setUnion_has_right fnResultLt_sw (xs := []) h
    exact ⟨w, subset_setUnion_left hw, conv _ _ he⟩
  · obtain ⟨w, hw, he⟩ := setUnion_has_right fnResultLt_sw (xs := setUnion FnResult.lt [] u.fns) h
    exact ⟨w, hw, conv _ _ he⟩

/-- **C32 (function results).** Merging unions the unknown function results, identified by
descriptor; the order of merging is irrelevant. -/
theorem merge_fns_comm (u v : UnknownSet) : SameFns (u.merge v).fns (v.merge u).fns := by
  constructor
  · intro f hf
    exact merge_fns_has v u f (((merge_no_new u v).2 f hf).symm)
  · intro f hf
    exact merge_fns_has u v f (((merge_no_new v u).2 f hf).symm)

example : WellFormedUnknown ⟨[⟨"x", [.str "f"]⟩, ⟨"y", [.str "f"]⟩], []⟩ := by
  refine ⟨⟨?_, ⟨?_, trivial⟩⟩, ?_, trivial⟩
  · intro y hy; simp at hy; subst hy; decide
  · simp
  · intro a ha q hq k; simp at ha; rcases ha with h | h <;> subst h <;> simp at hq <;> subst hq <;> simp

end Cel.Eval
