import Verif.Types.Infer5

/-!
# C60: the steps of the evaluator keep to the typing rules
-/

set_option linter.unusedSimpArgs false
set_option linter.unusedVariables false
set_option linter.unusedTactic false
set_option linter.unreachableTactic false

namespace Cel.Types
open Cel Cel.Eval Cel.Data Cel.Direct Cel.Checker

/-! ## Errors that are no type errors -/

theorem not_typeError {s : Status} (p : List Char) (h : p <+: s.msg.toList)
    (hd : typeErrorTexts.all (fun q => !(q.isPrefixOf p) && !(p.isPrefixOf q)) = true) : ¬ TypeError s := by
  rintro ⟨q, hq, hp⟩
  have hb := List.all_eq_true.mp hd q hq
  rw [Bool.and_eq_true, Bool.not_eq_true', Bool.not_eq_true'] at hb
  rcases List.prefix_or_prefix_of_prefix h hp with h1 | h1
  · rw [← List.isPrefixOf_iff_prefix, hb.2] at h1
    exact nomatch h1
  · rw [← List.isPrefixOf_iff_prefix, hb.1] at h1
    exact nomatch h1

theorem not_typeError_append {c : StatusCode} {a b : String}
    (hd : typeErrorTexts.all (fun q => !(q.isPrefixOf a.toList) && !(a.toList.isPrefixOf q)) = true) : ¬ TypeError ⟨c, a ++ b⟩ :=
  not_typeError a.toList (by simp) hd

theorem ne_noSuchKey (k : String) : ¬ TypeError (noSuchKey k) := by
  unfold noSuchKey
  rw [String.append_assoc]
  exact not_typeError_append (by decide)

theorem ne_missing (k : String) : ¬ TypeError (missingAttribute k) := not_typeError_append (by decide)

theorem ne_range (i : Int) (n : Nat) : ¬ TypeError (indexRangeError i n) := by
  unfold indexRangeError
  rw [String.append_assoc, String.append_assoc]
  exact not_typeError_append (by decide)

theorem ne_literal {c : StatusCode} {a : String}
    (hd : typeErrorTexts.all (fun q => !(q.isPrefixOf a.toList) && !(a.toList.isPrefixOf q)) = true) : ¬ TypeError ⟨c, a⟩ :=
  not_typeError a.toList (List.prefix_refl _) hd

theorem ne_budget : ¬ TypeError budgetError := ne_literal (by decide)

/-! ## Values -/

theorem HasType.value {t : Ty} {v : Value} (h : HasType t v) : v.isError = false ∧ v.isUnknown = false := by
  induction h with
  | dyn h1 h2 => exact ⟨h1, h2⟩
  | any h1 h2 => exact ⟨h1, h2⟩
  | wrapper _ _ ih => exact ih
  | _ => exact ⟨rfl, rfl⟩

theorem HasType.ne_error {t : Ty} {s : Status} (h : HasType t (.error s)) : False := nomatch h.value.1
theorem HasType.ne_unknown {t : Ty} {u : UnknownSet} (h : HasType t (.unknown u)) : False := nomatch h.value.2

theorem HasType.bool_inv {v : Value} (h : HasType (.b .bool) v) : ∃ b, v = .bool b := by
  generalize ht : Ty.b .bool = t at h
  cases h <;> cases ht <;> first
    | exact ⟨_, rfl⟩
    | (rename_i hw; cases hw)
    | (rename_i hw _; cases hw)

theorem HasType.int_inv {v : Value} (h : HasType (.b .int) v) : ∃ b, v = .int b := by
  generalize ht : Ty.b .int = t at h
  cases h <;> cases ht <;> first
    | exact ⟨_, rfl⟩
    | (rename_i hw; cases hw)
    | (rename_i hw _; cases hw)

theorem HasType.uint_inv {v : Value} (h : HasType (.b .uint) v) : ∃ b, v = .uint b := by
  generalize ht : Ty.b .uint = t at h
  cases h <;> cases ht <;> first
    | exact ⟨_, rfl⟩
    | (rename_i hw; cases hw)
    | (rename_i hw _; cases hw)

theorem HasType.string_inv {v : Value} (h : HasType (.b .string) v) : ∃ b, v = .str b := by
  generalize ht : Ty.b .string = t at h
  cases h <;> cases ht <;> first
    | exact ⟨_, rfl⟩
    | (rename_i hw; cases hw)
    | (rename_i hw _; cases hw)

theorem HasType.list_inv {t : Ty} {v : Value} (h : HasType (.con .list [t]) v) : ∃ l, v = .list l ∧ ∀ w ∈ l, HasType t w := by
  generalize ht : Ty.con .list [t] = t at h
  cases h <;> cases ht
  exact ⟨_, rfl, by assumption⟩

theorem HasType.map_inv {k t : Ty} {v : Value} (h : HasType (.con .map [k, t]) v) :
    ∃ m, v = .map m ∧ (∀ e ∈ m, HasType k e.1) ∧ ∀ e ∈ m, HasType t e.2 := by
  generalize ht : Ty.con .map [k, t] = t at h
  cases h <;> cases ht
  exact ⟨_, rfl, by assumption, by assumption⟩

theorem HasType.struct_inv {n : String} {v : Value} (h : HasType (.con (.struct n) []) v) : ∃ i, v = .struct n i := by
  generalize ht : Ty.con (.struct n) [] = t at h
  cases h <;> cases ht
  exact ⟨_, rfl⟩

theorem HasType.enum_inv {n : String} {v : Value} (h : HasType (.con (.enum n) []) v) : ∃ i, v = .int i := by
  generalize ht : Ty.con (.enum n) [] = t at h
  cases h <;> cases ht
  exact ⟨_, rfl⟩

theorem HasType.opt_inv {t : Ty} {v : Value} (h : HasType (optionalTy t) v) : v = .opt none ∨ ∃ w, v = .opt (some w) ∧ HasType t w := by
  unfold optionalTy at h
  generalize ht : Ty.con (.opaque "optional_type") [t] = t at h
  cases h <;> cases ht <;> first
    | exact .inl rfl
    | exact .inr ⟨_, rfl, by assumption⟩
    | (rename_i hn; exact absurd rfl hn)

/-! ## Boolean operators -/

theorem Fine.cases3 {u : Bool} {t : Ty} {v : Value} (h : Fine u t v) :
    HasType t v ∨ (∃ s, v = .error s ∧ ¬ TypeError s) ∨ ∃ w, v = .unknown w ∧ u = true := by
  cases h with
  | value h => exact .inl h
  | error h => exact .inr (.inl ⟨_, rfl, h⟩)
  | unknown w h => exact .inr (.inr ⟨_, rfl, h⟩)

theorem Fine.bool_cases {u : Bool} {v : Value} (h : Fine u (.b .bool) v) :
    (∃ b, v = .bool b) ∨ (∃ s, v = .error s ∧ ¬ TypeError s) ∨ ∃ w, v = .unknown w ∧ u = true := by
  rcases h.cases3 with h | h
  · exact .inl h.bool_inv
  · exact .inr h

theorem Fine.bool {u : Bool} (b : Bool) : Fine u (.b .bool) (.bool b) := .value (.bool b)

theorem calcLogic_fine {u isOr : Bool} {a b : Value} (ha : Fine u (.b .bool) a) (hb : Fine u (.b .bool) b) :
    Fine u (.b .bool) (calcLogic isOr u a b) := by
  rcases ha.bool_cases with ⟨x, rfl⟩ | ⟨s, rfl, hs⟩ | ⟨w, rfl, rfl⟩ <;> rcases hb.bool_cases with ⟨y, rfl⟩ | ⟨s', rfl, hs'⟩ | ⟨w', rfl, hu⟩
  all_goals
    unfold calcLogic
    dsimp only
    repeat' split
    all_goals first
      | exact .bool _
      | (subst hu; exact .unknown _ rfl)
      | exact .unknown _ rfl
      | skip
  all_goals
    unfold calcLogic.rest
    dsimp only
    split
    · rename_i hm
      first
      | exact .unknown _ rfl
      | (subst hu; exact .unknown _ rfl)
      | (split at hm
         · exact nomatch hm
         · exact nomatch hm)
    · rename_i hm
      first
      | exact .error hs
      | exact .error hs'
      | exact nomatch hm
      | (subst hu; exact nomatch hm)

theorem not_fine {u : Bool} {pats : List Pattern} {x : VA} (h : Fine u (.b .bool) x.v) : Fine u (.b .bool) (notStep u pats x).v := by
  unfold notStep
  split
  · rename_i hm
    split at hm
    · rename_i hc; exact .unknown _ hc.1
    · exact nomatch hm
  · rcases h.bool_cases with ⟨b, e⟩ | ⟨s, e, hs⟩ | ⟨w, e, hu⟩ <;> rw [e]
    · exact .bool _
    · dsimp only; rw [e]; exact .error hs
    · dsimp only; rw [e]; exact .unknown _ hu

theorem nsf_fine {u : Bool} {x : VA} (h : Fine u (.b .bool) x.v) : Fine u (.b .bool) (notStrictlyFalse x).v := by
  unfold notStrictlyFalse
  rcases h.bool_cases with ⟨b, e⟩ | ⟨s, e, hs⟩ | ⟨w, e, hu⟩ <;> rw [e]
  · dsimp only; rw [e]; exact .bool _
  · exact .bool _
  · exact .bool _

/-! ## Equality and membership -/

theorem mapFind_mem {key v : Value} : ∀ m : List (Value × Value), mapFind m key = some v → ∃ e ∈ m, e.2 = v
  | [], h => nomatch h
  | (k, w) :: m, h => by
    rw [mapFind] at h
    split at h
    · injection h with h
      exact ⟨(k, w), by simp, h⟩
    · obtain ⟨e, he, h⟩ := mapFind_mem m h
      exact ⟨e, by simp [he], h⟩

theorem findInt_mem {v : Value} {m : List (Value × Value)} {n : Num.Number} (h : findInt m n = some v) : ∃ e ∈ m, e.2 = v := by
  unfold findInt at h
  split at h
  · exact mapFind_mem m h
  · exact nomatch h

theorem findUint_mem {v : Value} {m : List (Value × Value)} {n : Num.Number} (h : findUint m n = some v) : ∃ e ∈ m, e.2 = v := by
  unfold findUint at h
  split at h
  · exact mapFind_mem m h
  · exact nomatch h

theorem hetFind_mem {key v : Value} {m : List (Value × Value)} (h : hetFind key m = some v) : ∃ e ∈ m, e.2 = v := by
  unfold hetFind at h
  split at h
  · rename_i hf
    injection h with h
    subst h
    exact mapFind_mem m hf
  · unfold altFind at h
    split at h
    · exact nomatch h
    · split at h
      · rename_i hf
        injection h with h
        subst h
        split at hf
        · exact nomatch hf
        · exact findInt_mem hf
      · split at h
        · exact nomatch h
        · exact findUint_mem h

/-- A value with no error or unknown inside its lists and maps. -/
inductive Solid : Value → Prop
  | list {l} : (∀ v ∈ l, Solid v) → Solid (.list l)
  | map {m} : (∀ e ∈ m, Solid e.2) → Solid (.map m)
  | other {v} : v.isError = false → v.isUnknown = false → (∀ l, v ≠ .list l) → (∀ m, v ≠ .map m) → Solid v

theorem solid_of_hasType {l : Bool} {t : Ty} {v : Value} (h : HasType t v) : Strict l t → Solid v := by
  have hb : ∀ {t v}, HasType t v → (∀ l, v ≠ .list l) → (∀ m, v ≠ .map m) → Solid v := fun h h1 h2 => .other h.value.1 h.value.2 h1 h2
  induction h with
  | list _ ih => intro hs; exact .list (fun v hv => ih v hv (strict_list hs))
  | map _ _ _ ih => intro hs; exact .map (fun e he => ih e he (strict_map hs).2)
  | wrapper hw _ _ => intro hs; cases hs with | base hb => cases hw <;> exact hb.elim
  | dyn _ _ => intro hs; exact (strict_dyn hs).elim
  | any _ _ => intro hs; exact (strict_any hs).elim
  | _ => intro _; exact .other rfl rfl (fun _ e => nomatch e) (fun _ e => nomatch e)

theorem valueEqual_some {v : Value} (h : Solid v) : ∀ w, Solid w → valueEqual v w ≠ none := by
  induction h with
  | @list a h ih =>
    intro w hw
    cases hw with
    | @list b hb =>
      rw [valueEqual]
      split
      · clear h
        rename_i hl
        clear hl
        induction a generalizing b with
        | nil => rw [listEqual]; exact nofun; simp
        | cons x xs ih2 =>
          cases b with
          | nil => rw [listEqual]; exact nofun; simp
          | cons y ys =>
            rw [listEqual]
            have := ih x (by simp) y (hb y (by simp))
            split
            · exact ih2 (fun v hv => ih v (by simp [hv])) (fun v hv => hb v (by simp [hv]))
            · exact this
      · exact nofun
    | @map b hb => rw [valueEqual]; exact nofun; all_goals simp
    | other h1 h2 h3 h4 =>
      unfold valueEqual
      split <;> first | (intro hh; cases hh; done) | exact absurd rfl (h3 _) | exact absurd rfl (h4 _) | exact absurd rfl (g3 _) | exact absurd rfl (g4 _) | exact Bool.noConfusion h1 | exact Bool.noConfusion h2 | exact Bool.noConfusion g1 | exact Bool.noConfusion g2 | contradiction
  | @map a h ih =>
    intro w hw
    cases hw with
    | @map b hb =>
      rw [valueEqual]
      split
      · clear h
        rename_i hl
        clear hl
        induction a with
        | nil => rw [mapEqual]; exact nofun
        | cons x xs ih2 =>
          obtain ⟨k, x⟩ := x
          rw [mapEqual]
          split
          · exact nofun
          · rename_i w hf
            obtain ⟨e, he, rfl⟩ := hetFind_mem hf
            have := ih (k, x) (by simp) e.2 (hb e he)
            split
            · exact ih2 (fun v hv => ih v (by simp [hv]))
            · exact this
      · exact nofun
    | @list b hb => rw [valueEqual]; exact nofun; all_goals simp
    | other h1 h2 h3 h4 =>
      unfold valueEqual
      split <;> first | (intro hh; cases hh; done) | exact absurd rfl (h3 _) | exact absurd rfl (h4 _) | exact absurd rfl (g3 _) | exact absurd rfl (g4 _) | exact Bool.noConfusion h1 | exact Bool.noConfusion h2 | exact Bool.noConfusion g1 | exact Bool.noConfusion g2 | contradiction
  | other h1 h2 h3 h4 =>
    intro w hw
    cases hw with
    | list hb => unfold valueEqual; split <;> first | (intro hh; cases hh; done) | exact absurd rfl (h3 _) | exact absurd rfl (h4 _) | exact absurd rfl (g3 _) | exact absurd rfl (g4 _) | exact Bool.noConfusion h1 | exact Bool.noConfusion h2 | exact Bool.noConfusion g1 | exact Bool.noConfusion g2 | contradiction
    | map hb => unfold valueEqual; split <;> first | (intro hh; cases hh; done) | exact absurd rfl (h3 _) | exact absurd rfl (h4 _) | exact absurd rfl (g3 _) | exact absurd rfl (g4 _) | exact Bool.noConfusion h1 | exact Bool.noConfusion h2 | exact Bool.noConfusion g1 | exact Bool.noConfusion g2 | contradiction
    | other g1 g2 g3 g4 =>
      unfold valueEqual
      split <;> first | (intro hh; cases hh; done) | exact absurd rfl (h3 _) | exact absurd rfl (h4 _) | exact absurd rfl (g3 _) | exact absurd rfl (g4 _) | exact Bool.noConfusion h1 | exact Bool.noConfusion h2 | exact Bool.noConfusion g1 | exact Bool.noConfusion g2 | contradiction

theorem Fine.solid {u l : Bool} {t : Ty} {v : Value} (h : Fine u t v) (hs : Strict l t) :
    Solid v ∨ (∃ s, v = .error s ∧ ¬ TypeError s) ∨ ∃ w, v = .unknown w ∧ u = true := by
  rcases h.cases3 with h | h
  · exact .inl (solid_of_hasType h hs)
  · exact .inr h

theorem maybeAdd_unknown {pats : List Pattern} {acc : Option UnknownSet} {x : VA} {w : UnknownSet} (h : x.v = .unknown w) :
    maybeAdd pats acc x ≠ none := by
  unfold maybeAdd
  rw [h]
  exact nofun

theorem maybeAdd_some {pats : List Pattern} {acc : UnknownSet} {x : VA} : maybeAdd pats (some acc) x ≠ none := by
  unfold maybeAdd
  split
  · exact nofun
  · split <;> exact nofun

theorem eq_fine {c : StepCfg} {neg l : Bool} {s t : Ty} {x y : VA} (hx : Fine c.unknowns s x.v) (hy : Fine c.unknowns t y.v) (hs : Strict l s)
    (ht : Strict l t) : Fine c.unknowns (.b .bool) (eqEval c neg x y) := by
  unfold eqEval
  split
  · rename_i e
    rcases hx.cases3 with h | ⟨s, h, hn⟩ | ⟨w, h, hu⟩
    · rw [e] at h; exact h.ne_error.elim
    · rw [e] at h; cases h; exact .error hn
    · rw [e] at h; exact nomatch h
  · rename_i e _
    rcases hy.cases3 with h | ⟨s, h, hn⟩ | ⟨w, h, hu⟩
    · rw [e] at h; exact h.ne_error.elim
    · rw [e] at h; cases h; exact .error hn
    · rw [e] at h; exact nomatch h
  · rename_i n1 n2
    split
    · rename_i hm
      split at hm
      · rename_i hu; exact .unknown _ hu
      · exact nomatch hm
    · rename_i hm
      have sx : Solid x.v := by
        rcases hx.solid hs with h | ⟨s, h, hn⟩ | ⟨w, h, hu⟩
        · exact h
        · exact absurd h (n1 _)
        · rw [if_pos hu] at hm
          have hw := maybeAdd_unknown (pats := c.pats) (acc := none) h
          cases hq : maybeAdd c.pats none x with
          | none => exact absurd hq hw
          | some q => rw [hq] at hm; exact absurd hm maybeAdd_some
      have sy : Solid y.v := by
        rcases hy.solid ht with h | ⟨s, h, hn⟩ | ⟨w, h, hu⟩
        · exact h
        · exact absurd h (n2 _)
        · rw [if_pos hu] at hm
          exact absurd hm (maybeAdd_unknown h)
      split
      · rename_i hv; exact absurd hv (valueEqual_some sx _ sy)
      · exact .bool _

theorem inMap_fine {u : Bool} {k : Ty} {v : Value} (hk : KeyTy k) (h : HasType k v) (m : List (Value × Value)) : Fine u (.b .bool) (inMap v m) := by
  rcases hk with rfl | rfl | rfl | rfl
  · obtain ⟨b, rfl⟩ := h.bool_inv; exact .bool _
  · obtain ⟨b, rfl⟩ := h.int_inv; exact .bool _
  · obtain ⟨b, rfl⟩ := h.uint_inv; exact .bool _
  · obtain ⟨b, rfl⟩ := h.string_inv; exact .bool _

theorem in_fine {c : StepCfg} {s t : Ty} {x y : VA} (hx : Fine c.unknowns s x.v) (hy : Fine c.unknowns t y.v)
    (ht : (∃ e, t = listOf e) ∨ ∃ v, KeyTy s ∧ t = mapOf s v) : Fine c.unknowns (.b .bool) (inEval c x y) := by
  unfold inEval
  split
  · rename_i e
    rcases hx.cases3 with h | ⟨s, h, hn⟩ | ⟨w, h, hu⟩
    · rw [e] at h; exact h.ne_error.elim
    · rw [e] at h; cases h; exact .error hn
    · rw [e] at h; exact nomatch h
  · rename_i e _
    rcases hy.cases3 with h | ⟨s, h, hn⟩ | ⟨w, h, hu⟩
    · rw [e] at h; exact h.ne_error.elim
    · rw [e] at h; cases h; exact .error hn
    · rw [e] at h; exact nomatch h
  · rename_i n1 n2
    split
    · rename_i hm
      split at hm
      · rename_i hu; exact .unknown _ hu
      · exact nomatch hm
    · rename_i hm
      have sx : HasType s x.v := by
        rcases hx.cases3 with h | ⟨s, h, hn⟩ | ⟨w, h, hu⟩
        · exact h
        · exact absurd h (n1 _)
        · rw [if_pos hu] at hm
          have hw := maybeAdd_unknown (pats := c.pats) (acc := none) h
          cases hq : maybeAdd c.pats none x with
          | none => exact absurd hq hw
          | some q => rw [hq] at hm; exact absurd hm maybeAdd_some
      have sy : HasType t y.v := by
        rcases hy.cases3 with h | ⟨s, h, hn⟩ | ⟨w, h, hu⟩
        · exact h
        · exact absurd h (n2 _)
        · rw [if_pos hu] at hm
          exact absurd hm (maybeAdd_unknown h)
      rcases ht with ⟨e, rfl⟩ | ⟨v, hk, rfl⟩
      · obtain ⟨l, hl, _⟩ := sy.list_inv
        rw [hl]
        exact .bool _
      · obtain ⟨m, hm, _⟩ := sy.map_inv
        rw [hm]
        exact inMap_fine hk sx m

/-! ## List and map literals -/

theorem firstError_mem {e : Value} : ∀ vs : List Value, firstError vs = some e → e ∈ vs ∧ e.isError = true
  | [], h => nomatch h
  | .error s :: vs, h => by
    rw [firstError] at h
    injection h with h
    subst h
    exact ⟨by simp, rfl⟩
  | v :: vs, h => by
    unfold firstError at h
    split at h
    · exact nomatch h
    · rename_i e
      injection e with e1 e2
      injection h with h
      subst h e1
      exact ⟨by simp, rfl⟩
    · rename_i e
      injection e with e1 e2
      subst e2
      obtain ⟨h1, h2⟩ := firstError_mem _ h
      exact ⟨by simp [h1], h2⟩

theorem firstError_fine {u : Bool} {a : Ty} {e : Value} {xs : List VA} (hx : ∀ x ∈ xs, ∃ t, Fine u t x.v) (h : firstError (xs.map VA.v) = some e) :
    Fine u a e := by
  obtain ⟨h1, h2⟩ := firstError_mem _ h
  obtain ⟨x, hm, rfl⟩ := List.mem_map.mp h1
  obtain ⟨t, ht⟩ := hx x hm
  rcases ht.cases3 with h | ⟨s, h, hn⟩ | ⟨w, h, hu⟩
  · rw [h.value.1] at h2; exact nomatch h2
  · rw [h]; exact .error hn
  · rw [h] at h2; exact nomatch h2

theorem mergeLoop_some : ∀ (vs : List Value) (r : UnknownSet), mergeLoop vs (some r) ≠ none
  | [], r => nofun
  | .unknown u :: vs, r => by rw [mergeLoop]; exact mergeLoop_some vs _
  | v :: vs, r => by
    unfold mergeLoop
    split
    · exact nofun
    · rename_i e; injection e with e1 e2; subst e2; exact mergeLoop_some _ _
    · rename_i e; injection e with e1 e2; subst e2; exact mergeLoop_some _ _

theorem mergeUnknowns_none : ∀ vs : List Value, mergeUnknowns vs = none → ∀ v ∈ vs, v.isUnknown = false := by
  intro vs
  induction vs with
  | nil => intro _ v hv; exact nomatch hv
  | cons a vs ih =>
    intro h v hv
    unfold mergeUnknowns mergeLoop at h
    split at h
    · rename_i e; exact nomatch e
    · exact absurd h (mergeLoop_some _ _)
    · rename_i hn e
      injection e with e1 e2
      subst e1 e2
      rcases List.mem_cons.mp hv with rfl | hv
      · cases v <;> first | rfl | exact absurd rfl (hn _)
      · exact ih h v hv

theorem identify_none {pats : List Pattern} {p : Bool} {xs : List VA} (h : identifyAndMerge pats p xs = none) :
    ∀ x ∈ xs, x.v.isUnknown = false := by
  unfold identifyAndMerge at h
  dsimp only at h
  split at h
  · intro x hx
    exact mergeUnknowns_none _ h _ (List.mem_map.mpr ⟨x, hx, rfl⟩)
  · split at h <;> exact nomatch h

/-- `FineRes` for a value without its trail. -/
def FineVal (unknowns : Bool) (t : Ty) : Res Value → Prop
  | .ok v => Fine unknowns t v
  | .err s => ¬ TypeError s
  | .ub => False

theorem FineVal.res {u : Bool} {t : Ty} {r : Res Value} {tr : Trail} (h : FineVal u t r) : FineRes u t (do return ⟨← r, tr⟩) := by
  cases r <;> exact h

theorem buildList_fine {c : StepCfg} {t : Ty} : ∀ (i : Nat) (vs acc : List Value), (∀ v ∈ vs, Fine c.unknowns t v) → (∀ v ∈ acc, HasType t v) →
    FineVal c.unknowns (.con .list [t]) (buildList c (fun _ => false) i vs acc) := by
  intro i vs
  induction vs generalizing i with
  | nil => intro acc _ ha; exact .value (.list ha)
  | cons v vs ih =>
    intro acc hv ha
    rw [buildList.eq_def]
    dsimp only
    rw [if_neg (by simp)]
    rcases (hv v (by simp)).cases3 with h | ⟨s, h, hn⟩ | ⟨w, h, hu⟩
    · have : checkElement v = none := by
        unfold checkElement
        split
        · exact h.ne_error.elim
        · exact h.ne_unknown.elim
        · rfl
      rw [this]
      exact ih _ _ (fun w hw => hv w (by simp [hw])) (fun w hw => by
        rcases List.mem_append.mp hw with hw | hw
        · exact ha w hw
        · rw [List.mem_singleton.mp hw]; exact h)
    · subst h; exact hn
    · subst h; exact ne_literal (by decide)

theorem list_fine {c : StepCfg} {t : Ty} {xs : List VA} (hx : ∀ x ∈ xs, Fine c.unknowns t x.v) :
    FineRes c.unknowns (.con .list [t]) (listStep c (fun _ => false) xs) := by
  unfold listStep
  refine FineVal.res ?_
  unfold listEval
  split
  · rename_i h
    exact firstError_fine (fun x hm => ⟨t, hx x hm⟩) h
  · split
    · rename_i hm
      split at hm
      · rename_i hu; exact Fine.unknown _ hu
      · exact nomatch hm
    · exact buildList_fine _ _ _ (fun v hv => by obtain ⟨x, hm, rfl⟩ := List.mem_map.mp hv; exact hx x hm) (fun v hv => nomatch hv)

theorem key_check {k : Ty} {v : Value} (hk : KeyTy k) (h : HasType k v) : checkMapKey v = none := by
  rcases hk with rfl | rfl | rfl | rfl
  · obtain ⟨b, rfl⟩ := h.bool_inv; rfl
  · obtain ⟨b, rfl⟩ := h.int_inv; rfl
  · obtain ⟨b, rfl⟩ := h.uint_inv; rfl
  · obtain ⟨b, rfl⟩ := h.string_inv; rfl

theorem buildMap_fine {c : StepCfg} {k t : Ty} (hk : KeyTy k) : ∀ (i : Nat) (es acc : List (Value × Value)),
    (∀ e ∈ es, HasType k e.1 ∨ ∃ s, e.1 = .error s ∧ ¬ TypeError s) → (∀ e ∈ es, Fine c.unknowns t e.2) →
    (∀ e ∈ acc, HasType k e.1) → (∀ e ∈ acc, HasType t e.2) →
    FineVal c.unknowns (.con .map [k, t]) (buildMap c (fun _ => false) i es acc) := by
  intro i es
  induction es generalizing i with
  | nil => intro acc _ _ h1 h2; exact Fine.value (.map h1 h2)
  | cons e es ih =>
    obtain ⟨x, v⟩ := e
    intro acc g1 g2 h1 h2
    rw [buildMap.eq_def]
    dsimp only
    rcases g1 (x, v) (by simp) with hx | ⟨s, hx, hn⟩
    · rw [key_check hk hx]
      dsimp only
      rw [if_neg (by simp)]
      unfold mapPut
      rw [key_check hk hx]
      dsimp only
      rcases (g2 (x, v) (by simp)).cases3 with h | ⟨s, h, hn⟩ | ⟨w, h, hu⟩
      · have : checkElement v = none := by
          have h : HasType t v := h
          unfold checkElement
          split
          · exact h.ne_error.elim
          · exact h.ne_unknown.elim
          · rfl
        rw [this]
        dsimp only
        by_cases hd : mapHas acc x = true
        · rw [if_pos hd]
          exact ne_literal (by decide)
        · rw [if_neg hd]
          refine ih _ _ (fun e he => g1 e (by simp [he])) (fun e he => g2 e (by simp [he])) (fun e he => ?_) (fun e he => ?_)
          · rcases List.mem_append.mp he with he | he
            · exact h1 e he
            · rw [List.mem_singleton.mp he]; exact hx
          · rcases List.mem_append.mp he with he | he
            · exact h2 e he
            · rw [List.mem_singleton.mp he]; exact h
      · have h : v = .error s := h
        subst h; exact hn
      · have h : v = .unknown w := h
        subst h; exact ne_literal (by decide)
    · have hx : x = .error s := hx
      subst hx
      exact Fine.error hn

theorem pairUp_mem {e : Value × Value} : ∀ vs : List Value, e ∈ pairUp vs → e.1 ∈ evens vs ∧ e.2 ∈ odds vs
  | [], h => nomatch h
  | [_], h => nomatch h
  | k :: v :: r, h => by
    rw [pairUp] at h
    rw [evens, odds]
    rcases List.mem_cons.mp h with rfl | h
    · simp
    · have := pairUp_mem r h
      simp [this]

theorem evens_map {α β : Type} (f : α → β) : ∀ as : List α, evens (as.map f) = (evens as).map f
  | [] => rfl
  | [_] => rfl
  | k :: v :: r => by simp [evens, evens_map f r]
theorem odds_map {α β : Type} (f : α → β) : ∀ as : List α, odds (as.map f) = (odds as).map f
  | [] => rfl
  | [_] => rfl
  | k :: v :: r => by simp [odds, odds_map f r]

theorem map_fine {c : StepCfg} {k t : Ty} (hk : KeyTy k) {xs : List VA} (hall : ∀ x ∈ xs, ∃ t, Fine c.unknowns t x.v)
    (h1 : ∀ x ∈ evens xs, Fine c.unknowns k x.v) (h2 : ∀ x ∈ odds xs, Fine c.unknowns t x.v) :
    FineRes c.unknowns (.con .map [k, t]) (mapStep c (fun _ => false) xs) := by
  unfold mapStep
  refine FineVal.res ?_
  unfold mapEval
  split
  · rename_i h
    exact firstError_fine hall h
  · split
    · rename_i hm
      split at hm
      · rename_i hu; exact Fine.unknown _ hu
      · exact nomatch hm
    · rename_i hm
      refine buildMap_fine hk _ _ _ (fun e he => ?_) (fun e he => ?_) (fun v hv => nomatch hv) (fun v hv => nomatch hv)
      · have hme := (pairUp_mem _ he).1
        rw [evens_map] at hme
        obtain ⟨x, hx, hxe⟩ := List.mem_map.mp hme
        rcases (h1 x hx).cases3 with h | ⟨s, h, hn⟩ | ⟨w, h, hu⟩
        · rw [hxe] at h; exact .inl h
        · rw [hxe] at h; exact .inr ⟨s, h, hn⟩
        · rw [if_pos hu] at hm
          have := identify_none hm x (mem_evens _ hx)
          rw [h] at this
          exact nomatch this
      · have hme := (pairUp_mem _ he).2
        rw [odds_map] at hme
        obtain ⟨x, hx, hxe⟩ := List.mem_map.mp hme
        rw [← hxe]
        exact h2 x hx

/-! ## Indexing -/

theorem Fine.opt_wrap {u : Bool} {t : Ty} {v : Value} (h : HasType t v) : Fine u (optionalTy t) (.opt (some v)) := .value (.optSome h)

/-- Looking up a typed container by a typed key. -/
theorem lookup_list {c : StepCfg} {t : Ty} {v k : Value} (hv : HasType (listOf t) v) (hk : HasType (.b .int) k) :
    HasType t (lookupIn c v k) ∨ ∃ s, lookupIn c v k = .error s ∧ ¬ TypeError s := by
  obtain ⟨l, rfl, hl⟩ := hv.list_inv
  obtain ⟨i, rfl⟩ := hk.int_inv
  rw [lookupIn, lookupInList]
  dsimp only [numOf]
  split
  · rename_i h
    exact nomatch h
  · split
    · exact .inr ⟨_, rfl, ne_range _ _⟩
    · split
      · rename_i h; exact .inl (hl _ (List.mem_of_getElem? h))
      · exact .inr ⟨_, rfl, ne_range _ _⟩

theorem lookup_map {c : StepCfg} {k t : Ty} {v x : Value} (hk : KeyTy k) (hv : HasType (mapOf k t) v) (hx : HasType k x) :
    HasType t (lookupIn c v x) ∨ ∃ s, lookupIn c v x = .error (noSuchKey s) := by
  obtain ⟨m, rfl, _, hm⟩ := hv.map_inv
  have hf : ∀ {w}, (∃ e ∈ m, e.2 = w) → HasType t w := by rintro w ⟨e, he, rfl⟩; exact hm e he
  rw [lookupIn, lookupInMap]
  split
  · split
    · rename_i h
      split at h
      · exact .inl (hf (mapFind_mem _ h))
      · exact nomatch h
    · split
      · rename_i h; exact .inl (hf (findInt_mem h))
      · split
        · rename_i h; exact .inl (hf (findUint_mem h))
        · exact .inr ⟨_, rfl⟩
  · have : keyKind x = true := by
      rcases hk with rfl | rfl | rfl | rfl
      · obtain ⟨b, rfl⟩ := hx.bool_inv; rfl
      · obtain ⟨b, rfl⟩ := hx.int_inv; rfl
      · obtain ⟨b, rfl⟩ := hx.uint_inv; rfl
      · obtain ⟨b, rfl⟩ := hx.string_inv; rfl
    rw [if_pos this]
    split
    · rename_i h; exact .inl (hf (mapFind_mem _ h))
    · exact .inr ⟨_, rfl⟩

theorem maybeAddV_unknown {acc : Option UnknownSet} {w : UnknownSet} : maybeAddV acc (.unknown w) ≠ none := by
  unfold maybeAddV
  exact nofun

theorem maybeAddV_some {acc : UnknownSet} {v : Value} : maybeAddV (some acc) v ≠ none := by
  unfold maybeAddV
  split <;> exact nofun

/-- Either the operands are values and the lookup is made, or the outcome belongs to every type. -/
theorem index_cases {c : StepCfg} {s k : Ty} {x y : VA} (hx : Fine c.unknowns s x.v) (hy : Fine c.unknowns k y.v) :
    (∀ a, Fine c.unknowns a (indexEval c x y).v) ∨ (HasType s x.v ∧ HasType k y.v ∧ (indexEval c x y).v =
      (match x.v with
       | .opt o => if c.optionals then
            match o with
            | none => .opt none
            | some v =>
              match lookupIn c v y.v with
              | .error e => if isNoSuchKey e then .opt none else .opt (some (.error e))
              | w => .opt (some w)
          else lookupIn c (.opt o) y.v
       | v => lookupIn c v y.v)) := by
  unfold indexEval
  split
  · rename_i hm
    split at hm
    · rename_i hu; exact .inl fun a => .unknown _ hu
    · exact nomatch hm
  · rename_i hm
    dsimp only
    split
    · rename_i hm2
      split at hm2
      · rename_i hu; exact .inl fun a => .unknown _ hu.1
      · exact nomatch hm2
    · rcases hx.cases3 with h | ⟨s, h, hn⟩ | ⟨w, h, hu⟩
      · rcases hy.cases3 with g | ⟨s, g, hn⟩ | ⟨w, g, hu⟩
        · refine .inr ⟨h, g, ?_⟩
          split
          · rename_i e; rw [e] at h; exact h.ne_error.elim
          · rename_i e _; rw [e] at g; exact g.ne_error.elim
          · rename_i o e _
            rw [e]
            dsimp only
            by_cases ho : c.optionals = true
            · rw [if_pos ho, if_pos ho]
              cases o with
              | none => rfl
              | some v =>
                dsimp only
                cases lookupIn c v y.v <;> first | rfl | (dsimp only; split <;> rfl)
            · rw [if_neg ho, if_neg ho]
          · rename_i h1 h2
            split
            · rename_i e; exact absurd e (h1 _)
            · rfl
        · rw [g]
          cases hv : x.v <;> first | exact .inl fun a => .error hn | (rw [hv] at h; exact h.ne_error.elim)
        · rw [if_pos hu, g] at hm
          exact absurd hm maybeAddV_unknown
      · rw [h]
        exact .inl fun a => .error hn
      · rw [if_pos hu, h] at hm
        cases hq : maybeAddV none (.unknown w) with
        | none => exact absurd hq maybeAddV_unknown
        | some q => rw [hq] at hm; exact absurd hm maybeAddV_some

theorem index_list {c : StepCfg} {t : Ty} {x y : VA} (hx : Fine c.unknowns (listOf t) x.v) (hy : Fine c.unknowns (.b .int) y.v) :
    Fine c.unknowns t (indexEval c x y).v := by
  rcases index_cases hx hy with h | ⟨h1, h2, h3⟩
  · exact h t
  · obtain ⟨l, hl, _⟩ := h1.list_inv
    rw [hl] at h3
    dsimp only at h3
    rw [h3, ← hl]
    rcases lookup_list (c := c) h1 h2 with h | ⟨s, h, hn⟩
    · exact .value h
    · rw [h]; exact .error hn

theorem index_map {c : StepCfg} {k t : Ty} (hk : KeyTy k) {x y : VA} (hx : Fine c.unknowns (mapOf k t) x.v) (hy : Fine c.unknowns k y.v) :
    Fine c.unknowns t (indexEval c x y).v := by
  rcases index_cases hx hy with h | ⟨h1, h2, h3⟩
  · exact h t
  · obtain ⟨l, hl, _⟩ := h1.map_inv
    rw [hl] at h3
    dsimp only at h3
    rw [h3, ← hl]
    rcases lookup_map (c := c) hk h1 h2 with h | ⟨s, h⟩
    · exact .value h
    · rw [h]; exact .error (ne_noSuchKey _)

theorem isNoSuchKey_noSuchKey (s : String) : isNoSuchKey (noSuchKey s) = true := by
  unfold isNoSuchKey noSuchKey
  simp [List.isPrefixOf_iff_prefix]

theorem index_optMap {c : StepCfg} (ho : c.optionals = true) {k t : Ty} (hk : KeyTy k) {x y : VA}
    (hx : Fine c.unknowns (optionalTy (mapOf k t)) x.v) (hy : Fine c.unknowns k y.v) :
    Fine c.unknowns (optionalTy t) (indexEval c x y).v := by
  rcases index_cases hx hy with h | ⟨h1, h2, h3⟩
  · exact h _
  · rcases h1.opt_inv with e | ⟨w, e, hw⟩
    · rw [e] at h3
      dsimp only at h3
      rw [if_pos ho] at h3
      rw [h3]
      exact .value (.optNone _)
    · rw [e] at h3
      dsimp only at h3
      rw [if_pos ho] at h3
      rw [h3]
      rcases lookup_map (c := c) hk hw h2 with h | ⟨s, h⟩
      · split
        · rename_i e; rw [e] at h; exact h.ne_error.elim
        · exact .opt_wrap h
      · rw [h]
        dsimp only
        rw [if_pos (isNoSuchKey_noSuchKey s)]
        exact .value (.optNone _)

/-! ## Selection -/

theorem marked_fine {c : StepCfg} {t : Trail} {v : Value} (h : markedAttribute c t = some v) (a : Ty) : Fine c.unknowns a v := by
  unfold markedAttribute at h
  split at h
  · exact nomatch h
  · split at h
    · rename_i hu
      injection h with h
      subst h
      exact .unknown _ hu.1
    · split at h
      · split at h
        · injection h with h
          subst h
          exact .error (ne_missing _)
        · injection h with h
          subst h
          exact .error (ne_literal (by decide))
      · exact nomatch h

/-- What reading messages has to keep to (`Conforms`, without the parts on variables and functions). -/
structure Reads (d : Decls) (l : Bool) (c : StepCfg) : Prop where
  get : ∀ s i f t, d.fields s f = some t → (Strict l t ∨ ∃ n, t = .con (.enum n) []) → match c.structGet s i f with
    | .ok v => HasType t v
    | .err e => ¬ TypeError e
    | .ub => False
  has : ∀ s i f, match c.structHas s i f with
    | .ok _ => True
    | .err e => ¬ TypeError e
    | .ub => False

theorem Reads.field {d : Decls} {l : Bool} {c : StepCfg} (h : Reads d l c) {f s : String} {a : Ty} (hf : FieldOk d f (.con (.struct s) []) a) (ha : Strict l a)
    (i : Nat) : match c.structGet s i f with
    | .ok v => HasType a v
    | .err e => ¬ TypeError e
    | .ub => False := by
  rcases hf with ⟨s', u, e, hu, hau⟩ | ⟨k, e⟩
  · cases e
    rcases hau with rfl | ⟨⟨n, rfl⟩, rfl⟩
    · exact h.get _ i f _ hu (.inl ha)
    · have := h.get _ i f _ hu (.inr ⟨n, rfl⟩)
      revert this
      split
      · intro h
        obtain ⟨j, rfl⟩ := h.enum_inv
        exact .int j
      · exact id
      · exact id
  · exact nomatch e

theorem fieldOk_cases {d : Decls} {f : String} {t a : Ty} (h : FieldOk d f t a) : (∃ s, t = .con (.struct s) []) ∨ ∃ k, t = .con .map [k, a] := by
  rcases h with ⟨s, u, e, _⟩ | h
  · exact .inl ⟨s, e⟩
  · exact .inr h

theorem select_value {d : Decls} {l : Bool} {c : StepCfg} (hr : Reads d l c) {f : String} {t a : Ty} {x : VA} (hx : Fine c.unknowns t x.v)
    (hf : FieldOk d f t a) (ha : Strict l a) : FineRes c.unknowns a (selectEval c f false x) := by
  unfold selectEval
  rcases hx.cases3 with h | ⟨s, h, hn⟩ | ⟨w, h, hu⟩
  · rcases fieldOk_cases hf with ⟨s, rfl⟩ | ⟨k, rfl⟩
    · obtain ⟨i, e⟩ := h.struct_inv
      rw [e]
      dsimp only
      split
      · rename_i hm; exact marked_fine hm a
      · rw [if_neg (by simp)]
        refine FineVal.res ?_
        have := hr.field hf ha i
        unfold orError
        revert this
        cases c.structGet s i f with
        | ok v => intro h; exact Fine.value h
        | err e => intro h; exact Fine.error h
        | ub => intro h; exact h.elim
    · obtain ⟨m, e, _, hm⟩ := h.map_inv
      rw [e]
      dsimp only
      split
      · rename_i hm; exact marked_fine hm a
      · rw [if_neg (by simp)]
        unfold getField
        split
        · rename_i hf
          obtain ⟨e, he, rfl⟩ := mapFind_mem _ hf
          exact Fine.value (hm e he)
        · exact Fine.error (ne_noSuchKey _)
  · rw [h]
    show Fine _ _ _
    rw [h]
    exact .error hn
  · rw [h]
    show Fine _ _ _
    rw [h]
    exact .unknown _ hu

theorem test_fine {d : Decls} {l : Bool} {c : StepCfg} (hr : Reads d l c) {f : String} {t : Ty} {v : Value} (hv : HasType t v)
    (hsel : Selectable t) (hst : Strict l t) : FineVal c.unknowns (.b .bool) (testOnlySelect c f v) := by
  cases hst with
  | base hb => exact hsel.elim
  | type _ => exact hsel.elim
  | list _ => exact hsel.elim
  | «opaque» _ => exact hsel.elim
  | struct n =>
    obtain ⟨i, rfl⟩ := hv.struct_inv
    rw [testOnlySelect]
    have := hr.has n i f
    revert this
    cases c.structHas n i f with
    | ok b => intro _; exact Fine.bool b
    | err e => intro h; exact Fine.error h
    | ub => exact id
  | map _ _ =>
    obtain ⟨m, rfl, _⟩ := hv.map_inv
    exact Fine.bool _

theorem select_test {d : Decls} {l : Bool} {c : StepCfg} (hr : Reads d l c) {f : String} {t : Ty} {x : VA} (hx : Fine c.unknowns t x.v)
    (hsel : Selectable t) (hst : Strict l t) : FineRes c.unknowns (.b .bool) (selectEval c f true x) := by
  unfold selectEval
  rcases hx.cases3 with h | ⟨s, h, hn⟩ | ⟨w, h, hu⟩
  · have hst' := hst
    cases hst' with
    | base hb => exact hsel.elim
    | type _ => exact hsel.elim
    | list _ => exact hsel.elim
    | «opaque» _ => exact hsel.elim
    | struct n =>
      obtain ⟨i, e⟩ := h.struct_inv
      rw [e] at h ⊢
      dsimp only
      split
      · rename_i hm; exact marked_fine hm _
      · rw [if_pos rfl]
        exact FineVal.res (test_fine hr h hsel hst)
    | map _ _ =>
      obtain ⟨m, e, _⟩ := h.map_inv
      rw [e] at h ⊢
      dsimp only
      split
      · rename_i hm; exact marked_fine hm _
      · rw [if_pos rfl]
        exact FineVal.res (test_fine hr h hsel hst)
  · rw [h]
    show Fine _ _ _
    rw [h]
    exact .error hn
  · rw [h]
    show Fine _ _ _
    rw [h]
    exact .unknown _ hu

theorem performSelect_fine {d : Decls} {l : Bool} {c : StepCfg} (hr : Reads d l c) {f : String} {t a : Ty} {v : Value} (hv : HasType t v)
    (hf : FieldOk d f t a) (ha : Strict l a) : match performSelect c f v with
    | .ok none => True
    | .ok (some w) => HasType a w
    | .err e => ¬ TypeError e
    | .ub => False := by
  rcases fieldOk_cases hf with ⟨s, rfl⟩ | ⟨k, rfl⟩
  · obtain ⟨i, rfl⟩ := hv.struct_inv
    rw [performSelect]
    have h1 := hr.has s i f
    have h2 := hr.field hf ha i
    revert h1 h2
    cases c.structHas s i f with
    | ok b =>
      cases b with
      | false => intro _ _; trivial
      | true =>
        cases c.structGet s i f with
        | ok v => intro _ h; exact h
        | err e => intro _ h; exact h
        | ub => intro _ h; exact h
    | err e => intro h _; exact h
    | ub => intro h _; exact h
  · obtain ⟨m, rfl, _, hm⟩ := hv.map_inv
    rw [performSelect]
    cases hq : mapFind m (.str f) with
    | none => trivial
    | some w =>
      obtain ⟨e, he, rfl⟩ := mapFind_mem _ hq
      exact hm e he

theorem select_optional {d : Decls} {l : Bool} {c : StepCfg} (hr : Reads d l c) (ho : c.optionals = true) {f : String} {t a : Ty} {x : VA}
    (hx : Fine c.unknowns (optionalTy t) x.v) (hf : FieldOk d f t a) (ha : Strict l a) :
    FineRes c.unknowns (optionalTy a) (selectEval c f false x) := by
  unfold selectEval
  rcases hx.cases3 with h | ⟨s, h, hn⟩ | ⟨w, h, hu⟩
  · rcases h.opt_inv with e | ⟨w, e, hw⟩
    · rw [e]
      dsimp only
      rw [if_pos ho]
      dsimp only
      split
      · rename_i hm; exact marked_fine hm _
      · rw [if_neg (by simp)]
        show Fine _ _ _
        rw [e]
        exact .value (.optNone _)
    · rw [e]
      dsimp only
      rw [if_pos ho]
      dsimp only
      split
      · rename_i hm; exact marked_fine hm _
      · rw [if_neg (by simp)]
        have := performSelect_fine hr hw hf ha
        revert this
        cases performSelect c f w with
        | ok o =>
          cases o with
          | none => intro _; exact Fine.value (.optNone _)
          | some v => intro h; exact Fine.value (.optSome h)
        | err e => exact id
        | ub => exact id
  · rw [h]
    show Fine _ _ _
    rw [h]
    exact .error hn
  · rw [h]
    show Fine _ _ _
    rw [h]
    exact .unknown _ hu

theorem select_optTest {d : Decls} {l : Bool} {c : StepCfg} (hr : Reads d l c) (ho : c.optionals = true) {f : String} {t : Ty} {x : VA}
    (hx : Fine c.unknowns (optionalTy t) x.v) (hsel : Selectable t) (hst : Strict l t) :
    FineRes c.unknowns (.b .bool) (selectEval c f true x) := by
  unfold selectEval
  rcases hx.cases3 with h | ⟨s, h, hn⟩ | ⟨w, h, hu⟩
  · rcases h.opt_inv with e | ⟨w, e, hw⟩
    · rw [e]
      dsimp only
      rw [if_pos ho]
      dsimp only
      split
      · rename_i hm; exact marked_fine hm _
      · exact Fine.bool _
    · rw [e]
      dsimp only
      rw [if_pos ho]
      dsimp only
      split
      · rename_i hm; exact marked_fine hm _
      · rw [if_pos rfl]
        exact FineVal.res (test_fine hr hw hsel hst)
  · rw [h]
    show Fine _ _ _
    rw [h]
    exact .error hn
  · rw [h]
    show Fine _ _ _
    rw [h]
    exact .unknown _ hu

end Cel.Types
