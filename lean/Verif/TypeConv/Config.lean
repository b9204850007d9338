import Verif.TypeConv.Types

set_option linter.unusedSimpArgs false
set_option linter.unusedVariables false

/-!
# Configurations to specifications and back
-/

namespace Cel.TypeConv

theorem ite_or {α : Type} {c : Prop} [Decidable c] {a b x : α} (h : (if c then a else b) = x) : a = x ∨ b = x := by
  by_cases hc : c
  · rw [if_pos hc] at h; exact .inl h
  · rw [if_neg hc] at h; exact .inr h

theorem kindOf_prim {n : String} {p : Prim} (h : kindOf n = some (.prim p)) : p ≠ .unspecified := by
  rintro rfl
  unfold kindOf at h
  repeat (rcases ite_or h with h | h; · exact absurd h (by decide))
  cases h

theorem kindOf_wrap {n : String} {p : Prim} (h : kindOf n = some (.wrap p)) : p ≠ .unspecified := by
  rintro rfl
  unfold kindOf at h
  repeat (rcases ite_or h with h | h; · exact absurd h (by decide))
  cases h

theorem primName_some {p : Prim} (h : p ≠ .unspecified) : ∃ n, primName p = some n ∧ kindOf n = some (.prim p) := by
  cases p
  · exact absurd rfl h
  all_goals exact ⟨_, rfl, by decide⟩

theorem wrapName_some {p : Prim} (h : p ≠ .unspecified) : ∃ n, wrapName p = some n ∧ kindOf n = some (.wrap p) := by
  cases p
  · exact absurd rfl h
  all_goals exact ⟨_, rfl, by decide⟩

theorem infoToSpec_ne (i : Info) : infoToSpec i ≠ .unset := by
  obtain ⟨n, ps, b⟩ := i
  rw [infoToSpec]
  split
  · simp
  · split <;> first | simp; done | (split <;> simp)

theorem specified_info (i : Info) : specified (infoToSpec i) = true := by
  have := infoToSpec_ne i
  cases h : infoToSpec i <;> simp_all [specified]

theorem spec_unset : specified .unset = false := rfl

theorem infosToSpecs_zero (i : Info) (is : List Info) : ((infosToSpecs (i :: is))[0]?) = some (infoToSpec i) := by
  simp [infosToSpecs]

/-- What one trip through a specification does to a configuration's type. -/
structure Kept (i j : Info) : Prop where
  spec : specToInfo (infoToSpec i) = some j
  types : ∀ pool, infoToType pool j = infoToType pool i
  again : specToInfo (infoToSpec j) = some j

theorem kept_dyn : specToInfo (infoToSpec (plainInfo "dyn")) = some (plainInfo "dyn") := by
  simp [plainInfo, infoToSpec, kindOf, specToInfo]

theorem dyn_type (pool : Pool) : infoToType pool (plainInfo "dyn") = .dyn := by
  simp [plainInfo, infoToType, kindOf]

theorem kept_plain {n m : String} {k : Kind} {ps : List Info} {s : Spec} (hk : kindOf n = some k) (hm : kindOf m = some k)
    (hs : ∀ qs, infoToSpec (.mk n qs false) = s) (hs' : infoToSpec (plainInfo m) = s)
    (h : specToInfo s = some (plainInfo m))
    (ht : ∀ pool qs n', kindOf n' = some k → infoToType pool (.mk n' qs false) = infoToType pool (.mk n [] false)) :
    ∃ j, Kept (.mk n ps false) j := by
  refine ⟨plainInfo m, by rw [hs]; exact h, fun pool => ?_, by rw [hs']; exact h⟩
  rw [plainInfo, ht pool [] m hm, ht pool ps n hk]

mutual
theorem kept : ∀ (i : Info), ∃ j, Kept i j
  | .mk n ps true => ⟨.mk n [] true, by simp [infoToSpec, specToInfo], fun pool => by simp [infoToType],
      by simp [infoToSpec, specToInfo]⟩
  | .mk n ps false => by
    cases hk : kindOf n with
    | none =>
      cases ps with
      | nil =>
        exact ⟨plainInfo n, by simp [infoToSpec, hk, specToInfo], fun pool => rfl, by
          simp [plainInfo, infoToSpec, hk, specToInfo]⟩
      | cons i is =>
        obtain ⟨js, h1, h2, h3, h4⟩ := kepts (i :: is)
        cases js with
        | nil => simp at h4
        | cons j js =>
          refine ⟨.mk n (j :: js) false, ?_, fun pool => ?_, ?_⟩
          · simp only [infoToSpec, hk, List.isEmpty_cons, Bool.false_eq_true, if_false, specToInfo, h1, Option.map_some]
          · simp only [infoToType, hk, List.isEmpty_cons, Bool.false_eq_true, if_false, h2 pool]
          · simp only [infoToSpec, hk, List.isEmpty_cons, Bool.false_eq_true, if_false, specToInfo, h3, Option.map_some]
    | some k =>
      cases k with
      | null =>
        exact kept_plain (m := "null") (s := .null) hk (by decide) (fun qs => by simp [infoToSpec, hk])
          (by simp [plainInfo, infoToSpec, kindOf]) (by simp [specToInfo]) (fun pool qs n' h => by simp [infoToType, h, hk])
      | timestamp =>
        exact kept_plain (m := "timestamp") (s := .known .timestamp) hk (by decide) (fun qs => by simp [infoToSpec, hk])
          (by simp [plainInfo, infoToSpec, kindOf]) (by simp [specToInfo]) (fun pool qs n' h => by simp [infoToType, h, hk])
      | duration =>
        exact kept_plain (m := "duration") (s := .known .duration) hk (by decide) (fun qs => by simp [infoToSpec, hk])
          (by simp [plainInfo, infoToSpec, kindOf]) (by simp [specToInfo]) (fun pool qs n' h => by simp [infoToType, h, hk])
      | dyn =>
        exact kept_plain (m := "dyn") (s := .dyn) hk (by decide) (fun qs => by simp [infoToSpec, hk])
          (by simp [plainInfo, infoToSpec, kindOf]) (by simp [specToInfo]) (fun pool qs n' h => by simp [infoToType, h, hk])
      | any =>
        exact kept_plain (m := "any") (s := .known .any) hk (by decide) (fun qs => by simp [infoToSpec, hk])
          (by simp [plainInfo, infoToSpec, kindOf]) (by simp [specToInfo]) (fun pool qs n' h => by simp [infoToType, h, hk])
      | prim p =>
        obtain ⟨m, hm, hm'⟩ := primName_some (kindOf_prim hk)
        exact kept_plain (m := m) (s := .prim p) hk hm' (fun qs => by simp [infoToSpec, hk])
          (by simp [plainInfo, infoToSpec, hm']) (by simp [specToInfo, hm]) (fun pool qs n' h => by simp [infoToType, h, hk])
      | wrap p =>
        obtain ⟨m, hm, hm'⟩ := wrapName_some (kindOf_wrap hk)
        exact kept_plain (m := m) (s := .wrap p) hk hm' (fun qs => by simp [infoToSpec, hk])
          (by simp [plainInfo, infoToSpec, hm']) (by simp [specToInfo, hm]) (fun pool qs n' h => by simp [infoToType, h, hk])
      | list =>
        have hl : kindOf "list" = some .list := by decide
        cases ps with
        | nil =>
          exact ⟨plainInfo "list", by simp [infoToSpec, hk, infosToSpecs, specToInfo, specified],
            fun pool => by simp [plainInfo, infoToType, hk, hl, infosToTypes],
            by simp [plainInfo, infoToSpec, hl, infosToSpecs, specToInfo, specified]⟩
        | cons i is =>
          obtain ⟨j, h1, h2, h3⟩ := kept i
          refine ⟨.mk "list" [j] false, ?_, fun pool => ?_, ?_⟩
          · simp [infoToSpec, hk, infosToSpecs, specToInfo, specified_info, h1]
          · simp [infoToType, hk, hl, infosToTypes, orDyn, h2 pool]
          · simp [infoToSpec, hl, infosToSpecs, specToInfo, specified_info, h3]
      | type =>
        have hl : kindOf "type" = some .type := by decide
        cases ps with
        | nil =>
          refine ⟨.mk "type" [plainInfo "dyn"] false, ?_, fun pool => ?_, ?_⟩
          · simp [infoToSpec, hk, infosToSpecs, specToInfo]
          · simp [infoToType, hk, hl, infosToTypes, orDyn, dyn_type]
          · simp [infoToSpec, hl, infosToSpecs, specToInfo, kept_dyn]
        | cons i is =>
          obtain ⟨j, h1, h2, h3⟩ := kept i
          refine ⟨.mk "type" [j] false, ?_, fun pool => ?_, ?_⟩
          · simp [infoToSpec, hk, infosToSpecs, specToInfo, h1]
          · simp [infoToType, hk, hl, infosToTypes, orDyn, h2 pool]
          · simp [infoToSpec, hl, infosToSpecs, specToInfo, h3]
      | map =>
        have hl : kindOf "map" = some .map := by decide
        cases ps with
        | nil =>
          exact ⟨plainInfo "map", by simp [infoToSpec, hk, infosToSpecs, specToInfo, specified],
            fun pool => by simp [plainInfo, infoToType, hk, hl, infosToTypes],
            by simp [plainInfo, infoToSpec, hl, infosToSpecs, specToInfo, specified]⟩
        | cons i is =>
          obtain ⟨j, h1, h2, h3⟩ := kept i
          cases is with
          | nil =>
            refine ⟨.mk "map" [j, plainInfo "dyn"] false, ?_, fun pool => ?_, ?_⟩
            · simp [infoToSpec, hk, infosToSpecs, specToInfo, specified_info, h1, spec_unset]
            · simp [infoToType, hk, hl, infosToTypes, orDyn, h2 pool, dyn_type]
            · simp [infoToSpec, hl, infosToSpecs, specToInfo, specified_info, h3, kept_dyn]
          | cons i' is =>
            obtain ⟨j', h1', h2', h3'⟩ := kept i'
            refine ⟨.mk "map" [j, j'] false, ?_, fun pool => ?_, ?_⟩
            · simp [infoToSpec, hk, infosToSpecs, specToInfo, specified_info, h1, h1']
            · simp [infoToType, hk, hl, infosToTypes, orDyn, h2 pool, h2' pool]
            · simp [infoToSpec, hl, infosToSpecs, specToInfo, specified_info, h3, h3']
theorem kepts : ∀ (is : List Info), ∃ js, specsToInfos (infosToSpecs is) = some js ∧
    (∀ pool, infosToTypes pool js = infosToTypes pool is) ∧ specsToInfos (infosToSpecs js) = some js ∧
    js.length = is.length
  | [] => ⟨[], by simp [infosToSpecs, specsToInfos], fun pool => rfl, by simp [infosToSpecs, specsToInfos], rfl⟩
  | i :: is => by
    obtain ⟨j, h1, h2, h3⟩ := kept i
    obtain ⟨js, h1', h2', h3', h4⟩ := kepts is
    exact ⟨j :: js, by simp [infosToSpecs, specsToInfos, h1, h1'], fun pool => by simp [infosToTypes, h2 pool, h2' pool],
      by simp [infosToSpecs, specsToInfos, h3, h3'], by simp [h4]⟩
end

/-- **C87 (configurations).** A configured type can always be written as a specification and read
again: what is read means the same type in every pool, and from then on nothing changes. -/
theorem C87_config (i : Info) : ∃ j, specToInfo (infoToSpec i) = some j ∧
    (∀ pool, infoToType pool j = infoToType pool i) ∧ specToInfo (infoToSpec j) = some j := by
  obtain ⟨j, h⟩ := kept i
  exact ⟨j, h.spec, h.types, h.again⟩

theorem child_info (pool : Pool) (i : Info) : childToType pool (infoToSpec i) = specToType pool (infoToSpec i) :=
  child_iff (infoToSpec_ne i)

mutual
theorem declared_type {pool : Pool} : ∀ (i : Info) (h : Declared pool i),
    specToType pool (infoToSpec i) = some (infoToType pool i)
  | .mk n ps true, h => by simp [infoToSpec, infoToType, specToType]
  | .mk n ps false, h => by
    cases h with
    | simple hk h =>
      rename_i k
      cases k with
      | list => exact absurd rfl h.1
      | map => exact absurd rfl h.2.1
      | type => exact absurd rfl h.2.2
      | prim p => simp [infoToSpec, infoToType, specToType, hk, kindOf_prim hk]
      | wrap p => simp [infoToSpec, infoToType, specToType, hk, kindOf_wrap hk]
      | _ => simp [infoToSpec, infoToType, specToType, hk]
    | bare hk =>
      rename_i k
      cases k with
      | prim p => simp [infoToSpec, infoToType, specToType, hk, kindOf_prim hk]
      | wrap p => simp [infoToSpec, infoToType, specToType, hk, kindOf_wrap hk]
      | _ => simp [infoToSpec, infoToType, specToType, hk, infosToSpecs, infosToTypes, childToType, orDyn]
    | list hk h =>
      rename_i i is
      simp [infoToSpec, infoToType, specToType, hk, infosToSpecs, infosToTypes, child_info, orDyn, declared_type i h]
    | type hk h =>
      rename_i i is
      simp [infoToSpec, infoToType, specToType, hk, infosToSpecs, infosToTypes, child_info, orDyn, declared_type i h]
    | map1 hk h =>
      rename_i i
      simp [infoToSpec, infoToType, specToType, hk, infosToSpecs, infosToTypes, child_info, orDyn, declared_type i h,
        childToType]
    | map2 hk h h' =>
      rename_i i j is
      simp [infoToSpec, infoToType, specToType, hk, infosToSpecs, infosToTypes, child_info, orDyn, declared_type i h,
        declared_type j h']
    | message hk h => simp [infoToSpec, infoToType, specToType, hk, h]
    | «opaque» hk hm he h =>
      rename_i i is
      have := declareds_type (i :: is) h
      simp only [infoToSpec, infoToType, specToType, hk, List.isEmpty_cons, Bool.false_eq_true, if_false, hm, he, this,
        Option.map_some]
theorem declareds_type {pool : Pool} : ∀ (is : List Info) (h : ∀ i ∈ is, Declared pool i),
    specsToTypes pool (infosToSpecs is) = some (infosToTypes pool is)
  | [], _ => by simp [infosToSpecs, infosToTypes, specsToTypes]
  | i :: is, h => by
    simp [infosToSpecs, infosToTypes, specsToTypes, declared_type i (h i (by simp)),
      declareds_type is (fun j hj => h j (by simp [hj]))]
end

theorem isEmpty_specs (is : List Info) : (infosToSpecs is).isEmpty = is.isEmpty := by cases is <;> simp [infosToSpecs]

mutual
theorem type_declared {pool : Pool} : ∀ (i : Info) {t : Ty} (h : specToType pool (infoToSpec i) = some t), Declared pool i
  | .mk n ps true, t, h => .param
  | .mk n ps false, t, h => by
    cases hk : kindOf n with
    | none =>
      cases ps with
      | nil =>
        simp only [infoToSpec, hk, Bool.false_eq_true, if_false, List.isEmpty_nil, if_true, specToType] at h
        obtain ⟨d, h1, -⟩ := Option.map_eq_some_iff.1 h
        exact .message hk h1
      | cons i is =>
        simp only [infoToSpec, hk, Bool.false_eq_true, if_false, List.isEmpty_cons, specToType, isEmpty_specs] at h
        split at h
        · cases h
        · rename_i hm
          split at h
          · cases h
          · rename_i he
            obtain ⟨ts, h1, -⟩ := Option.map_eq_some_iff.1 h
            exact .opaque hk hm he (types_declared (i :: is) h1)
    | some k =>
      cases ps with
      | nil => exact .bare hk
      | cons i is =>
        cases k with
        | list =>
          simp only [infoToSpec, hk, Bool.false_eq_true, if_false, specToType, infosToSpecs_zero, Option.getD_some,
            child_info] at h
          obtain ⟨u, h1, -⟩ := Option.map_eq_some_iff.1 h
          exact .list hk (type_declared i h1)
        | type =>
          simp only [infoToSpec, hk, Bool.false_eq_true, if_false, specToType, infosToSpecs_zero, Option.getD_some] at h
          obtain ⟨u, h1, -⟩ := Option.map_eq_some_iff.1 h
          exact .type hk (type_declared i h1)
        | map =>
          simp only [infoToSpec, hk, Bool.false_eq_true, if_false, specToType, infosToSpecs_zero, Option.getD_some,
            child_info] at h
          split at h
          · cases h
          · rename_i u hu
            have hi := type_declared i hu
            cases is with
            | nil => exact .map1 hk hi
            | cons j is =>
              have e1 : (infosToSpecs (i :: j :: is))[1]? = some (infoToSpec j) := by simp [infosToSpecs]
              rw [e1, Option.getD_some, child_info] at h
              obtain ⟨u, h1, -⟩ := Option.map_eq_some_iff.1 h
              exact .map2 hk hi (type_declared j h1)
        | _ => exact .simple hk (by simp)
theorem types_declared {pool : Pool} : ∀ (is : List Info) {ts : List Ty}
    (h : specsToTypes pool (infosToSpecs is) = some ts), ∀ i ∈ is, Declared pool i
  | [], ts, h => by simp
  | i :: is, ts, h => by
    simp only [infosToSpecs, specsToTypes] at h
    split at h
    · cases h
    · rename_i t ht
      obtain ⟨us, h1, -⟩ := Option.map_eq_some_iff.1 h
      intro j hj
      rcases List.mem_cons.1 hj with hj | hj
      · rw [hj]; exact type_declared i ht
      · exact types_declared is h1 j hj
end

/-- **C87 (two ways).** The type an environment gives a configured type is the one its specification
resolves to, if that resolves at all. -/
theorem C87_agree {pool : Pool} {i : Info} {t : Ty} (h : specToType pool (infoToSpec i) = some t) :
    t = infoToType pool i := by
  have := declared_type i (type_declared i h)
  rw [this] at h
  exact (Option.some.inj h).symm

/-- **C87 (well-known messages).** The name of a well-known message is the type configurations have
a name of their own for: wrappers of either width the same, `Struct` a map from string to dyn. -/
theorem C87_wellknown {pool : Pool} {n : String} {d : Desc} (h : pool.message n = some d) :
    (∀ p ∈ [(Wkt.bool, "bool_wrapper"), (.int32, "int_wrapper"), (.int64, "int_wrapper"), (.uint32, "uint_wrapper"),
        (.uint64, "uint_wrapper"), (.float, "double_wrapper"), (.double, "double_wrapper"), (.bytes, "bytes_wrapper"),
        (.string, "string_wrapper"), (.any, "any"), (.duration, "duration"), (.timestamp, "timestamp"), (.value, "dyn"),
        (.listValue, "list")],
      d.wkt = p.1 → specToType pool (.message n) = some (infoToType pool (plainInfo p.2))) ∧
    (d.wkt = .struct → specToType pool (.message n) =
      some (infoToType pool (.mk "map" [plainInfo "string", plainInfo "dyn"] false))) ∧
    (d.wkt = .none → specToType pool (.message n) = some (.message d)) := by
  refine ⟨fun p hp hw => ?_, fun hw => ?_, fun hw => ?_⟩
  · simp only [List.mem_cons, List.not_mem_nil, or_false] at hp
    rcases hp with rfl | rfl | rfl | rfl | rfl | rfl | rfl | rfl | rfl | rfl | rfl | rfl | rfl | rfl <;>
      simp [specToType, h, ofMessage, show d.wkt = _ from hw, plainInfo, infoToType, infosToTypes, orDyn, kindOf]
  · simp [specToType, h, ofMessage, hw, plainInfo, infoToType, infosToTypes, orDyn, kindOf]
  · simp [specToType, h, ofMessage, hw]

/-- **C87 (resolves).** It resolves exactly if every name is declared. -/
theorem C87_resolves {pool : Pool} (i : Info) :
    (specToType pool (infoToSpec i)).isSome = true ↔ Declared pool i := by
  constructor
  · intro h
    obtain ⟨t, ht⟩ := Option.isSome_iff_exists.1 h
    exact type_declared i ht
  · intro h
    rw [declared_type i h]
    rfl

theorem specified_ne {s : Spec} (h : s ≠ .unset) : specified s = true := by cases s <;> simp_all [specified]

theorem sayable_ne {s : Spec} (h : Sayable s) : s ≠ .unset := by rintro rfl; cases h

theorem child_unset (pool : Pool) : childToType pool (infoToSpec (plainInfo "dyn")) = childToType pool .unset := by
  simp [plainInfo, infoToSpec, kindOf, childToType, specToType]

mutual
theorem sayable : ∀ (s : Spec) (h : Sayable s), ∃ i, specToInfo s = some i ∧
    ∀ pool, specToType pool (infoToSpec i) = specToType pool s
  | .unset, h => by cases h
  | .dyn, h => ⟨plainInfo "dyn", by simp [specToInfo], fun pool => by simp [plainInfo, infoToSpec, kindOf]⟩
  | .null, h => ⟨plainInfo "null", by simp [specToInfo], fun pool => by simp [plainInfo, infoToSpec, kindOf]⟩
  | .error, h => by cases h
  | .function _ _, h => by cases h
  | .param n, h => ⟨.mk n [] true, by simp [specToInfo], fun pool => by simp [infoToSpec]⟩
  | .prim p, h => by
    cases h with
    | prim h =>
      obtain ⟨m, hm, hm'⟩ := primName_some h
      exact ⟨plainInfo m, by simp [specToInfo, hm], fun pool => by simp [plainInfo, infoToSpec, hm']⟩
  | .wrap p, h => by
    cases h with
    | wrap h =>
      obtain ⟨m, hm, hm'⟩ := wrapName_some h
      exact ⟨plainInfo m, by simp [specToInfo, hm], fun pool => by simp [plainInfo, infoToSpec, hm']⟩
  | .known k, h => by
    cases h with
    | known h =>
      cases k
      · exact absurd rfl h
      · exact ⟨plainInfo "any", by simp [specToInfo], fun pool => by simp [plainInfo, infoToSpec, kindOf]⟩
      · exact ⟨plainInfo "timestamp", by simp [specToInfo], fun pool => by simp [plainInfo, infoToSpec, kindOf]⟩
      · exact ⟨plainInfo "duration", by simp [specToInfo], fun pool => by simp [plainInfo, infoToSpec, kindOf]⟩
  | .list e, h => by
    have hl : kindOf "list" = some .list := by decide
    by_cases he : e = .unset
    · subst he
      exact ⟨plainInfo "list", by simp [specToInfo, specified], fun pool => by
        simp [plainInfo, infoToSpec, hl, infosToSpecs]⟩
    · have h' : Sayable e := by cases h with | list h => exact h he
      obtain ⟨i, h1, h2⟩ := sayable e h'
      refine ⟨.mk "list" [i] false, by simp [specToInfo, specified_ne he, h1], fun pool => ?_⟩
      simp [infoToSpec, hl, infosToSpecs, specToType, child_info, h2 pool, child_iff he]
  | .map k v, h => by
    have hl : kindOf "map" = some .map := by decide
    have hkv : (k ≠ .unset → Sayable k) ∧ (v ≠ .unset → Sayable v) := by cases h with | map a b => exact ⟨a, b⟩
    by_cases hk : k = .unset
    · by_cases hv : v = .unset
      · subst hk hv
        exact ⟨plainInfo "map", by simp [specToInfo, specified], fun pool => by
          simp [plainInfo, infoToSpec, hl, infosToSpecs]⟩
      · obtain ⟨j, h1, h2⟩ := sayable v (hkv.2 hv)
        subst hk
        refine ⟨.mk "map" [plainInfo "dyn", j] false, by simp [specToInfo, specified_ne hv, h1, specified], fun pool => ?_⟩
        simp only [infoToSpec, hl, Bool.false_eq_true, if_false, infosToSpecs, List.getElem?_cons_zero,
          List.getElem?_cons_succ, Option.getD_some, specToType, child_unset]
        rw [child_info, h2 pool, child_iff hv]
    · obtain ⟨i, h1, h2⟩ := sayable k (hkv.1 hk)
      by_cases hv : v = .unset
      · subst hv
        refine ⟨.mk "map" [i, plainInfo "dyn"] false, by simp [specToInfo, specified_ne hk, h1, specified], fun pool => ?_⟩
        simp only [infoToSpec, hl, Bool.false_eq_true, if_false, infosToSpecs, List.getElem?_cons_zero,
          List.getElem?_cons_succ, Option.getD_some, specToType, child_unset]
        rw [child_info, h2 pool, child_iff hk]
      · obtain ⟨j, h1', h2'⟩ := sayable v (hkv.2 hv)
        refine ⟨.mk "map" [i, j] false, by simp [specToInfo, specified_ne hk, specified_ne hv, h1, h1'], fun pool => ?_⟩
        simp only [infoToSpec, hl, Bool.false_eq_true, if_false, infosToSpecs, List.getElem?_cons_zero,
          List.getElem?_cons_succ, Option.getD_some, specToType]
        rw [child_info, child_info, h2 pool, h2' pool, child_iff hk, child_iff hv]
  | .message n, h => by
    cases h with
    | message h => exact ⟨plainInfo n, by simp [specToInfo], fun pool => by simp [plainInfo, infoToSpec, h]⟩
  | .type t, h => by
    have hl : kindOf "type" = some .type := by decide
    cases h with
    | type h =>
      obtain ⟨i, h1, h2⟩ := sayable t h
      exact ⟨.mk "type" [i] false, by simp [specToInfo, h1], fun pool => by
        simp [infoToSpec, hl, infosToSpecs, specToType, h2 pool]⟩
  | .abstract n ss, h => by
    cases h with
    | «opaque» hk h =>
      rename_i s ss
      obtain ⟨is, h1, h2, h3⟩ := sayables (s :: ss) h
      cases is with
      | nil => simp at h3
      | cons i is =>
        refine ⟨.mk n (i :: is) false, by simp only [specToInfo, h1, Option.map_some], fun pool => ?_⟩
        simp only [infoToSpec, hk, Bool.false_eq_true, if_false, List.isEmpty_cons, specToType, isEmpty_specs, h2 pool]
theorem sayables : ∀ (ss : List Spec) (h : ∀ s ∈ ss, Sayable s), ∃ is, specsToInfos ss = some is ∧
    (∀ pool, specsToTypes pool (infosToSpecs is) = specsToTypes pool ss) ∧ is.length = ss.length
  | [], _ => ⟨[], by simp [specsToInfos], fun pool => by simp [infosToSpecs], rfl⟩
  | s :: ss, h => by
    obtain ⟨i, h1, h2⟩ := sayable s (h s (by simp))
    obtain ⟨is, h1', h2', h3⟩ := sayables ss (fun u hu => h u (by simp [hu]))
    exact ⟨i :: is, by simp [specsToInfos, h1, h1'], fun pool => by
      simp [infosToSpecs, specsToTypes, h2 pool, h2' pool], by simp [h3]⟩
end

/-- **C87 (sayable).** A specification a configuration can say keeps its meaning in every pool when
written to a configuration and read again. -/
theorem C87_sayable {s : Spec} (h : Sayable s) : ∃ i, specToInfo s = some i ∧
    ∀ pool, specToType pool (infoToSpec i) = specToType pool s := sayable s h

/-! ## Boundaries -/

/-- **C87 (boundary).** An opaque type without parameters becomes a message type in a configuration
(and then does not resolve); a message type with the name of a CEL type becomes that; the type an
environment gives an undeclared name is opaque, while its specification does not resolve; an enum
name is opaque for an environment. -/
theorem C87_boundary (pool : Pool) (n : String) (hk : kindOf n = none) (hm : pool.message n = none)
    (he : pool.enum n = none) :
    (specToInfo (.abstract n [])).map infoToSpec = some (.message n) ∧
    specToType pool (.abstract n []) = some (.opaque n []) ∧ specToType pool (.message n) = none ∧
    (specToInfo (.message "int")).map infoToSpec = some (.prim .int) ∧
    infoToType pool (plainInfo n) = .opaque n [] ∧ specToType pool (infoToSpec (plainInfo n)) = none := by
  refine ⟨?_, ?_, ?_, ?_, ?_, ?_⟩
  · simp [specToInfo, specsToInfos, infoToSpec, hk]
  · simp [specToType, specsToTypes, hm, he]
  · simp [specToType, hm]
  · simp [specToInfo, plainInfo, infoToSpec, kindOf]
  · simp [plainInfo, infoToType, hk, hm, infosToTypes]
  · simp [plainInfo, infoToSpec, hk, specToType, hm]

/-- **C87 (boundary).** In one pool a name means an enum by way of a specification – and an opaque
type to an environment. -/
theorem C87_boundary_enum (pool : Pool) (n : String) (d : Desc) (hk : kindOf n = none) (hm : pool.message n = none)
    (he : pool.enum n = some d) (hn : d.name ≠ "google.protobuf.NullValue") :
    specToType pool (.abstract n []) = some (.enum d) ∧ infoToType pool (plainInfo n) = .opaque n [] := by
  refine ⟨?_, ?_⟩
  · simp [specToType, hm, he, ofEnum, hn]
  · simp [plainInfo, infoToType, hk, hm, infosToTypes]

/-- A pool with a message `m`, a Timestamp and an enum `e`. -/
def poolEx : Pool where
  message n := if n = "m" then some ⟨"m", .none, 1⟩
    else if n = "google.protobuf.Timestamp" then some ⟨"google.protobuf.Timestamp", .timestamp, 2⟩ else none
  enum n := if n = "e" then some ⟨"e", .none, 3⟩ else none

/-- **C87 (example).** `map(string, list(m))`, an enum, an opaque type with a parameter. -/
theorem C87_example : poolEx.Ok ∧
    Settled poolEx (.map (.prim .string) (.list (.message ⟨"m", .none, 1⟩))) ∧
    Settled poolEx (.opaque "v" [.enum ⟨"e", .none, 3⟩]) ∧ ¬ Settled poolEx (.message ⟨"m", .none, 7⟩) ∧
    Plain poolEx (.abstract "e" []) ∧ ¬ Plain poolEx (.message "google.protobuf.Timestamp") ∧
    Declared poolEx (.mk "map" [.mk "string" [] false, .mk "m" [] false] false) ∧
    ¬ Declared poolEx (.mk "list" [.mk "e" [] false] false) ∧
    Sayable (.map .unset (.abstract "v" [.message "m"])) := by
  refine ⟨⟨?_, ?_, ?_⟩, ?_, ?_, ?_, ?_, ?_, ?_, ?_, ?_⟩
  · intro n d h
    simp only [poolEx] at h
    split at h
    · cases h; simp [*]
    · split at h
      · cases h; simp [*]
      · cases h
  · intro n d h
    simp only [poolEx] at h
    split at h
    · cases h; simp [*]
    · cases h
  · intro n d h
    simp only [poolEx] at h
    split at h
    · rename_i hn
      subst hn
      simp [poolEx]
    · cases h
  · exact .map (.prim (by decide)) (.list (.message (by simp [poolEx]) rfl))
  · refine .opaque (by simp [poolEx]) (by simp [poolEx]) fun t ht => ?_
    rw [List.mem_singleton.1 ht]
    exact .enum (by simp [poolEx]) (by simp [poolEx]) (by decide)
  · intro h
    cases h with
    | message h _ => simp [poolEx] at h
  · exact .enum (d := ⟨"e", .none, 3⟩) (by simp [poolEx]) (by simp [poolEx]) (by decide)
  · intro h
    cases h with
    | message h hw =>
      simp only [poolEx, String.reduceEq, if_false, if_true, Option.some.injEq] at h
      subst h
      cases hw
  · exact .map2 (by decide) (.bare (k := .prim .string) (by decide)) (.message (d := ⟨"m", .none, 1⟩) (by decide) (by simp [poolEx]))
  · intro h
    have := (C87_resolves _).2 h
    revert this
    simp [infoToSpec, kindOf, infosToSpecs, specToType, childToType, poolEx]
  · refine .map (fun h => absurd rfl h) fun _ => .opaque (by decide) fun t ht => ?_
    rw [List.mem_singleton.1 ht]
    exact .message (by decide)

end Cel.TypeConv
