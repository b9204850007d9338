import Verif.TypeConv.Spec

set_option linter.unusedSimpArgs false
set_option linter.unusedVariables false

/-!
# Types to specifications and back
-/

namespace Cel.TypeConv

theorem child_of {pool : Pool} {s : Spec} {t : Ty} (h : specToType pool s = some t) : childToType pool s = some t := by
  cases s <;> first | (simp [specToType] at h; done) | (simpa [childToType] using h)

theorem toSpec_specified {t : Ty} {s : Spec} (h : typeToSpec t = some s) : s ≠ .unset := by
  rintro rfl
  cases t <;> simp only [typeToSpec] at h <;> first
    | cases h; done
    | (obtain ⟨_, _, h⟩ := Option.map_eq_some_iff.1 h; cases h; done)
    | (split at h
       · cases h
       · obtain ⟨_, _, h⟩ := Option.map_eq_some_iff.1 h; cases h)

theorem child_iff {pool : Pool} {s : Spec} (h : s ≠ .unset) : childToType pool s = specToType pool s := by
  cases s <;> first | exact absurd rfl h | simp [childToType]

mutual
theorem settled_back {pool : Pool} : ∀ (t : Ty) (h : Settled pool t), ∃ s, typeToSpec t = some s ∧ specToType pool s = some t
  | .dyn, _ => ⟨_, rfl, by simp [specToType]⟩
  | .any, _ => ⟨_, rfl, by simp [specToType]⟩
  | .timestamp, _ => ⟨_, rfl, by simp [specToType]⟩
  | .duration, _ => ⟨_, rfl, by simp [specToType]⟩
  | .null, _ => ⟨_, rfl, by simp [specToType]⟩
  | .error, _ => ⟨_, rfl, by simp [specToType]⟩
  | .unknown, h => by cases h
  | .prim p, h => by
    cases h with
    | prim h => exact ⟨_, rfl, by simp [specToType, h]⟩
  | .wrap p, h => by
    cases h with
    | wrap h => exact ⟨_, rfl, by simp [specToType, h]⟩
  | .enum d, h => by
    cases h with
    | enum h hm hn => exact ⟨_, rfl, by simp [specToType, h, hm, ofEnum, hn]⟩
  | .message d, h => by
    cases h with
    | message h hw => exact ⟨_, rfl, by simp [specToType, h, ofMessage, hw]⟩
  | .basicStruct n, h => by cases h
  | .list e, h => by
    cases h with
    | list h =>
      obtain ⟨s, h1, h2⟩ := settled_back e h
      exact ⟨.list s, by simp [typeToSpec, h1], by simp [specToType, child_of h2]⟩
  | .map k v, h => by
    cases h with
    | map hk hv =>
      obtain ⟨s, h1, h2⟩ := settled_back k hk
      obtain ⟨s', h1', h2'⟩ := settled_back v hv
      exact ⟨.map s s', by simp [typeToSpec, h1, h1'], by simp [specToType, child_of h2, child_of h2']⟩
  | .function r args, h => by
    cases h with
    | function hr h =>
      obtain ⟨s, h1, h2⟩ := settled_back r hr
      obtain ⟨ss, h1', h2'⟩ := settleds_back args h
      exact ⟨.function s ss, by simp [typeToSpec, h1, h1'], by simp [specToType, child_of h2, h2']⟩
  | .opaque n ps, h => by
    cases h with
    | «opaque» hm he h =>
      obtain ⟨ss, h1', h2'⟩ := settleds_back ps h
      exact ⟨.abstract n ss, by simp [typeToSpec, h1'], by simp [specToType, hm, he, h2']⟩
  | .param n, h => ⟨_, rfl, by simp [specToType]⟩
  | .type t, h => by
    cases h with
    | type h =>
      obtain ⟨s, h1, h2⟩ := settled_back t h
      exact ⟨.type s, by simp [typeToSpec, h1], by simp [specToType, h2]⟩
  | .bareType, h => by cases h
theorem settleds_back {pool : Pool} : ∀ (ts : List Ty) (h : ∀ t ∈ ts, Settled pool t),
    ∃ ss, typesToSpecs ts = some ss ∧ specsToTypes pool ss = some ts
  | [], _ => ⟨[], by simp [typesToSpecs], by simp [specsToTypes]⟩
  | t :: ts, h => by
    obtain ⟨s, h1, h2⟩ := settled_back t (h t (by simp))
    obtain ⟨ss, h1', h2'⟩ := settleds_back ts (fun u hu => h u (by simp [hu]))
    exact ⟨s :: ss, by simp [typesToSpecs, h1, h1'], by simp [specsToTypes, h2, h2']⟩
end

theorem ofMessage_settled {pool : Pool} {d : Desc} (h : pool.message d.name = some d) : Settled pool (ofMessage d) := by
  unfold ofMessage
  split <;> first
    | exact .any
    | exact .duration
    | exact .timestamp
    | exact .dyn
    | exact .list .dyn
    | exact .map (.prim (by decide)) .dyn
    | exact .wrap (by decide)
    | (exact .message h (by assumption))

theorem ofEnum_settled {pool : Pool} {d : Desc} (h : pool.enum d.name = some d) (hm : pool.message d.name = none) :
    Settled pool (ofEnum d) := by
  unfold ofEnum
  split
  · exact .prim (by decide)
  · exact .enum h hm (by assumption)

mutual
/-- Types made from specifications are settled. -/
theorem toType_settled {pool : Pool} (ho : pool.Ok) : ∀ (s : Spec) {t : Ty} (h : specToType pool s = some t), Settled pool t
  | .unset, t, h => by simp [specToType] at h
  | .dyn, t, h => by simp only [specToType, Option.some.injEq] at h; subst h; exact .dyn
  | .null, t, h => by simp only [specToType, Option.some.injEq] at h; subst h; exact .null
  | .error, t, h => by simp only [specToType, Option.some.injEq] at h; subst h; exact .error
  | .param n, t, h => by simp only [specToType, Option.some.injEq] at h; subst h; exact .param
  | .prim p, t, h => by
    simp only [specToType] at h
    split at h
    · cases h
    · cases h; exact .prim (by assumption)
  | .wrap p, t, h => by
    simp only [specToType] at h
    split at h
    · cases h
    · cases h; exact .wrap (by assumption)
  | .known k, t, h => by
    cases k <;> simp only [specToType, Option.some.injEq] at h
    · cases h
    · subst h; exact .any
    · subst h; exact .timestamp
    · subst h; exact .duration
  | .list e, t, h => by
    simp only [specToType] at h
    obtain ⟨u, h1, rfl⟩ := Option.map_eq_some_iff.1 h
    exact .list (toChild_settled ho e h1)
  | .map k v, t, h => by
    simp only [specToType] at h
    split at h
    · cases h
    · rename_i k' hk
      obtain ⟨u, h1, rfl⟩ := Option.map_eq_some_iff.1 h
      exact .map (toChild_settled ho k hk) (toChild_settled ho v h1)
  | .function r args, t, h => by
    simp only [specToType] at h
    split at h
    · cases h
    · rename_i k' hk
      obtain ⟨u, h1, rfl⟩ := Option.map_eq_some_iff.1 h
      exact .function (toChild_settled ho r hk) (toTypes_settled ho args h1)
  | .message n, t, h => by
    simp only [specToType] at h
    obtain ⟨d, h1, rfl⟩ := Option.map_eq_some_iff.1 h
    exact ofMessage_settled (by rw [ho.message n d h1, h1])
  | .type u, t, h => by
    simp only [specToType] at h
    obtain ⟨d, h1, rfl⟩ := Option.map_eq_some_iff.1 h
    exact .type (toType_settled ho u h1)
  | .abstract n ps, t, h => by
    simp only [specToType] at h
    split at h
    · rename_i d hd
      split at h
      · cases h
        exact ofMessage_settled (by rw [ho.message n d hd, hd])
      · cases h
    · rename_i hm
      split at h
      · rename_i d hd
        split at h
        · cases h
          exact ofEnum_settled (by rw [ho.enum n d hd, hd]) (by rw [ho.enum n d hd, hm])
        · cases h
      · rename_i he
        obtain ⟨u, h1, rfl⟩ := Option.map_eq_some_iff.1 h
        exact .opaque hm he (toTypes_settled ho ps h1)
theorem toChild_settled {pool : Pool} (ho : pool.Ok) : ∀ (s : Spec) {t : Ty} (h : childToType pool s = some t), Settled pool t
  | s, t, h => by
    by_cases hu : s = .unset
    · subst hu
      simp only [childToType, Option.some.injEq] at h
      subst h
      exact .dyn
    · rw [child_iff hu] at h
      exact toType_settled ho s h
theorem toTypes_settled {pool : Pool} (ho : pool.Ok) : ∀ (ss : List Spec) {ts : List Ty}
    (h : specsToTypes pool ss = some ts), ∀ t ∈ ts, Settled pool t
  | [], ts, h => by
    simp only [specsToTypes, Option.some.injEq] at h
    subst h
    simp
  | s :: ss, ts, h => by
    simp only [specsToTypes] at h
    split at h
    · cases h
    · rename_i t ht
      obtain ⟨u, h1, rfl⟩ := Option.map_eq_some_iff.1 h
      intro x hx
      rcases List.mem_cons.1 hx with rfl | hx
      · exact toType_settled ho s ht
      · exact toTypes_settled ho ss h1 x hx
end

/-- **C87 (types).** A type comes back from its specification exactly if it is settled in the pool. -/
theorem C87_types {pool : Pool} (ho : pool.Ok) (t : Ty) :
    (∃ s, typeToSpec t = some s ∧ specToType pool s = some t) ↔ Settled pool t :=
  ⟨fun ⟨s, _, h⟩ => toType_settled ho s h, settled_back t⟩

/-- **C87 (specifications, once).** After one conversion to a type nothing changes any more: the type
has a specification, and that one gives the type. -/
theorem C87_specs_once {pool : Pool} (ho : pool.Ok) {s : Spec} {t : Ty} (h : specToType pool s = some t) :
    ∃ s', typeToSpec t = some s' ∧ specToType pool s' = some t :=
  settled_back t (toType_settled ho s h)

mutual
theorem plain_back {pool : Pool} (ho : pool.Ok) : ∀ (s : Spec) (h : Plain pool s),
    ∃ t, specToType pool s = some t ∧ typeToSpec t = some s
  | .unset, h => by cases h
  | .dyn, h => ⟨.dyn, by simp [specToType], rfl⟩
  | .null, h => ⟨.null, by simp [specToType], rfl⟩
  | .error, h => ⟨.error, by simp [specToType], rfl⟩
  | .param n, h => ⟨.param n, by simp [specToType], rfl⟩
  | .prim p, h => by
    cases h with
    | prim h => exact ⟨.prim p, by simp [specToType, h], rfl⟩
  | .wrap p, h => by
    cases h with
    | wrap h => exact ⟨.wrap p, by simp [specToType, h], rfl⟩
  | .known k, h => by
    cases h with
    | known h =>
      cases k
      · exact absurd rfl h
      · exact ⟨.any, by simp [specToType], rfl⟩
      · exact ⟨.timestamp, by simp [specToType], rfl⟩
      · exact ⟨.duration, by simp [specToType], rfl⟩
  | .list e, h => by
    cases h with
    | list h =>
      obtain ⟨t, h1, h2⟩ := plain_back ho e h
      exact ⟨.list t, by simp [specToType, child_of h1], by simp [typeToSpec, h2]⟩
  | .map k v, h => by
    cases h with
    | map hk hv =>
      obtain ⟨t, h1, h2⟩ := plain_back ho k hk
      obtain ⟨t', h1', h2'⟩ := plain_back ho v hv
      exact ⟨.map t t', by simp [specToType, child_of h1, child_of h1'], by simp [typeToSpec, h2, h2']⟩
  | .function r args, h => by
    cases h with
    | function hr h =>
      obtain ⟨t, h1, h2⟩ := plain_back ho r hr
      obtain ⟨ts, h1', h2'⟩ := plains_back ho args h
      exact ⟨.function t ts, by simp [specToType, child_of h1, h1'], by simp [typeToSpec, h2, h2']⟩
  | .message n, h => by
    cases h with
    | message h hw =>
      rename_i d
      exact ⟨.message d, by simp [specToType, h, ofMessage, hw], by simp [typeToSpec, ho.message n d h]⟩
  | .type t, h => by
    cases h with
    | type h =>
      obtain ⟨u, h1, h2⟩ := plain_back ho t h
      exact ⟨.type u, by simp [specToType, h1], by simp [typeToSpec, h2]⟩
  | .abstract n ps, h => by
    cases h with
    | enum hm h hn =>
      rename_i d
      exact ⟨.enum d, by simp [specToType, hm, h, ofEnum, ho.enum n d h, hn], by simp [typeToSpec, ho.enum n d h]⟩
    | «opaque» hm he h =>
      obtain ⟨ts, h1', h2'⟩ := plains_back ho ps h
      exact ⟨.opaque n ts, by simp [specToType, hm, he, h1'], by simp [typeToSpec, h2']⟩
theorem plains_back {pool : Pool} (ho : pool.Ok) : ∀ (ss : List Spec) (h : ∀ s ∈ ss, Plain pool s),
    ∃ ts, specsToTypes pool ss = some ts ∧ typesToSpecs ts = some ss
  | [], h => ⟨[], by simp [specsToTypes], by simp [typesToSpecs]⟩
  | s :: ss, h => by
    obtain ⟨t, h1, h2⟩ := plain_back ho s (h s (by simp))
    obtain ⟨ts, h1', h2'⟩ := plains_back ho ss (fun u hu => h u (by simp [hu]))
    exact ⟨t :: ts, by simp [specsToTypes, h1, h1'], by simp [typesToSpecs, h2, h2']⟩
end


mutual
/-- Specifications made from settled types are plain. -/
theorem toSpec_plain {pool : Pool} : ∀ (t : Ty) {s : Spec} (ht : Settled pool t) (h : typeToSpec t = some s), Plain pool s
  | .dyn, s, ht, h => by cases h; exact .dyn
  | .any, s, ht, h => by cases h; exact .known (by decide)
  | .timestamp, s, ht, h => by cases h; exact .known (by decide)
  | .duration, s, ht, h => by cases h; exact .known (by decide)
  | .null, s, ht, h => by cases h; exact .null
  | .error, s, ht, h => by cases h; exact .error
  | .unknown, s, ht, h => by cases ht
  | .prim p, s, ht, h => by cases ht with | prim hp => cases h; exact .prim hp
  | .wrap p, s, ht, h => by cases ht with | wrap hp => cases h; exact .wrap hp
  | .enum d, s, ht, h => by cases ht with | enum h1 hm hn => cases h; exact .enum hm h1 hn
  | .message d, s, ht, h => by cases ht with | message h1 hw => cases h; exact .message h1 hw
  | .basicStruct n, s, ht, h => by cases ht
  | .list e, s, ht, h => by
    cases ht with
    | list he =>
      simp only [typeToSpec] at h
      obtain ⟨u, h1, rfl⟩ := Option.map_eq_some_iff.1 h
      exact .list (toSpec_plain e he h1)
  | .map k v, s, ht, h => by
    cases ht with
    | map hk hv =>
      simp only [typeToSpec] at h
      split at h
      · cases h
      · rename_i k' hk'
        obtain ⟨u, h1, rfl⟩ := Option.map_eq_some_iff.1 h
        exact .map (toSpec_plain k hk hk') (toSpec_plain v hv h1)
  | .function r args, s, ht, h => by
    cases ht with
    | function hr ha =>
      simp only [typeToSpec] at h
      split at h
      · cases h
      · rename_i k' hk'
        obtain ⟨u, h1, rfl⟩ := Option.map_eq_some_iff.1 h
        exact .function (toSpec_plain r hr hk') (toSpecs_plain args ha h1)
  | .opaque n ps, s, ht, h => by
    cases ht with
    | «opaque» hm he ha =>
      simp only [typeToSpec] at h
      obtain ⟨u, h1, rfl⟩ := Option.map_eq_some_iff.1 h
      exact .opaque hm he (toSpecs_plain ps ha h1)
  | .param n, s, ht, h => by cases h; exact .param
  | .type t, s, ht, h => by
    cases ht with
    | type he =>
      simp only [typeToSpec] at h
      obtain ⟨u, h1, rfl⟩ := Option.map_eq_some_iff.1 h
      exact .type (toSpec_plain t he h1)
  | .bareType, s, ht, h => by cases ht
theorem toSpecs_plain {pool : Pool} : ∀ (ts : List Ty) {ss : List Spec} (ht : ∀ t ∈ ts, Settled pool t)
    (h : typesToSpecs ts = some ss), ∀ s ∈ ss, Plain pool s
  | [], ss, ht, h => by
    simp only [typesToSpecs, Option.some.injEq] at h
    subst h
    simp
  | t :: ts, ss, ht, h => by
    simp only [typesToSpecs] at h
    split at h
    · cases h
    · rename_i s hs
      obtain ⟨u, h1, rfl⟩ := Option.map_eq_some_iff.1 h
      intro x hx
      rcases List.mem_cons.1 hx with rfl | hx
      · exact toSpec_plain t (ht t (by simp)) hs
      · exact toSpecs_plain ts (fun u hu => ht u (by simp [hu])) h1 x hx
end

/-- **C87 (specifications).** A specification comes back from its type exactly if it is plain. -/
theorem C87_specs {pool : Pool} (ho : pool.Ok) (s : Spec) :
    (∃ t, specToType pool s = some t ∧ typeToSpec t = some s) ↔ Plain pool s :=
  ⟨fun ⟨t, h1, h2⟩ => toSpec_plain t (toType_settled ho s h1) h2, plain_back ho s⟩

end Cel.TypeConv
