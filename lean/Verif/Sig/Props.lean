import Verif.Sig.RoundTrip
import Verif.Sig.Spec

/-!
# Signatures: stripping, names, and the theorems
-/

namespace Cel.Sig

set_option linter.unusedSimpArgs false
set_option linter.unusedVariables false

/-! ## Whitespace -/

theorem isWs_false_iff (c : Char) : isWs c = false ↔ c ≠ ' ' ∧ c ≠ '\t' ∧ c ≠ '\n' ∧ c ≠ '\r' := by
  simp [isWs, and_assoc]

theorem special_not_ws {c : Char} (h : special c = true) : isWs c = false := by
  simp only [special, Bool.or_eq_true, beq_iff_eq] at h
  rcases h with ((((((h | h) | h) | h) | h) | h) | h) | h <;> subst h <;> decide

/-- Pieces that `StripUnescapedWhitespace` copies unchanged. -/
def Kept (s : Text) : Prop := ∀ rest, stripWs false (s ++ rest) = s ++ stripWs false rest

theorem kept_nil : Kept [] := fun _ => rfl

theorem kept_append {a b} (ha : Kept a) (hb : Kept b) : Kept (a ++ b) := fun rest => by
  rw [List.append_assoc, ha, hb, List.append_assoc]

theorem kept_plain {c} (h1 : c ≠ '\\') (h2 : isWs c = false) : Kept [c] := fun rest => by
  show stripWs false (c :: rest) = _
  rw [stripWs, if_neg h1, if_neg (by simp [h2])]; rfl

theorem kept_escape (dot : Bool) : ∀ s, (∀ c ∈ s, isWs c = false) → Kept (escape dot s)
  | [], _ => kept_nil
  | c :: r, h => by
    have ih := kept_escape dot r (fun x hx => h x (by simp [hx]))
    rw [escape]
    by_cases hc : (special c || (c == '.' && dot)) = true
    · rw [if_pos hc]
      refine kept_append (a := ['\\', c]) (fun rest => ?_) ih
      show stripWs false ('\\' :: c :: rest) = _
      rw [stripWs, if_pos rfl, stripWs]; rfl
    · rw [if_neg hc]
      refine kept_append (a := [c]) (kept_plain ?_ (h c (by simp))) ih
      rintro rfl; exact hc (by simp [special])

theorem kept_kw {k : Text} (hk : escape false k = k) (hw : ∀ c ∈ k, isWs c = false) : Kept k :=
  hk ▸ kept_escape false k hw

theorem kept_joinComma : ∀ {l : List Text}, (∀ s ∈ l, Kept s) → Kept (joinComma l)
  | [], _ => kept_nil
  | [s], h => h s (by simp)
  | s :: t :: r, h => by
    rw [joinComma]
    exact kept_append (h s (by simp)) (kept_append (a := [',']) (kept_plain (by decide) (by decide))
      (kept_joinComma (fun x hx => h x (by simp at hx ⊢; right; exact hx))))

theorem kept_bracket : ∀ {l : List Text}, (∀ s ∈ l, Kept s) → Kept (bracket l)
  | [], _ => kept_nil
  | s :: r, h => by
    rw [bracket]
    exact kept_append (a := ['<']) (kept_plain (by decide) (by decide))
      (kept_append (kept_joinComma h) (kept_plain (by decide) (by decide)))

theorem kept_orDyn {t s} (ih : ∀ s, showT t = some s → Kept s) (h : orDyn t (showT t) = some s) :
    Kept s := by
  cases t <;> simp only [orDyn] at h
  case unspec => injection h with h; subst h; exact kept_kw (by rfl) (by decide)
  all_goals exact ih s h

mutual
theorem kept_show : ∀ (t : TypeSpec) (s : Text), NoBlank t → showT t = some s → Kept s
  | .unspec, s, _, h => by simp [showT] at h
  | .error, s, _, h => by simp [showT] at h
  | .null, s, _, h => by
    rw [showT] at h; injection h with h; subst h; exact kept_kw (by rfl) (by decide)
  | .dyn, s, _, h => by
    rw [showT] at h; injection h with h; subst h; exact kept_kw (by rfl) (by decide)
  | .prim p, s, _, h => by
    rw [showT] at h
    cases p <;> rw [primName] at h
    case other => cases h
    all_goals injection h with h; subst h; exact kept_kw (by rfl) (by decide)
  | .wk p, s, _, h => by
    rw [showT] at h
    cases p <;> rw [wkName] at h
    case other => cases h
    all_goals injection h with h; subst h; exact kept_kw (by rfl) (by decide)
  | .wrap p, s, _, h => by
    rw [showT] at h
    cases p <;> rw [wrapName] at h
    case other => cases h
    all_goals injection h with h; subst h; exact kept_kw (by rfl) (by decide)
  | .list t, s, hb, h => by
    rw [NoBlank] at hb
    rw [showT] at h
    obtain ⟨a, ha, rfl⟩ := Option.map_eq_some_iff.mp h
    refine kept_append (kept_kw (by rfl) (by decide)) (kept_bracket ?_)
    intro x hx; rw [List.mem_singleton] at hx; subst hx
    exact kept_orDyn (fun s => kept_show t s hb) ha
  | .map k v, s, hb, h => by
    rw [NoBlank] at hb
    rw [showT] at h
    obtain ⟨a, ha, h⟩ := Option.bind_eq_some_iff.mp h
    obtain ⟨b, hb', rfl⟩ := Option.map_eq_some_iff.mp h
    refine kept_append (kept_kw (by rfl) (by decide)) (kept_bracket ?_)
    intro x hx
    rcases List.mem_cons.mp hx with hx | hx
    · subst hx; exact kept_orDyn (fun s => kept_show k s hb.1) ha
    · rw [List.mem_singleton] at hx; subst hx; exact kept_orDyn (fun s => kept_show v s hb.2) hb'
  | .func r args, s, hb, h => by
    rw [NoBlank] at hb
    rw [showT] at h
    obtain ⟨a, ha, h⟩ := Option.bind_eq_some_iff.mp h
    obtain ⟨l, hl, rfl⟩ := Option.map_eq_some_iff.mp h
    refine kept_append (kept_kw (by rfl) (by decide)) (kept_bracket ?_)
    intro x hx
    rcases List.mem_cons.mp hx with hx | hx
    · subst hx; exact kept_orDyn (fun s => kept_show r s hb.1) ha
    · exact kept_shows args l hb.2 hl x hx
  | .type t, s, hb, h => by
    rw [NoBlank] at hb
    rw [showT] at h
    obtain ⟨a, ha, rfl⟩ := Option.map_eq_some_iff.mp h
    refine kept_append (kept_kw (by rfl) (by decide)) (kept_bracket ?_)
    intro x hx; rw [List.mem_singleton] at hx; subst hx
    exact kept_show t _ hb ha
  | .param n, s, hb, h => by
    rw [NoBlank] at hb
    rw [showT] at h; injection h with h; subst h
    exact kept_append (a := ['~']) (kept_plain (by decide) (by decide))
      (kept_escape _ _ (fun c hc => (isWs_false_iff c).mpr (hb c hc)))
  | .abstract n ps, s, hb, h => by
    rw [NoBlank] at hb
    rw [showT] at h
    obtain ⟨l, hl, rfl⟩ := Option.map_eq_some_iff.mp h
    exact kept_append (kept_escape _ _ (fun c hc => (isWs_false_iff c).mpr (hb.1 c hc)))
      (kept_bracket (kept_shows ps l hb.2 hl))
  | .message n, s, hb, h => by
    rw [NoBlank] at hb
    rw [showT] at h; injection h with h; subst h
    exact kept_escape _ _ (fun c hc => (isWs_false_iff c).mpr (hb c hc))
theorem kept_shows : ∀ (l : List TypeSpec) (ss : List Text), NoBlanks l → showTs l = some ss →
    ∀ s ∈ ss, Kept s
  | [], ss, _, h => by
    rw [showTs] at h; injection h with h; subst h; simp
  | t :: r, ss, hb, h => by
    rw [NoBlanks] at hb
    rw [showTs] at h
    obtain ⟨a, ha, h⟩ := Option.bind_eq_some_iff.mp h
    obtain ⟨l, hl, rfl⟩ := Option.map_eq_some_iff.mp h
    intro x hx
    rcases List.mem_cons.mp hx with hx | hx
    · subst hx; exact kept_show t _ hb.1 ha
    · exact kept_shows r l hb.2 hl x hx
end

theorem Kept.strip {s} (h : Kept s) : stripWs false s = s := by
  have := h []; simpa [stripWs] using this

/-! ## Names -/

theorem hasDotDot_iff : ∀ n : Text, hasDotDot n = true ↔ ∃ a b, n = a ++ '.' :: '.' :: b
  | [] => by simp [hasDotDot]
  | [c] => by
    constructor
    · intro h; by_cases hc : c = '.' <;> simp [hasDotDot] at h
    · rintro ⟨a, b, h⟩
      have := congrArg List.length h
      simp at this
      omega
  | c :: d :: r => by
    by_cases h : c = '.' ∧ d = '.'
    · obtain ⟨rfl, rfl⟩ := h
      simp only [hasDotDot, true_iff]
      exact ⟨[], r, rfl⟩
    · have e : hasDotDot (c :: d :: r) = hasDotDot (d :: r) := by
        rw [hasDotDot.eq_2]
        intro l h1 h2; injection h2 with h2 _; exact h ⟨h1, h2⟩
      rw [e, hasDotDot_iff (d :: r)]
      constructor
      · rintro ⟨a, b, hh⟩; exact ⟨c :: a, b, by rw [hh]; rfl⟩
      · rintro ⟨a, b, hh⟩
        cases a with
        | nil =>
          injection hh with h1 h2; injection h2 with h2 _; exact absurd ⟨h1, h2⟩ h
        | cons x a => injection hh with _ hh; exact ⟨a, b, hh⟩

theorem parseBuiltin_eq_none_iff (n : Text) :
    parseBuiltin n = none ↔ ∀ p ∈ builtins, p.1 ≠ n := by
  rw [parseBuiltin, Option.map_eq_none_iff, List.find?_eq_none]
  simp

theorem reserved_iff (n : Text) : (∃ r ∈ reservedNames, n = r.toList) ↔
    (∃ p ∈ builtins, p.1 = n) ∨ n = kwType ∨ n = kwList ∨ n = kwMap ∨ n = kwFunction := by
  have key : ∀ m : Text, m ∈ reservedNames.map String.toList ↔
      m ∈ builtins.map (·.1) ++ [kwType, kwList, kwMap, kwFunction] := by
    intro m
    have h1 : ∀ m ∈ reservedNames.map String.toList,
      m ∈ builtins.map (·.1) ++ [kwType, kwList, kwMap, kwFunction] := by decide
    have h2 : ∀ m ∈ builtins.map (·.1) ++ [kwType, kwList, kwMap, kwFunction],
      m ∈ reservedNames.map String.toList := by decide
    exact ⟨h1 m, h2 m⟩
  have := key n
  simp only [List.mem_map, List.mem_append, List.mem_cons, List.not_mem_nil, or_false] at this
  constructor
  · rintro ⟨r, hr, rfl⟩
    exact this.mp ⟨r, hr, rfl⟩
  · intro h
    obtain ⟨r, hr, he⟩ := this.mpr h
    exact ⟨r, hr, he.symm⟩

theorem classify_typeName {n : Text} (h : TypeName n) (ps) :
    classify n ps = some (.abstract n ps) := by
  obtain ⟨⟨h1, _⟩, h2, h3⟩ := h
  have hr : ¬ ∃ r ∈ reservedNames, n = r.toList := by
    rintro ⟨r, hr, he⟩; exact h2 r hr he
  rw [reserved_iff] at hr
  simp only [not_or] at hr
  obtain ⟨hb, ht, hl, hm, hf⟩ := hr
  have hb' : parseBuiltin n = none :=
    (parseBuiltin_eq_none_iff n).mpr fun p hp he => hb ⟨p, hp, he⟩
  have hd : hasDotDot n = false := by
    rw [← Bool.not_eq_true, hasDotDot_iff]; exact h3
  rw [classify, hb']
  dsimp only
  rw [if_neg ht, if_neg hl, if_neg hm, if_neg hf, if_neg (by simp [h1, hd])]

end Cel.Sig
