import Verif.Json.MessageProps

set_option linter.dupNamespace false
set_option linter.unusedSimpArgs false
set_option linter.unusedVariables false

namespace Cel.Json.Message
open Cel Cel.Num Cel.Eval Cel.Data Cel.Json Cel.Json.Spec Cel.Json.Message.Spec

def snakeChars (l : List Char) : List Char :=
  l.flatMap fun c => if isUpper c then ['_', Char.ofNat (c.toNat + 32)] else [c]

theorem snakeChars_cons (c : Char) (l : List Char) :
    snakeChars (c :: l) = (if isUpper c then ['_', Char.ofNat (c.toNat + 32)] else [c]) ++ snakeChars l := rfl

theorem toUpper_lower {c : Char} (h : isLower c = true) :
    isUpper (toUpper c) = true ∧ Char.ofNat ((toUpper c).toNat + 32) = c := by
  have hb : 97 ≤ c.toNat ∧ c.toNat ≤ 122 := by
    simpa [isLower] using h
  have hn : ∀ n, n < 128 → (Char.ofNat n).toNat = n := by
    intro n hn
    unfold Char.ofNat
    rw [dif_pos (Or.inl (by omega))]
    rfl
  rw [toUpper, if_pos h]
  have h1 := hn (c.toNat - 32) (by omega)
  refine ⟨?_, ?_⟩
  · simp only [isUpper, h1, Bool.and_eq_true, decide_eq_true_eq]; omega
  · rw [h1, show c.toNat - 32 + 32 = c.toNat by omega, Char.ofNat_toNat]

theorem lower_not {c : Char} (h : isLower c = true) : isUpper c = false ∧ c ≠ '_' := by
  have hb : 97 ≤ c.toNat ∧ c.toNat ≤ 122 := by
    simpa [isLower] using h
  refine ⟨?_, ?_⟩
  · simp only [isUpper, Bool.and_eq_false_iff, decide_eq_false_iff_not]; omega
  · rintro rfl
    have : ('_' : Char).toNat = 95 := rfl
    omega

/-- The loop undoes `snakeChars`. -/
theorem camelLoop_snake (l : List Char) : ∀ (out r : List Char),
    (camelLoop l false out = .ok r → ∃ t, r = out ++ t ∧ snakeChars t = l) ∧
    (camelLoop l true out = .ok r → ∃ t, r = out ++ t ∧ snakeChars t = '_' :: l) := by
  induction l with
  | nil =>
    intro out r
    refine ⟨fun h => ⟨[], ?_, rfl⟩, fun h => ?_⟩
    · simp only [camelLoop] at h; injection h with h; simp [h]
    · simp [camelLoop] at h
  | cons c l ih =>
    intro out r
    constructor
    · intro h
      rw [camelLoop] at h
      by_cases hu : isUpper c = true
      · rw [if_pos hu] at h; cases h
      rw [if_neg hu, if_neg (by simp)] at h
      by_cases hc : c = '_'
      · rw [if_pos hc] at h
        obtain ⟨t, ht, hs⟩ := (ih out r).2 h
        exact ⟨t, ht, by rw [hs, hc]⟩
      · rw [if_neg hc] at h
        obtain ⟨t, ht, hs⟩ := (ih _ r).1 h
        refine ⟨c :: t, by rw [ht]; simp, ?_⟩
        rw [snakeChars_cons, if_neg hu, hs]; rfl
    · intro h
      rw [camelLoop] at h
      by_cases hu : isUpper c = true
      · rw [if_pos hu] at h; cases h
      rw [if_neg hu, if_pos rfl] at h
      by_cases hc : isLower c = true
      · rw [if_pos hc] at h
        obtain ⟨t, ht, hs⟩ := (ih _ r).1 h
        refine ⟨toUpper c :: t, by rw [ht]; simp, ?_⟩
        rw [snakeChars_cons, if_pos (toUpper_lower hc).1, (toUpper_lower hc).2, hs]; rfl
      · rw [if_neg hc] at h; cases h

def GoodChars (l : List Char) : Prop :=
  (∀ c ∈ l, isUpper c = false) ∧
  ∀ i : Nat, l[i]? = some '_' → ∃ c, l[i + 1]? = some c ∧ isLower c = true

theorem good_cons (c : Char) (l : List Char) :
    GoodChars (c :: l) ↔ isUpper c = false ∧ (c = '_' → ∃ d l', l = d :: l' ∧ isLower d = true) ∧
      GoodChars l := by
  constructor
  · rintro ⟨h1, h2⟩
    refine ⟨h1 c List.mem_cons_self, ?_, fun d hd => h1 d (List.mem_cons_of_mem _ hd), ?_⟩
    · rintro rfl
      obtain ⟨d, hd, hl⟩ := h2 0 rfl
      cases l with
      | nil => cases hd
      | cons x l => injection hd with hd; subst hd; exact ⟨_, l, rfl, hl⟩
    · intro i hi
      have := h2 (i + 1) (by simpa using hi)
      simpa using this
  · rintro ⟨h1, h2, h3, h4⟩
    refine ⟨?_, ?_⟩
    · intro d hd
      rcases List.mem_cons.1 hd with rfl | hd
      · exact h1
      · exact h3 d hd
    · intro i hi
      cases i with
      | zero =>
        obtain ⟨d, l', rfl, hd⟩ := h2 (by simpa using hi)
        exact ⟨d, rfl, hd⟩
      | succ i =>
        have := h4 i (by simpa using hi)
        simpa using this

theorem camelLoop_ok_iff (l : List Char) : ∀ (out : List Char),
    ((∃ r, camelLoop l false out = .ok r) ↔ GoodChars l) ∧
    ((∃ r, camelLoop l true out = .ok r) ↔
      (∃ d l', l = d :: l' ∧ isLower d = true) ∧ GoodChars l) := by
  induction l with
  | nil =>
    intro out
    simp [camelLoop, GoodChars]
  | cons c l ih =>
    intro out
    rw [good_cons]
    constructor
    · rw [camelLoop]
      by_cases hu : isUpper c = true
      · rw [if_pos hu]; simp [hu]
      rw [if_neg hu, if_neg (by simp)]
      have hu' : isUpper c = false := by simpa using hu
      by_cases hc : c = '_'
      · rw [if_pos hc, (ih out).2]
        exact ⟨fun h => ⟨hu', fun _ => h.1, h.2⟩, fun h => ⟨h.2.1 hc, h.2.2⟩⟩
      · rw [if_neg hc, (ih _).1]
        exact ⟨fun h => ⟨hu', fun h' => absurd h' hc, h⟩, fun h => h.2.2⟩
    · rw [camelLoop]
      by_cases hu : isUpper c = true
      · rw [if_pos hu]; simp [hu]
      rw [if_neg hu, if_pos rfl]
      have hu' : isUpper c = false := by simpa using hu
      by_cases hc : isLower c = true
      · rw [if_pos hc, (ih _).1]
        exact ⟨fun h => ⟨⟨c, l, rfl, hc⟩, hu', fun h' => absurd h' (lower_not hc).2, h⟩, fun h => h.2.2.2⟩
      · rw [if_neg hc]
        constructor
        · rintro ⟨r, hr⟩; cases hr
        · rintro ⟨⟨d, l', he, hd⟩, _⟩
          injection he with h1 h2; subst h1; exact absurd hd hc

/-- A field mask path has a JSON form just when it is good, and the path can be read back off it. -/
theorem C78_paths (p : String) :
    ((∃ s, snakeToCamel p = .ok s) ↔ GoodPath p) ∧
    (∀ s, snakeToCamel p = .ok s → snake s = p) ∧
    (∀ e, snakeToCamel p = .err e → e.code = .invalidArgument) ∧ snakeToCamel p ≠ .ub := by
  refine ⟨?_, ?_, ?_, ?_⟩
  · rw [show GoodPath p ↔ GoodChars p.toList from Iff.rfl, ← (camelLoop_ok_iff p.toList []).1]
    unfold snakeToCamel
    constructor
    · rintro ⟨s, hs⟩
      cases h : camelLoop p.toList false [] with
      | ok r => exact ⟨r, rfl⟩
      | err e => rw [h] at hs; cases hs
      | ub => rw [h] at hs; cases hs
    · rintro ⟨r, hr⟩; exact ⟨String.ofList r, by rw [hr]; rfl⟩
  · intro s hs
    unfold snakeToCamel at hs
    cases h : camelLoop p.toList false [] with
    | ok r =>
      rw [h] at hs; injection hs with hs
      obtain ⟨t, ht, hp⟩ := (camelLoop_snake p.toList [] r).1 h
      subst hs
      show String.ofList (snakeChars (String.ofList r).toList) = p
      rw [String.toList_ofList, show r = t by simpa using ht, hp, String.ofList_toList]
    | err e => rw [h] at hs; cases hs
    | ub => rw [h] at hs; cases hs
  · have key : ∀ l a out e, camelLoop l a out = .err e → e.code = .invalidArgument := by
      intro l
      induction l with
      | nil =>
        intro a out e h; rw [camelLoop] at h
        split at h <;> cases h; rfl
      | cons c l ih =>
        intro a out e h; rw [camelLoop] at h
        repeat' split at h
        all_goals first | exact ih _ _ _ h | (cases h; rfl)
    intro e he
    unfold snakeToCamel at he
    cases h : camelLoop p.toList false [] with
    | ok r => rw [h] at he; cases he
    | err e' => rw [h] at he; injection he with he; subst he; exact key _ _ _ _ h
    | ub => rw [h] at he; cases he
  · have key : ∀ l a out, camelLoop l a out ≠ .ub := by
      intro l
      induction l with
      | nil => intro a out; rw [camelLoop]; split <;> exact nofun
      | cons c l ih =>
        intro a out; rw [camelLoop]
        repeat' split
        all_goals first | exact ih _ _ | exact nofun
    unfold snakeToCamel
    cases h : camelLoop p.toList false [] with
    | ok r => exact nofun
    | err e' => exact nofun
    | ub => exact absurd h (key _ _ _)

theorem maskPaths_ok (ps : List String) : ∀ (acc l : List String),
    maskPaths ps acc = .ok l ↔ ∃ r, l = acc ++ r ∧ List.Forall₂ (fun p s => snakeToCamel p = .ok s) ps r := by
  induction ps with
  | nil =>
    intro acc l
    rw [maskPaths]
    constructor
    · intro h; injection h with h; exact ⟨[], by simp [h], .nil⟩
    · rintro ⟨r, rfl, hr⟩; cases hr; simp
  | cons p ps ih =>
    intro acc l
    rw [maskPaths]
    cases h : snakeToCamel p with
    | ok s =>
      rw [Res.bind_ok, ih]
      constructor
      · rintro ⟨r, rfl, hr⟩; exact ⟨s :: r, by simp, .cons h hr⟩
      · rintro ⟨r, rfl, hr⟩
        cases hr with
        | cons h1 h2 => rw [h] at h1; injection h1 with h1; subst h1; exact ⟨_, by simp, h2⟩
    | err e =>
      constructor
      · intro h'; cases h'
      · rintro ⟨r, _, hr⟩; cases hr with | cons h1 h2 => rw [h] at h1; cases h1
    | ub =>
      constructor
      · intro h'; cases h'
      · rintro ⟨r, _, hr⟩; cases hr with | cons h1 h2 => rw [h] at h1; cases h1

theorem maskPaths_iff (ps : List String) (acc : List String) :
    (∃ l, maskPaths ps acc = .ok l) ↔ ∀ p ∈ ps, GoodPath p := by
  constructor
  · rintro ⟨l, hl⟩ p hp
    obtain ⟨r, _, hr⟩ := (maskPaths_ok ps acc l).1 hl
    obtain ⟨s, _, hs⟩ := forall₂_mem_left hr hp
    exact ((C78_paths p).1).1 ⟨s, hs⟩
  · intro h
    have : ∃ r, List.Forall₂ (fun p s => snakeToCamel p = .ok s) ps r := by
      induction ps with
      | nil => exact ⟨[], .nil⟩
      | cons p ps ih =>
        obtain ⟨s, hs⟩ := ((C78_paths p).1).2 (h p List.mem_cons_self)
        obtain ⟨r, hr⟩ := ih fun q hq => h q (List.mem_cons_of_mem _ hq)
        exact ⟨s :: r, .cons hs hr⟩
    obtain ⟨r, hr⟩ := this
    exact ⟨acc ++ r, (maskPaths_ok ps acc _).2 ⟨r, rfl, hr⟩⟩

/-! ## The joined paths -/

theorem comma_split {x y u v : List Char} (hx : ',' ∉ x) (hy : ',' ∉ y)
    (h : x ++ ',' :: u = y ++ ',' :: v) : x = y ∧ u = v := by
  induction x generalizing y with
  | nil =>
    cases y with
    | nil => simpa using h
    | cons b y =>
      simp only [List.nil_append, List.cons_append, List.cons.injEq] at h
      exact absurd (h.1 ▸ List.mem_cons_self) hy
  | cons a x ih =>
    cases y with
    | nil =>
      simp only [List.nil_append, List.cons_append, List.cons.injEq] at h
      exact absurd (h.1 ▸ List.mem_cons_self) hx
    | cons b y =>
      simp only [List.cons_append, List.cons.injEq] at h
      obtain ⟨h1, h2⟩ := ih (fun hh => hx (List.mem_cons_of_mem _ hh))
        (fun hh => hy (List.mem_cons_of_mem _ hh)) h.2
      exact ⟨by rw [h.1, h1], h2⟩

theorem join_chars (s t : String) (l : List String) :
    (join (s :: t :: l)).toList = s.toList ++ ',' :: (join (t :: l)).toList := by
  rw [join, String.toList_append, String.toList_append, List.append_assoc]; rfl

theorem join_ne {l : List String} (h : ∀ s ∈ l, s ≠ "") (hl : l ≠ []) : join l ≠ "" := by
  cases l with
  | nil => exact absurd rfl hl
  | cons s l =>
    cases l with
    | nil => exact h s (by simp)
    | cons t l =>
      intro hh
      have := congrArg String.toList hh
      rw [join_chars] at this
      simp at this

theorem join_inj (l : List String) : ∀ (l' : List String), (∀ s ∈ l, s ≠ "" ∧ ',' ∉ s.toList) →
    (∀ s ∈ l', s ≠ "" ∧ ',' ∉ s.toList) → join l = join l' → l = l' := by
  induction l with
  | nil =>
    intro l' _ h' he
    by_cases hn : l' = []
    · rw [hn]
    · exact absurd he.symm (join_ne (fun s hs => (h' s hs).1) hn)
  | cons s l ih =>
    intro l' h h' he
    cases l' with
    | nil => exact absurd he (join_ne (fun s hs => (h s hs).1) (by simp))
    | cons s' l' =>
      have hs := (h s (by simp)).2
      have hs' := (h' s' (by simp)).2
      cases l with
      | nil =>
        cases l' with
        | nil => simp only [join] at he; rw [he]
        | cons t' l' =>
          have := congrArg String.toList he
          rw [join_chars] at this
          simp only [join] at this
          exact absurd (by rw [this]; simp) hs
      | cons t l =>
        cases l' with
        | nil =>
          have := congrArg String.toList he
          rw [join_chars] at this
          simp only [join] at this
          exact absurd (by rw [← this]; simp) hs'
        | cons t' l' =>
          have := congrArg String.toList he
          rw [join_chars, join_chars] at this
          obtain ⟨h1, h2⟩ := comma_split hs hs' this
          rw [String.toList_inj.1 h1, ih (t' :: l') (fun s hs => h s (List.mem_cons_of_mem _ hs))
            (fun s hs => h' s (List.mem_cons_of_mem _ hs)) (String.toList_inj.1 h2)]

theorem camel_plain {p s : String} (h : snakeToCamel p = .ok s) (hp : p ≠ "" ∧ ',' ∉ p.toList) :
    s ≠ "" ∧ ',' ∉ s.toList := by
  have hs := (C78_paths p).2.1 s h
  constructor
  · rintro rfl; exact hp.1 (by rw [← hs]; rfl)
  · intro hc
    apply hp.2
    rw [← hs]
    unfold snake
    rw [String.toList_ofList, List.mem_flatMap]
    exact ⟨',', hc, by decide⟩

theorem mask_inj {ps ps' l l' : List String} (h : maskPaths ps [] = .ok l) (h' : maskPaths ps' [] = .ok l')
    (hp : ∀ p ∈ ps, p ≠ "" ∧ ',' ∉ p.toList) (hp' : ∀ p ∈ ps', p ≠ "" ∧ ',' ∉ p.toList)
    (he : join l = join l') : ps = ps' := by
  obtain ⟨r, hr, hf⟩ := (maskPaths_ok ps [] l).1 h
  obtain ⟨r', hr', hf'⟩ := (maskPaths_ok ps' [] l').1 h'
  rw [List.nil_append] at hr hr'
  subst hr hr'
  have hl : l = l' := by
    refine join_inj l l' ?_ ?_ he
    · intro s hs
      obtain ⟨p, hpm, hps⟩ := forall₂_mem_right hf hs
      exact camel_plain hps (hp p hpm)
    · intro s hs
      obtain ⟨p, hpm, hps⟩ := forall₂_mem_right hf' hs
      exact camel_plain hps (hp' p hpm)
  subst hl
  have hsn : ∀ (ps l : List String), List.Forall₂ (fun p s => snakeToCamel p = .ok s) ps l →
      l.map snake = ps := by
    intro ps l h
    induction h with
    | nil => rfl
    | cons h1 _ ih => rw [List.map_cons, ih, (C78_paths _).2.1 _ h1]
  rw [← hsn _ _ hf, ← hsn _ _ hf']

end Cel.Json.Message
