import Verif.Walk.Occ

set_option linter.unusedSimpArgs false
set_option linter.unusedVariables false

/-! # C65: what the validators accept -/

namespace Cel.Walk
open Cel Cel.Proto Cel.Num

section
variable {t : NExpr} {fuel : Nat} {m : Nav}

/-! ## Depth -/

mutual
theorem height_path : ∀ (v : VT) (k : Nat), k < heightV v ↔ ∃ p w, p.length = k ∧ atV p v = some w
  | .mk e r l kids, k => by
    have ih := heights_path kids
    cases k with
    | zero =>
      simp only [heightV]
      exact ⟨fun _ => ⟨[], _, rfl, rfl⟩, fun _ => by omega⟩
    | succ k =>
      simp only [heightV, show k + 1 < 1 + heightsV kids ↔ k < heightsV kids by omega, ih]
      constructor
      · rintro ⟨j, u, p, w, hj, hp, hw⟩
        exact ⟨j :: p, w, by simp [hp], by simp only [atV, hj, hw]⟩
      · rintro ⟨p, w, hp, hw⟩
        cases p with
        | nil => simp at hp
        | cons j p =>
          simp only [atV] at hw
          cases hj : kids[j]? with
          | none => rw [hj] at hw; cases hw
          | some u =>
            rw [hj] at hw
            exact ⟨j, u, p, w, hj, by simpa using hp, hw⟩
theorem heights_path : ∀ (vs : List VT) (k : Nat), k < heightsV vs ↔
    ∃ (j : Nat) (u : VT) (p : List Nat) (w : VT), vs[j]? = some u ∧ p.length = k ∧ atV p u = some w
  | [], k => by simp [heightsV]
  | v :: vs, k => by
    have ih1 := height_path v k
    have ih2 := heights_path vs k
    simp only [heightsV]
    rw [show k < max (heightV v) (heightsV vs) ↔ k < heightV v ∨ k < heightsV vs by omega, ih1, ih2]
    constructor
    · rintro (⟨p, w, hp, hw⟩ | ⟨j, u, p, w, hj, hp, hw⟩)
      · exact ⟨0, v, p, w, rfl, hp, hw⟩
      · exact ⟨j + 1, u, p, w, by simpa using hj, hp, hw⟩
    · rintro ⟨j, u, p, w, hj, hp, hw⟩
      cases j with
      | zero =>
        simp only [List.getElem?_cons_zero, Option.some.injEq] at hj
        subst hj
        exact .inl ⟨p, w, hp, hw⟩
      | succ j => exact .inr ⟨j, u, p, w, by simpa using hj, hp, hw⟩
end

/-- The depth validator accepts the expressions no part of which is nested deeper than the limit;
an unset list element or comprehension part counts as a part. -/
theorem C65_depth (hp : t.present = true) (hw : WFC t) (hb : build t fuel = some m)
    (maxDepth : Int) :
    ∃ b iss, astDepthValidator maxDepth m = some (b, iss) ∧
      (b = true ↔ ∀ anc l ks, Occ t anc (.node l ks) →
        (anc.length + 1 : Int) ≤ maxDepth ∧
        (ReadsUnsetIn l.kind ks → (anc.length + 2 : Int) ≤ maxDepth)) ∧
      (b = true ↔ iss = []) := by
  have hat : atV [] (seenTree t) = some (seenTree t) := rfl
  cases hT : seenTree t with
  | mk e r l0 kids =>
  obtain ⟨x, h1, _, _, _, _, hh, _⟩ := (C64_rows t hp hw fuel m hb).1 [] e r l0 kids (by rw [hT]; rfl)
  simp only [posV] at h1
  simp only [astDepthValidator, h1]
  have hx : x.height = heightV (seenTree t) := by rw [hT]; exact hh
  have key : ((x.height : Int) ≤ maxDepth) ↔ ∀ anc l ks, Occ t anc (.node l ks) →
        (anc.length + 1 : Int) ≤ maxDepth ∧
        (ReadsUnsetIn l.kind ks → (anc.length + 2 : Int) ≤ maxDepth) := by
    rw [hx]
    constructor
    · intro hle anc l ks hO
      obtain ⟨p, a, hL⟩ := occ_ladder hO
      have hlen := (ladder_occ hL).2
      obtain ⟨_, _, e', he'⟩ := ladder_at hL
      have hlt := (height_path (seenTree t) p.length).2 ⟨p, _, rfl, he'⟩
      refine ⟨by omega, fun hu => ?_⟩
      obtain ⟨j, e'', hj⟩ := viewKids_unset l.kind a ks 0 hu
      have hlt2 := (height_path (seenTree t) (p ++ [j]).length).2 ⟨p ++ [j], _, rfl, by
        rw [atV_append, he']; simp only [view, atV, hj]; rfl⟩
      simp only [List.length_append, List.length_cons, List.length_nil] at hlt2
      omega
    · intro hall
      have hpos : 0 < heightV (seenTree t) := by rw [hT]; simp only [heightV]; omega
      obtain ⟨p, w, hpl, hw'⟩ := (height_path (seenTree t) (heightV (seenTree t) - 1)).1 (by omega)
      rcases at_ladder hp p w hw' with ⟨anc, n, a, e', hL, rfl⟩ | ⟨q, j, anc, l, ks, a, e', rfl, hL, hr, rfl⟩
      · have hn := (ladder_at hL).1
        cases n with
        | absent => simp [Tree.present] at hn
        | node l ks =>
          have := (hall anc l ks (ladder_occ hL).1).1
          have := (ladder_occ hL).2
          omega
      · have := (hall anc l ks (ladder_occ hL).1).2 hr
        have := (ladder_occ hL).2
        simp only [List.length_append, List.length_cons, List.length_nil] at hpl
        omega
  by_cases hgt : (x.height : Int) > maxDepth
  · rw [if_pos hgt]
    refine ⟨_, _, rfl, ?_, by simp⟩
    rw [← key]
    simp; omega
  · rw [if_neg hgt]
    refine ⟨_, _, rfl, ?_, by simp⟩
    rw [← key]
    simp; omega

/-! ## Nesting of comprehensions -/

/-- A comprehension, other than one over the literal `[]`. -/
def isLoop : NExpr → Bool
  | .node ⟨_, .comprehension _ _ _⟩ (.node ⟨_, .list []⟩ _ :: _) => false
  | .node ⟨_, .comprehension _ _ _⟩ _ => true
  | _ => false

theorem isLoop_eq (l : NNode) (ks : List NExpr) :
    isLoop (.node l ks) = true ↔ getNodeKind l.kind = .comprehension ∧ isEmptyRange ks = false := by
  obtain ⟨id, k⟩ := l
  cases k <;> simp only [isLoop, getNodeKind, Bool.false_eq_true, reduceCtorEq, false_and, true_and]
  cases ks with
  | nil => simp [isLoop, isEmptyRange]
  | cons c cs =>
    cases c with
    | absent => simp [isLoop, isEmptyRange]
    | node l' cs' =>
      obtain ⟨id', k'⟩ := l'
      cases k' with
      | list opt => cases opt <;> simp [isLoop, isEmptyRange]
      | _ => simp [isLoop, isEmptyRange]

theorem countUp_eq (hp : t.present = true) (hw : WFC t) (hb : build t fuel = some m)
    {p : List Nat} {anc : List NExpr} {n : NExpr} {a : Addr} (hL : Ladder t p anc n a) :
    ∀ (f : Nat) (c : Int), p.length < f →
      countUp t m f (some (posV p (seenTree t))) c = some (c + ((n :: anc).countP isLoop : Nat)) := by
  induction hL with
  | root h =>
    intro f c hf
    obtain ⟨f, rfl⟩ : ∃ g, f = g + 1 := ⟨f - 1, by omega⟩
    cases t with
    | absent => simp [Tree.present] at h
    | node l ks =>
      obtain ⟨x, h1, h2, _, _, h3, _⟩ := row_ladder hp hw hb (.root h)
      simp only [countUp, h1, h3 rfl, h2]
      by_cases hl : isLoop (.node l ks) = true
      · rw [if_pos ((isLoop_eq l ks).1 hl)]; simp [countUp, hl]
      · rw [if_neg (fun h => hl ((isLoop_eq l ks).2 h))]; simp [countUp, hl]
  | @step p anc l ks a i j n hL hi hc hj ih =>
    intro f c hf
    obtain ⟨f, rfl⟩ : ∃ g, f = g + 1 := ⟨f - 1, by omega⟩
    cases n with
    | absent => simp [Tree.present] at hc
    | node l' ks' =>
      obtain ⟨x, h1, h2, _, _, _, h3⟩ := row_ladder hp hw hb (.step hL hi hc hj)
      simp only [List.length_append, List.length_cons, List.length_nil] at hf
      simp only [countUp, h1, h3 p j rfl, h2]
      rw [ih f _ (by omega), List.countP_cons (l := .node l ks :: anc)]
      by_cases hl : isLoop (.node l' ks') = true
      · rw [if_pos ((isLoop_eq l' ks').1 hl), if_pos hl]; congr 1; push_cast; omega
      · rw [if_neg (fun h => hl ((isLoop_eq l' ks').2 h)), if_neg hl]; congr 1

/-- The nesting validator accepts the expressions no comprehension of which is nested, itself
counted, in more than `limit`, comprehensions over `[]` not counting; otherwise it reports one that
is. -/
theorem C65_nesting (hp : t.present = true) (hw : WFC t) (hb : build t fuel = some m)
    (limit : Int) :
    ∃ b iss, nestingValidator limit t m = some (b, iss) ∧
      (b = true ↔ ∀ anc n, Occ t anc n → isLoop n = true →
        (((n :: anc).countP isLoop : Nat) : Int) ≤ limit) ∧
      (b = true → iss = []) ∧
      (b = false → ∃ anc l ks, Occ t anc (.node l ks) ∧ isLoop (.node l ks) = true ∧
        ∃ count : Nat, count = (.node l ks :: anc).countP isLoop ∧ (count : Int) > limit ∧
        iss = [⟨some l.id, .nesting count limit⟩]) := by
  obtain ⟨x0, hx0, hpo, hall, _⟩ := C64_postorder_root t hp hw fuel m hb
  have hroot : rootPostorder m = some m.postorder := by simp only [rootPostorder, hx0, hpo]
  simp only [nestingValidator, hroot]
  have loop : ∀ is : List Nat, (∀ i ∈ is, i < m.nodes.length) → ∃ b iss,
      nestingLoop t m limit is = some (b, iss) ∧
      (b = true ↔ ∀ p anc n a, Ladder t p anc n a → posV p (seenTree t) ∈ is → isLoop n = true →
        (((n :: anc).countP isLoop : Nat) : Int) ≤ limit) ∧
      (b = true → iss = []) ∧
      (b = false → ∃ anc l ks, Occ t anc (.node l ks) ∧ isLoop (.node l ks) = true ∧
        ∃ count : Nat, count = (.node l ks :: anc).countP isLoop ∧ (count : Int) > limit ∧
        iss = [⟨some l.id, .nesting count limit⟩]) := by
    intro is
    induction is with
    | nil => intro _; exact ⟨true, [], rfl, by simp, by simp, by simp⟩
    | cons i is ih =>
      intro hlt
      obtain ⟨b', iss', h1, h2, h3, h4⟩ := ih fun i' hi' => hlt i' (List.mem_cons_of_mem _ hi')
      obtain ⟨p, w, hat, rfl⟩ := (C64_rows t hp hw fuel m hb).2.1 i (hlt i List.mem_cons_self)
      have hpl := path_le hp hw hb hat
      have inj : ∀ p' anc' n' a', Ladder t p' anc' n' a' →
          posV p' (seenTree t) = posV p (seenTree t) → p' = p := by
        intro p' anc' n' a' hL' he
        obtain ⟨_, _, e', hat'⟩ := ladder_at hL'
        exact (C64_rows t hp hw fuel m hb).2.2 p' p _ _ hat' hat he
      rcases at_ladder hp p w hat with ⟨anc, n, a, e, hL, rfl⟩ | ⟨q, j, anc, l, ks, a, e, rfl, hL, hr, rfl⟩
      · have hn := (ladder_at hL).1
        cases n with
        | absent => simp [Tree.present] at hn
        | node l ks =>
          obtain ⟨x, r1, r2, _⟩ := row_ladder hp hw hb hL
          have huniq : ∀ p' anc' n' a', Ladder t p' anc' n' a' →
              posV p' (seenTree t) = posV p (seenTree t) → anc' = anc ∧ n' = .node l ks := by
            intro p' anc' n' a' hL' he
            have := inj p' anc' n' a' hL' he
            subst this
            exact ⟨(ladder_unique hL hL' rfl).1, (ladder_unique hL hL' rfl).2.1⟩
          by_cases hl : isLoop (.node l ks) = true
          · have hk := (isLoop_eq l ks).1 hl
            have hc := countUp_eq hp hw hb hL (m.nodes.length + 1) 0 (by omega)
            simp only [nestingLoop, r1, r2, hk.1, hk.2, hc, ne_eq, not_true_eq_false, if_false,
              Bool.false_eq_true, Int.zero_add]
            by_cases hgt : (((Tree.node l ks :: anc).countP isLoop : Nat) : Int) > limit
            · rw [if_pos hgt]
              refine ⟨_, _, rfl, ?_, by simp, fun _ => ⟨anc, l, ks, (ladder_occ hL).1, hl, _, rfl, hgt, rfl⟩⟩
              simp only [Bool.false_eq_true, false_iff]
              intro h
              have := h p anc _ a hL List.mem_cons_self hl
              omega
            · rw [if_neg hgt]
              refine ⟨b', iss', h1, ?_, h3, h4⟩
              rw [h2]
              constructor
              · intro h p' anc' n' a' hL' hm hl'
                rcases List.mem_cons.1 hm with hm | hm
                · obtain ⟨rfl, rfl⟩ := huniq p' anc' n' a' hL' hm
                  omega
                · exact h p' anc' n' a' hL' hm hl'
              · intro h p' anc' n' a' hL' hm hl'
                exact h p' anc' n' a' hL' (List.mem_cons_of_mem _ hm) hl'
          · have hstep : nestingLoop t m limit (posV p (seenTree t) :: is) = nestingLoop t m limit is := by
              have := fun h => hl ((isLoop_eq l ks).2 h)
              by_cases hk : getNodeKind l.kind = .comprehension
              · have he : isEmptyRange ks = true := by
                  cases hE : isEmptyRange ks with
                  | true => rfl
                  | false => exact absurd ⟨hk, hE⟩ this
                simp [nestingLoop, r1, r2, hk, he]
              · simp [nestingLoop, r1, r2, hk]
            rw [hstep]
            refine ⟨b', iss', h1, ?_, h3, h4⟩
            rw [h2]
            constructor
            · intro h p' anc' n' a' hL' hm hl'
              rcases List.mem_cons.1 hm with hm | hm
              · obtain ⟨rfl, rfl⟩ := huniq p' anc' n' a' hL' hm
                exact absurd hl' hl
              · exact h p' anc' n' a' hL' hm hl'
            · intro h p' anc' n' a' hL' hm hl'
              exact h p' anc' n' a' hL' (List.mem_cons_of_mem _ hm) hl'
      · obtain ⟨x, r1, r2, _⟩ := row_dflt hp hw hb hat
        have hstep : nestingLoop t m limit (posV (q ++ [j]) (seenTree t) :: is) =
            nestingLoop t m limit is := by
          simp [nestingLoop, r1, r2]
        rw [hstep]
        refine ⟨b', iss', h1, ?_, h3, h4⟩
        rw [h2]
        constructor
        · intro h p' anc' n' a' hL' hm hl'
          rcases List.mem_cons.1 hm with hm | hm
          · have := inj p' anc' n' a' hL' hm
            subst this
            obtain ⟨hn', _, e', hat'⟩ := ladder_at hL'
            rw [hat] at hat'
            cases n' with
            | absent => simp [Tree.present] at hn'
            | node l' ks' => simp [view] at hat'
          · exact h p' anc' n' a' hL' hm hl'
        · intro h p' anc' n' a' hL' hm hl'
          exact h p' anc' n' a' hL' (List.mem_cons_of_mem _ hm) hl'
  obtain ⟨b, iss, h1, h2, h3, h4⟩ := loop m.postorder fun i hi => (hall i).1 hi
  refine ⟨b, iss, h1, h2.trans ⟨?_, ?_⟩, h3, h4⟩
  · intro h anc n hO hl
    obtain ⟨p, a, hL⟩ := occ_ladder hO
    obtain ⟨_, _, e, hat⟩ := ladder_at hL
    exact h p anc n a hL ((hall _).2 (path_le hp hw hb hat).2) hl
  · intro h p anc n a hL _ hl
    exact h anc n (ladder_occ hL).1 hl

end

end Cel.Walk
