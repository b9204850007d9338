import Verif.Walk.ValidOk
import Verif.Walk.TypeEquiv

set_option linter.unusedSimpArgs false
set_option linter.unusedVariables false

/-! # C65: literals – element types, patterns, timestamps and durations -/

namespace Cel.Walk
open Cel Cel.Proto Cel.Num

section
variable {t : NExpr} {fuel : Nat} {m : Nav}

/-! ## Homogeneous literals -/

/-- A call of one of these functions. -/
def callOf (fns : List String) : NExpr → Bool
  | .node ⟨_, .call fn⟩ _ => fns.contains fn
  | _ => false

theorem callOf_eq (fns : List String) (l : NNode) (ks : List NExpr) :
    callOf fns (.node l ks) = true ↔ getNodeKind l.kind = .call ∧
      functionIn fns l = true := by
  obtain ⟨id, k⟩ := l
  cases k <;> simp [callOf, getNodeKind, functionIn]

theorem inExempt_eq (hp : t.present = true) (hw : WFC t) (hb : build t fuel = some m)
    (fns : List String) {p : List Nat} {anc : List NExpr} {n : NExpr} {a : Addr}
    (hL : Ladder t p anc n a) : ∀ (f : Nat), p.length < f →
      inExempt t m fns f (some (posV p (seenTree t))) = some ((n :: anc).any (callOf fns)) := by
  induction hL with
  | root h =>
    intro f hf
    obtain ⟨f, rfl⟩ : ∃ g, f = g + 1 := ⟨f - 1, by omega⟩
    cases t with
    | absent => simp [Tree.present] at h
    | node l ks =>
      obtain ⟨x, h1, h2, _, _, h3, _⟩ := row_ladder hp hw hb (.root h)
      simp only [inExempt, h1, h3 rfl, h2]
      by_cases hl : callOf fns (.node l ks) = true
      · rw [if_pos ((callOf_eq fns l ks).1 hl)]; simp [hl]
      · rw [if_neg (fun h => hl ((callOf_eq fns l ks).2 h))]; simp [inExempt, hl]
  | @step p anc l ks a i j n hL hi hc hj ih =>
    intro f hf
    obtain ⟨f, rfl⟩ : ∃ g, f = g + 1 := ⟨f - 1, by omega⟩
    cases n with
    | absent => simp [Tree.present] at hc
    | node l' ks' =>
      obtain ⟨x, h1, h2, _, _, _, h3⟩ := row_ladder hp hw hb (.step hL hi hc hj)
      simp only [List.length_append, List.length_cons, List.length_nil] at hf
      simp only [inExempt, h1, h3 p j rfl, h2]
      rw [ih f (by omega), List.any_cons (l := .node l ks :: anc)]
      by_cases hl : callOf fns (.node l' ks') = true
      · rw [if_pos ((callOf_eq fns l' ks').1 hl), hl]; simp
      · rw [if_neg (fun h => hl ((callOf_eq fns l' ks').2 h))]
        simp [hl]

theorem parentExempt_eq (hp : t.present = true) (hw : WFC t) (hb : build t fuel = some m)
    (fns : List String) {p : List Nat} {anc : List NExpr} {l : NNode} {ks : List NExpr} {a : Addr}
    (hL : Ladder t p anc (.node l ks) a) {x : NavNode}
    (hx : nodeExpr t m (posV p (seenTree t)) = some (x, l, ks)) :
    inExempt t m fns (m.nodes.length + 1) x.parent = some (anc.any (callOf fns)) := by
  obtain ⟨x', h1, h2, _, _, h3, h4⟩ := row_ladder hp hw hb hL
  rw [hx] at h1
  simp only [Option.some.injEq, Prod.mk.injEq, and_true] at h1
  subst h1
  cases hL with
  | root h => rw [h3 rfl]; simp [inExempt]
  | @step p anc l' ks' a i j _ hL hi hc hj =>
    rw [h4 p j rfl]
    obtain ⟨_, _, e, hat⟩ := ladder_at hL
    have := path_le hp hw hb hat
    exact inExempt_eq hp hw hb fns hL _ (by omega)

/-- The type an element counts with: an optional element that has an optional type counts with the
type in it. -/
def countsAs (optional : Bool) (ty : TypeSpec) : TypeSpec :=
  match optional, ty with
  | true, .abstract n (p :: ps) => if n = "optional_type" then p else .abstract n (p :: ps)
  | _, ty => ty

/-- All types go with the first. -/
def LikeFirst : List TypeSpec → Prop
  | [] => True
  | a :: as => ∀ b ∈ as, Same a b

/-- The entries of a map: its children two by two. -/
def pairs : List NExpr → List (NExpr × NExpr)
  | k :: v :: ks => (k, v) :: pairs ks
  | _ => []

/-- The types of the elements of a list; of the keys and of the values of a map. -/
def elemTypes (types : Int → TypeSpec) (opt : List Bool) (ks : List NExpr) : List TypeSpec :=
  (opt.zip ks).map fun e => countsAs e.1 (types (exprId e.2))
def keyTypes (types : Int → TypeSpec) (es : List NEntry) (ks : List NExpr) : List TypeSpec :=
  (es.zip (pairs ks)).map fun e => types (exprId e.2.1)
def valueTypes (types : Int → TypeSpec) (es : List NEntry) (ks : List NExpr) : List TypeSpec :=
  (es.zip (pairs ks)).map fun e => countsAs e.1.optional (types (exprId e.2.2))

/-- No expression has the type `optional_type` without a parameter. -/
def OptionalsHaveParameter (types : Int → TypeSpec) : Prop :=
  ∀ id, types id ≠ .abstract "optional_type" []

theorem typeToCheck_eq (types : Int → TypeSpec) (ho : OptionalsHaveParameter types) (o : Bool)
    (id : Int) : typeToCheck o (types id) = some (countsAs o (types id)) := by
  have h := ho id
  generalize types id = ty at h
  cases o with
  | false => simp [typeToCheck, countsAs]
  | true =>
    cases ty with
    | «abstract» n ps =>
      cases ps with
      | nil =>
        have : n ≠ "optional_type" := fun he => h (by rw [he])
        simp [typeToCheck, isOptional, this, countsAs]
      | cons p ps =>
        by_cases hn : n = "optional_type"
        · simp [typeToCheck, isOptional, hn, optionalParameter, countsAs]
        · simp [typeToCheck, isOptional, hn, countsAs]
    | _ => simp [typeToCheck, isOptional, countsAs]

theorem listLoop_some (types : Int → TypeSpec) (ho : OptionalsHaveParameter types) (e : TypeSpec) :
    ∀ (os : List Bool) (ks : List NExpr), ∃ b iss, listLoop types (some e) os ks = some (b, iss) ∧
      (b = true ↔ ∀ ty ∈ elemTypes types os ks, Same e ty) ∧ (b = true ↔ iss = [])
  | [], ks => ⟨true, [], by simp [listLoop], by simp [elemTypes], by simp⟩
  | o :: os, [] => ⟨true, [], by simp [listLoop], by simp [elemTypes], by simp⟩
  | o :: os, k :: ks => by
    obtain ⟨b, iss, h1, h2, h3⟩ := listLoop_some types ho e os ks
    simp only [listLoop, typeToCheck_eq types ho]
    have hc : (∀ ty ∈ elemTypes types (o :: os) (k :: ks), Same e ty) ↔
        Same e (countsAs o (types (exprId k))) ∧ ∀ ty ∈ elemTypes types os ks, Same e ty := by
      simp [elemTypes]
    by_cases hs : typeEquiv e (countsAs o (types (exprId k))) = true
    · rw [if_pos hs]
      exact ⟨b, iss, h1, by rw [hc, h2]; simp [(typeEquiv_iff _ _).1 hs], h3⟩
    · rw [if_neg hs]
      refine ⟨_, _, rfl, ?_, by simp⟩
      rw [hc]
      simp only [Bool.false_eq_true, false_iff]
      exact fun h => hs ((typeEquiv_iff _ _).2 h.1)

theorem listLoop_none (types : Int → TypeSpec) (ho : OptionalsHaveParameter types)
    (os : List Bool) (ks : List NExpr) : ∃ b iss, listLoop types none os ks = some (b, iss) ∧
      (b = true ↔ LikeFirst (elemTypes types os ks)) ∧ (b = true ↔ iss = []) := by
  cases os with
  | nil => exact ⟨true, [], by simp [listLoop], by simp [elemTypes, LikeFirst], by simp⟩
  | cons o os =>
    cases ks with
    | nil => exact ⟨true, [], by simp [listLoop], by simp [elemTypes, LikeFirst], by simp⟩
    | cons k ks =>
      simp only [listLoop, typeToCheck_eq types ho]
      exact listLoop_some types ho _ os ks

theorem mapLoop_some (types : Int → TypeSpec) (ho : OptionalsHaveParameter types)
    (ek ev : TypeSpec) : ∀ (es : List NEntry) (ks : List NExpr),
    ∃ b iss, mapLoop types (some (ek, ev)) es ks = some (b, iss) ∧
      (b = true ↔ (∀ ty ∈ keyTypes types es ks, Same ek ty) ∧
        ∀ ty ∈ valueTypes types es ks, Same ev ty) ∧ (b = true ↔ iss = [])
  | [], ks => ⟨true, [], by simp [mapLoop], by simp [keyTypes, valueTypes], by simp⟩
  | en :: es, [] => ⟨true, [], by simp [mapLoop], by simp [keyTypes, valueTypes, pairs], by simp⟩
  | en :: es, [k] => ⟨true, [], by simp [mapLoop], by simp [keyTypes, valueTypes, pairs], by simp⟩
  | en :: es, k :: v :: ks => by
    obtain ⟨b, iss, h1, h2, h3⟩ := mapLoop_some types ho ek ev es ks
    simp only [mapLoop, typeToCheck_eq types ho]
    have hc : ((∀ ty ∈ keyTypes types (en :: es) (k :: v :: ks), Same ek ty) ∧
        ∀ ty ∈ valueTypes types (en :: es) (k :: v :: ks), Same ev ty) ↔
        (Same ek (types (exprId k)) ∧ Same ev (countsAs en.optional (types (exprId v)))) ∧
        ((∀ ty ∈ keyTypes types es ks, Same ek ty) ∧ ∀ ty ∈ valueTypes types es ks, Same ev ty) := by
      simp only [keyTypes, valueTypes, pairs, List.zip_cons_cons, List.map_cons, List.mem_cons,
        forall_eq_or_imp]
      exact ⟨fun h => ⟨⟨h.1.1, h.2.1⟩, h.1.2, h.2.2⟩, fun h => ⟨⟨h.1.1, h.2.1⟩, h.1.2, h.2.2⟩⟩
    by_cases hs : typeEquiv ek (types (exprId k)) = true
    · rw [if_neg (by simp [hs])]
      by_cases hv : typeEquiv ev (countsAs en.optional (types (exprId v))) = true
      · rw [if_neg (by simp [hv])]
        exact ⟨b, iss, h1, by rw [hc, h2]; simp [(typeEquiv_iff _ _).1 hs, (typeEquiv_iff _ _).1 hv], h3⟩
      · rw [if_pos (by simp [hv])]
        refine ⟨_, _, rfl, ?_, by simp⟩
        rw [hc]
        simp only [Bool.false_eq_true, false_iff]
        exact fun h => hv ((typeEquiv_iff _ _).2 h.1.2)
    · rw [if_pos (by simp [hs])]
      refine ⟨_, _, rfl, ?_, by simp⟩
      rw [hc]
      simp only [Bool.false_eq_true, false_iff]
      exact fun h => hs ((typeEquiv_iff _ _).2 h.1.1)

theorem mapLoop_none (types : Int → TypeSpec) (ho : OptionalsHaveParameter types)
    (es : List NEntry) (ks : List NExpr) : ∃ b iss, mapLoop types none es ks = some (b, iss) ∧
      (b = true ↔ LikeFirst (keyTypes types es ks) ∧ LikeFirst (valueTypes types es ks)) ∧
      (b = true ↔ iss = []) := by
  match es, ks with
  | [], ks => exact ⟨true, [], by simp [mapLoop], by simp [keyTypes, valueTypes, LikeFirst], by simp⟩
  | en :: es, [] =>
    exact ⟨true, [], by simp [mapLoop], by simp [keyTypes, valueTypes, pairs, LikeFirst], by simp⟩
  | en :: es, [k] =>
    exact ⟨true, [], by simp [mapLoop], by simp [keyTypes, valueTypes, pairs, LikeFirst], by simp⟩
  | en :: es, k :: v :: ks =>
    simp only [mapLoop, typeToCheck_eq types ho]
    exact mapLoop_some types ho _ _ es ks

/-- The homogeneous-literal validator accepts the expressions in which, in every list or map literal
not inside a call of an exempt function, all elements, keys, values have types like the first. -/
theorem C65_homogeneous (hp : t.present = true) (hw : WFC t) (hb : build t fuel = some m)
    (types : Int → TypeSpec) (ho : OptionalsHaveParameter types) (exempt : List String) :
    ∃ b iss, homogeneousValidator types exempt t m = some (b, iss) ∧
      (b = true ↔ ∀ anc id k ks, Occ t anc (.node ⟨id, k⟩ ks) → anc.any (callOf exempt) = false →
        (∀ opt, k = .list opt → LikeFirst (elemTypes types opt ks)) ∧
        (∀ es, k = .map es → LikeFirst (keyTypes types es ks) ∧ LikeFirst (valueTypes types es ks))) ∧
      (b = true ↔ iss = []) := by
  let B : List NExpr → NExpr → Bool × List Issue := fun anc n =>
    match n with
    | .absent => (true, [])
    | .node l ks =>
      if anc.any (callOf exempt) then (true, [])
      else match l.kind with
        | .list opt => (listLoop types none opt ks).getD (true, [])
        | .map es => (mapLoop types none es ks).getD (true, [])
        | _ => (true, [])
  obtain ⟨b, iss, h1, h2, h3⟩ := forNodes_spec hp hw hb (homogeneousBody t m types exempt) B
    (by
      intro p anc l ks a x hL hx
      have hE := parentExempt_eq hp hw hb exempt hL hx
      obtain ⟨id, k⟩ := l
      cases k with
      | list opt =>
        obtain ⟨b, iss, g1, _⟩ := listLoop_none types ho opt ks
        simp only [homogeneousBody, hE, B]
        cases hA : anc.any (callOf exempt) with
        | true => simp
        | false => simp [g1]
      | map es =>
        obtain ⟨b, iss, g1, _⟩ := mapLoop_none types ho es ks
        simp only [homogeneousBody, hE, B]
        cases hA : anc.any (callOf exempt) with
        | true => simp
        | false => simp [g1]
      | _ => simp [homogeneousBody, B])
    (by intro x; simp [homogeneousBody, NNode.dflt])
  have hBspec : ∀ anc id k ks, ((B anc (.node ⟨id, k⟩ ks)).1 = true ↔
      (anc.any (callOf exempt) = false →
        (∀ opt, k = .list opt → LikeFirst (elemTypes types opt ks)) ∧
        (∀ es, k = .map es → LikeFirst (keyTypes types es ks) ∧ LikeFirst (valueTypes types es ks)))) ∧
      ((B anc (.node ⟨id, k⟩ ks)).1 = true ↔ (B anc (.node ⟨id, k⟩ ks)).2 = []) := by
    intro anc id k ks
    simp only [B]
    cases hA : anc.any (callOf exempt) with
    | true => simp
    | false =>
      cases k with
      | list opt =>
        obtain ⟨b, iss, g1, g2, g3⟩ := listLoop_none types ho opt ks
        simp [g1, g2, g3.symm]
      | map es =>
        obtain ⟨b, iss, g1, g2, g3⟩ := mapLoop_none types ho es ks
        simp [g1, g2, g3.symm]
      | _ => simp
  refine ⟨b, iss, h1, ?_, ?_⟩
  · rw [h2]
    constructor
    · intro h anc id k ks hO
      exact (hBspec anc id k ks).1.1 (h anc _ hO)
    · intro h anc n hO
      cases n with
      | absent => simp [B]
      | node l ks => obtain ⟨id, k⟩ := l; exact (hBspec anc id k ks).1.2 (h anc id k ks hO)
  · rw [h2]
    constructor
    · intro h
      apply List.eq_nil_iff_forall_not_mem.2
      intro i hi
      obtain ⟨anc, n, hO, hi⟩ := (h3 i).1 hi
      cases n with
      | absent => simp [B] at hi
      | node l ks =>
        obtain ⟨id, k⟩ := l
        rw [(hBspec anc id k ks).2.1 (h anc _ hO)] at hi
        simp at hi
    · intro h anc n hO
      cases n with
      | absent => simp [B]
      | node l ks =>
        obtain ⟨id, k⟩ := l
        refine (hBspec anc id k ks).2.2 (List.eq_nil_iff_forall_not_mem.2 fun i hi => ?_)
        have := (h3 i).2 ⟨anc, _, hO, hi⟩
        rw [h] at this; simp at this

/-- An optional element whose type is `optional_type` without parameters makes the validator read a
parameter that is not there. -/
theorem C65_finding_bare_optional :
    homogeneousValidator (fun _ => .abstract "optional_type" []) []
      (.node ⟨1, .list [true]⟩ [.node ⟨2, .ident "x"⟩ []])
      (specNav (seenTree (.node ⟨1, .list [true]⟩ [.node ⟨2, .ident "x"⟩ []]))) = none := by
  decide +kernel

/-! ## Patterns -/

/-- The operands of a call: the receiver, if there is one, and the arguments. -/
def operands (ks : List NExpr) : List NExpr := ks.filter Tree.present

/-- The regex validator accepts the expressions in which, in every call of a configured function,
the configured operand is not a string constant that is no pattern. -/
theorem C65_regex (hp : t.present = true) (hw : WFC t) (hb : build t fuel = some m)
    (re : String → Option String) (config : List (String × Int)) :
    ∃ b iss, regexValidator re config t m = some (b, iss) ∧
      (b = true ↔ ∀ anc id fn ks, Occ t anc (.node ⟨id, .call fn⟩ ks) →
        ∀ c, config.find? (fun c => c.1 = fn) = some c → 0 ≤ c.2 →
        ∀ id' s ks', (operands ks)[c.2.toNat]? = some (.node ⟨id', .const (.string s)⟩ ks') →
          re s = none) ∧
      (b = true ↔ iss = []) := by
  let B : List NExpr → NExpr → Bool × List Issue := fun anc n =>
    match n with
    | .absent => (true, [])
    | .node l ks => (regexBody re config ⟨none, .dflt, .unspecified, .unspecified, 0, 0, 0, 0, []⟩ l ks).getD (true, [])
  have hbody : ∀ x l ks, regexBody re config x l ks = some (B [] (.node l ks)) := by
    intro x l ks
    obtain ⟨id, k⟩ := l
    cases k with
    | call fn => cases hf : config.find? (fun c => c.1 = fn) <;> simp [regexBody, B, hf]
    | _ => simp [regexBody, B]
  obtain ⟨b, iss, h1, h2, h3⟩ := forNodes_spec hp hw hb (regexBody re config) B
    (fun p anc l ks a x _ _ => hbody x l ks)
    (by intro x; rw [hbody]; rfl)
  have hwf : ∀ anc n, Occ t anc n → WFC n := by
    intro anc n hO
    induction hO with
    | root => exact hw
    | child _ hc _ ih =>
      obtain ⟨i, hi⟩ := List.getElem?_of_mem hc
      exact wfcs_get _ i _ (by simp only [WFC] at ih; exact ih.2) hi
  have hcheck : ∀ (idx : Int) (ks : List NExpr), (∃ tg args, ks = tg :: args ∧ ∀ a ∈ args, a.present = true) →
      ((checkPattern re idx ks).1 = true ↔ (0 ≤ idx →
        ∀ id' s ks', (operands ks)[idx.toNat]? = some (.node ⟨id', .const (.string s)⟩ ks') →
          re s = none)) ∧
      ((checkPattern re idx ks).1 = true ↔ (checkPattern re idx ks).2 = []) := by
    rintro idx _ ⟨tg, args, rfl, hargs⟩
    have hpat : checkPattern re idx (tg :: args) =
        match (if 0 ≤ idx then (operands (tg :: args))[idx.toNat]? else none) with
        | some (.node ⟨id, .const (.string s)⟩ _) =>
          match re s with
          | some e => (false, [⟨some id, .badRegex e⟩])
          | none => (true, [])
        | _ => (true, []) := by
      simp only [checkPattern]
      congr 1
      have hfil : args.filter Tree.present = args := List.filter_eq_self.2 hargs
      cases tg with
      | absent =>
        have : hasChild (Tree.absent :: args) 0 = false := by simp [hasChild, Tree.present]
        rw [this]
        simp only [Bool.false_eq_true, if_false, operands, List.filter_cons, Tree.present, hfil,
          List.length_cons]
        by_cases h0 : 0 ≤ idx
        · by_cases h1 : idx < (args.length : Int)
          · rw [if_pos (by omega), if_pos h0, show (idx + 1).toNat = idx.toNat + 1 by omega,
              List.getElem?_cons_succ]
          · rw [if_neg (by omega), if_pos h0, List.getElem?_eq_none (by omega)]
        · rw [if_neg (by omega), if_neg h0]
      | node l cs =>
        have : hasChild (Tree.node l cs :: args) 0 = true := by simp [hasChild, Tree.present]
        rw [this]
        simp only [if_true, operands, List.filter_cons, Tree.present, hfil, List.length_cons]
        by_cases hz : idx = 0
        · rw [if_pos hz, if_pos (by omega), hz]; rfl
        · rw [if_neg hz]
          by_cases h0 : 0 ≤ idx
          · by_cases h1 : idx - 1 < (args.length : Int)
            · rw [if_pos (by omega), if_pos h0, show (idx - 1 + 1).toNat = idx.toNat by omega]
            · rw [if_neg (by omega), if_pos h0, List.getElem?_eq_none (by simp; omega)]
          · rw [if_neg (by omega), if_neg h0]
    rw [hpat]
    by_cases h0 : 0 ≤ idx
    · simp only [if_pos h0, h0, true_implies]
      cases hg : (operands (tg :: args))[idx.toNat]? with
      | none => simp
      | some c =>
        cases c with
        | absent => simp
        | node l cs =>
          obtain ⟨id, k⟩ := l
          cases k with
          | const cc =>
            cases cc with
            | string s => cases hr : re s <;> simp [hr]
            | _ => simp
          | _ => simp
    · simp [h0]
  have hBspec : ∀ anc id k ks, WFC (.node ⟨id, k⟩ ks) → ((B anc (.node ⟨id, k⟩ ks)).1 = true ↔
      ∀ fn, k = .call fn →
        ∀ c, config.find? (fun c => c.1 = fn) = some c → 0 ≤ c.2 →
        ∀ id' s ks', (operands ks)[c.2.toNat]? = some (.node ⟨id', .const (.string s)⟩ ks') →
          re s = none) ∧
      ((B anc (.node ⟨id, k⟩ ks)).1 = true ↔ (B anc (.node ⟨id, k⟩ ks)).2 = []) := by
    intro anc id k ks hwn
    cases k with
    | call fn =>
      simp only [WFC, CShape] at hwn
      cases hf : config.find? (fun c => c.1 = fn) with
      | none => simp [B, regexBody, hf]
      | some c =>
        have := hcheck c.2 ks hwn.1
        simp only [B, regexBody, hf, Option.getD_some, NKind.call.injEq]
        refine ⟨this.1.trans ⟨?_, ?_⟩, this.2⟩
        · rintro h fn' rfl c' hc'
          rw [hf] at hc'
          simp only [Option.some.injEq] at hc'
          subst hc'
          exact h
        · intro h
          exact h fn rfl c hf
    | _ => simp [B, regexBody]
  refine ⟨b, iss, h1, ?_, ?_⟩
  · rw [h2]
    constructor
    · intro h anc id fn ks hO c hc
      exact (hBspec anc id _ ks (hwf _ _ hO)).1.1 (h anc _ hO) fn rfl c hc
    · intro h anc n hO
      cases n with
      | absent => simp [B]
      | node l ks =>
        obtain ⟨id, k⟩ := l
        refine (hBspec anc id k ks (hwf _ _ hO)).1.2 fun fn hk => ?_
        subst hk
        exact h anc id fn ks hO
  · rw [h2]
    constructor
    · intro h
      apply List.eq_nil_iff_forall_not_mem.2
      intro i hi
      obtain ⟨anc, n, hO, hi⟩ := (h3 i).1 hi
      cases n with
      | absent => simp [B] at hi
      | node l ks =>
        obtain ⟨id, k⟩ := l
        rw [(hBspec anc id k ks (hwf _ _ hO)).2.1 (h anc _ hO)] at hi
        simp at hi
    · intro h anc n hO
      cases n with
      | absent => simp [B]
      | node l ks =>
        obtain ⟨id, k⟩ := l
        refine (hBspec anc id k ks (hwf _ _ hO)).2.2 (List.eq_nil_iff_forall_not_mem.2 fun i hi => ?_)
        have := (h3 i).2 ⟨anc, _, hO, hi⟩
        rw [h] at this; simp at this

end

end Cel.Walk
