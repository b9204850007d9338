import Verif.Proto.Round

set_option linter.unusedSimpArgs false
set_option linter.unusedVariables false

/-!
# Proto → native → proto, and equality of expressions
-/

namespace Cel.Proto
open Cel Cel.Num

theorem indices_flags : ∀ (n : Nat) (idx : List Int) (i : Nat),
    optIndices (Int.ofNat i) (optFlags idx (Int.ofNat i) n) =
      ((List.range' i n).map Int.ofNat).filter fun j => idx.contains j
  | 0, idx, i => by simp [optFlags, optIndices]
  | n + 1, idx, i => by
    have ih := indices_flags n idx (i + 1)
    have hi : Int.ofNat i + 1 = Int.ofNat (i + 1) := by simp
    simp only [optFlags, optIndices, hi, ih, List.range'_succ, List.map_cons, List.filter_cons]
    cases idx.contains (Int.ofNat i) <;> simp

theorem indices_norm (idx : List Int) (n : Nat) :
    optIndices 0 (optFlags idx 0 n) = normIdx idx n := by
  have := indices_flags n idx 0
  simp only [Int.ofNat_zero, ← List.range_eq_range'] at this
  exact this

theorem toPs_present : ∀ es : List NExpr, (∀ e ∈ es, e.present = true) →
    toPs true es = toPs false es
  | [], _ => by simp [toPs]
  | .absent :: ts, h => by have := h .absent (by simp); simp [Tree.present] at this
  | .node l ks :: ts, h => by
    simp only [toPs, toPs_present ts (fun x hx => h x (by simp [hx]))]

theorem present_map {A B : Type} : ∀ (es : List (Tree A)) (ks : List (Tree B)),
    es.map Tree.present = ks.map Tree.present → (∀ k ∈ ks, k.present = true) →
    ∀ e ∈ es, e.present = true
  | [], _, _, _, e, he => by simp at he
  | x :: es, [], h, _, e, he => by simp at h
  | x :: es, k :: ks, h, hk, e, he => by
    simp only [List.map_cons, List.cons.injEq] at h
    rcases List.mem_cons.mp he with rfl | he
    · rw [h.1]; exact hk k (by simp)
    · exact present_map es ks h.2 (fun y hy => hk y (by simp [hy])) e he

theorem entries_back : ∀ (entries : List PEntry) (ks : List PExpr) (es : List NExpr),
    PShape.Keyed entries ks → (∀ e ∈ entries, ∀ f, e.key ≠ .field f) →
    es.map Tree.present = ks.map Tree.present →
    mapEntries (entries.map fun e => ⟨e.id, e.optional⟩) es = entries
  | [], ks, es, _, _, _ => by simp [mapEntries]
  | e :: entries, ks, es, h, hne, hp => by
    simp only [PShape.Keyed] at h
    obtain ⟨k, v, rest, rfl, hk, hr⟩ := h
    match es, hp with
    | [], hp => simp at hp
    | [_], hp => simp at hp
    | k' :: v' :: rest', hp =>
      simp only [List.map_cons, List.cons.injEq] at hp
      obtain ⟨h1, h2, h3⟩ := hp
      have ih := entries_back entries rest rest' hr (fun x hx => hne x (by simp [hx])) h3
      have hkey : (if k'.present = true then PKey.mapKey else PKey.notSet) = e.key := by
        rw [h1]
        cases hkp : k.present with
        | true => rw [if_pos rfl]; exact (hk.mp hkp).symm
        | false =>
          rw [if_neg (by simp)]
          cases hek : e.key with
          | notSet => rfl
          | field f => exact absurd hek (hne _ (by simp) f)
          | mapKey => rw [hk.mpr hek] at hkp; cases hkp
      show PEntry.mk e.id (if k'.present = true then PKey.mapKey else PKey.notSet) e.optional ::
        mapEntries (entries.map fun e => ⟨e.id, e.optional⟩) rest' = _
      rw [ih, hkey]

mutual
theorem back : ∀ (l : PNode) (ks : List PExpr), WFP (.node l ks) → Consistent (.node l ks) →
    CanonicalP (.node l ks) →
    ∃ nl nks, fromP (.node l ks) = .ok (.node nl nks) ∧
      toP (.node nl nks) = .ok (normP (.node l ks)) ∧ WFN (.node nl nks)
  | ⟨id, k⟩, ks, h, hc, hcan => by
    simp only [WFP] at h
    obtain ⟨hsh, hks⟩ := h
    cases k with
    | notSet =>
      simp only [PShape] at hsh; subst hsh
      exact ⟨_, _, rfl, by simp [toP, normP, normPs], by simp [WFN, NShape, WFNs]⟩
    | const c =>
      simp only [PShape] at hsh; subst hsh
      simp only [CanonicalP] at hcan
      have hr := pconst_round c hcan
      exact ⟨_, _, rfl, by simp [toP, normP, normPs, hr.1], by simp [WFN, NShape, WFNs, hr.2]⟩
    | ident n =>
      simp only [PShape] at hsh; subst hsh
      exact ⟨_, _, rfl, by simp [toP, normP, normPs], by simp [WFN, NShape, WFNs]⟩
    | select f t =>
      obtain ⟨es, h1, h2, h3, h4⟩ := backs ks hks hc hcan
      refine ⟨⟨id, .select f t⟩, es, by simp [fromP, h1], by simp [toP, h2, normP], ?_⟩
      have : es.length = ks.length := by simpa using congrArg List.length h3
      simp only [WFN, NShape, h4, and_true, this]; exact hsh
    | call fn =>
      obtain ⟨es, h1, h2, h3, h4⟩ := backs ks hks hc hcan
      refine ⟨⟨id, .call fn⟩, es, by simp [fromP, h1], by simp [toP, h2, normP], ?_⟩
      obtain ⟨t, args, hargs, hpres⟩ := hsh
      simp only [WFN, NShape, h4, and_true]
      rw [hargs] at h3
      match es, h3 with
      | t' :: args', h3 =>
        simp only [List.map_cons, List.cons.injEq] at h3
        exact ⟨t', args', rfl, present_map _ _ h3.2 hpres⟩
    | list idx =>
      obtain ⟨es, h1, h2, h3, h4⟩ := backs ks hks hc hcan
      have hpres := present_map es ks h3 hsh
      refine ⟨⟨id, .list (optFlags idx 0 ks.length)⟩, es, by simp [fromP, h1], ?_, ?_⟩
      · simp only [toP, toPs_present es hpres, h2, normP, indices_norm]
      · have : es.length = ks.length := by simpa using congrArg List.length h3
        have hl : ∀ (n : Nat) (i : Int), (optFlags idx i n).length = n := by
          intro n
          induction n with
          | zero => intro i; rfl
          | succ n ih => intro i; simp [optFlags, ih]
        simp only [WFN, NShape, h4, and_true, this, hl]
    | create name entries =>
      by_cases hn : name = ""
      · simp only [Consistent, if_pos hn] at hc
        obtain ⟨es, h1, h2, h3, h4⟩ := backs ks hks hc.2 hcan
        have hmf := mapFields_ok entries hc.1
        refine ⟨⟨id, .map (entries.map fun e => ⟨e.id, e.optional⟩)⟩, es, ?_, ?_, ?_⟩
        · simp [fromP, hn, hmf, h1]
        · subst hn
          simp only [toP, h2, normP, if_true, entries_back entries ks es hsh hc.1 h3]
        · have hl : ∀ (es : List PEntry) (ks : List PExpr), PShape.Keyed es ks →
              ks.length = 2 * es.length := by
            intro es
            induction es with
            | nil => intro ks h; simp only [PShape.Keyed] at h; subst h; rfl
            | cons e es ih =>
              intro ks h
              simp only [PShape.Keyed] at h
              obtain ⟨k, v, rest, rfl, _, hr⟩ := h
              have := ih rest hr
              simp only [List.length_cons]; omega
          have h5 := hl entries ks hsh
          have h6 : es.length = ks.length := by simpa using congrArg List.length h3
          simp only [WFN, NShape, h4, and_true, List.length_map]; omega
      · simp only [Consistent, if_neg hn] at hc
        obtain ⟨es, h1, h2, h3, h4⟩ := backValues entries ks hsh hks hc.1 hc.2 hcan
        have hsf := structFields_ok entries hc.1
        refine ⟨⟨id, .struct name (entries.map fun e => ⟨e.id, fieldName e.key, e.optional⟩)⟩,
          es, ?_, ?_, ?_⟩
        · simp [fromP, hn, hsf, h1]
        · simp only [toP, h2, normP, if_neg hn, List.map_map]
          congr 4
          apply List.map_congr_left
          intro e he
          have hne := hc.1 e he
          simp only [Function.comp]
          cases hk : e.key with
          | notSet => simp [fieldName]
          | field f => simp [fieldName]
          | mapKey => exact absurd hk hne
        · simp only [WFN, NShape, h4, and_true, List.length_map]
          exact ⟨hn, h3⟩
    | comprehension v v2 a =>
      obtain ⟨es, h1, h2, h3, h4⟩ := backs ks hks hc hcan
      refine ⟨⟨id, .comprehension v v2 a⟩, es, by simp [fromP, h1], by simp [toP, h2, normP], ?_⟩
      have : es.length = ks.length := by simpa using congrArg List.length h3
      simp only [WFN, NShape, h4, and_true, this]; exact hsh
theorem backs : ∀ ks : List PExpr, WFPs ks → Consistents ks → CanonicalPs ks →
    ∃ es, fromPs ks = .ok es ∧ toPs false es = .ok (normPs ks) ∧
      es.map Tree.present = ks.map Tree.present ∧ WFNs es
  | [], _, _, _ => ⟨[], by simp [fromPs], by simp [toPs, normPs], rfl, trivial⟩
  | .absent :: ts, h, hc, hcan => by
    simp only [WFPs] at h
    simp only [Consistents] at hc
    simp only [CanonicalPs] at hcan
    obtain ⟨es, h1, h2, h3, h4⟩ := backs ts h.2 hc.2 hcan.2
    exact ⟨.absent :: es, by simp [fromPs, h1], by simp [toPs, h2, normPs, normP],
      by simp [h3, Tree.present], by simp [WFNs, WFN, h4]⟩
  | .node l kk :: ts, h, hc, hcan => by
    simp only [WFPs] at h
    simp only [Consistents] at hc
    simp only [CanonicalPs] at hcan
    obtain ⟨es, h1, h2, h3, h4⟩ := backs ts h.2 hc.2 hcan.2
    obtain ⟨nl, nks, g1, g2, g3⟩ := back l kk h.1 hc.1 hcan.1
    exact ⟨.node nl nks :: es, by simp [fromPs, h1, g1], by simp [toPs, h2, g2, normPs],
      by simp [h3, Tree.present], by simp only [WFNs]; exact ⟨g3, h4⟩⟩
theorem backValues : ∀ (entries : List PEntry) (ks : List PExpr), PShape.Keyed entries ks →
    WFPs ks → (∀ e ∈ entries, e.key ≠ .mapKey) → Consistents ks → CanonicalPs ks →
    ∃ es, fromPValues ks = .ok es ∧ toPFields es = .ok (normPs ks) ∧
      es.length = entries.length ∧ WFNs es
  | entries, [], hk, _, _, _, _ => by
    cases entries with
    | nil => exact ⟨[], by simp [fromPValues], by simp [toPFields, normPs], rfl, trivial⟩
    | cons e es =>
      simp only [PShape.Keyed] at hk
      obtain ⟨_, _, _, h, _⟩ := hk
      cases h
  | entries, [x], hk, _, _, _, _ => by
    cases entries with
    | nil => simp [PShape.Keyed] at hk
    | cons e es =>
      simp only [PShape.Keyed] at hk
      obtain ⟨_, _, _, h, _⟩ := hk
      cases h
  | entries, k :: .absent :: ts, hk, h, hne, hc, hcan => by
    cases entries with
    | nil => simp [PShape.Keyed] at hk
    | cons e entries =>
      simp only [PShape.Keyed] at hk
      obtain ⟨k0, v0, r0, heq, hk0, hr⟩ := hk
      simp only [List.cons.injEq] at heq
      obtain ⟨e1, _, e3⟩ := heq
      rw [← e1] at hk0
      rw [← e3] at hr
      simp only [WFPs] at h
      simp only [Consistents] at hc
      simp only [CanonicalPs] at hcan
      obtain ⟨es, h1, h2, h3, h4⟩ := backValues entries ts hr h.2.2
        (fun x hx => hne x (by simp [hx])) hc.2.2 hcan.2.2
      have hka : k = .absent := by
        cases k with
        | absent => rfl
        | node l kk => exact absurd (hk0.mp rfl) (hne e (by simp))
      exact ⟨.absent :: es, by simp [fromPValues, h1],
        by rw [hka]; simp [toPFields, h2, normPs, normP], by simp [h3], by simp [WFNs, WFN, h4]⟩
  | entries, k :: .node l kk :: ts, hk, h, hne, hc, hcan => by
    cases entries with
    | nil => simp [PShape.Keyed] at hk
    | cons e entries =>
      simp only [PShape.Keyed] at hk
      obtain ⟨k0, v0, r0, heq, hk0, hr⟩ := hk
      simp only [List.cons.injEq] at heq
      obtain ⟨e1, _, e3⟩ := heq
      rw [← e1] at hk0
      rw [← e3] at hr
      simp only [WFPs] at h
      simp only [Consistents] at hc
      simp only [CanonicalPs] at hcan
      obtain ⟨es, h1, h2, h3, h4⟩ := backValues entries ts hr h.2.2
        (fun x hx => hne x (by simp [hx])) hc.2.2 hcan.2.2
      obtain ⟨nl, nks, g1, g2, g3⟩ := back l kk h.2.1 hc.2.1 hcan.2.1
      have hka : k = .absent := by
        cases k with
        | absent => rfl
        | node l kk => exact absurd (hk0.mp rfl) (hne e (by simp))
      exact ⟨.node nl nks :: es, by simp [fromPValues, h1, g1],
        by rw [hka]; simp [toPFields, h2, g2, normPs, normP], by simp [h3],
        by simp only [WFNs]; exact ⟨g3, h4⟩⟩
end

/-! ## `operator==` on expressions -/

/-- A double (bit pattern) that is not a number. -/
def dblNan (b : Nat) : Bool := b / 2 ^ 52 % 2 ^ 11 == 2047 && !(b % 2 ^ 52 == 0)

/-- `-0.0` and `0.0` are the same number. -/
def dblZero (b : Nat) : Nat := if b % 2 ^ 63 = 0 then 0 else b

/-- `==` of two constants – `common/constant.h:446-448`: equality of the variants, where doubles
are compared as C++ compares them. -/
def constEq : Const → Const → Bool
  | .double a, .double b => !dblNan a && !dblNan b && dblZero a == dblZero b
  | c, c' => c == c'

/-- `operator==` of the alternatives of `ExprKind`, without the sub-expressions
(`common/expr.h:97-163`, `:250-254`, `:858-867`, `:1132-1135`, `:1322-1346`).  The comparison of two
comprehensions does not look at `iter_var2`. -/
def kindEq : NKind → NKind → Bool
  | .comprehension v _ a, .comprehension v' _ a' => v == v' && a == a'
  | .const c, .const c' => constEq c c'
  | k, k' => k == k'

mutual
/-- `operator==(const Expr&, const Expr&)` – `common/expr.h:1128-1130`.  An unset child is compared
as `Expr::default_instance()`. -/
def exprEq : NExpr → NExpr → Bool
  | .absent, .absent => true
  | .absent, .node l ks => l == NNode.dflt && ks.isEmpty
  | .node l ks, .absent => l == NNode.dflt && ks.isEmpty
  | .node l ks, .node l' ks' => l.id == l'.id && kindEq l.kind l'.kind && exprEqs ks ks'
def exprEqs : List NExpr → List NExpr → Bool
  | [], [] => true
  | a :: as, b :: bs => exprEq a b && exprEqs as bs
  | _, _ => false
end

/-- What `==` can see of a node. -/
def seenKind : NKind → NKind
  | .comprehension v _ a => .comprehension v "" a
  | .const (.double b) => .const (.double (dblZero b))
  | k => k

mutual
/-- What `==` can see: an unset child is a default expression, `iter_var2` is not looked at, and
the two zeros are the same. -/
def seen : NExpr → NExpr
  | .absent => .node NNode.dflt []
  | .node l ks => .node ⟨l.id, seenKind l.kind⟩ (seens ks)
def seens : List NExpr → List NExpr
  | [] => []
  | t :: ts => seen t :: seens ts
end

/-- No NaN constant in this node. -/
def kindNum : NKind → Bool
  | .const (.double b) => !dblNan b
  | _ => true

mutual
/-- No constant of the expression is NaN. -/
def NoNan : NExpr → Prop
  | .absent => True
  | .node l ks => kindNum l.kind = true ∧ NoNans ks
def NoNans : List NExpr → Prop
  | [] => True
  | t :: ts => NoNan t ∧ NoNans ts
end

theorem dblZero_nan (a b : Nat) (ha : dblNan a = true) (h : dblZero a = dblZero b) :
    dblNan b = true := by
  simp only [dblNan, dblZero, Bool.and_eq_true, beq_iff_eq, Bool.not_eq_true', beq_eq_false_iff_ne,
    ne_eq] at *
  obtain ⟨h1, h2⟩ := ha
  by_cases z : a % 2 ^ 63 = 0
  · omega
  · rw [if_neg z] at h
    by_cases zb : b % 2 ^ 63 = 0
    · rw [if_pos zb] at h; omega
    · rw [if_neg zb] at h; subst h; exact ⟨h1, h2⟩

theorem kindEq_iff (k k' : NKind) : kindEq k k' = true ↔
    seenKind k = seenKind k' ∧ kindNum k = true := by
  cases k with
  | const c =>
    cases k' with
    | const c' =>
      cases c with
      | double a =>
        cases c' with
        | double b =>
          simp only [kindEq, constEq, seenKind, kindNum, Bool.and_eq_true, Bool.not_eq_true',
            beq_iff_eq, NKind.const.injEq, Const.double.injEq]
          constructor
          · rintro ⟨⟨h1, h2⟩, h3⟩; exact ⟨h3, h1⟩
          · rintro ⟨h3, h1⟩
            refine ⟨⟨h1, ?_⟩, h3⟩
            cases hb : dblNan b with
            | false => rfl
            | true => rw [dblZero_nan b a hb h3.symm] at h1; cases h1
        | _ => simp [kindEq, constEq, seenKind, kindNum]
      | _ => cases c' <;> simp [kindEq, constEq, seenKind, kindNum]
    | _ => cases c <;> simp [kindEq, seenKind, kindNum]
  | _ =>
    cases k' with
    | const c' => cases c' <;> simp [kindEq, seenKind, kindNum]
    | _ => simp [kindEq, seenKind, kindNum]

theorem seen_dflt_iff (l : NNode) (ks : List NExpr) :
    (l == NNode.dflt && ks.isEmpty) = true ↔ seen (.node l ks) = .node NNode.dflt [] := by
  obtain ⟨id, k⟩ := l
  simp only [seen, Bool.and_eq_true, beq_iff_eq, List.isEmpty_iff, NNode.dflt, NNode.mk.injEq,
    Tree.node.injEq]
  cases ks with
  | cons t ts => simp [seens]
  | nil =>
    cases k with
    | const c => cases c <;> simp [seens, seenKind]
    | _ => simp [seens, seenKind]

theorem noNan_dflt (l : NNode) (ks : List NExpr) (h : (l == NNode.dflt && ks.isEmpty) = true) :
    NoNan (.node l ks) := by
  simp only [Bool.and_eq_true, beq_iff_eq, List.isEmpty_iff] at h
  rw [h.1, h.2]
  simp [NoNan, NoNans, NNode.dflt, kindNum]

mutual
/-- `==` decides equality of what it can see, and is false as soon as a constant is NaN. -/
theorem exprEq_iff : ∀ a b : NExpr, exprEq a b = true ↔ seen a = seen b ∧ NoNan a
  | .absent, .absent => by simp [exprEq, NoNan]
  | .absent, .node l ks => by
    simp only [exprEq, NoNan, and_true]
    rw [seen_dflt_iff]
    simp only [seen.eq_1]
    exact eq_comm
  | .node l ks, .absent => by
    simp only [exprEq]
    rw [show seen .absent = .node NNode.dflt [] by simp [seen]]
    constructor
    · intro h; exact ⟨(seen_dflt_iff l ks).mp h, noNan_dflt l ks h⟩
    · intro h; exact (seen_dflt_iff l ks).mpr h.1
  | .node l ks, .node l' ks' => by
    simp only [exprEq, seen, NoNan, Bool.and_eq_true, beq_iff_eq, kindEq_iff,
      exprEqs_iff ks ks', Tree.node.injEq, NNode.mk.injEq]
    constructor
    · rintro ⟨⟨h1, h2, h3⟩, h4, h5⟩; exact ⟨⟨⟨h1, h2⟩, h4⟩, h3, h5⟩
    · rintro ⟨⟨⟨h1, h2⟩, h4⟩, h3, h5⟩; exact ⟨⟨h1, h2, h3⟩, h4, h5⟩
theorem exprEqs_iff : ∀ a b : List NExpr, exprEqs a b = true ↔ seens a = seens b ∧ NoNans a
  | [], [] => by simp [exprEqs, NoNans]
  | [], _ :: _ => by simp [exprEqs, seens]
  | _ :: _, [] => by simp [exprEqs, seens]
  | x :: xs, y :: ys => by
    simp only [exprEqs, Bool.and_eq_true, seens, List.cons.injEq, exprEq_iff x y,
      exprEqs_iff xs ys, NoNans]
    constructor
    · rintro ⟨⟨h1, h2⟩, h3, h4⟩; exact ⟨⟨h1, h3⟩, h2, h4⟩
    · rintro ⟨⟨h1, h3⟩, h2, h4⟩; exact ⟨⟨h1, h2⟩, h3, h4⟩
end

theorem kindNum_seen (k k' : NKind) (h : seenKind k = seenKind k') (hk : kindNum k = true) :
    kindNum k' = true := by
  cases k' with
  | const c' =>
    cases c' with
    | double b =>
      cases k with
      | const c =>
        cases c with
        | double a =>
          simp only [seenKind, NKind.const.injEq, Const.double.injEq] at h
          simp only [kindNum, Bool.not_eq_true'] at hk ⊢
          cases hb : dblNan b with
          | false => rfl
          | true => rw [dblZero_nan b a hb h.symm] at hk; cases hk
        | _ => simp [seenKind] at h
      | _ => simp [seenKind] at h
    | _ => rfl
  | _ => rfl

mutual
theorem noNan_seen : ∀ a b : NExpr, seen a = seen b → NoNan a → NoNan b
  | _, .absent, _, _ => by simp [NoNan]
  | .absent, .node l ks, h, _ => by
    rw [show seen .absent = .node NNode.dflt [] by simp [seen]] at h
    exact noNan_dflt l ks ((seen_dflt_iff l ks).mpr h.symm)
  | .node l ks, .node l' ks', h, hn => by
    simp only [seen, Tree.node.injEq, NNode.mk.injEq] at h
    simp only [NoNan] at hn ⊢
    exact ⟨kindNum_seen _ _ h.1.2 hn.1, noNans_seen ks ks' h.2 hn.2⟩
theorem noNans_seen : ∀ a b : List NExpr, seens a = seens b → NoNans a → NoNans b
  | _, [], _, _ => by simp [NoNans]
  | [], _ :: _, h, _ => by simp [seens] at h
  | a :: as, b :: bs, h, hn => by
    simp only [seens, List.cons.injEq] at h
    simp only [NoNans] at hn ⊢
    exact ⟨noNan_seen a b h.1 hn.1, noNans_seen as bs h.2 hn.2⟩
end

mutual
theorem seen_fill : ∀ t : NExpr, seen (fillE t) = seen t
  | .absent => by simp [fillE]
  | .node ⟨id, k⟩ ks => by
    cases k <;> simp only [fillE, seen, seens_fill ks, seens_fillElems ks]
theorem seens_fill : ∀ ts : List NExpr, seens (fillEs ts) = seens ts
  | [] => by simp [fillEs]
  | t :: ts => by simp only [fillEs, seens, seen_fill t, seens_fill ts]
theorem seens_fillElems : ∀ ts : List NExpr, seens (fillElems ts) = seens ts
  | [] => by simp [fillElems]
  | .absent :: ts => by
    simp [fillElems, seens, seens_fillElems ts, seen, NNode.dflt, seenKind]
  | .node l ks :: ts => by
    simp only [fillElems, seens, seen_fill (.node l ks), seens_fillElems ts]
end

/-- The children a native node has, whatever its constants are. -/
def CShape : NKind → List NExpr → Prop
  | .unspecified, ks => ks = []
  | .const _, ks => ks = []
  | .ident _, ks => ks = []
  | .select _ _, ks => ks.length = 1
  | .call _, ks => ∃ t args, ks = t :: args ∧ ∀ a ∈ args, a.present = true
  | .list opt, ks => ks.length = opt.length
  | .struct _ fields, ks => ks.length = fields.length
  | .map entries, ks => ks.length = 2 * entries.length
  | .comprehension _ _ _, ks => ks.length = 5

mutual
/-- Every node has the children its kind has. -/
def WFC : NExpr → Prop
  | .absent => True
  | .node l ks => CShape l.kind ks ∧ WFCs ks
def WFCs : List NExpr → Prop
  | [] => True
  | t :: ts => WFC t ∧ WFCs ts
end

mutual
theorem seen_copy : ∀ t : NExpr, WFC t → seen (copyT t) = seen t
  | .absent, _ => by simp [copyT, seen, NNode.dflt, seens, seenKind]
  | .node ⟨id, k⟩ ks, h => by
    simp only [WFC] at h
    obtain ⟨hsh, hks⟩ := h
    cases k with
    | unspecified => simp only [CShape] at hsh; simp [copyT, hsh]
    | const c => simp only [CShape] at hsh; simp [copyT, hsh]
    | ident n => simp only [CShape] at hsh; simp [copyT, hsh]
    | select f t => simp only [copyT, seen, seens_copy false ks hks]
    | call fn => simp only [copyT, seen, seens_copy false ks hks]
    | list opt => simp only [copyT, seen, seens_copy true ks hks]
    | struct name fields => simp only [copyT, seen, seens_copy true ks hks]
    | map entries => simp only [copyT, seen, seens_copy true ks hks]
    | comprehension v v2 a => simp only [copyT, seen, seens_copy false ks hks]
theorem seens_copy : ∀ (d : Bool) (ts : List NExpr), WFCs ts → seens (copyTs d ts) = seens ts
  | d, [], _ => by simp [copyTs]
  | d, .absent :: ts, h => by
    simp only [WFCs] at h
    simp only [copyTs, seens, seens_copy d ts h.2]
    cases d <;> simp [seen, NNode.dflt, seens, seenKind]
  | d, .node l ks :: ts, h => by
    simp only [WFCs] at h
    simp only [copyTs, seens, seens_copy d ts h.2, seen_copy (.node l ks) h.1]
end

end Cel.Proto
