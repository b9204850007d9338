import Verif.Proto.Fold

set_option linter.unusedSimpArgs false
set_option linter.unusedVariables false

/-!
# Round trips of constants and expressions (C61)
-/

namespace Cel.Proto
open Cel Cel.Num

/-! ## Constants -/

/-- A native constant that has a proto form without loss: a duration or timestamp must be in the
range of the proto type and a whole number of nanoseconds. -/
def Encodable : Const → Prop
  | .duration d => ∃ t, d = .fin t ∧ minDurTicks ≤ t ∧ t ≤ maxDurTicks ∧ tpn ∣ t
  | .timestamp d => ∃ t, d = .fin t ∧ minTmTicks ≤ t ∧ t ≤ maxTmTicks ∧ tpn ∣ t
  | _ => True

/-- A proto constant in the form the proto type prescribes. -/
def Canonical : PConst → Prop
  | .duration s n => -315576000000 ≤ s ∧ s ≤ 315576000000 ∧ -999999999 ≤ n ∧ n ≤ 999999999 ∧
      (s > 0 → n ≥ 0) ∧ (s < 0 → n ≤ 0)
  | .timestamp s n => -62135596800 ≤ s ∧ s ≤ 253402300799 ∧ 0 ≤ n ∧ n ≤ 999999999
  | _ => True

theorem tdiv_split (t m : Int) (hm : 0 < m) :
    (0 ≤ t → Int.tdiv t m = t / m) ∧ (t ≤ 0 → Int.tdiv t m = -((-t) / m)) := by
  constructor
  · intro h
    exact Int.tdiv_eq_ediv_of_nonneg h
  · intro h
    have h1 := Int.neg_tdiv (-t) m
    rw [Int.neg_neg] at h1
    rw [h1, Int.tdiv_eq_ediv_of_nonneg (by omega)]

/-- What a duration comes back as: truncated toward zero to whole nanoseconds. -/
theorem duration_comes_back (t : Int) (h1 : minDurTicks ≤ t) (h2 : t ≤ maxDurTicks) :
    ∃ s n, encodeDuration (.fin t) = .ok (s, n) ∧ decodeDuration s n = .fin (t - Int.tmod t tpn) ∧
      Canonical (.duration s n) := by
  have hm1 : minDurTicks = -315576000000 * 4000000000 - 999999999 * 4 := rfl
  have hm2 : maxDurTicks = 315576000000 * 4000000000 + 999999999 * 4 := rfl
  refine ⟨_, _, by simp only [encodeDuration]; rw [if_neg (by omega), if_neg (by omega)], ?_, ?_⟩
  · have key : Int.tdiv t tps * tps + Int.tdiv (t - Int.tdiv t tps * tps) tpn * tpn =
        t - Int.tmod t tpn := by
      simp only [tps, tpn]
      have e1 : Int.tmod t 4 = t - Int.tdiv t 4 * 4 := by
        have := Int.tdiv_mul_add_tmod t 4; omega
      rw [e1]
      rcases Int.le_total 0 t with h | h
      · rw [(tdiv_split t 4000000000 (by omega)).1 h, (tdiv_split t 4 (by omega)).1 h,
          (tdiv_split (t - t / 4000000000 * 4000000000) 4 (by omega)).1 (by omega)]
        omega
      · rw [(tdiv_split t 4000000000 (by omega)).2 h, (tdiv_split t 4 (by omega)).2 h,
          (tdiv_split (t - -(-t / 4000000000) * 4000000000) 4 (by omega)).2 (by omega)]
        omega
    simp only [decodeDuration, key]
    rw [if_pos]
    have b : -3 ≤ Int.tmod t tpn ∧ Int.tmod t tpn ≤ 3 := by
      have e1 : Int.tmod t 4 = t - Int.tdiv t 4 * 4 := by
        have := Int.tdiv_mul_add_tmod t 4; omega
      simp only [tpn]
      rw [e1]
      rcases Int.le_total 0 t with h | h
      · rw [(tdiv_split t 4 (by omega)).1 h]; omega
      · rw [(tdiv_split t 4 (by omega)).2 h]; omega
    have : tps = 4000000000 := rfl
    simp only [InI64, i64Min, i64Max, this]
    omega
  · simp only [Canonical, tps, tpn]
    rcases Int.le_total 0 t with h | h
    · rw [(tdiv_split t 4000000000 (by omega)).1 h,
        (tdiv_split (t - t / 4000000000 * 4000000000) 4 (by omega)).1 (by omega)]
      omega
    · rw [(tdiv_split t 4000000000 (by omega)).2 h,
        (tdiv_split (t - -(-t / 4000000000) * 4000000000) 4 (by omega)).2 (by omega)]
      omega

/-- What a timestamp comes back as: rounded down to whole nanoseconds. -/
theorem timestamp_comes_back (t : Int) (h1 : minTmTicks ≤ t) (h2 : t ≤ maxTmTicks) :
    ∃ s n, encodeTime (.fin t) = .ok (s, n) ∧ decodeTime s n = .fin (t - t % tpn) ∧
      Canonical (.timestamp s n) := by
  have hm1 : minTmTicks = -62135596800 * 4000000000 := rfl
  have hm2 : maxTmTicks = 253402300799 * 4000000000 + 999999999 * 4 := rfl
  refine ⟨_, _, by simp only [encodeTime]; rw [if_neg (by omega), if_neg (by omega)], ?_, ?_⟩
  · have key : t / tps * tps + Int.tdiv (t - t / tps * tps) tpn * tpn = t - t % tpn := by
      simp only [tps, tpn]
      rw [(tdiv_split (t - t / 4000000000 * 4000000000) 4 (by omega)).1 (by omega)]
      omega
    simp only [decodeTime, key]
    rw [if_pos]
    have a1 : tps = 4000000000 := rfl
    have a2 : tpn = 4 := rfl
    simp only [InI64, i64Min, i64Max, a1, a2]
    omega
  · simp only [Canonical, tps, tpn]
    rw [(tdiv_split (t - t / 4000000000 * 4000000000) 4 (by omega)).1 (by omega)]
    omega

/-- A native constant survives the trip. -/
theorem const_round (c : Const) (h : Encodable c) :
    ∃ p, constToProto c = .ok p ∧ constFromProto p = c ∧ Canonical p := by
  cases c with
  | duration d =>
    obtain ⟨t, rfl, h1, h2, h3⟩ := h
    obtain ⟨s, n, e1, e2, e3⟩ := duration_comes_back t h1 h2
    refine ⟨.duration s n, by simp [constToProto, e1], ?_, e3⟩
    have : Int.tmod t tpn = 0 := Int.tmod_eq_zero_of_dvd h3
    simp [constFromProto, e2, this]
  | timestamp d =>
    obtain ⟨t, rfl, h1, h2, h3⟩ := h
    obtain ⟨s, n, e1, e2, e3⟩ := timestamp_comes_back t h1 h2
    refine ⟨.timestamp s n, by simp [constToProto, e1], ?_, e3⟩
    have : t % tpn = 0 := Int.emod_eq_zero_of_dvd h3
    simp [constFromProto, e2, this]
  | _ => exact ⟨_, rfl, rfl, trivial⟩

/-- A canonical proto constant survives the trip. -/
theorem pconst_round (p : PConst) (h : Canonical p) :
    constToProto (constFromProto p) = .ok p ∧ Encodable (constFromProto p) := by
  cases p with
  | duration s n =>
    obtain ⟨h1, h2, h3, h4, h5, h6⟩ := h
    have a1 : tps = 4000000000 := rfl
    have a2 : tpn = 4 := rfl
    have hm1 : minDurTicks = -315576000000 * 4000000000 - 999999999 * 4 := rfl
    have hm2 : maxDurTicks = 315576000000 * 4000000000 + 999999999 * 4 := rfl
    have hd : decodeDuration s n = .fin (s * tps + n * tpn) := by
      simp only [decodeDuration]
      rw [if_pos]
      simp only [InI64, i64Min, i64Max, a1, a2]; omega
    have hsd : Int.tdiv (s * tps + n * tpn) tps = s := by
      simp only [a1, a2]
      rcases Int.lt_trichotomy s 0 with hs | hs | hs
      · rw [(tdiv_split _ 4000000000 (by omega)).2 (by omega)]; omega
      · subst hs
        rcases Int.le_total 0 n with hn | hn
        · rw [(tdiv_split _ 4000000000 (by omega)).1 (by omega)]; omega
        · rw [(tdiv_split _ 4000000000 (by omega)).2 (by omega)]; omega
      · rw [(tdiv_split _ 4000000000 (by omega)).1 (by omega)]; omega
    have hnd : Int.tdiv (s * tps + n * tpn - s * tps) tpn = n := by
      rw [show s * tps + n * tpn - s * tps = n * tpn by omega]
      exact Int.mul_tdiv_cancel n (by decide)
    constructor
    · simp only [constFromProto, hd, constToProto, encodeDuration]
      rw [if_neg (by rw [a1, a2]; omega), if_neg (by rw [a1, a2]; omega)]
      simp only [hsd, hnd]
    · simp only [constFromProto, hd]
      exact ⟨_, rfl, by rw [a1, a2]; omega, by rw [a1, a2]; omega, by rw [a1, a2]; omega⟩
  | timestamp s n =>
    obtain ⟨h1, h2, h3, h4⟩ := h
    have a1 : tps = 4000000000 := rfl
    have a2 : tpn = 4 := rfl
    have hm1 : minTmTicks = -62135596800 * 4000000000 := rfl
    have hm2 : maxTmTicks = 253402300799 * 4000000000 + 999999999 * 4 := rfl
    have hd : decodeTime s n = .fin (s * tps + n * tpn) := by
      simp only [decodeTime]
      rw [if_pos]
      simp only [InI64, i64Min, i64Max, a1, a2]; omega
    have hsd : (s * tps + n * tpn) / tps = s := by
      simp only [a1, a2]; omega
    have hnd : Int.tdiv (s * tps + n * tpn - s * tps) tpn = n := by
      rw [show s * tps + n * tpn - s * tps = n * tpn by omega]
      exact Int.mul_tdiv_cancel n (by decide)
    constructor
    · simp only [constFromProto, hd, constToProto, encodeTime]
      rw [if_neg (by rw [a1, a2]; omega), if_neg (by rw [a1, a2]; omega)]
      simp only [hsd, hnd]
    · simp only [constFromProto, hd]
      exact ⟨_, rfl, by rw [a1, a2]; omega, by rw [a1, a2]; omega, by rw [a1, a2]; omega⟩
  | _ => exact ⟨rfl, trivial⟩

/-! ## Well-formed native expressions -/

/-- The children a native node of this kind has.  A `struct` has a non-empty name (an empty one
would be read back as a map); an argument of a call is always set. -/
def NShape : NKind → List NExpr → Prop
  | .unspecified, ks => ks = []
  | .const c, ks => ks = [] ∧ Encodable c
  | .ident _, ks => ks = []
  | .select _ _, ks => ks.length = 1
  | .call _, ks => ∃ t args, ks = t :: args ∧ ∀ a ∈ args, a.present = true
  | .list opt, ks => ks.length = opt.length
  | .struct name fields, ks => name ≠ "" ∧ ks.length = fields.length
  | .map entries, ks => ks.length = 2 * entries.length
  | .comprehension _ _ _, ks => ks.length = 5

mutual
/-- Every node of the expression is well formed. -/
def WFN : NExpr → Prop
  | .absent => True
  | .node l ks => NShape l.kind ks ∧ WFNs ks
def WFNs : List NExpr → Prop
  | [] => True
  | t :: ts => WFN t ∧ WFNs ts
end

mutual
/-- The expression with every unset list element replaced by a default one. -/
def fillE : NExpr → NExpr
  | .absent => .absent
  | .node l ks =>
    match l.kind with
    | .list _ => .node l (fillElems ks)
    | _ => .node l (fillEs ks)
def fillEs : List NExpr → List NExpr
  | [] => []
  | t :: ts => fillE t :: fillEs ts
def fillElems : List NExpr → List NExpr
  | [] => []
  | .absent :: ts => .node NNode.dflt [] :: fillElems ts
  | .node l ks :: ts => fillE (.node l ks) :: fillElems ts
end

/-! ## Optional flags -/

theorem contains_small (pre : List Int) (i : Int) (h : ∀ x ∈ pre, x < i) (j : Int) (hj : i ≤ j)
    (rest : List Int) : (pre ++ rest).contains j = rest.contains j := by
  have : pre.contains j = false := by
    rw [List.contains_eq_any_beq]
    simp only [List.any_eq_false, beq_iff_eq]
    intro x hx he
    have := h x hx
    omega
  simp only [List.contains_eq_mem, List.mem_append] at this ⊢
  simp only [decide_eq_false_iff_not] at this
  simp [this]

theorem optIndices_ge : ∀ (bs : List Bool) (i x : Int), x ∈ optIndices i bs → i ≤ x
  | [], i, x, h => by simp [optIndices] at h
  | b :: bs, i, x, h => by
    simp only [optIndices, List.mem_append] at h
    rcases h with h | h
    · cases b <;> simp at h; omega
    · have := optIndices_ge bs (i + 1) x h; omega

theorem flags_indices : ∀ (bs : List Bool) (i : Int) (pre : List Int), (∀ x ∈ pre, x < i) →
    optFlags (pre ++ optIndices i bs) i bs.length = bs
  | [], i, pre, h => by simp [optFlags]
  | b :: bs, i, pre, h => by
    simp only [optFlags, List.length_cons]
    have h1 : (pre ++ optIndices i (b :: bs)).contains i = b := by
      rw [contains_small pre i h i (by omega)]
      cases b with
      | true => simp [optIndices]
      | false =>
        simp only [optIndices, List.contains_eq_mem, decide_eq_false_iff_not]
        intro hm
        have := optIndices_ge bs (i + 1) i (by simpa using hm)
        omega
    rw [h1]
    have h2 : pre ++ optIndices i (b :: bs) = (pre ++ (if b then [i] else [])) ++
        optIndices (i + 1) bs := by simp [optIndices]
    rw [h2, flags_indices bs (i + 1) _ (by
      intro x hx
      rcases List.mem_append.mp hx with hx | hx
      · have := h x hx; omega
      · cases b <;> simp at hx; omega)]

/-! ## Native → proto → native -/

theorem mapEntries_back : ∀ (es : List NEntry) (ks : List NExpr),
    mapFields (mapEntries es ks) = .ok es
  | [], ks => by simp [mapEntries, mapFields]
  | e :: es, ks => by
    simp only [mapEntries, mapFields]
    cases (ks.headD .absent).present <;> simp [mapEntries_back es]

theorem structFields_back : ∀ (fs : List NField),
    structFields (fs.map fun f => ⟨f.id, .field f.name, f.optional⟩) = .ok fs
  | [] => by simp [structFields]
  | f :: fs => by simp [structFields, structFields_back fs]

theorem round_dflt : toP (.node NNode.dflt []) = .ok (.node PNode.dflt []) ∧
    fromP (.node PNode.dflt []) = .ok (.node NNode.dflt []) := by
  constructor <;> simp [toP, fromP, NNode.dflt, PNode.dflt]

mutual
theorem round : ∀ (l : NNode) (ks : List NExpr), WFN (.node l ks) →
    ∃ pl pks, toP (.node l ks) = .ok (.node pl pks) ∧
      fromP (.node pl pks) = .ok (fillE (.node l ks))
  | ⟨id, k⟩, ks, h => by
    simp only [WFN] at h
    obtain ⟨hsh, hks⟩ := h
    cases k with
    | unspecified =>
      simp only [NShape] at hsh; subst hsh
      exact ⟨_, _, rfl, by simp [fromP, fillE, fillEs]⟩
    | const c =>
      obtain ⟨rfl, hc⟩ := hsh
      obtain ⟨p, h1, h2, _⟩ := const_round c hc
      exact ⟨⟨id, .const p⟩, [], by simp [toP, h1], by simp [fromP, h2, fillE, fillEs]⟩
    | ident n =>
      simp only [NShape] at hsh; subst hsh
      exact ⟨_, _, rfl, by simp [fromP, fillE, fillEs]⟩
    | select f t =>
      obtain ⟨ps, h1, h2, h3⟩ := rounds ks hks
      exact ⟨⟨id, .select f t⟩, ps, by simp [toP, h1], by simp [fromP, h2, fillE]⟩
    | call fn =>
      obtain ⟨ps, h1, h2, h3⟩ := rounds ks hks
      exact ⟨⟨id, .call fn⟩, ps, by simp [toP, h1], by simp [fromP, h2, fillE]⟩
    | list opt =>
      obtain ⟨ps, h1, h2, h3⟩ := roundElems ks hks
      refine ⟨⟨id, .list (optIndices 0 opt)⟩, ps, by simp [toP, h1], ?_⟩
      have hf := flags_indices opt 0 [] (by simp)
      have hl : ks.length = opt.length := hsh
      simp only [fromP, h2, fillE, h3, hl]
      rw [List.nil_append] at hf
      rw [hf]
    | struct name fields =>
      obtain ⟨ps, h1, h2⟩ := roundFields ks hks
      exact ⟨⟨id, .create name (fields.map fun f => ⟨f.id, .field f.name, f.optional⟩)⟩, ps,
        by simp [toP, h1], by simp [fromP, h2, fillE, hsh.1, structFields_back]⟩
    | map entries =>
      obtain ⟨ps, h1, h2, h3⟩ := rounds ks hks
      exact ⟨⟨id, .create "" (mapEntries entries ks)⟩, ps, by simp [toP, h1],
        by simp [fromP, h2, fillE, mapEntries_back]⟩
    | comprehension v v2 a =>
      obtain ⟨ps, h1, h2, h3⟩ := rounds ks hks
      exact ⟨⟨id, .comprehension v v2 a⟩, ps, by simp [toP, h1], by simp [fromP, h2, fillE]⟩
theorem rounds : ∀ ks : List NExpr, WFNs ks → ∃ ps, toPs false ks = .ok ps ∧
    fromPs ps = .ok (fillEs ks) ∧ ps.length = ks.length
  | [], _ => ⟨[], by simp [toPs], by simp [fromPs, fillEs], rfl⟩
  | .absent :: ts, h => by
    simp only [WFNs] at h
    obtain ⟨ps, h1, h2, h3⟩ := rounds ts h.2
    exact ⟨.absent :: ps, by simp [toPs, h1], by simp [fromPs, h2, fillEs, fillE], by simp [h3]⟩
  | .node l ks :: ts, h => by
    simp only [WFNs] at h
    obtain ⟨ps, h1, h2, h3⟩ := rounds ts h.2
    obtain ⟨pl, pks, g1, g2⟩ := round l ks h.1
    exact ⟨.node pl pks :: ps, by simp [toPs, h1, g1], by simp [fromPs, h2, g2, fillEs],
      by simp [h3]⟩
theorem roundElems : ∀ ks : List NExpr, WFNs ks → ∃ ps, toPs true ks = .ok ps ∧
    fromPs ps = .ok (fillElems ks) ∧ ps.length = ks.length
  | [], _ => ⟨[], by simp [toPs], by simp [fromPs, fillElems], rfl⟩
  | .absent :: ts, h => by
    simp only [WFNs] at h
    obtain ⟨ps, h1, h2, h3⟩ := roundElems ts h.2
    exact ⟨.node PNode.dflt [] :: ps, by simp [toPs, h1],
      by simp [fromPs, h2, fillElems, round_dflt.2], by simp [h3]⟩
  | .node l ks :: ts, h => by
    simp only [WFNs] at h
    obtain ⟨ps, h1, h2, h3⟩ := roundElems ts h.2
    obtain ⟨pl, pks, g1, g2⟩ := round l ks h.1
    exact ⟨.node pl pks :: ps, by simp [toPs, h1, g1], by simp [fromPs, h2, g2, fillElems],
      by simp [h3]⟩
theorem roundFields : ∀ ks : List NExpr, WFNs ks → ∃ ps, toPFields ks = .ok ps ∧
    fromPValues ps = .ok (fillEs ks)
  | [], _ => ⟨[], by simp [toPFields], by simp [fromPValues, fillEs]⟩
  | .absent :: ts, h => by
    simp only [WFNs] at h
    obtain ⟨ps, h1, h2⟩ := roundFields ts h.2
    exact ⟨.absent :: .absent :: ps, by simp [toPFields, h1],
      by simp [fromPValues, h2, fillEs, fillE]⟩
  | .node l ks :: ts, h => by
    simp only [WFNs] at h
    obtain ⟨ps, h1, h2⟩ := roundFields ts h.2
    obtain ⟨pl, pks, g1, g2⟩ := round l ks h.1
    exact ⟨.absent :: .node pl pks :: ps, by simp [toPFields, h1, g1],
      by simp [fromPValues, h2, g2, fillEs]⟩
end

/-! ## Which protos are accepted, and proto → native → proto -/

mutual
/-- No message construction contains a map key, no map construction contains a field key. -/
def Consistent : PExpr → Prop
  | .absent => True
  | .node l ks =>
    match l.kind with
    | .create name entries =>
      if name = "" then (∀ e ∈ entries, ∀ f, e.key ≠ .field f) ∧ Consistents ks
      else (∀ e ∈ entries, e.key ≠ .mapKey) ∧ Consistents ks
    | .notSet | .const _ | .ident _ => True
    | _ => Consistents ks
def Consistents : List PExpr → Prop
  | [] => True
  | t :: ts => Consistent t ∧ Consistents ts
end

/-- The children of a proto node. -/
def PShape : PKind → List PExpr → Prop
  | .notSet, ks => ks = []
  | .const _, ks => ks = []
  | .ident _, ks => ks = []
  | .select _ _, ks => ks.length = 1
  | .call _, ks => ∃ t args, ks = t :: args ∧ ∀ a ∈ args, a.present = true
  | .list _, ks => ∀ a ∈ ks, a.present = true
  | .create _ entries, ks => Keyed entries ks
  | .comprehension _ _ _, ks => ks.length = 5
where
  /-- Per entry a map key, set exactly if the oneof says so, and a value. -/
  Keyed : List PEntry → List PExpr → Prop
  | [], ks => ks = []
  | e :: es, ks => ∃ k v rest, ks = k :: v :: rest ∧ (k.present = true ↔ e.key = .mapKey) ∧
      Keyed es rest

mutual
/-- Every node has the children its kind has. -/
def WFP : PExpr → Prop
  | .absent => True
  | .node l ks => PShape l.kind ks ∧ WFPs ks
def WFPs : List PExpr → Prop
  | [] => True
  | t :: ts => WFP t ∧ WFPs ts
end

mutual
/-- Every duration and timestamp constant is in canonical form. -/
def CanonicalP : PExpr → Prop
  | .absent => True
  | .node l ks =>
    match l.kind with
    | .const c => Canonical c
    | _ => CanonicalPs ks
def CanonicalPs : List PExpr → Prop
  | [] => True
  | t :: ts => CanonicalP t ∧ CanonicalPs ts
end

/-- The indices below `n` that occur in `idx`, in increasing order. -/
def normIdx (idx : List Int) (n : Nat) : List Int :=
  ((List.range n).map Int.ofNat).filter fun i => idx.contains i

mutual
/-- The normal form: the optional indices of a list in increasing order, without duplicates and
without those that are no position of the list; the empty field name of a message entry written
out. -/
def normP : PExpr → PExpr
  | .absent => .absent
  | .node l ks =>
    match l.kind with
    | .list idx => .node ⟨l.id, .list (normIdx idx ks.length)⟩ (normPs ks)
    | .create name entries =>
      if name = "" then .node l (normPs ks)
      else .node ⟨l.id, .create name (entries.map fun e =>
        ⟨e.id, if e.key = .notSet then .field "" else e.key, e.optional⟩)⟩ (normPs ks)
    | _ => .node l (normPs ks)
def normPs : List PExpr → List PExpr
  | [] => []
  | t :: ts => normP t :: normPs ts
end

theorem mapFields_ok : ∀ es : List PEntry, (∀ e ∈ es, ∀ f, e.key ≠ .field f) →
    mapFields es = .ok (es.map fun e => ⟨e.id, e.optional⟩)
  | [], _ => by simp [mapFields]
  | e :: es, h => by
    have h1 := h e (by simp)
    have h2 := mapFields_ok es (fun x hx => h x (by simp [hx]))
    simp only [mapFields]
    cases hk : e.key with
    | field f => exact absurd hk (h1 f)
    | notSet => simp [h2]
    | mapKey => simp [h2]

theorem mapFields_err : ∀ es : List PEntry, (¬ ∀ e ∈ es, ∀ f, e.key ≠ .field f) →
    mapFields es = .error (invalid "encountered struct field in map")
  | [], h => absurd (by simp) h
  | e :: es, h => by
    simp only [mapFields]
    cases hk : e.key with
    | field f => rfl
    | notSet =>
      rw [mapFields_err es (fun hx => h (by
        intro x hx' f
        rcases List.mem_cons.mp hx' with rfl | hx'
        · rw [hk]; simp
        · exact hx x hx' f))]
    | mapKey =>
      rw [mapFields_err es (fun hx => h (by
        intro x hx' f
        rcases List.mem_cons.mp hx' with rfl | hx'
        · rw [hk]; simp
        · exact hx x hx' f))]

/-- The name a field is given. -/
def fieldName : PKey → String
  | .field n => n
  | _ => ""

theorem structFields_ok : ∀ es : List PEntry, (∀ e ∈ es, e.key ≠ .mapKey) →
    structFields es = .ok (es.map fun e => ⟨e.id, fieldName e.key, e.optional⟩)
  | [], _ => by simp [structFields]
  | e :: es, h => by
    have h1 := h e (by simp)
    have h2 := structFields_ok es (fun x hx => h x (by simp [hx]))
    simp only [structFields]
    cases hk : e.key with
    | field f => simp [h2, hk, fieldName]
    | notSet => simp [h2, hk, fieldName]
    | mapKey => exact absurd hk h1

theorem structFields_err : ∀ es : List PEntry, (¬ ∀ e ∈ es, e.key ≠ .mapKey) →
    structFields es = .error (invalid "encountered map entry in struct")
  | [], h => absurd (by simp) h
  | e :: es, h => by
    simp only [structFields]
    cases hk : e.key with
    | mapKey => rfl
    | notSet =>
      rw [structFields_err es (fun hx => h (by
        intro x hx'
        rcases List.mem_cons.mp hx' with rfl | hx'
        · rw [hk]; simp
        · exact hx x hx'))]
    | field f =>
      rw [structFields_err es (fun hx => h (by
        intro x hx'
        rcases List.mem_cons.mp hx' with rfl | hx'
        · rw [hk]; simp
        · exact hx x hx'))]

/-- The two ways a proto can be rejected. -/
def KeyError (e : Status) : Prop :=
  e = invalid "encountered map entry in struct" ∨ e = invalid "encountered struct field in map"

/-- Either the proto is consistent and converts, or it is not and one of two errors comes back. -/
def Verdict {α : Type} (ok : Prop) (r : Except Status α) : Prop :=
  (ok ∧ ∃ a, r = .ok a) ∨ (¬ ok ∧ ∃ e, KeyError e ∧ r = .error e)

theorem Verdict.map {α β : Type} {ok : Prop} {r : Except Status α} (h : Verdict ok r)
    (f : α → β) : Verdict ok (match r with | .error e => .error e | .ok a => .ok (f a)) := by
  rcases h with ⟨h, a, rfl⟩ | ⟨h, e, hk, rfl⟩
  · exact .inl ⟨h, f a, rfl⟩
  · exact .inr ⟨h, e, hk, rfl⟩

theorem structKeys_absent : ∀ (es : List PEntry) (ks : List PExpr), PShape.Keyed es ks →
    (∀ e ∈ es, e.key ≠ .mapKey) → ∀ i k v rest, ks.drop (2 * i) = k :: v :: rest →
    k.present = false
  | [], ks, h, _, i, k, v, rest, hd => by
    simp only [PShape.Keyed] at h; subst h; simp at hd
  | e :: es, ks, h, hne, i, k, v, rest, hd => by
    simp only [PShape.Keyed] at h
    obtain ⟨k0, v0, r0, rfl, hk, hr⟩ := h
    cases i with
    | zero =>
      simp only [Nat.mul_zero, List.drop_zero, List.cons.injEq] at hd
      obtain ⟨rfl, rfl, rfl⟩ := hd
      have := hne e (by simp)
      cases hp : k0.present with
      | false => rfl
      | true => exact absurd (hk.mp hp) this
    | succ i =>
      rw [show 2 * (i + 1) = 2 * i + 1 + 1 by omega] at hd
      simp only [List.drop_succ_cons] at hd
      exact structKeys_absent es r0 hr (fun x hx => hne x (by simp [hx])) i k v rest hd

/-- The children of a message construction: no map keys. -/
def NoKeys : List PExpr → Prop
  | [] => True
  | [_] => True
  | k :: _ :: rest => k = .absent ∧ NoKeys rest

theorem noKeys_of : ∀ (es : List PEntry) (ks : List PExpr), PShape.Keyed es ks →
    (∀ e ∈ es, e.key ≠ .mapKey) → NoKeys ks
  | [], ks, h, _ => by simp only [PShape.Keyed] at h; subst h; trivial
  | e :: es, ks, h, hne => by
    simp only [PShape.Keyed] at h
    obtain ⟨k0, v0, r0, rfl, hk, hr⟩ := h
    refine ⟨?_, noKeys_of es r0 hr (fun x hx => hne x (by simp [hx]))⟩
    cases k0 with
    | absent => rfl
    | node l kk => exact absurd (hk.mp rfl) (hne e (by simp))

mutual
theorem verdict : ∀ (l : PNode) (ks : List PExpr), WFP (.node l ks) →
    Verdict (Consistent (.node l ks)) (fromP (.node l ks))
  | ⟨id, k⟩, ks, h => by
    simp only [WFP] at h
    obtain ⟨hsh, hks⟩ := h
    cases k with
    | notSet => exact .inl ⟨by simp [Consistent], _, rfl⟩
    | const c => exact .inl ⟨by simp [Consistent], _, rfl⟩
    | ident n => exact .inl ⟨by simp [Consistent], _, rfl⟩
    | select f t =>
      have hv := verdicts ks hks
      simp only [Consistent, fromP]
      rcases hv with ⟨h, a, e⟩ | ⟨h, x, hk, e⟩
      · exact .inl ⟨h, _, by rw [e]⟩
      · exact .inr ⟨h, x, hk, by rw [e]⟩
    | call fn =>
      have hv := verdicts ks hks
      simp only [Consistent, fromP]
      rcases hv with ⟨h, a, e⟩ | ⟨h, x, hk, e⟩
      · exact .inl ⟨h, _, by rw [e]⟩
      · exact .inr ⟨h, x, hk, by rw [e]⟩
    | list idx =>
      have hv := verdicts ks hks
      simp only [Consistent, fromP]
      rcases hv with ⟨h, a, e⟩ | ⟨h, x, hk, e⟩
      · exact .inl ⟨h, _, by rw [e]⟩
      · exact .inr ⟨h, x, hk, by rw [e]⟩
    | create name entries =>
      by_cases hn : name = ""
      · simp only [Consistent, fromP, if_pos hn]
        by_cases hm : ∀ e ∈ entries, ∀ f, e.key ≠ .field f
        · rw [mapFields_ok entries hm]
          simp only
          have hv := verdicts ks hks
          rcases hv with ⟨h, a, e⟩ | ⟨h, x, hk, e⟩
          · exact .inl ⟨⟨hm, h⟩, _, by rw [e]⟩
          · exact .inr ⟨fun hh => h hh.2, x, hk, by rw [e]⟩
        · rw [mapFields_err entries hm]
          exact .inr ⟨fun hh => hm hh.1, _, .inr rfl, rfl⟩
      · simp only [Consistent, fromP, if_neg hn]
        by_cases hm : ∀ e ∈ entries, e.key ≠ .mapKey
        · rw [structFields_ok entries hm]
          simp only
          have hv := verdictValues ks hks (noKeys_of entries ks hsh hm)
            (by
              have : ∀ (es : List PEntry) (ks : List PExpr), PShape.Keyed es ks →
                  ks.length = 2 * es.length := by
                intro es
                induction es with
                | nil => intro ks h; simp only [PShape.Keyed] at h; subst h; rfl
                | cons e es ih =>
                  intro ks h
                  simp only [PShape.Keyed] at h
                  obtain ⟨k, v, rest, rfl, _, hr⟩ := h
                  have := ih rest hr
                  simp only [List.length_cons]; omega
              have := this entries ks hsh
              omega)
          rcases hv with ⟨h, a, e⟩ | ⟨h, x, hk, e⟩
          · exact .inl ⟨⟨hm, h⟩, _, by rw [e]⟩
          · exact .inr ⟨fun hh => h hh.2, x, hk, by rw [e]⟩
        · rw [structFields_err entries hm]
          exact .inr ⟨fun hh => hm hh.1, _, .inl rfl, rfl⟩
    | comprehension v v2 a =>
      have hv := verdicts ks hks
      simp only [Consistent, fromP]
      rcases hv with ⟨h, a, e⟩ | ⟨h, x, hk, e⟩
      · exact .inl ⟨h, _, by rw [e]⟩
      · exact .inr ⟨h, x, hk, by rw [e]⟩
theorem verdicts : ∀ ks : List PExpr, WFPs ks → Verdict (Consistents ks) (fromPs ks)
  | [], _ => .inl ⟨trivial, _, rfl⟩
  | .absent :: ts, h => by
    simp only [WFPs] at h
    simp only [Consistents, Consistent, fromPs, true_and]
    rcases verdicts ts h.2 with ⟨h, a, e⟩ | ⟨h, x, hk, e⟩
    · exact .inl ⟨h, _, by rw [e]⟩
    · exact .inr ⟨h, x, hk, by rw [e]⟩
  | .node l kk :: ts, h => by
    simp only [WFPs] at h
    simp only [Consistents, fromPs]
    rcases verdicts ts h.2 with ⟨h1, a, e⟩ | ⟨h1, x, hk, e⟩
    · rcases verdict l kk h.1 with ⟨h2, b, e2⟩ | ⟨h2, x, hk, e2⟩
      · exact .inl ⟨⟨h2, h1⟩, _, by rw [e, e2]⟩
      · exact .inr ⟨fun hh => h2 hh.1, x, hk, by rw [e, e2]⟩
    · exact .inr ⟨fun hh => h1 hh.2, x, hk, by rw [e]⟩
theorem verdictValues : ∀ ks : List PExpr, WFPs ks → NoKeys ks → ks.length % 2 = 0 →
    Verdict (Consistents ks) (fromPValues ks)
  | [], _, _, _ => .inl ⟨trivial, _, rfl⟩
  | [_], _, _, h => by simp at h
  | k :: .absent :: ts, h, hn, hl => by
    simp only [WFPs] at h
    obtain ⟨hk, hn⟩ := hn
    have hl' : ts.length % 2 = 0 := by simp only [List.length_cons] at hl; omega
    have hc : Consistent k := by rw [hk]; trivial
    simp only [Consistents, Consistent, fromPValues, true_and, hc]
    rcases verdictValues ts h.2.2 hn hl' with ⟨h, a, e⟩ | ⟨h, x, hk, e⟩
    · exact .inl ⟨h, _, by rw [e]⟩
    · exact .inr ⟨h, x, hk, by rw [e]⟩
  | k :: .node l kk :: ts, h, hn, hl => by
    simp only [WFPs] at h
    obtain ⟨hk, hn⟩ := hn
    have hl' : ts.length % 2 = 0 := by simp only [List.length_cons] at hl; omega
    have hc : Consistent k := by rw [hk]; trivial
    simp only [Consistents, fromPValues, hc, true_and]
    rcases verdictValues ts h.2.2 hn hl' with ⟨h1, a, e⟩ | ⟨h1, x, hk, e⟩
    · rcases verdict l kk h.2.1 with ⟨h2, b, e2⟩ | ⟨h2, x, hk, e2⟩
      · exact .inl ⟨⟨h2, h1⟩, _, by rw [e, e2]⟩
      · exact .inr ⟨fun hh => h2 hh.1, x, hk, by rw [e, e2]⟩
    · exact .inr ⟨fun hh => h1 hh.2, x, hk, by rw [e]⟩
end

end Cel.Proto
