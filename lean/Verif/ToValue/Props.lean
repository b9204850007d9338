import Verif.ToValue.Model

set_option linter.unusedSimpArgs false
set_option linter.unusedVariables false

/-!
# C90
-/

namespace Cel.ToValue
open Cel Cel.Num

/-! ### Specification -/

/-- Ten thousand years and a bit, on both sides of zero, in quarter nanoseconds. -/
def durationMax : Int := 4 * 315576000000999999999
/-- The first and the last instant: 0001-01-01T00:00:00Z, 9999-12-31T23:59:59.999999999Z. -/
def firstInstant : Int := -4 * 62135596800000000000
def lastInstant : Int := 4 * 253402300799999999999

mutual
/-- Nothing inside is unknown, or a duration or timestamp out of range. -/
inductive InRange : V → Prop where
  | null : InRange .null
  | bool (b) : InRange (.bool b)
  | int (i) : InRange (.int i)
  | uint (u) : InRange (.uint u)
  | double (d) : InRange (.double d)
  | string (s) : InRange (.string s)
  | bytes (s) : InRange (.bytes s)
  | message (m) : InRange (.message m)
  | duration {t} (h : -durationMax ≤ t) (h' : t ≤ durationMax) : InRange (.duration t)
  | timestamp {t} (h : firstInstant ≤ t) (h' : t ≤ lastInstant) : InRange (.timestamp t)
  | list {es} (h : AllInRange es) : InRange (.list es)
  | map {ks vs} (h : AllInRange vs) : InRange (.map ks vs)
  | type (n) : InRange (.type n)
  | error (s) : InRange (.error s)
inductive AllInRange : List V → Prop where
  | nil : AllInRange []
  | cons {v vs} (h : InRange v) (h' : AllInRange vs) : AllInRange (v :: vs)
end

mutual
/-- What a map is: keys different. -/
inductive Maps : V → Prop where
  | null : Maps .null
  | bool (b) : Maps (.bool b)
  | int (i) : Maps (.int i)
  | uint (u) : Maps (.uint u)
  | double (d) : Maps (.double d)
  | string (s) : Maps (.string s)
  | bytes (s) : Maps (.bytes s)
  | message (m) : Maps (.message m)
  | duration (t) : Maps (.duration t)
  | timestamp (t) : Maps (.timestamp t)
  | list {es} (h : AllMaps es) : Maps (.list es)
  | map {ks vs} (h : AllMaps vs) (hk : ks.Nodup) : Maps (.map ks vs)
  | unknown : Maps .unknown
  | type (n) : Maps (.type n)
  | error (s) : Maps (.error s)
inductive AllMaps : List V → Prop where
  | nil : AllMaps []
  | cons {v vs} (h : Maps v) (h' : AllMaps vs) : AllMaps (v :: vs)
end

mutual
/-- The second value is the first with durations cut towards zero and timestamps cut down to whole
nanoseconds, and errors become a text. -/
inductive Cut : V → V → Prop where
  | null : Cut .null .null
  | bool (b) : Cut (.bool b) (.bool b)
  | int (i) : Cut (.int i) (.int i)
  | uint (u) : Cut (.uint u) (.uint u)
  | double (d) : Cut (.double d) (.double d)
  | string (s) : Cut (.string s) (.string s)
  | bytes (s) : Cut (.bytes s) (.bytes s)
  | message (m) : Cut (.message m) (.message m)
  | forward {t n r : Int} (ht : 0 ≤ t) (h : t = 4 * n + r) (hr : 0 ≤ r) (hr' : r < 4) : Cut (.duration t) (.duration (4 * n))
  | backward {t n r : Int} (ht : t < 0) (h : t = 4 * n - r) (hr : 0 ≤ r) (hr' : r < 4) : Cut (.duration t) (.duration (4 * n))
  | timestamp {t n r : Int} (h : t = 4 * n + r) (hr : 0 ≤ r) (hr' : r < 4) : Cut (.timestamp t) (.timestamp (4 * n))
  | list {es fs} (h : AllCut es fs) : Cut (.list es) (.list fs)
  | map {ks vs ws} (h : AllCut vs ws) : Cut (.map ks vs) (.map ks ws)
  | type (n) : Cut (.type n) (.type n)
  | error (s) : Cut (.error s) (.string errorText)
inductive AllCut : List V → List V → Prop where
  | nil : AllCut [] []
  | cons {v w vs ws} (h : Cut v w) (h' : AllCut vs ws) : AllCut (v :: vs) (w :: ws)
end

mutual
/-- No error inside, durations and timestamps whole nanoseconds. -/
inductive Whole : V → Prop where
  | null : Whole .null
  | bool (b) : Whole (.bool b)
  | int (i) : Whole (.int i)
  | uint (u) : Whole (.uint u)
  | double (d) : Whole (.double d)
  | string (s) : Whole (.string s)
  | bytes (s) : Whole (.bytes s)
  | message (m) : Whole (.message m)
  | duration (n : Int) : Whole (.duration (4 * n))
  | timestamp (n : Int) : Whole (.timestamp (4 * n))
  | list {es} (h : AllWhole es) : Whole (.list es)
  | map {ks vs} (h : AllWhole vs) : Whole (.map ks vs)
  | type (n) : Whole (.type n)
inductive AllWhole : List V → Prop where
  | nil : AllWhole []
  | cons {v vs} (h : Whole v) (h' : AllWhole vs) : AllWhole (v :: vs)
end

/-! ### Durations and timestamps -/

theorem dur_some {t : Int} (h : -durationMax ≤ t) (h' : t ≤ durationMax) :
    encodeDuration t = some (t.tdiv 4000000000, (t.tmod 4000000000).tdiv 4) := by
  simp only [encodeDuration, durationMax] at *
  rw [if_neg (by omega)]

theorem dur_none {t : Int} (h : ¬ (-durationMax ≤ t ∧ t ≤ durationMax)) : encodeDuration t = none := by
  simp only [encodeDuration, durationMax] at *
  rw [if_pos (by omega)]

theorem time_some {t : Int} (h : firstInstant ≤ t) (h' : t ≤ lastInstant) :
    encodeTime t = some (t / 4000000000, (t - t / 4000000000 * 4000000000).tdiv 4) := by
  simp only [encodeTime, firstInstant, lastInstant] at *
  rw [if_neg (by omega)]

theorem time_none {t : Int} (h : ¬ (firstInstant ≤ t ∧ t ≤ lastInstant)) : encodeTime t = none := by
  simp only [encodeTime, firstInstant, lastInstant] at *
  rw [if_pos (by omega)]

theorem cut_duration (t : Int) : Cut (.duration t) (.duration (decode (t.tdiv 4000000000) ((t.tmod 4000000000).tdiv 4))) := by
  by_cases ht : 0 ≤ t
  · have e1 : t.tdiv 4000000000 = t / 4000000000 := Int.tdiv_eq_ediv_of_nonneg ht
    have e2 : t.tmod 4000000000 = t % 4000000000 := Int.tmod_eq_emod_of_nonneg ht
    have e3 : (t % 4000000000).tdiv 4 = (t % 4000000000) / 4 := Int.tdiv_eq_ediv_of_nonneg (by omega)
    rw [e1, e2, e3]
    have : decode (t / 4000000000) (t % 4000000000 / 4) = 4 * (t / 4) := by unfold decode; omega
    rw [this]
    exact .forward (r := t % 4) ht (by omega) (by omega) (by omega)
  · obtain ⟨u, rfl⟩ : ∃ u, t = -u := ⟨-t, by omega⟩
    have hu : 0 ≤ u := by omega
    have e1 : (-u).tdiv 4000000000 = -(u / 4000000000) := by rw [Int.neg_tdiv, Int.tdiv_eq_ediv_of_nonneg hu]
    have e2 : (-u).tmod 4000000000 = -(u % 4000000000) := by rw [Int.neg_tmod, Int.tmod_eq_emod_of_nonneg hu]
    have e3 : (-(u % 4000000000)).tdiv 4 = -((u % 4000000000) / 4) := by
      rw [Int.neg_tdiv, Int.tdiv_eq_ediv_of_nonneg (by omega)]
    rw [e1, e2, e3]
    have : decode (-(u / 4000000000)) (-(u % 4000000000 / 4)) = 4 * (-(u / 4)) := by unfold decode; omega
    rw [this]
    exact .backward (r := u % 4) (by omega) (by omega) (by omega) (by omega)

theorem cut_time (t : Int) : Cut (.timestamp t) (.timestamp (decode (t / 4000000000) ((t - t / 4000000000 * 4000000000).tdiv 4))) := by
  have e : (t - t / 4000000000 * 4000000000).tdiv 4 = (t - t / 4000000000 * 4000000000) / 4 :=
    Int.tdiv_eq_ediv_of_nonneg (by omega)
  rw [e]
  have : decode (t / 4000000000) ((t - t / 4000000000 * 4000000000) / 4) = 4 * (t / 4) := by unfold decode; omega
  rw [this]
  exact .timestamp (r := t % 4) (by omega) (by omega) (by omega)

/-! ### Keys -/

theorem keys_back : ∀ ks : List Key, (ofValues (ks.map keyP)).bind toKeys = some ks
  | [] => rfl
  | k :: ks => by
    have ih := keys_back ks
    obtain ⟨vs, h1, h2⟩ := Option.bind_eq_some_iff.1 ih
    cases k <;> simp [keyP, ofValues, ofValue, h1, toKeys, toKey, h2]

/-! ### Both ways -/

mutual
theorem there : ∀ v, InRange v → Maps v → ∃ p w, toValue v = some p ∧ ofValue p = some w ∧ Cut v w
  | .null, _, _ => ⟨_, _, rfl, rfl, .null⟩
  | .bool b, _, _ => ⟨_, _, rfl, rfl, .bool b⟩
  | .int i, _, _ => ⟨_, _, rfl, rfl, .int i⟩
  | .uint u, _, _ => ⟨_, _, rfl, rfl, .uint u⟩
  | .double d, _, _ => ⟨_, _, rfl, rfl, .double d⟩
  | .string s, _, _ => ⟨_, _, rfl, rfl, .string s⟩
  | .bytes s, _, _ => ⟨_, _, rfl, rfl, .bytes s⟩
  | .message m, _, _ => ⟨_, _, rfl, rfl, .message m⟩
  | .type n, _, _ => ⟨_, _, rfl, rfl, .type n⟩
  | .error s, _, _ => ⟨_, _, rfl, rfl, .error s⟩
  | .unknown, h, _ => by cases h
  | .duration t, h, _ => by
    cases h with
    | duration h h' => exact ⟨_, _, by rw [toValue, dur_some h h']; rfl, rfl, cut_duration t⟩
  | .timestamp t, h, _ => by
    cases h with
    | timestamp h h' => exact ⟨_, _, by rw [toValue, time_some h h']; rfl, rfl, cut_time t⟩
  | .list es, h, hm => by
    cases h with
    | list h =>
      cases hm with
      | list hm =>
        obtain ⟨ps, ws, e1, e2, hc⟩ := theres es h hm
        exact ⟨_, _, by rw [toValue, e1]; rfl, by rw [ofValue, e2]; rfl, .list hc⟩
  | .map ks vs, h, hm => by
    cases h with
    | map h =>
      cases hm with
      | map hm hk =>
        obtain ⟨ps, ws, e1, e2, hc⟩ := theres vs h hm
        exact ⟨_, .map ks ws, by rw [toValue, e1]; rfl, by simp only [ofValue, keys_back, e2, if_pos hk], .map hc⟩
theorem theres : ∀ vs, AllInRange vs → AllMaps vs → ∃ ps ws, toValues vs = some ps ∧ ofValues ps = some ws ∧ AllCut vs ws
  | [], _, _ => ⟨_, _, rfl, rfl, .nil⟩
  | v :: vs, h, hm => by
    cases h with
    | cons h h' =>
      cases hm with
      | cons hm hm' =>
        obtain ⟨p, w, e1, e2, hc⟩ := there v h hm
        obtain ⟨ps, ws, f1, f2, hd⟩ := theres vs h' hm'
        exact ⟨_, w :: ws, by rw [toValues, e1]; simp only [f1]; rfl, by simp [ofValues, e2, f2], .cons hc hd⟩
end

mutual
theorem range : ∀ v p, toValue v = some p → InRange v
  | .null, _, _ => .null
  | .bool b, _, _ => .bool b
  | .int i, _, _ => .int i
  | .uint u, _, _ => .uint u
  | .double d, _, _ => .double d
  | .string s, _, _ => .string s
  | .bytes s, _, _ => .bytes s
  | .message m, _, _ => .message m
  | .type n, _, _ => .type n
  | .error s, _, _ => .error s
  | .unknown, _, h => by cases h
  | .duration t, p, h => by
    by_cases hr : -durationMax ≤ t ∧ t ≤ durationMax
    · exact .duration hr.1 hr.2
    · rw [toValue, dur_none hr] at h; cases h
  | .timestamp t, p, h => by
    by_cases hr : firstInstant ≤ t ∧ t ≤ lastInstant
    · exact .timestamp hr.1 hr.2
    · rw [toValue, time_none hr] at h; cases h
  | .list es, p, h => by
    rw [toValue] at h
    cases e : toValues es with
    | none => rw [e] at h; cases h
    | some ps => exact .list (ranges es ps e)
  | .map ks vs, p, h => by
    rw [toValue] at h
    cases e : toValues vs with
    | none => rw [e] at h; cases h
    | some ps => exact .map (ranges vs ps e)
theorem ranges : ∀ vs ps, toValues vs = some ps → AllInRange vs
  | [], _, _ => .nil
  | v :: vs, ps, h => by
    rw [toValues] at h
    cases e : toValue v with
    | none => simp [e] at h
    | some p =>
      simp only [e] at h
      cases e' : toValues vs with
      | none => simp [e'] at h
      | some qs => exact .cons (range v p e) (ranges vs qs e')
end

mutual
theorem writes : ∀ v, InRange v → (toValue v).isSome = true
  | .null, _ | .bool _, _ | .int _, _ | .uint _, _ | .double _, _ | .string _, _ | .bytes _, _ | .message _, _
  | .type _, _ | .error _, _ => rfl
  | .unknown, h => by cases h
  | .duration t, h => by
    cases h with
    | duration h h' => rw [toValue, dur_some h h']; rfl
  | .timestamp t, h => by
    cases h with
    | timestamp h h' => rw [toValue, time_some h h']; rfl
  | .list es, h => by
    cases h with
    | list h => rw [toValue, Option.isSome_map]; exact writess es h
  | .map ks vs, h => by
    cases h with
    | map h => rw [toValue, Option.isSome_map]; exact writess vs h
theorem writess : ∀ vs, AllInRange vs → (toValues vs).isSome = true
  | [], _ => rfl
  | v :: vs, h => by
    cases h with
    | cons h h' =>
      obtain ⟨p, hp⟩ := Option.isSome_iff_exists.1 (writes v h)
      rw [toValues, hp]
      simp only [Option.isSome_map]
      exact writess vs h'
end

mutual
theorem whole_cut : ∀ v w, Whole v → Cut v w → w = v
  | .null, _, _, h => by cases h; rfl
  | .bool _, _, _, h => by cases h; rfl
  | .int _, _, _, h => by cases h; rfl
  | .uint _, _, _, h => by cases h; rfl
  | .double _, _, _, h => by cases h; rfl
  | .string _, _, _, h => by cases h; rfl
  | .bytes _, _, _, h => by cases h; rfl
  | .message _, _, _, h => by cases h; rfl
  | .type _, _, _, h => by cases h; rfl
  | .error _, _, h, _ => by cases h
  | .unknown, _, h, _ => by cases h
  | .duration t, w, h, hc => by
    cases h with
    | duration n =>
      generalize ht : 4 * n = t at hc
      cases hc with
      | forward h0 h1 h2 h3 => congr 1; omega
      | backward h0 h1 h2 h3 => congr 1; omega
  | .timestamp t, w, h, hc => by
    cases h with
    | timestamp n =>
      generalize ht : 4 * n = t at hc
      cases hc with
      | timestamp h1 h2 h3 => congr 1; omega
  | .list es, w, h, hc => by
    cases h with
    | list h => cases hc with
      | list hc => rw [wholes_cut es _ h hc]
  | .map ks vs, w, h, hc => by
    cases h with
    | map h => cases hc with
      | map hc => rw [wholes_cut vs _ h hc]
theorem wholes_cut : ∀ vs ws, AllWhole vs → AllCut vs ws → ws = vs
  | [], _, _, h => by cases h; rfl
  | v :: vs, ws, h, hc => by
    cases h with
    | cons h h' => cases hc with
      | cons hc hc' => rw [whole_cut v _ h hc, wholes_cut vs _ h' hc']
end

mutual
/-- The objects inside, of other kinds than durations, timestamps and messages, give values as
`CreateMessage` makes them: whole and with maps. -/
def objectsOk : P → Prop
  | .object (.other (some v)) => Whole v ∧ Maps v
  | .list ps => allObjectsOk ps
  | .map _ ps => allObjectsOk ps
  | _ => True
def allObjectsOk : List P → Prop
  | [] => True
  | p :: ps => objectsOk p ∧ allObjectsOk ps
end

mutual
theorem read : ∀ p v, objectsOk p → ofValue p = some v → Whole v ∧ Maps v
  | .unset, _, _, h => by cases h
  | .null, _, _, h => by cases h; exact ⟨.null, .null⟩
  | .bool _, _, _, h => by cases h; exact ⟨.bool _, .bool _⟩
  | .int _, _, _, h => by cases h; exact ⟨.int _, .int _⟩
  | .uint _, _, _, h => by cases h; exact ⟨.uint _, .uint _⟩
  | .double _, _, _, h => by cases h; exact ⟨.double _, .double _⟩
  | .string _, _, _, h => by cases h; exact ⟨.string _, .string _⟩
  | .bytes _, _, _, h => by cases h; exact ⟨.bytes _, .bytes _⟩
  | .enum _, _, _, h => by cases h; exact ⟨.int _, .int _⟩
  | .type _, _, _, h => by cases h; exact ⟨.type _, .type _⟩
  | .object o, v, ho, h => by
    cases o with
    | duration s n =>
      cases h
      have : decode s n = 4 * (s * 1000000000 + n) := by unfold decode; omega
      rw [this]
      exact ⟨.duration _, .duration _⟩
    | timestamp s n =>
      cases h
      have : decode s n = 4 * (s * 1000000000 + n) := by unfold decode; omega
      rw [this]
      exact ⟨.timestamp _, .timestamp _⟩
    | message m => cases h; exact ⟨.message _, .message _⟩
    | other w =>
      rw [ofValue, unwrap] at h
      subst h
      rw [objectsOk] at ho
      exact ho
  | .list ps, v, ho, h => by
    rw [ofValue] at h
    rw [objectsOk] at ho
    obtain ⟨vs, hv, rfl⟩ := Option.map_eq_some_iff.1 h
    have := reads ps vs ho hv
    exact ⟨.list this.1, .list this.2⟩
  | .map ks ps, v, ho, h => by
    rw [ofValue] at h
    rw [objectsOk] at ho
    split at h
    · cases h
    · split at h
      · cases h
      · rename_i vs' hv
        split at h
        · rename_i hn
          cases h
          have := reads ps vs' ho hv
          exact ⟨.map this.1, .map this.2 hn⟩
        · cases h
theorem reads : ∀ ps vs, allObjectsOk ps → ofValues ps = some vs → AllWhole vs ∧ AllMaps vs
  | [], vs, _, h => by cases h; exact ⟨.nil, .nil⟩
  | p :: ps, vs, ho, h => by
    rw [allObjectsOk] at ho
    rw [ofValues] at h
    split at h
    · cases h
    · rename_i v hv
      obtain ⟨ws, hw, rfl⟩ := Option.map_eq_some_iff.1 h
      have h1 := read p v ho.1 hv
      have h2 := reads ps ws ho.2 hw
      exact ⟨.cons h1.1 h2.1, .cons h1.2 h2.2⟩
end

/-! ### The theorems -/

/-- **C90 (writing).** A value can be written exactly if nothing inside is unknown, or a duration or
timestamp out of range. -/
theorem C90_writes (v : V) : (toValue v).isSome = true ↔ InRange v := by
  constructor
  · intro h
    obtain ⟨p, hp⟩ := Option.isSome_iff_exists.1 h
    exact range v p hp
  · exact writes v

/-- **C90 (reading back).** What is written reads back as the value, with durations and timestamps
cut to whole nanoseconds and errors become a text. -/
theorem C90_back {v : V} {p : P} (hm : Maps v) (h : toValue v = some p) : ∃ w, ofValue p = some w ∧ Cut v w := by
  obtain ⟨p', w, e1, e2, hc⟩ := there v (range v p h) hm
  rw [h] at e1
  cases e1
  exact ⟨w, e2, hc⟩

/-- **C90 (nothing lost).** Without errors and with whole nanoseconds it reads back as the same
value; two such values written alike are the same. -/
theorem C90_same {v : V} {p : P} (hm : Maps v) (hw : Whole v) (h : toValue v = some p) :
    ofValue p = some v ∧ ∀ v', Maps v' → Whole v' → toValue v' = some p → v' = v := by
  have one : ∀ u, Maps u → Whole u → toValue u = some p → ofValue p = some u := by
    intro u hu hu' h
    obtain ⟨w, e, hc⟩ := C90_back hu h
    rw [e, whole_cut u w hu' hc]
  refine ⟨one v hm hw h, fun v' h1 h2 h3 => ?_⟩
  have := (one v' h1 h2 h3).symm.trans (one v hm hw h)
  exact Option.some.inj this

/-- **C90 (settled).** What has been read from a message and can be written reads back the same
(enums as the ints they were read as). -/
theorem C90_settled {p p' : P} {v : V} (ho : objectsOk p) (h : ofValue p = some v) (h' : toValue v = some p') :
    ofValue p' = some v :=
  (C90_same (read p v ho h).2 (read p v ho h).1 h').1

/-- A key is written as its value is – `transform_utility.cc:94`. -/
def keyVal : Key → V
  | .bool b => .bool b
  | .int i => .int i
  | .uint u => .uint u
  | .string s => .string s

theorem C90_keys (k : Key) : toValue (keyVal k) = some (keyP k) := by cases k <;> rfl

theorem values_some : ∀ {ps : List P} {vs : List V},
    ofValues ps = some vs ↔ List.Forall₂ (fun p v => ofValue p = some v) ps vs
  | [], vs => by
    rw [ofValues, Option.some.injEq]
    constructor
    · rintro rfl; exact .nil
    · intro h; cases h; rfl
  | p :: ps, vs => by
    rw [ofValues]
    cases e : ofValue p with
    | none =>
      simp only [reduceCtorEq, false_iff]
      intro h
      cases h with
      | cons h _ => rw [e] at h; cases h
    | some v =>
      simp only [Option.map_eq_some_iff]
      constructor
      · rintro ⟨ws, h, rfl⟩
        exact .cons e (values_some.1 h)
      · intro h
        cases h with
        | cons h h' =>
          rw [e] at h
          cases h
          exact ⟨_, values_some.2 h', rfl⟩

theorem toKey_some {v : V} {k : Key} : toKey v = some k ↔ v = keyVal k := by
  constructor
  · intro h
    cases v <;> simp only [toKey, Option.some.injEq, reduceCtorEq] at h <;> subst h <;> rfl
  · rintro rfl
    cases k <;> rfl

theorem toKeys_some : ∀ {vs : List V} {ks : List Key}, toKeys vs = some ks ↔ vs = ks.map keyVal
  | [], ks => by
    rw [toKeys, Option.some.injEq]
    cases ks <;> simp
  | v :: vs, ks => by
    rw [toKeys]
    cases e : toKey v with
    | none =>
      simp only [reduceCtorEq, false_iff]
      intro h
      cases ks with
      | nil => cases h
      | cons k ks =>
        rw [List.map_cons, List.cons.injEq] at h
        rw [toKey_some.2 h.1] at e
        cases e
    | some k =>
      simp only [Option.map_eq_some_iff]
      constructor
      · rintro ⟨ws, h, rfl⟩
        rw [List.map_cons, ← toKey_some.1 e, ← toKeys_some.1 h]
      · intro h
        cases ks with
        | nil => cases h
        | cons k' ks =>
          rw [List.map_cons, List.cons.injEq] at h
          rw [toKey_some.2 h.1] at e
          cases e
          exact ⟨ks, toKeys_some.2 h.2, rfl⟩

/-- **C90 (reading).** A map is read exactly if every key reads as a bool, int, uint or string, no two
of them the same, and every value reads; a list if every element does; an enum as its number; an
unset value not at all. -/
theorem C90_reads :
    (∀ ks vs w, ofValue (.map ks vs) = some w ↔ ∃ ks' vs', w = .map ks' vs' ∧ ks'.Nodup ∧
      List.Forall₂ (fun p v => ofValue p = some v) ks (ks'.map keyVal) ∧
      List.Forall₂ (fun p v => ofValue p = some v) vs vs') ∧
    (∀ ps w, ofValue (.list ps) = some w ↔ ∃ vs, w = .list vs ∧ List.Forall₂ (fun p v => ofValue p = some v) ps vs) ∧
    (∀ n, ofValue (.enum n) = some (.int n)) ∧ ofValue .unset = none := by
  refine ⟨fun ks vs w => ?_, fun ps w => ?_, fun n => rfl, rfl⟩
  · rw [ofValue]
    constructor
    · intro h
      split at h
      · cases h
      · rename_i ks' hk
        split at h
        · cases h
        · rename_i vs' hv
          split at h
          · rename_i hn
            cases h
            obtain ⟨us, h1, h2⟩ := Option.bind_eq_some_iff.1 hk
            rw [toKeys_some.1 h2] at h1
            exact ⟨ks', vs', rfl, hn, values_some.1 h1, values_some.1 hv⟩
          · cases h
    · rintro ⟨ks', vs', rfl, hn, h1, h2⟩
      have e : (ofValues ks).bind toKeys = some ks' := by
        rw [values_some.2 h1, Option.bind_some, toKeys_some]
      simp only [e, values_some.2 h2, if_pos hn]
  · rw [ofValue, Option.map_eq_some_iff]
    constructor
    · rintro ⟨vs, h, rfl⟩; exact ⟨vs, rfl, values_some.1 h⟩
    · rintro ⟨vs, rfl, h⟩; exact ⟨vs, values_some.2 h, rfl⟩

/-- **C90, what is lost.** An error is written as a string, the same as for that string; a quarter
nanosecond is dropped; an enum comes back as an int. -/
theorem C90_boundary :
    toValue (.error 3) = some (.string errorText) ∧ toValue (.string errorText) = some (.string errorText) ∧
    toValue (.duration 7) = some (.object (.duration 0 1)) ∧ ofValue (.object (.duration 0 1)) = some (.duration 4) ∧
    toValue (.timestamp (-1)) = some (.object (.timestamp (-1) 999999999)) ∧
    ofValue (.enum 5) = some (.int 5) ∧ toValue (.int 5) = some (.int 5) := by
  refine ⟨rfl, rfl, rfl, rfl, rfl, rfl, rfl⟩

/-- A case: a map in a list there and back; equal keys and keys of no valid kind are refused. -/
theorem C90_example :
    InRange (.list [.map [.int 1, .uint 1] [.duration (-6000000000), .null]]) ∧
    Maps (.list [.map [.int 1, .uint 1] [.duration (-6000000000), .null]]) ∧
    toValue (.list [.map [.int 1, .uint 1] [.duration (-6000000000), .null]]) =
      some (.list [.map [.int 1, .uint 1] [.object (.duration (-1) (-500000000)), .null]]) ∧
    ofValue (.map [.int 1, .int 1] [.null, .null]) = none ∧ ofValue (.map [.enum 1, .int 1] [.null, .null]) = none ∧
    ofValue (.map [.null] [.null]) = none ∧ toValue (.list [.unknown]) = none ∧
    toValue (.duration (durationMax + 1)) = none := by
  refine ⟨.list (.cons (.map (.cons (.duration ?_ ?_) (.cons .null .nil))) .nil),
    .list (.cons (.map (.cons (.duration _) (.cons .null .nil)) (by decide)) .nil), rfl, by decide +kernel,
    by decide +kernel, rfl, rfl, by decide +kernel⟩ <;> decide

end Cel.ToValue
