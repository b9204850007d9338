import Verif.Walk.Literals

set_option linter.unusedSimpArgs false
set_option linter.unusedVariables false

/-! # C65: timestamp and duration literals, and the validator as a whole -/

namespace Cel.Walk
open Cel Cel.Proto Cel.Num

/-! ## What evaluation does -/

/-- What a conversion function gives for a constant argument. -/
inductive Conv (α : Type) where
  | value (v : α)
  | error
  | noOverload

/-- `ts < MinTimestamp() || ts > MaxTimestamp()` – `internal/time.cc:95-103`; `absl` orders the
infinite past before and the infinite future after all finite times. -/
def tmOutside : Tm → Bool
  | .inf _ => true
  | .fin s => decide (s < minTmTicks) || decide (s > maxTmTicks)

/-- `timestamp(..)` – `runtime/standard/type_conversion_functions.cc:389-432`; `overflow` is
`RuntimeOptions::enable_timestamp_duration_overflow_errors`, `parse` is `absl::ParseTime` with
`RFC3339_full`. -/
def runTimestamp (parse : String → Option Tm) (overflow : Bool) : Const → Conv Tm
  | .int i =>
    let ts := fromUnixSeconds i
    if overflow && tmOutside ts then .error else .value ts
  | .string s =>
    match parse s with
    | none => .error
    | some ts => if overflow && tmOutside ts then .error else .value ts
  | .timestamp ts => .value ts
  | _ => .noOverload

/-- `duration(..)` – `runtime/standard/type_conversion_functions.cc:363-384`, `:411-416`. -/
def runDuration (parse : String → Option Dur) : Const → Conv Dur
  | .string s =>
    match parse s with
    | none => .error
    | some d => if durationOk d then .value d else .error
  | .duration d => .value d
  | _ => .noOverload

section
variable {t : NExpr} {fuel : Nat} {m : Nav}

theorem viewKids_length (k : NKind) (hk : readsUnset k = false) (a : Addr) : ∀ (cs : List NExpr)
    (i : Nat), (viewKids k a i cs).length = (operands cs).length
  | [], i => by simp [viewKids, operands]
  | .absent :: cs, i => by
    have := viewKids_length k hk a cs (i + 1)
    simp only [viewKids, hk, Bool.false_eq_true, if_false, this, operands, List.filter_cons, Tree.present]
  | .node l ks :: cs, i => by
    have := viewKids_length k hk a cs (i + 1)
    simp only [operands] at this
    simp only [viewKids, List.length_cons, this, operands, List.filter_cons, Tree.present, if_true]

/-- The only operand, if it is a constant. -/
def onlyConst (ks : List NExpr) : Option (Int × Const) :=
  match operands ks with
  | [.node ⟨id, .const c⟩ _] => some (id, c)
  | _ => none

theorem literalArg_eq (hp : t.present = true) (hw : WFC t) (hb : build t fuel = some m)
    {p : List Nat} {anc : List NExpr} {id : Int} {fn : String} {ks : List NExpr} {a : Addr}
    (hL : Ladder t p anc (.node ⟨id, .call fn⟩ ks) a) {x : NavNode}
    (hx : nodeExpr t m (posV p (seenTree t)) = some (x, ⟨id, .call fn⟩, ks)) :
    literalArg t m x = some (onlyConst ks) := by
  obtain ⟨x', h1, _, _, h2, _⟩ := row_ladder hp hw hb hL
  rw [hx] at h1
  simp only [Option.some.injEq, Prod.mk.injEq, and_true] at h1
  subst h1
  simp only [viewKids_length (.call fn) rfl a ks 0] at h2
  cases ho : operands ks with
  | nil => simp only [literalArg, onlyConst, ho, h2, List.length_nil, List.range_zero, List.map_nil]
  | cons c cs =>
    cases cs with
    | nil =>
      have hm : c ∈ operands ks := by rw [ho]; exact List.mem_cons_self
      simp only [operands, List.mem_filter] at hm
      obtain ⟨i, hi⟩ := List.getElem?_of_mem hm.1
      obtain ⟨j, hj⟩ := viewKids_get (.call fn) a ks 0 i c hi hm.2
      have hlt := (List.getElem?_eq_some_iff.1 hj).1
      rw [viewKids_length (.call fn) rfl a ks 0, ho] at hlt
      have hj0 : j = 0 := by simp at hlt; exact hlt
      subst hj0
      rw [Nat.zero_add] at hj
      cases c with
      | absent => simp [Tree.present] at hm
      | node l' ks' =>
        obtain ⟨y, r1, _⟩ := row_ladder hp hw hb (.step hL hi hm.2 hj)
        rw [ho] at h2
        simp only [List.length_cons, List.length_nil, List.range_one, List.map_cons,
          List.map_nil, Nat.zero_add] at h2
        obtain ⟨id', k'⟩ := l'
        simp only [literalArg, onlyConst, ho, h2, r1]
        cases k' <;> rfl
    | cons c' cs =>
      rw [ho] at h2
      have : x.children.length = cs.length + 2 := by rw [h2]; simp
      have hx2 : literalArg t m x = some none := by
        simp only [literalArg]
        cases hc : x.children with
        | nil => rfl
        | cons u us =>
          cases us with
          | nil => rw [hc] at this; simp at this
          | cons => rfl
      rw [hx2]
      simp only [onlyConst, ho]

/-- The part a loop that looks at calls of one function with a single constant operand says. -/
def overCalls (f : String) (check : Int → Const → Bool × List Issue) (anc : List NExpr) :
    NExpr → Bool × List Issue
  | .node ⟨_, .call fn⟩ ks =>
    if fn = f then match onlyConst ks with
      | some (id, c) => check id c
      | none => (true, [])
    else (true, [])
  | _ => (true, [])

theorem overCalls_spec (hp : t.present = true) (hw : WFC t) (hb : build t fuel = some m)
    (f : String) (check : Int → Const → Bool × List Issue)
    (hcheck : ∀ id c, (check id c).1 = true ↔ (check id c).2 = [])
    (body : NavNode → NNode → List NExpr → Verdict)
    (hbody : ∀ x id k ks, (∀ fn, k = .call fn → literalArg t m x = some (onlyConst ks)) →
      body x ⟨id, k⟩ ks = some (overCalls f check [] (.node ⟨id, k⟩ ks))) :
    ∃ b iss, (match rootPostorder m with | none => none | some is => forNodes t m body is) =
        some (b, iss) ∧
      (b = true ↔ ∀ anc id ks id' c ks', Occ t anc (.node ⟨id, .call f⟩ ks) →
        operands ks = [.node ⟨id', .const c⟩ ks'] → (check id' c).1 = true) ∧
      (b = true ↔ iss = []) := by
  obtain ⟨b, iss, h1, h2, h3⟩ := forNodes_spec hp hw hb body (overCalls f check)
    (by
      intro p anc l ks a x hL hx
      obtain ⟨id, k⟩ := l
      rw [hbody x id k ks fun fn hk => by subst hk; exact literalArg_eq hp hw hb hL hx]
      cases k <;> rfl)
    (by intro x; exact hbody x 0 .unspecified [] (by intro fn h; cases h))
  have hB : ∀ anc n, ((overCalls f check anc n).1 = true ↔ (overCalls f check anc n).2 = []) := by
    intro anc n
    cases n with
    | absent => simp [overCalls]
    | node l ks =>
      obtain ⟨id, k⟩ := l
      cases k with
      | call fn =>
        by_cases hf : fn = f
        · simp only [overCalls, if_pos hf]
          cases onlyConst ks with
          | none => simp
          | some ic => exact hcheck _ _
        · simp [overCalls, if_neg hf]
      | _ => simp [overCalls]
  refine ⟨b, iss, h1, ?_, ?_⟩
  · rw [h2]
    constructor
    · intro h anc id ks id' c ks' hO ho
      have := h anc _ hO
      simpa [overCalls, onlyConst, ho] using this
    · intro h anc n hO
      cases n with
      | absent => simp [overCalls]
      | node l ks =>
        obtain ⟨id, k⟩ := l
        cases k with
        | call fn =>
          by_cases hf : fn = f
          · subst hf
            simp only [overCalls, if_true]
            cases hc : onlyConst ks with
            | none => rfl
            | some ic =>
              obtain ⟨id', c⟩ := ic
              have : ∃ ks', operands ks = [.node ⟨id', .const c⟩ ks'] := by
                simp only [onlyConst] at hc
                split at hc
                · rename_i heq
                  simp only [Option.some.injEq, Prod.mk.injEq] at hc
                  obtain ⟨rfl, rfl⟩ := hc
                  exact ⟨_, heq⟩
                · cases hc
              obtain ⟨ks', ho⟩ := this
              exact h anc id ks id' c ks' hO ho
          · simp [overCalls, if_neg hf]
        | _ => simp [overCalls]
  · rw [h2]
    constructor
    · intro h
      apply List.eq_nil_iff_forall_not_mem.2
      intro i hi
      obtain ⟨anc, n, hO, hi⟩ := (h3 i).1 hi
      rw [(hB anc n).1 (h anc n hO)] at hi
      simp at hi
    · intro h anc n hO
      refine (hB anc n).2 (List.eq_nil_iff_forall_not_mem.2 fun i hi => ?_)
      have := (h3 i).2 ⟨anc, _, hO, hi⟩
      rw [h] at this; simp at this

theorem outside_ok (ts : Tm) : timestampOk ts = !tmOutside ts := by
  cases ts with
  | inf => rfl
  | fin s =>
    simp only [timestampOk, tmOutside]
    by_cases h1 : s < minTmTicks
    · simp [h1]; omega
    · by_cases h2 : s > maxTmTicks
      · simp [h2]
      · simp [h1, h2]; omega

/-- The timestamp validator accepts the expressions in which no call of `timestamp` whose only
operand is a constant would, under overflow errors, be an error. -/
theorem C65_timestamp (hp : t.present = true) (hw : WFC t) (hb : build t fuel = some m)
    (parse : String → Option Tm) :
    ∃ b iss, timestampValidator parse t m = some (b, iss) ∧
      (b = true ↔ ∀ anc id ks id' c ks', Occ t anc (.node ⟨id, .call "timestamp"⟩ ks) →
        operands ks = [.node ⟨id', .const c⟩ ks'] → runTimestamp parse true c ≠ .error) ∧
      (b = true ↔ iss = []) := by
  let check : Int → Const → Bool × List Issue := fun id c =>
    match c with
    | .string s =>
      match parse s with
      | none => (false, [⟨some id, .badTimestamp⟩])
      | some ts => if timestampOk ts then (true, []) else (false, [⟨some id, .timestampRange⟩])
    | .int i =>
      if timestampOk (fromUnixSeconds i) then (true, []) else (false, [⟨some id, .timestampRange⟩])
    | _ => (true, [])
  have hc : ∀ id c, ((check id c).1 = true ↔ (check id c).2 = []) ∧
      ((check id c).1 = true ↔ runTimestamp parse true c ≠ .error) := by
    intro id c
    cases c with
    | string s =>
      cases hs : parse s with
      | none => simp [check, runTimestamp, hs]
      | some ts =>
        simp only [check, runTimestamp, hs, outside_ok]
        cases tmOutside ts <;> simp
    | int i =>
      simp only [check, runTimestamp, outside_ok]
      cases tmOutside (fromUnixSeconds i) <;> simp
    | _ => simp [check, runTimestamp]
  obtain ⟨b, iss, h1, h2, h3⟩ := overCalls_spec hp hw hb "timestamp" check (fun id c => (hc id c).1)
    (timestampBody parse t m) (by
      intro x id k ks hk
      cases k with
      | call fn =>
        by_cases hf : fn = "timestamp"
        · subst hf
          simp only [timestampBody, overCalls, hk _ rfl, if_true, ne_eq, not_true_eq_false, if_false]
          cases onlyConst ks with
          | none => rfl
          | some ic =>
            obtain ⟨id', c⟩ := ic
            cases c with
            | string s =>
              cases hs : parse s with
              | none => simp [check, hs]
              | some ts => simp only [check, hs]; split <;> rfl
            | int i => simp only [check]; split <;> rfl
            | _ => rfl
        · simp [timestampBody, overCalls, hf]
      | _ => rfl)
  refine ⟨b, iss, h1, h2.trans ⟨?_, ?_⟩, h3⟩
  · intro h anc id ks id' c ks' hO ho
    exact (hc id' c).2.1 (h anc id ks id' c ks' hO ho)
  · intro h anc id ks id' c ks' hO ho
    exact (hc id' c).2.2 (h anc id ks id' c ks' hO ho)

/-- Without overflow errors the evaluator takes timestamps the validator refuses. -/
theorem C65_finding_timestamp_overflow (parse : String → Option Tm) :
    runTimestamp parse false (.int 253402300800) = .value (.fin (253402300800 * tps)) ∧
    runTimestamp parse true (.int 253402300800) = .error := by
  constructor
  · rfl
  · simp [runTimestamp, tmOutside, fromUnixSeconds, maxTmTicks, minTmTicks, tps, tpn]

/-- The duration validator accepts the expressions in which no call of `duration` whose only operand
is a constant would be an error. -/
theorem C65_duration (hp : t.present = true) (hw : WFC t) (hb : build t fuel = some m)
    (parse : String → Option Dur) :
    ∃ b iss, durationValidator parse t m = some (b, iss) ∧
      (b = true ↔ ∀ anc id ks id' c ks', Occ t anc (.node ⟨id, .call "duration"⟩ ks) →
        operands ks = [.node ⟨id', .const c⟩ ks'] → runDuration parse c ≠ .error) ∧
      (b = true ↔ iss = []) := by
  let check : Int → Const → Bool × List Issue := fun id c =>
    match c with
    | .string s =>
      match parse s with
      | none => (false, [⟨some id, .badDuration⟩])
      | some d => if durationOk d then (true, []) else (false, [⟨some id, .durationRange⟩])
    | _ => (true, [])
  have hc : ∀ id c, ((check id c).1 = true ↔ (check id c).2 = []) ∧
      ((check id c).1 = true ↔ runDuration parse c ≠ .error) := by
    intro id c
    cases c with
    | string s =>
      cases hs : parse s with
      | none => simp [check, runDuration, hs]
      | some ts =>
        simp only [check, runDuration, hs]
        cases durationOk ts <;> simp
    | _ => simp [check, runDuration]
  obtain ⟨b, iss, h1, h2, h3⟩ := overCalls_spec hp hw hb "duration" check (fun id c => (hc id c).1)
    (durationBody parse t m) (by
      intro x id k ks hk
      cases k with
      | call fn =>
        by_cases hf : fn = "duration"
        · subst hf
          simp only [durationBody, overCalls, hk _ rfl, if_true, ne_eq, not_true_eq_false, if_false]
          cases onlyConst ks with
          | none => rfl
          | some ic =>
            obtain ⟨id', c⟩ := ic
            cases c with
            | string s =>
              cases hs : parse s with
              | none => simp [check, hs]
              | some ts => simp only [check, hs]; split <;> rfl
            | _ => rfl
        · simp [durationBody, overCalls, hf]
      | _ => rfl)
  refine ⟨b, iss, h1, h2.trans ⟨?_, ?_⟩, h3⟩
  · intro h anc id ks id' c ks' hO ho
    exact (hc id' c).2.1 (h anc id ks id' c ks' hO ho)
  · intro h anc id ks id' c ks' hO ho
    exact (hc id' c).2.2 (h anc id ks id' c ks' hO ho)

end

/-! ## All validations -/

/-- All validations run; the result is valid if all are, and every issue is reported. -/
theorem C65_validate (rs : List (Bool × List Issue)) :
    validate (rs.map some) = some (rs.all (·.1), rs.flatMap (·.2)) := by
  induction rs with
  | nil => rfl
  | cons r rs ih => obtain ⟨b, iss⟩ := r; simp [validate, ih]

/-- A result keeps its AST exactly if it is valid; an already invalid result is left as it is; issues
are only added. -/
theorem C65_update (run : NExpr → Verdict) (r : VResult) :
    (r.ast = none → updateResult run r = some r) ∧
    (∀ a b iss, r.ast = some a → run a = some (b, iss) → ∃ r', updateResult run r = some r' ∧
      (r'.ast = some a ↔ b = true) ∧ (r'.ast = none ↔ b = false) ∧ r'.issues = r.issues ++ iss) := by
  constructor
  · intro h; simp [updateResult, h]
  · intro a b iss h1 h2
    cases b <;> simp [updateResult, h1, h2]

/-! ## Examples -/

/-- `[1, timestamp("x")]` and a two-fold loop. -/
def loopExpr (inner : NExpr) : NExpr :=
  .node ⟨10, .comprehension "i" "" "a"⟩ [.node ⟨11, .ident "xs"⟩ [], .absent, .absent, inner, .absent]

example : ∃ m, build (loopExpr (loopExpr (.node ⟨1, .ident "i"⟩ []))) 60 = some m ∧
    (nestingValidator 1 (loopExpr (loopExpr (.node ⟨1, .ident "i"⟩ []))) m).map (·.1) = some false ∧
    (nestingValidator 2 (loopExpr (loopExpr (.node ⟨1, .ident "i"⟩ []))) m).map (·.1) = some true ∧
    (astDepthValidator 2 m).map (·.1) = some false ∧ (astDepthValidator 3 m).map (·.1) = some true :=
  ⟨_, rfl, by decide +kernel, by decide +kernel, by decide +kernel, by decide +kernel⟩

def litExpr : NExpr :=
  .node ⟨1, .list [false, false]⟩
    [.node ⟨2, .call "timestamp"⟩ [.absent, .node ⟨3, .const (.string "soon")⟩ []],
     .node ⟨4, .call "matches"⟩ [.node ⟨5, .ident "s"⟩ [], .node ⟨6, .const (.string "[")⟩ []]]

example : litExpr.present = true ∧ WFC litExpr := by
  simp [litExpr, Tree.present, WFC, WFCs, CShape]

example : ∃ m, build litExpr 60 = some m ∧
    (timestampValidator (fun _ => none) litExpr m).map (·.1) = some false ∧
    (timestampValidator (fun _ => some (.fin 0)) litExpr m).map (·.1) = some true ∧
    (regexValidator (fun s => if s = "[" then some "missing ]" else none) [("matches", 1)] litExpr m).map (·.1) = some false ∧
    (regexValidator (fun s => if s = "[" then some "missing ]" else none) [("matches", 0)] litExpr m).map (·.1) = some true ∧
    (homogeneousValidator (fun id => if id = 2 then .wellKnown .timestamp else .primitive .bool) [] litExpr m).map (·.1) = some false ∧
    (homogeneousValidator (fun _ => .dyn) [] litExpr m).map (·.1) = some true :=
  ⟨_, rfl, by decide +kernel, by decide +kernel, by decide +kernel, by decide +kernel,
    by decide +kernel, by decide +kernel⟩

end Cel.Walk
