import Verif.Macro.MapMacros
import Verif.Macro.ListProps
import Verif.Opt.Props

/-!
# C71: `transformMap` and `transformMapEntry`
-/

set_option linter.unusedSimpArgs false
set_option linter.unusedVariables false

namespace Cel.Macro
open Cel Cel.Num Cel.Eval Cel.Data

variable {σ : Type} {cfg : Cfg σ} {h : σ}

/-! ## Specification -/

/-- The value of the first iteration variable (the index or the key) for an element. -/
def keyAt (cfg : Cfg σ) (t : Trail) (it : Item) : VA := (item2 cfg.unknowns cfg.pats t it).1

/-- Entries as data: every key is a bool, int, uint or string and every value an ordinary value. -/
def PlainEntries (m : List (Value × Value)) : Prop := ∀ e ∈ m, Plain e.1 ∧ Plain e.2

/-- Collecting entries into a map, in order: the first unsupported key or the first key that occurred
before makes the whole an error. -/
inductive Collects : List (Value × Value) → Value → Prop
  | done {m} : WellBuilt m → Collects m (.map m)
  | badKey {pre k v post} : WellBuilt pre → keyKind k = false →
      Collects (pre ++ (k, v) :: post) (.error (badKeyKind k))
  | duplicate {pre k v post w} : WellBuilt pre → keyKind k = true → (k, w) ∈ pre →
      Collects (pre ++ (k, v) :: post) (.error ⟨.alreadyExists, "duplicate key in map"⟩)

/-! ## `putAll` -/

/-- The outcome of putting entries, as a value. -/
def putResult : Res (List (Value × Value)) → Value
  | .ok m => .map m
  | .err e => .error e
  | .ub => .null

theorem mapPut_not_ub (m : List (Value × Value)) (k v : Value) : mapPut m k v ≠ .ub := by
  unfold mapPut
  split
  · simp
  · split
    · simp
    · split <;> simp

theorem putAll_not_ub (es : List (Value × Value)) : ∀ acc, putAll acc es ≠ .ub := by
  induction es with
  | nil => intro acc; simp [putAll]
  | cons e es ih =>
    intro acc
    obtain ⟨k, v⟩ := e
    rw [putAll]
    have := mapPut_not_ub acc k v
    split
    · exact ih _
    · simp
    · contradiction

theorem putAll_append (a b : List (Value × Value)) : ∀ acc, putAll acc (a ++ b) =
    (match putAll acc a with
     | .ok acc' => putAll acc' b
     | .err e => .err e
     | .ub => .ub) := by
  induction a with
  | nil => intro acc; rfl
  | cons e a ih =>
    intro acc
    obtain ⟨k, v⟩ := e
    simp only [List.cons_append, putAll]
    cases mapPut acc k v with
    | ok m => exact ih m
    | err e => rfl
    | ub => rfl

theorem putAll_wellBuilt (es : List (Value × Value)) : ∀ {acc m}, WellBuilt acc → putAll acc es = .ok m →
    WellBuilt m := by
  induction es with
  | nil => intro acc m ha hm; cases hm; exact ha
  | cons e es ih =>
    intro acc m ha hm
    obtain ⟨k, v⟩ := e
    rw [putAll] at hm
    split at hm
    · rename_i hp; exact ih (mapPut_wellBuilt ha hp) hm
    · cases hm
    · cases hm

theorem mapPut_append {acc : List (Value × Value)} {k v : Value} (hw : WellBuilt (acc ++ [(k, v)])) :
    mapPut acc k v = .ok (acc ++ [(k, v)]) := by
  have hk := hw.1 (k, v) (by simp)
  unfold mapPut
  rw [checkMapKey_none.2 hk.1, plain_check hk.2]
  have : mapHas acc k = false := by
    rw [Bool.eq_false_iff]
    intro hh
    obtain ⟨b, hb⟩ := (mapHas_iff hk.1).1 hh
    exact (List.pairwise_append.1 hw.2).2.2 _ hb _ (List.mem_singleton.2 rfl) rfl
  simp [this]

theorem wellBuilt_prefix {a b : List (Value × Value)} (hw : WellBuilt (a ++ b)) : WellBuilt a :=
  ⟨fun e he => hw.1 e (List.mem_append_left _ he), (List.pairwise_append.1 hw.2).1⟩

theorem putAll_ok (es : List (Value × Value)) : ∀ {acc}, WellBuilt (acc ++ es) →
    putAll acc es = .ok (acc ++ es) := by
  induction es with
  | nil => intro acc _; simp [putAll]
  | cons e es ih =>
    intro acc hw
    obtain ⟨k, v⟩ := e
    have hw' : WellBuilt ((acc ++ [(k, v)]) ++ es) := by simpa using hw
    rw [putAll, mapPut_append (wellBuilt_prefix hw')]
    simp only []
    rw [ih hw']
    simp

theorem putAll_nil {m : List (Value × Value)} (hw : WellBuilt m) : putAll [] m = .ok m :=
  putAll_ok (acc := []) m hw

theorem wellBuilt_nil : WellBuilt [] := ⟨by simp, by simp⟩

/-- Every list of plain entries is collected into exactly one outcome, the one `putAll` computes. -/
theorem putAll_collects (es : List (Value × Value)) (hp : PlainEntries es) :
    Collects es (putResult (putAll [] es)) := by
  suffices H : ∀ acc, WellBuilt acc → PlainEntries es → Collects (acc ++ es) (putResult (putAll acc es)) by
    simpa using H [] wellBuilt_nil hp
  clear hp
  induction es with
  | nil => intro acc ha _; simpa [putAll, putResult] using Collects.done ha
  | cons e es ih =>
    intro acc ha hp
    obtain ⟨k, v⟩ := e
    have hkv := hp (k, v) List.mem_cons_self
    have hrest : PlainEntries es := fun e he => hp e (List.mem_cons_of_mem _ he)
    rw [putAll]
    by_cases hk : keyKind k = true
    · by_cases hh : mapHas acc k = true
      · obtain ⟨w, hw⟩ := (mapHas_iff hk).1 hh
        have : mapPut acc k v = .err ⟨.alreadyExists, "duplicate key in map"⟩ := by
          unfold mapPut
          rw [checkMapKey_none.2 hk, plain_check hkv.2]
          simp [hh]
        rw [this]
        exact Collects.duplicate ha hk hw
      · have hput : mapPut acc k v = .ok (acc ++ [(k, v)]) := by
          unfold mapPut
          rw [checkMapKey_none.2 hk, plain_check hkv.2]
          simp [hh]
        rw [hput]
        have := ih (acc ++ [(k, v)]) (mapPut_wellBuilt ha hput) hrest
        simpa using this
    · have hk : keyKind k = false := by simpa using hk
      have : mapPut acc k v = .err (badKeyKind k) := by
        unfold mapPut
        have : checkMapKey k = some (badKeyKind k) := by
          have h1 := hkv.1.1
          revert hk h1
          cases k <;> simp [keyKind, checkMapKey, Value.isError]
        rw [this]
      rw [this]
      exact Collects.badKey ha hk

/-- The specification determines the outcome. -/
theorem Collects.unique {es : List (Value × Value)} {v w : Value} (hp : PlainEntries es)
    (hv : Collects es v) (hw : Collects es w) : v = w := by
  have aux : ∀ {u}, Collects es u → u = putResult (putAll [] es) := by
    intro u hu
    cases hu with
    | done hwb => rw [putAll_nil hwb]; rfl
    | @badKey pre k v post hpre hk =>
      rw [putAll_append, putAll_nil hpre]
      simp only [putAll]
      have : checkMapKey k = some (badKeyKind k) := by
        have h1 := (hp (k, v) (by simp)).1.1
        revert hk h1
        cases k <;> simp [keyKind, checkMapKey, Value.isError]
      simp [mapPut, this, putResult]
    | @duplicate pre k v post x hpre hk hin =>
      rw [putAll_append, putAll_nil hpre]
      simp only [putAll]
      have h2 := (hp (k, v) (by simp)).2
      simp [mapPut, checkMapKey_none.2 hk, plain_check h2, (mapHas_iff hk).2 ⟨x, hin⟩, putResult]
  rw [aux hv, aux hw]

/-! ## One step -/

theorem putResult_code (es : List (Value × Value)) (hp : PlainEntries es) (acc : List (Value × Value)) :
    ∀ e, putAll acc es = .err e → e.code ≠ .unknownFunctionResult := by
  induction es generalizing acc with
  | nil => intro e he; cases he
  | cons x es ih =>
    intro e he
    obtain ⟨k, v⟩ := x
    have hkv := hp (k, v) List.mem_cons_self
    rw [putAll] at he
    split at he
    · exact ih (fun e he => hp e (List.mem_cons_of_mem _ he)) _ e he
    · rename_i e' hm
      cases he
      unfold mapPut at hm
      have hk := hkv.1.1
      split at hm
      · rename_i e'' hc
        cases hm
        revert hc hk
        cases k <;> simp [checkMapKey, Value.isError] <;> rintro rfl <;> simp [badKeyKind]
      · rw [plain_check hkv.2] at hm
        simp only [] at hm
        split at hm
        · cases hm; simp
        · cases hm
    · cases he

theorem insertKV_eq (fast : Bool) {m : List (Value × Value)} (hm : WellBuilt m) (k v : Value) :
    mapInsertKV fast m k v = .ok (putResult (putAll m [(k, v)])) := by
  have h1 : errorReturn (mapPut m k v) = .ok (putResult (putAll m [(k, v)])) := by
    rw [putAll]
    have := mapPut_not_ub m k v
    cases hp : mapPut m k v with
    | ok x => simp [errorReturn, putAll, putResult]
    | err e => simp [errorReturn, putResult]
    | ub => contradiction
  unfold mapInsertKV
  split
  · exact h1
  · rw [putAll_nil hm]
    exact h1

theorem insertMap_eq (fast : Bool) {m : List (Value × Value)} (hm : WellBuilt m) (m' : List (Value × Value)) :
    mapInsertMap fast m m' = .ok (putResult (putAll m m')) := by
  have h1 : errorReturn (putAll m m') = .ok (putResult (putAll m m')) := by
    have := putAll_not_ub m' m
    cases hp : putAll m m' with
    | ok x => rfl
    | err e => rfl
    | ub => contradiction
  unfold mapInsertMap
  split
  · exact h1
  · rw [putAll_nil hm]
    exact h1

theorem putResult_error {r : Res (List (Value × Value))} (hr : r ≠ .ub) {e : Status} (he : putResult r = .error e) :
    r = .err e := by
  cases r with
  | ok m => cases he
  | err e' => simpa [putResult] using he
  | ub => contradiction

/-- Three-argument calls whose overload is the one resolved. -/
theorem call3 (c : StepCfg) (fr : Bool) (site : CallSite σ) (x y z : VA) (h : σ)
    (hx : PlainOperand c x) (hy : PlainOperand c y) (hz : PlainOperand c z) (w : Value)
    (hr : ∃ o, site.resolve [x.v, y.v, z.v] = .ok (some o) ∧ o.impl [x.v, y.v, z.v] h = (.ok w, h))
    (hw : ∀ e, w = .error e → e.code ≠ .unknownFunctionResult) :
    callOp c fr site [x, y, z] h = (.ok ⟨w, none⟩, h) := by
  obtain ⟨o, hr, hi⟩ := hr
  have key : evalCall ⟨c.unknowns, fr, c.pats⟩ site [x, y, z] h = (.ok w, h) := by
    unfold evalCall
    have : (if c.unknowns = true then checkPartialUnknowns c.pats [x, y, z] else [x, y, z].map (·.v)) =
        [x.v, y.v, z.v] := by
      split
      · rename_i hu
        rw [Cel.Opt.checkPartial_plain c hu _ (by simp [hx, hy, hz])]; rfl
      · rfl
    simp only [this, hr]
    rw [Cel.Opt.plain_accept hx.1, Cel.Opt.plain_accept hy.1, Cel.Opt.plain_accept hz.1]
    simp only [shouldAcceptOverload, if_true, invoke, hi]
    cases w <;> simp_all
  unfold callOp
  rw [key]

theorem plainOperand_none (c : StepCfg) {v : Value} (hv : Plain v) : PlainOperand c ⟨v, none⟩ :=
  ⟨hv, fun _ => checkUnknown_none _ _⟩

theorem plain_map (m : List (Value × Value)) : Plain (.map m) := ⟨rfl, rfl⟩

theorem insert_step (c : StepCfg) (fr fast : Bool) {m : List (Value × Value)} (hm : WellBuilt m) (k v : VA) (s : σ)
    (hk : PlainOperand c k) (hv : PlainOperand c v) :
    mapInsertOp c fr fast [⟨.map m, none⟩, k, v] s = (.ok ⟨putResult (putAll m [(k.v, v.v)]), none⟩, s) := by
  refine call3 c fr _ _ k v s (plainOperand_none c (plain_map m)) hk hv _ ?_ ?_
  · refine ⟨(mapInsertOverloads fast)[0]'(by simp [mapInsertOverloads]), ?_, ?_⟩
    · simp [CallSite.resolve, resolveStatic, mapInsertOverloads, argumentKindsMatch, kindsMatchLoop, Value.kind, kMap, kAny]
    · show (mapInsertKV fast m k.v v.v, s) = _
      rw [insertKV_eq fast hm]
  · intro e he
    exact putResult_code _ (by intro e he; rw [List.mem_singleton.1 he]; exact ⟨hk.1, hv.1⟩) _ e
      (putResult_error (putAll_not_ub _ _) he)

theorem insertMap_step (c : StepCfg) (fr fast : Bool) {m m' : List (Value × Value)} (hm : WellBuilt m) (v : VA) (s : σ)
    (hv : PlainOperand c v) (hvm : v.v = .map m') (hp : PlainEntries m') :
    mapInsertOp c fr fast [⟨.map m, none⟩, v] s = (.ok ⟨putResult (putAll m m'), none⟩, s) := by
  have := Cel.Opt.call2 c fr ⟨"cel.@mapInsert", false, 0, .eager (mapInsertOverloads fast)⟩ ⟨.map m, none⟩ v s
    (plainOperand_none c (plain_map m)) hv (.ok (putResult (putAll m m'))) ?_ ?_
  · exact this
  · rw [hvm]
    exact ⟨_, rfl, by show (mapInsertMap fast m m', s) = _; rw [insertMap_eq fast hm]⟩
  · intro e he
    exact putResult_code _ hp _ e (putResult_error (putAll_not_ub _ _) (by simpa using he))

theorem checkPartial_len2 (pats : List Pattern) (a : VA) (rest : List VA) (ha : a.t = none) :
    checkPartialUnknowns pats (a :: rest) = a.v :: checkPartialUnknowns pats rest := by
  obtain ⟨v, t⟩ := a
  subst ha
  simp [checkPartialUnknowns, checkUnknown_none]

theorem checkPartial_length (pats : List Pattern) : ∀ xs : List VA,
    (checkPartialUnknowns pats xs).length = xs.length
  | [] => rfl
  | x :: xs => by
    rw [checkPartialUnknowns]
    split <;> simp [checkPartial_length pats xs]

/-- An accumulator that is an error stays what it is, whatever the other operands are. -/
theorem insert_error_accu (c : StepCfg) (fr fast : Bool) (e : Status) (rest : List VA) (s : σ)
    (hl : rest.length = 1 ∨ rest.length = 2) :
    mapInsertOp c fr fast (⟨.error e, none⟩ :: rest) s = (.ok ⟨.error e, none⟩, s) := by
  have hargs : ∃ vs : List Value, vs.length = rest.length ∧
      (if c.unknowns = true then checkPartialUnknowns c.pats (⟨.error e, none⟩ :: rest)
        else (⟨.error e, none⟩ :: rest : List VA).map (·.v)) = .error e :: vs := by
    split
    · exact ⟨_, checkPartial_length _ _, checkPartial_len2 _ _ _ rfl⟩
    · exact ⟨rest.map (·.v), by simp, rfl⟩
  obtain ⟨vs, hvl, hvs⟩ := hargs
  have key : evalCall (σ := σ) ⟨c.unknowns, fr, c.pats⟩
      ⟨"cel.@mapInsert", false, 0, .eager (mapInsertOverloads fast)⟩ (⟨.error e, none⟩ :: rest) s =
        (.ok (.error e), s) := by
    unfold evalCall
    simp only [hvs]
    have hnone : CallSite.resolve (σ := σ) ⟨"cel.@mapInsert", false, 0, .eager (mapInsertOverloads fast)⟩
        (.error e :: vs) = .ok none := by
      rcases hl with hl | hl
      · obtain ⟨a, rfl⟩ : ∃ a, vs = [a] := by
          match vs, hvl with
          | [a], _ => exact ⟨a, rfl⟩
          | [], hh => simp [hl] at hh
          | _ :: _ :: _, hh => simp [hl] at hh
        simp [CallSite.resolve, resolveStatic, mapInsertOverloads, argumentKindsMatch, kindsMatchLoop, Value.kind, kMap, kAny,
          kError]
      · obtain ⟨a, b, rfl⟩ : ∃ a b, vs = [a, b] := by
          match vs, hvl with
          | [a, b], _ => exact ⟨a, b, rfl⟩
          | [], hh => simp [hl] at hh
          | [_], hh => simp [hl] at hh
          | _ :: _ :: _ :: _, hh => simp [hl] at hh
        simp [CallSite.resolve, resolveStatic, mapInsertOverloads, argumentKindsMatch, kindsMatchLoop, Value.kind, kMap, kAny,
          kError]
    simp only [hnone, noOverloadResult, firstError]
  unfold mapInsertOp callOp
  rw [key]

/-! ## The fold -/

/-- If every element's step puts `E it` into the accumulator, the loop puts all of them, in order. -/
theorem fold_put {step : VA → Item → VA} {E : Item → List (Value × Value)} {good : Item → Prop}
    (hstep : ∀ it, good it → ∀ m, WellBuilt m → step ⟨.map m, none⟩ it = ⟨putResult (putAll m (E it)), none⟩)
    (herr : ∀ it, good it → ∀ e, step ⟨.error e, none⟩ it = ⟨.error e, none⟩)
    (l : List Item) : (∀ it ∈ l, good it) → ∀ m, WellBuilt m →
      l.foldl step ⟨.map m, none⟩ = ⟨putResult (putAll m (l.flatMap E)), none⟩ := by
  have hfix : ∀ l : List Item, (∀ it ∈ l, good it) → ∀ e, l.foldl step ⟨.error e, none⟩ = ⟨.error e, none⟩ := by
    intro l
    induction l with
    | nil => intros; rfl
    | cons it l ih =>
      intro hg e
      rw [List.foldl_cons, herr it (hg it List.mem_cons_self)]
      exact ih (fun i hi => hg i (List.mem_cons_of_mem _ hi)) e
  induction l with
  | nil => intro _ m _; rfl
  | cons it l ih =>
    intro hg m hm
    have hg' : ∀ i ∈ l, good i := fun i hi => hg i (List.mem_cons_of_mem _ hi)
    rw [List.foldl_cons, hstep it (hg it List.mem_cons_self) m hm, List.flatMap_cons, putAll_append]
    have hub := putAll_not_ub (E it) m
    cases hp : putAll m (E it) with
    | ok m' => exact ih hg' m' (putAll_wellBuilt _ hm hp)
    | err e => exact hfix l hg' e
    | ub => contradiction

theorem pdenArgs3 (a b d : Expr σ) (ρ : PEnv) :
    pdenArgs cfg h (args3 a b d) ρ = [pden cfg h a ρ, pden cfg h b ρ, pden cfg h d ρ] := rfl

theorem pden_empty_map (c : StepCfg) (ρ : PEnv) : pden cfg h (.op (mapOp c) .nil) ρ = ⟨.map [], none⟩ := by
  simp only [pden, pdenArgs, mapOp]
  have : mapStep c (fun _ => false) [] = .ok ⟨.map [], none⟩ := by
    unfold mapStep mapEval
    cases hu : c.unknowns <;> simp [firstError, pairUp, buildMap, identifyAndMerge] <;> rfl
  rw [this]
  rfl

theorem pden_first (x y accu : String) (t : Trail) (it : Item) (a : VA) (ρ : PEnv) :
    pden cfg h (.ident x false) (piterBinds cfg x (some y) t it ++ (accu, a) :: ρ) = keyAt cfg t it := by
  simp [pden, piterBinds, penvGet, keyAt]

theorem pden_insert (c : StepCfg) (fr fast : Bool) {accu x y : String} {e : Expr σ}
    (hy : Hygienic accu x (some y) e) (t : Trail) (it : Item) (a : VA) (ρ : PEnv) :
    pden cfg h (insertExpr c fr fast accu x e) (piterBinds cfg x (some y) t it ++ (accu, a) :: ρ) =
      valOf (mapInsertOp c fr fast [a, keyAt cfg t it, valueAt cfg h x (some y) t ρ e it] h) := by
  rw [insertExpr, pden, pdenArgs3, pden_first, pden_accu hy, hy.value]

theorem pden_insertMap (c : StepCfg) (fr fast : Bool) {accu x : String} {y : Option String} {e : Expr σ}
    (hy : Hygienic accu x y e) (t : Trail) (it : Item) (a : VA) (ρ : PEnv) :
    pden cfg h (insertMapExpr c fr fast accu e) (piterBinds cfg x y t it ++ (accu, a) :: ρ) =
      valOf (mapInsertOp c fr fast [a, valueAt cfg h x y t ρ e it] h) := by
  simp only [insertMapExpr, pden, pdenArgs2]
  rw [pden_accu hy, hy.value]

/-! ## `transformMap` -/

theorem keyAt_v (t : Trail) (it : Item) : (keyAt cfg t it).v = it.key := by
  unfold keyAt item2
  split
  · simp only []
    split <;> rfl
  · rfl

/-- The entries `target.transformMap(x, y, e)` collects: each key or index with the value of `e` there. -/
def entriesOf (cfg : Cfg σ) (h : σ) (x y : String) (t : Trail) (ρ : PEnv) (e : Expr σ) (l : List Item) :
    List (Value × Value) :=
  l.map fun it => (it.key, (valueAt cfg h x (some y) t ρ e it).v)

theorem flatMap_single {α β : Type} (f : α → β) (l : List α) : l.flatMap (fun a => [f a]) = l.map f := by
  induction l with
  | nil => rfl
  | cons a l ih => rw [List.flatMap_cons, ih]; rfl

theorem flatMap_filter {α β : Type} (p : α → Bool) (f : α → β) (l : List α) :
    l.flatMap (fun a => if p a then [f a] else []) = (l.filter p).map f := by
  induction l with
  | nil => rfl
  | cons a l ih =>
    rw [List.flatMap_cons, ih, List.filter_cons]
    split <;> simp

theorem flatMap_filter' {α β : Type} (p : α → Bool) (f : α → List β) (l : List α) :
    l.flatMap (fun a => if p a then f a else []) = (l.filter p).flatMap f := by
  induction l with
  | nil => rfl
  | cons a l ih =>
    rw [List.flatMap_cons, ih, List.filter_cons]
    split <;> simp

/-- **C71 (`transformMap`).** If the transform is an ordinary value for every element, the result is what
collecting the pairs of key (or index) and transformed value gives. -/
theorem C71_transform_map (c : StepCfg) (fr fast : Bool) (accu x y : String) (target e : Expr σ) (ρ : PEnv)
    (hy : Hygienic accu x (some y) e) (l : List Item)
    (hr : rangeOf cfg.unknowns cfg.pats (pden cfg h target ρ) = .items l)
    (hk : ∀ it ∈ l, PlainOperand c (keyAt cfg (pden cfg h target ρ).t it))
    (hp : ∀ it ∈ l, PlainOperand c (valueAt cfg h x (some y) (pden cfg h target ρ).t ρ e it)) :
    ∃ v, pden cfg h (transformMap3 c fr fast accu x y target e) ρ = ⟨v, none⟩ ∧
      Collects (entriesOf cfg h x y (pden cfg h target ρ).t ρ e l) v := by
  unfold transformMap3
  rw [comp_true accu x (some y) target _ _ _ ρ l hr, pden_accu_res, pden_empty_map]
  rw [fold_put (E := fun it => [(it.key, (valueAt cfg h x (some y) (pden cfg h target ρ).t ρ e it).v)])
    (good := (· ∈ l)) ?_ ?_ l (fun _ hi => hi) [] wellBuilt_nil]
  · refine ⟨_, rfl, ?_⟩
    have : l.flatMap (fun it => [(it.key, (valueAt cfg h x (some y) (pden cfg h target ρ).t ρ e it).v)]) =
        entriesOf cfg h x y (pden cfg h target ρ).t ρ e l := by
      exact flatMap_single _ l
    rw [this]
    refine putAll_collects _ ?_
    intro en hen
    obtain ⟨it, hit, rfl⟩ := List.mem_map.1 hen
    have := (hk it hit).1
    rw [keyAt_v] at this
    exact ⟨this, (hp it hit).1⟩
  · intro it hit m hm
    rw [pden_insert c fr fast hy, insert_step c fr fast hm _ _ h (hk it hit) (hp it hit), keyAt_v]
    rfl
  · intro it hit s
    rw [pden_insert c fr fast hy, insert_error_accu c fr fast s _ h (by simp)]
    rfl

/-- **C71 (`transformMap` with a filter).** The same for the elements satisfying the predicate. -/
theorem C71_transform_map_filter (c : StepCfg) (fr fast : Bool) (accu x y : String) (target p e : Expr σ)
    (ρ : PEnv) (hyp : Hygienic accu x (some y) p) (hy : Hygienic accu x (some y) e) (l : List Item)
    (hr : rangeOf cfg.unknowns cfg.pats (pden cfg h target ρ) = .items l)
    (hb : ∀ it ∈ l, ∃ b, (valueAt cfg h x (some y) (pden cfg h target ρ).t ρ p it).v = .bool b)
    (hk : ∀ it ∈ l, holdsAt cfg h x (some y) (pden cfg h target ρ).t ρ p it = true →
      PlainOperand c (keyAt cfg (pden cfg h target ρ).t it))
    (hp : ∀ it ∈ l, holdsAt cfg h x (some y) (pden cfg h target ρ).t ρ p it = true →
      PlainOperand c (valueAt cfg h x (some y) (pden cfg h target ρ).t ρ e it)) :
    ∃ v, pden cfg h (transformMap4 c fr fast accu x y target p e) ρ = ⟨v, none⟩ ∧
      Collects (entriesOf cfg h x y (pden cfg h target ρ).t ρ e
        (l.filter fun it => holdsAt cfg h x (some y) (pden cfg h target ρ).t ρ p it)) v := by
  unfold transformMap4
  rw [comp_true accu x (some y) target _ _ _ ρ l hr, pden_accu_res, pden_empty_map]
  have hh : ∀ it b, (valueAt cfg h x (some y) (pden cfg h target ρ).t ρ p it).v = .bool b →
      holdsAt cfg h x (some y) (pden cfg h target ρ).t ρ p it = b := by
    intro it b hbv; simp only [holdsAt, hbv]
  rw [fold_put (E := fun it => if holdsAt cfg h x (some y) (pden cfg h target ρ).t ρ p it then
      [(it.key, (valueAt cfg h x (some y) (pden cfg h target ρ).t ρ e it).v)] else [])
    (good := (· ∈ l)) ?_ ?_ l (fun _ hi => hi) [] wellBuilt_nil]
  · refine ⟨_, rfl, ?_⟩
    rw [flatMap_filter]
    refine putAll_collects _ ?_
    intro en hen
    obtain ⟨it, hit, rfl⟩ := List.mem_map.1 hen
    obtain ⟨hit, hho⟩ := List.mem_filter.1 hit
    have := (hk it hit hho).1
    rw [keyAt_v] at this
    exact ⟨this, (hp it hit hho).1⟩
  · intro it hit m hm
    obtain ⟨b, hbv⟩ := hb it hit
    have hpv : (pden cfg h p (piterBinds cfg x (some y) (pden cfg h target ρ).t it ++ (accu, ⟨.map m, none⟩) :: ρ)).v =
        .bool b := by rw [hyp.value]; exact hbv
    have hins : b = true → pden cfg h (insertExpr c fr fast accu x e)
        (piterBinds cfg x (some y) (pden cfg h target ρ).t it ++ (accu, ⟨.map m, none⟩) :: ρ) =
        ⟨putResult (putAll m [(it.key, (valueAt cfg h x (some y) (pden cfg h target ρ).t ρ e it).v)]), none⟩ := by
      intro hbt
      have hho := (hh it b hbv).trans hbt
      rw [pden_insert c fr fast hy, insert_step c fr fast hm _ _ h (hk it hit hho) (hp it hit hho), keyAt_v]
      rfl
    rw [pden_cond_bool p _ _ _ b hpv (fun hbt => by rw [hins hbt]) (fun _ => by rw [pden_accu hy])]
    cases b with
    | true => rw [if_pos rfl, hins rfl]; simp only [hh it true hbv, if_true]
    | false => rw [if_neg (by simp), pden_accu hy]; simp only [hh it false hbv, Bool.false_eq_true, if_false, putAll, putResult]
  · intro it hit s
    obtain ⟨b, hbv⟩ := hb it hit
    have hpv : (pden cfg h p (piterBinds cfg x (some y) (pden cfg h target ρ).t it ++ (accu, ⟨.error s, none⟩) :: ρ)).v =
        .bool b := by rw [hyp.value]; exact hbv
    have hins : pden cfg h (insertExpr c fr fast accu x e)
        (piterBinds cfg x (some y) (pden cfg h target ρ).t it ++ (accu, ⟨.error s, none⟩) :: ρ) = ⟨.error s, none⟩ := by
      rw [pden_insert c fr fast hy, insert_error_accu c fr fast s _ h (by simp)]
      rfl
    rw [pden_cond_bool p _ _ _ b hpv (fun _ => by rw [hins]) (fun _ => by rw [pden_accu hy])]
    cases b with
    | true => rw [if_pos rfl, hins]
    | false => rw [if_neg (by simp), pden_accu hy]

/-! ### Over a list and over a map -/

theorem listItems_keys (l : List Value) : ∀ i : Int, (∀ it ∈ listItems i l, ∃ j, i ≤ j ∧ it.key = .int j) ∧
    (listItems i l).Pairwise (fun a b => a.key ≠ b.key) := by
  induction l with
  | nil => intro i; simp [listItems]
  | cons v l ih =>
    intro i
    obtain ⟨h1, h2⟩ := ih (i + 1)
    refine ⟨?_, ?_⟩
    · intro it hit
      rcases List.mem_cons.1 hit with rfl | hit
      · exact ⟨i, by omega, rfl⟩
      · obtain ⟨j, hj, hk⟩ := h1 it hit
        exact ⟨j, by omega, hk⟩
    · rw [listItems, List.pairwise_cons]
      refine ⟨?_, h2⟩
      intro b hb heq
      obtain ⟨j, hj, hk⟩ := h1 b hb
      rw [hk] at heq
      have : i = j := by simpa using heq
      omega

theorem mapItems_eq (m : List (Value × Value)) : mapItems m = m.map fun e => ⟨e.1, e.2, e.1⟩ := by
  induction m with
  | nil => rfl
  | cons e m ih => obtain ⟨k, v⟩ := e; simp [mapItems, ih]

theorem Collects.of_wellBuilt {es : List (Value × Value)} {v : Value} (hw : WellBuilt es) (hpk : PlainEntries es)
    (hc : Collects es v) : v = .map es := hc.unique hpk (.done hw)

theorem keyKind_plain {k : Value} (hk : keyKind k = true) : Plain k := by
  cases k <;> simp_all [keyKind, Plain, Value.isError, Value.isUnknown]

theorem wellBuilt_plain {m : List (Value × Value)} (hw : WellBuilt m) : PlainEntries m :=
  fun e he => ⟨keyKind_plain (hw.1 e he).1, (hw.1 e he).2⟩

/-- **C71 (over a list).** `list.transformMap(i, v, e)` is the map from `0, 1, …` to the transformed
elements. -/
theorem C71_over_list (c : StepCfg) (fr fast : Bool) (accu x y : String) (target e : Expr σ) (ρ : PEnv)
    (hy : Hygienic accu x (some y) e) (vs : List Value) (hv : (pden cfg h target ρ).v = .list vs)
    (hk : ∀ it ∈ listItems 0 vs, PlainOperand c (keyAt cfg (pden cfg h target ρ).t it))
    (hp : ∀ it ∈ listItems 0 vs, PlainOperand c (valueAt cfg h x (some y) (pden cfg h target ρ).t ρ e it)) :
    pden cfg h (transformMap3 c fr fast accu x y target e) ρ =
      ⟨.map ((listItems 0 vs).map fun it => (it.key, (valueAt cfg h x (some y) (pden cfg h target ρ).t ρ e it).v)), none⟩ := by
  have hr : rangeOf cfg.unknowns cfg.pats (pden cfg h target ρ) = .items (listItems 0 vs) := by
    unfold rangeOf; rw [hv]
  obtain ⟨v, hpd, hc⟩ := C71_transform_map c fr fast accu x y target e ρ hy _ hr hk hp
  obtain ⟨hk1, hk2⟩ := listItems_keys vs 0
  have hw : WellBuilt (entriesOf cfg h x y (pden cfg h target ρ).t ρ e (listItems 0 vs)) := by
    refine ⟨?_, ?_⟩
    · intro en hen
      obtain ⟨it, hit, rfl⟩ := List.mem_map.1 hen
      obtain ⟨j, _, hj⟩ := hk1 it hit
      exact ⟨by simp only []; rw [hj]; rfl, (hp it hit).1⟩
    · unfold entriesOf
      rw [List.pairwise_map]
      exact hk2
  rw [hpd, hc.of_wellBuilt hw (wellBuilt_plain hw)]
  rfl

/-- **C71 (over a map).** `map.transformMap(k, v, e)` has the same keys, each with its transformed value. -/
theorem C71_over_map (c : StepCfg) (fr fast : Bool) (accu x y : String) (target e : Expr σ) (ρ : PEnv)
    (hy : Hygienic accu x (some y) e) (m : List (Value × Value)) (hm : WellBuilt m)
    (hr : rangeOf cfg.unknowns cfg.pats (pden cfg h target ρ) = .items (mapItems m))
    (hk : ∀ it ∈ mapItems m, PlainOperand c (keyAt cfg (pden cfg h target ρ).t it))
    (hp : ∀ it ∈ mapItems m, PlainOperand c (valueAt cfg h x (some y) (pden cfg h target ρ).t ρ e it)) :
    pden cfg h (transformMap3 c fr fast accu x y target e) ρ =
      ⟨.map (m.map fun kv => (kv.1, (valueAt cfg h x (some y) (pden cfg h target ρ).t ρ e ⟨kv.1, kv.2, kv.1⟩).v)), none⟩ := by
  obtain ⟨v, hpd, hc⟩ := C71_transform_map c fr fast accu x y target e ρ hy _ hr hk hp
  have he : entriesOf cfg h x y (pden cfg h target ρ).t ρ e (mapItems m) =
      m.map fun kv => (kv.1, (valueAt cfg h x (some y) (pden cfg h target ρ).t ρ e ⟨kv.1, kv.2, kv.1⟩).v) := by
    unfold entriesOf
    rw [mapItems_eq, List.map_map]
    rfl
  rw [he] at hc
  have hw : WellBuilt (m.map fun kv => (kv.1, (valueAt cfg h x (some y) (pden cfg h target ρ).t ρ e ⟨kv.1, kv.2, kv.1⟩).v)) := by
    refine ⟨?_, ?_⟩
    · intro en hen
      obtain ⟨kv, hkv, rfl⟩ := List.mem_map.1 hen
      refine ⟨(hm.1 kv hkv).1, (hp ⟨kv.1, kv.2, kv.1⟩ ?_).1⟩
      rw [mapItems_eq]
      exact List.mem_map.2 ⟨kv, hkv, rfl⟩
    · rw [List.pairwise_map]
      exact hm.2
  rw [hpd, hc.of_wellBuilt hw (wellBuilt_plain hw)]

/-! ### Errors -/

theorem insert_error_arg (c : StepCfg) (fr fast : Bool) (m : List (Value × Value)) (k v : VA) (e : Status) (s : σ)
    (hk : PlainOperand c k) (hv : v.v = .error e) (hvt : c.unknowns = true → checkUnknown c.pats v.t true = false) :
    mapInsertOp c fr fast [⟨.map m, none⟩, k, v] s = (.ok ⟨.error e, none⟩, s) := by
  have hargs : (if c.unknowns = true then checkPartialUnknowns c.pats [⟨.map m, none⟩, k, v]
        else [⟨.map m, none⟩, k, v].map (·.v)) = [.map m, k.v, .error e] := by
    split
    · rename_i hu
      rw [checkPartial_len2 _ _ _ rfl]
      simp only [checkPartialUnknowns, hk.2 hu, hvt hu, Bool.false_eq_true, if_false, hv]
    · simp [hv]
  have key : evalCall (σ := σ) ⟨c.unknowns, fr, c.pats⟩
      ⟨"cel.@mapInsert", false, 0, .eager (mapInsertOverloads fast)⟩ [⟨.map m, none⟩, k, v] s = (.ok (.error e), s) := by
    have hnr : ∀ nm, noOverloadResult nm [.map m, k.v, .error e] false c.unknowns = .error e := by
      intro nm
      have h1 := hk.1.1
      unfold noOverloadResult
      have : firstError [.map m, k.v, .error e] = some (.error e) := by
        revert h1
        cases k.v <;> simp [firstError, Value.isError]
      rw [this]
    have hacc : ∀ d : FnDesc, d.strict = true → shouldAcceptOverload d [.map m, k.v, .error e] = false := by
      intro d hd
      rw [Cel.Opt.plain_accept (plain_map m), Cel.Opt.plain_accept hk.1]
      simp [shouldAcceptOverload, Value.isError, hd]
    unfold evalCall
    simp only [hargs]
    have hres : CallSite.resolve (σ := σ) ⟨"cel.@mapInsert", false, 0, .eager (mapInsertOverloads fast)⟩
        [.map m, k.v, .error e] = .ok (some ((mapInsertOverloads fast)[0]'(by simp [mapInsertOverloads]))) := by
      simp [CallSite.resolve, resolveStatic, mapInsertOverloads, argumentKindsMatch, kindsMatchLoop, Value.kind, kMap, kAny]
    rw [hres]
    simp only []
    rw [hacc _ (by rfl), hnr]
    rfl
  unfold mapInsertOp callOp
  rw [key]

/-- **C71 (errors).** If the transform of some element is an error and those before it were collected
without one, the result is that error, whatever comes later. -/
theorem C71_transform_error (c : StepCfg) (fr fast : Bool) (accu x y : String) (target e : Expr σ) (ρ : PEnv)
    (hy : Hygienic accu x (some y) e) (pre post : List Item) (bad : Item) (s : Status)
    (hr : rangeOf cfg.unknowns cfg.pats (pden cfg h target ρ) = .items (pre ++ bad :: post))
    (hk : ∀ it ∈ pre ++ [bad], PlainOperand c (keyAt cfg (pden cfg h target ρ).t it))
    (hp : ∀ it ∈ pre, PlainOperand c (valueAt cfg h x (some y) (pden cfg h target ρ).t ρ e it))
    (hw : WellBuilt (entriesOf cfg h x y (pden cfg h target ρ).t ρ e pre))
    (hbad : (valueAt cfg h x (some y) (pden cfg h target ρ).t ρ e bad).v = .error s)
    (hbt : c.unknowns = true → checkUnknown c.pats (valueAt cfg h x (some y) (pden cfg h target ρ).t ρ e bad).t true = false) :
    pden cfg h (transformMap3 c fr fast accu x y target e) ρ = ⟨.error s, none⟩ := by
  unfold transformMap3
  rw [comp_true accu x (some y) target _ _ _ ρ _ hr, pden_accu_res, pden_empty_map, List.foldl_append]
  have herr : ∀ it s', pden cfg h (insertExpr c fr fast accu x e)
      (piterBinds cfg x (some y) (pden cfg h target ρ).t it ++ (accu, ⟨.error s', none⟩) :: ρ) = ⟨.error s', none⟩ := by
    intro it s'
    rw [pden_insert c fr fast hy, insert_error_accu c fr fast s' _ h (by simp)]
    rfl
  rw [fold_put (E := fun it => [(it.key, (valueAt cfg h x (some y) (pden cfg h target ρ).t ρ e it).v)])
    (good := (· ∈ pre)) ?_ ?_ pre (fun _ hi => hi) [] wellBuilt_nil]
  · have hfl : pre.flatMap (fun it => [(it.key, (valueAt cfg h x (some y) (pden cfg h target ρ).t ρ e it).v)]) =
        entriesOf cfg h x y (pden cfg h target ρ).t ρ e pre := by
      exact flatMap_single _ pre
    rw [hfl, putAll_nil hw, putResult, List.foldl_cons, pden_insert c fr fast hy,
      insert_error_arg c fr fast _ _ _ s h (hk bad (by simp)) hbad hbt]
    simp only [valOf]
    clear hr
    induction post with
    | nil => rfl
    | cons it post ih => rw [List.foldl_cons, herr]; exact ih
  · intro it hit m hm
    rw [pden_insert c fr fast hy, insert_step c fr fast hm _ _ h (hk it (by simp [hit])) (hp it hit), keyAt_v]
    rfl
  · intro it hit s'
    exact herr it s'

/-! ## `transformMapEntry` -/

/-- **C71 (`transformMapEntry`).** If the transform is a map for every element, the result is what
collecting the entries of all these maps, in order, gives: in particular an error if two of them share a key. -/
theorem C71_transform_entry (c : StepCfg) (fr fast : Bool) (accu x y : String) (target e : Expr σ) (ρ : PEnv)
    (hy : Hygienic accu x (some y) e) (l : List Item) (M : Item → List (Value × Value))
    (hr : rangeOf cfg.unknowns cfg.pats (pden cfg h target ρ) = .items l)
    (hp : ∀ it ∈ l, PlainOperand c (valueAt cfg h x (some y) (pden cfg h target ρ).t ρ e it))
    (hm : ∀ it ∈ l, (valueAt cfg h x (some y) (pden cfg h target ρ).t ρ e it).v = .map (M it) ∧ PlainEntries (M it)) :
    ∃ v, pden cfg h (transformEntry3 c fr fast accu x y target e) ρ = ⟨v, none⟩ ∧ Collects (l.flatMap M) v := by
  unfold transformEntry3
  rw [comp_true accu x (some y) target _ _ _ ρ l hr, pden_accu_res, pden_empty_map]
  rw [fold_put (E := M) (good := (· ∈ l)) ?_ ?_ l (fun _ hi => hi) [] wellBuilt_nil]
  · refine ⟨_, rfl, putAll_collects _ ?_⟩
    intro en hen
    obtain ⟨it, hit, hen⟩ := List.mem_flatMap.1 hen
    exact (hm it hit).2 en hen
  · intro it hit m hwm
    rw [pden_insertMap c fr fast hy, insertMap_step c fr fast hwm _ h (hp it hit) (hm it hit).1 (hm it hit).2]
    rfl
  · intro it hit s
    rw [pden_insertMap c fr fast hy, insert_error_accu c fr fast s _ h (by simp)]
    rfl

/-- **C71 (`transformMapEntry` with a filter).** -/
theorem C71_transform_entry_filter (c : StepCfg) (fr fast : Bool) (accu x y : String) (target p e : Expr σ)
    (ρ : PEnv) (hyp : Hygienic accu x (some y) p) (hy : Hygienic accu x (some y) e) (l : List Item)
    (M : Item → List (Value × Value))
    (hr : rangeOf cfg.unknowns cfg.pats (pden cfg h target ρ) = .items l)
    (hb : ∀ it ∈ l, ∃ b, (valueAt cfg h x (some y) (pden cfg h target ρ).t ρ p it).v = .bool b)
    (hp : ∀ it ∈ l, holdsAt cfg h x (some y) (pden cfg h target ρ).t ρ p it = true →
      PlainOperand c (valueAt cfg h x (some y) (pden cfg h target ρ).t ρ e it))
    (hm : ∀ it ∈ l, holdsAt cfg h x (some y) (pden cfg h target ρ).t ρ p it = true →
      (valueAt cfg h x (some y) (pden cfg h target ρ).t ρ e it).v = .map (M it) ∧ PlainEntries (M it)) :
    ∃ v, pden cfg h (transformEntry4 c fr fast accu x y target p e) ρ = ⟨v, none⟩ ∧
      Collects ((l.filter fun it => holdsAt cfg h x (some y) (pden cfg h target ρ).t ρ p it).flatMap M) v := by
  unfold transformEntry4
  rw [comp_true accu x (some y) target _ _ _ ρ l hr, pden_accu_res, pden_empty_map]
  have hh : ∀ it b, (valueAt cfg h x (some y) (pden cfg h target ρ).t ρ p it).v = .bool b →
      holdsAt cfg h x (some y) (pden cfg h target ρ).t ρ p it = b := by
    intro it b hbv; simp only [holdsAt, hbv]
  rw [fold_put (E := fun it => if holdsAt cfg h x (some y) (pden cfg h target ρ).t ρ p it then M it else [])
    (good := (· ∈ l)) ?_ ?_ l (fun _ hi => hi) [] wellBuilt_nil]
  · refine ⟨_, rfl, ?_⟩
    rw [flatMap_filter']
    refine putAll_collects _ ?_
    intro en hen
    obtain ⟨it, hit, hen⟩ := List.mem_flatMap.1 hen
    obtain ⟨hit, hho⟩ := List.mem_filter.1 hit
    exact (hm it hit hho).2 en hen
  · intro it hit m hwm
    obtain ⟨b, hbv⟩ := hb it hit
    have hpv : (pden cfg h p (piterBinds cfg x (some y) (pden cfg h target ρ).t it ++ (accu, ⟨.map m, none⟩) :: ρ)).v =
        .bool b := by rw [hyp.value]; exact hbv
    have hins : b = true → pden cfg h (insertMapExpr c fr fast accu e)
        (piterBinds cfg x (some y) (pden cfg h target ρ).t it ++ (accu, ⟨.map m, none⟩) :: ρ) =
        ⟨putResult (putAll m (M it)), none⟩ := by
      intro hbt
      have hho := (hh it b hbv).trans hbt
      rw [pden_insertMap c fr fast hy, insertMap_step c fr fast hwm _ h (hp it hit hho) (hm it hit hho).1 (hm it hit hho).2]
      rfl
    rw [pden_cond_bool p _ _ _ b hpv (fun hbt => by rw [hins hbt]) (fun _ => by rw [pden_accu hy])]
    cases b with
    | true => rw [if_pos rfl, hins rfl]; simp only [hh it true hbv, if_true]
    | false => rw [if_neg (by simp), pden_accu hy]; simp only [hh it false hbv, Bool.false_eq_true, if_false, putAll, putResult]
  · intro it hit s
    obtain ⟨b, hbv⟩ := hb it hit
    have hpv : (pden cfg h p (piterBinds cfg x (some y) (pden cfg h target ρ).t it ++ (accu, ⟨.error s, none⟩) :: ρ)).v =
        .bool b := by rw [hyp.value]; exact hbv
    have hins : pden cfg h (insertMapExpr c fr fast accu e)
        (piterBinds cfg x (some y) (pden cfg h target ρ).t it ++ (accu, ⟨.error s, none⟩) :: ρ) = ⟨.error s, none⟩ := by
      rw [pden_insertMap c fr fast hy, insert_error_accu c fr fast s _ h (by simp)]
      rfl
    rw [pden_cond_bool p _ _ _ b hpv (fun _ => by rw [hins]) (fun _ => by rw [pden_accu hy])]
    cases b with
    | true => rw [if_pos rfl, hins]
    | false => rw [if_neg (by simp), pden_accu hy]

theorem insertMap_bad (c : StepCfg) (fr fast : Bool) (m : List (Value × Value)) (v : VA) (s : σ)
    (hnm : ∀ m', v.v ≠ .map m') (hnu : v.v.isUnknown = false)
    (hvt : c.unknowns = true → checkUnknown c.pats v.t true = false) :
    ∃ e, mapInsertOp c fr fast [⟨.map m, none⟩, v] s = (.ok ⟨.error e, none⟩, s) ∧
      (v.v = .error e ∨ v.v.isError = false ∧ ∃ d, e = noOverload d) := by
  have hargs : (if c.unknowns = true then checkPartialUnknowns c.pats [⟨.map m, none⟩, v]
        else [⟨.map m, none⟩, v].map (·.v)) = [.map m, v.v] := by
    split
    · rename_i hu
      rw [checkPartial_len2 _ _ _ rfl]
      simp only [checkPartialUnknowns, hvt hu, Bool.false_eq_true, if_false]
    · simp
  have key : ∃ e, evalCall (σ := σ) ⟨c.unknowns, fr, c.pats⟩
      ⟨"cel.@mapInsert", false, 0, .eager (mapInsertOverloads fast)⟩ [⟨.map m, none⟩, v] s = (.ok (.error e), s) ∧
      (v.v = .error e ∨ v.v.isError = false ∧ ∃ d, e = noOverload d) := by
    unfold evalCall
    simp only [hargs]
    have hres : CallSite.resolve (σ := σ) ⟨"cel.@mapInsert", false, 0, .eager (mapInsertOverloads fast)⟩
        [.map m, v.v] = .ok none := by
      revert hnm hnu
      cases v.v <;> simp [CallSite.resolve, resolveStatic, mapInsertOverloads, argumentKindsMatch, kindsMatchLoop,
        Value.kind, kMap, kAny, Value.isUnknown, kNull, kBool, kInt, kUint, kDouble, kString, kBytes, kDuration, kTimestamp, kList, kStruct, kType, kOpaque, kError, kUnknown]
    rw [hres]
    revert hnm hnu
    cases v.v <;> simp [noOverloadResult, firstError, Value.isError, Value.isUnknown, mergeUnknowns, mergeLoop] <;> exact ⟨_, rfl⟩
  unfold mapInsertOp callOp
  obtain ⟨e, hk, he⟩ := key
  exact ⟨e, by rw [hk], he⟩

/-- **C71 (`transformMapEntry`, errors).** If the transform of some element is not a map, and those before it
were collected without an error, the result is an error whatever comes later: the transform's own error, or
"no matching overload". -/
theorem C71_transform_entry_error (c : StepCfg) (fr fast : Bool) (accu x y : String) (target e : Expr σ) (ρ : PEnv)
    (hy : Hygienic accu x (some y) e) (pre post : List Item) (bad : Item) (M : Item → List (Value × Value))
    (hr : rangeOf cfg.unknowns cfg.pats (pden cfg h target ρ) = .items (pre ++ bad :: post))
    (hp : ∀ it ∈ pre, PlainOperand c (valueAt cfg h x (some y) (pden cfg h target ρ).t ρ e it))
    (hm : ∀ it ∈ pre, (valueAt cfg h x (some y) (pden cfg h target ρ).t ρ e it).v = .map (M it) ∧ PlainEntries (M it))
    (hw : WellBuilt (pre.flatMap M))
    (hbm : ∀ m', (valueAt cfg h x (some y) (pden cfg h target ρ).t ρ e bad).v ≠ .map m')
    (hbu : (valueAt cfg h x (some y) (pden cfg h target ρ).t ρ e bad).v.isUnknown = false)
    (hbt : c.unknowns = true → checkUnknown c.pats (valueAt cfg h x (some y) (pden cfg h target ρ).t ρ e bad).t true = false) :
    ∃ s, pden cfg h (transformEntry3 c fr fast accu x y target e) ρ = ⟨.error s, none⟩ ∧
      ((valueAt cfg h x (some y) (pden cfg h target ρ).t ρ e bad).v = .error s ∨
       (valueAt cfg h x (some y) (pden cfg h target ρ).t ρ e bad).v.isError = false ∧ ∃ d, s = noOverload d) := by
  unfold transformEntry3
  rw [comp_true accu x (some y) target _ _ _ ρ _ hr, pden_accu_res, pden_empty_map, List.foldl_append]
  have herr : ∀ it s', pden cfg h (insertMapExpr c fr fast accu e)
      (piterBinds cfg x (some y) (pden cfg h target ρ).t it ++ (accu, ⟨.error s', none⟩) :: ρ) = ⟨.error s', none⟩ := by
    intro it s'
    rw [pden_insertMap c fr fast hy, insert_error_accu c fr fast s' _ h (by simp)]
    rfl
  rw [fold_put (E := M) (good := (· ∈ pre)) ?_ ?_ pre (fun _ hi => hi) [] wellBuilt_nil]
  · obtain ⟨s, hs, hs'⟩ := insertMap_bad (σ := σ) c fr fast (pre.flatMap M) _ h hbm hbu hbt
    refine ⟨s, ?_, hs'⟩
    rw [putAll_nil hw, putResult, List.foldl_cons, pden_insertMap c fr fast hy, hs]
    simp only [valOf]
    clear hr
    induction post with
    | nil => rfl
    | cons it post ih => rw [List.foldl_cons, herr]; exact ih
  · intro it hit m hwm
    rw [pden_insertMap c fr fast hy, insertMap_step c fr fast hwm _ h (hp it hit) (hm it hit).1 (hm it hit).2]
    rfl
  · intro it hit s'
    exact herr it s'

end Cel.Macro
