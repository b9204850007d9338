import Verif.Macro.InPlace
import Verif.Macro.MapMacroProps

/-!
# C72: updating the accumulator in place is unobservable
-/

set_option linter.unusedSimpArgs false
set_option linter.unusedVariables false

namespace Cel.Macro
open Cel Cel.Num Cel.Eval Cel.Data

variable {σ : Type} {cfg : Cfg σ} {h : σ}

/-! ## Specification -/

/-- The ordinary value a runtime value stands for, in a heap.  A cyclic object stands for none. -/
inductive Denotes (H : Heap) : HV → Value → Prop
  | val {v} : Denotes H (.val v) v
  | list {n xs vs} : H[n]? = some (.list xs) → xs.length = vs.length →
      (∀ (i : Nat) x v, xs[i]? = some x → vs[i]? = some v → Denotes H x v) → Denotes H (.ref n) (.list vs)
  | map {n es m} : H[n]? = some (.map es) → es.length = m.length →
      (∀ (i : Nat) e f, es[i]? = some e → m[i]? = some f → e.1 = f.1) →
      (∀ (i : Nat) e f, es[i]? = some e → m[i]? = some f → Denotes H e.2 f.2) → Denotes H (.ref n) (.map m)

/-- The operand is an ordinary value or an error, and no unknown pattern touches its attribute. -/
def Quiet (c : StepCfg) (x : VA) : Prop :=
  x.v.isUnknown = false ∧ (c.unknowns = true → checkUnknown c.pats x.t true = false)

/-- The optimised loop produced a runtime value standing for `v`. -/
def Yields (r : Res (HVA × Heap)) (v : Value) : Prop := ∃ a H, r = .ok (a, H) ∧ Denotes H a.v v

/-- An ordinary operand as a runtime value. -/
def lift (x : VA) : HVA := ⟨.val x.v, x.t⟩

/-! ## Dispatch on quiet operands -/

theorem checkPartial_quiet (c : StepCfg) (hu : c.unknowns = true) : ∀ xs : List VA,
    (∀ x ∈ xs, Quiet c x) → checkPartialUnknowns c.pats xs = xs.map VA.v
  | [], _ => rfl
  | x :: xs, h => by
    have hx := (h x (by simp)).2 hu
    rw [checkPartialUnknowns, hx, checkPartial_quiet c hu xs (fun y hy => h y (by simp [hy]))]
    simp

theorem prepared_quiet (c : StepCfg) (xs : List VA) (hq : ∀ x ∈ xs, Quiet c x) :
    (if c.unknowns = true then checkPartialUnknowns c.pats xs else xs.map (·.v)) = xs.map VA.v := by
  split
  · rename_i hu; exact checkPartial_quiet c hu xs hq
  · rfl

theorem call_noOverload (c : StepCfg) (fr : Bool) (name : String) (os : List (Overload σ)) (xs : List VA) (s : σ)
    (hq : ∀ x ∈ xs, Quiet c x)
    (hr : resolveStatic (xs.map VA.v) os = none ∨
      ∃ o, resolveStatic (xs.map VA.v) os = some o ∧ shouldAcceptOverload o.desc (xs.map VA.v) = false) :
    callOp c fr ⟨name, false, 0, .eager os⟩ xs s =
      (.ok ⟨noOverloadResult name (xs.map VA.v) false c.unknowns, none⟩, s) := by
  have key : evalCall ⟨c.unknowns, fr, c.pats⟩ ⟨name, false, 0, .eager os⟩ xs s =
      (.ok (noOverloadResult name (xs.map VA.v) false c.unknowns), s) := by
    unfold evalCall
    simp only [prepared_quiet c xs hq, CallSite.resolve]
    rcases hr with hr | ⟨o, hr, ha⟩
    · rw [hr]
    · rw [hr]; simp only []; rw [ha]; rfl
  unfold callOp
  rw [key]

theorem dispatch_quiet (c : StepCfg) (name : String) (ds : List FnDesc) (xs : List VA) (hq : ∀ x ∈ xs, Quiet c x) :
    dispatch c name ds xs =
      (match resolveStatic (xs.map VA.v) (ds.map fun d => (⟨d, fun _ h => (.ub, h)⟩ : Overload Unit)) with
      | some o =>
        if shouldAcceptOverload o.desc (xs.map VA.v) then none
        else some (noOverloadResult name (xs.map VA.v) false c.unknowns)
      | none => some (noOverloadResult name (xs.map VA.v) false c.unknowns)) := by
  unfold dispatch
  simp only [prepared_quiet c xs hq]
  cases resolveStatic (xs.map VA.v) (ds.map fun d => (⟨d, fun _ h => (.ub, h)⟩ : Overload Unit)) <;> rfl

theorem quiet_none (c : StepCfg) {v : Value} (hv : v.isUnknown = false) : Quiet c ⟨v, none⟩ :=
  ⟨hv, fun _ => checkUnknown_none _ _⟩

theorem quiet_cases (c : StepCfg) {x : VA} (hq : Quiet c x) : PlainOperand c x ∨ ∃ e, x.v = .error e := by
  obtain ⟨v, t⟩ := x
  by_cases he : v.isError = true
  · right
    cases v <;> simp_all [Value.isError]
  · left
    exact ⟨⟨by simpa using he, hq.1⟩, hq.2⟩

theorem plainOperand_quiet {c : StepCfg} {x : VA} (hp : PlainOperand c x) : Quiet c x := ⟨hp.1.2, hp.2⟩

theorem mem2 {α : Type} {P : α → Prop} {a b : α} (ha : P a) (hb : P b) : ∀ x ∈ [a, b], P x := by
  intro x hx
  rcases List.mem_cons.1 hx with rfl | hx
  · exact ha
  · rw [List.mem_singleton.1 hx]; exact hb

theorem mem3 {α : Type} {P : α → Prop} {a b d : α} (ha : P a) (hb : P b) (hd : P d) : ∀ x ∈ [a, b, d], P x := by
  intro x hx
  rcases List.mem_cons.1 hx with rfl | hx
  · exact ha
  · exact mem2 hb hd x hx

/-! ## Appending -/

/-- `accu + [e]` as the unoptimised program computes it. -/
def appendVA (c : StepCfg) (fr : Bool) (h : σ) (b x : VA) : VA :=
  valOf (addOp c fr [b, valOf (listOp c [x] h)] h)

theorem append_list (c : StepCfg) (fr : Bool) (vs : List Value) (x : VA) (hx : PlainOperand c x) :
    appendVA c fr h ⟨.list vs, none⟩ x = ⟨.list (vs ++ [x.v]), none⟩ := by
  unfold appendVA
  rw [list_one c _ hx]
  simp only [valOf]
  rw [add_lists]

theorem append_list_error (c : StepCfg) (fr : Bool) (vs : List Value) (x : VA) (e : Status) (hx : x.v = .error e) :
    appendVA c fr h ⟨.list vs, none⟩ x = ⟨.error e, none⟩ := by
  unfold appendVA
  rw [list_error c _ e hx]
  simp only [valOf]
  rw [add_error_right]

theorem append_error (c : StepCfg) (fr : Bool) (e : Status) (t : Trail) (x : VA) (hb : Quiet c ⟨.error e, t⟩)
    (hx : Quiet c x) : appendVA c fr h ⟨.error e, t⟩ x = ⟨.error e, none⟩ := by
  unfold appendVA
  have hl : ∃ y : Value, valOf (listOp c [x] h) = ⟨y, none⟩ ∧ y.isUnknown = false := by
    rcases quiet_cases c hx with hp | ⟨s, hs⟩
    · rw [list_one c _ hp]; exact ⟨_, rfl, rfl⟩
    · rw [list_error c _ s hs]; exact ⟨_, rfl, rfl⟩
  obtain ⟨y, hy, hyu⟩ := hl
  rw [hy]
  have := call_noOverload c fr "_+_" (addOverloads (σ := σ)) [⟨.error e, t⟩, ⟨y, none⟩] h (mem2 hb (quiet_none c hyu))
    (Or.inl (by
      simp [resolveStatic, addOverloads, argumentKindsMatch, kindsMatchLoop, Value.kind, kInt, kUint, kList, kAny, kError]))
  unfold addOp
  rw [this]
  rfl

/-- How the accumulators of the two programs correspond: the same error, or a mutable list and its content. -/
def LRel (c : StepCfg) (a : HVA) (H : Heap) (b : VA) : Prop :=
  (∃ vs : List Value, a = ⟨.ref 0, none⟩ ∧ H = [.list (vs.map .val)] ∧ b = ⟨.list vs, none⟩) ∨
  ∃ e t, a = ⟨.val (.error e), t⟩ ∧ b = ⟨.error e, t⟩ ∧ Quiet c b

theorem lrel_denotes {c : StepCfg} {a : HVA} {H : Heap} {b : VA} (hr : LRel c a H b) : Denotes H a.v b.v := by
  rcases hr with ⟨vs, rfl, rfl, rfl⟩ | ⟨e, t, rfl, rfl, -⟩
  · refine .list (xs := vs.map .val) rfl (by simp) ?_
    intro i x v hx hv
    rw [List.getElem?_map, hv] at hx
    simp only [Option.map_some, Option.some.injEq] at hx
    subst hx
    exact .val
  · exact .val

theorem append_sim (c : StepCfg) (fr : Bool) {a : HVA} {H : Heap} {b x : VA} (hr : LRel c a H b) (hx : Quiet c x) :
    ∃ a' H', listAppend c H a (lift x) = .ok (a', H') ∧ LRel c a' H' (appendVA c fr h b x) := by
  rcases hr with ⟨vs, rfl, rfl, rfl⟩ | ⟨e, t, rfl, rfl, hb⟩
  · have hq := mem2 (P := Quiet c) (quiet_none c (v := .list []) rfl) hx
    have hsh : shadow [.list (vs.map .val)] ⟨.ref 0, none⟩ = ⟨.list [], none⟩ := rfl
    have hsx : shadow [.list (vs.map .val)] (lift x) = x := rfl
    rcases quiet_cases c hx with hp | ⟨s, hs⟩
    · rw [append_list c fr vs x hp]
      refine ⟨⟨.ref 0, none⟩, [.list ((vs ++ [x.v]).map .val)], ?_, Or.inl ⟨_, rfl, rfl, rfl⟩⟩
      unfold listAppend
      rw [hsh, hsx, dispatch_quiet c _ _ _ hq]
      have hres : resolveStatic ([(⟨.list [], none⟩ : VA), x].map VA.v)
          ([(⟨"#list_append", false, [kList, kAny], true⟩ : FnDesc)].map fun d => (⟨d, fun _ h => (.ub, h)⟩ : Overload Unit)) =
          some ⟨⟨"#list_append", false, [kList, kAny], true⟩, fun _ h => (.ub, h)⟩ := by
        simp [resolveStatic, argumentKindsMatch, kindsMatchLoop, Value.kind, kList, kAny]
      rw [hres]
      simp only [List.map_cons, List.map_nil]
      rw [Cel.Opt.plain_accept Cel.Opt.plain_list, Cel.Opt.plain_accept hp.1]
      simp [shouldAcceptOverload, lift]
    · rw [append_list_error c fr vs x s hs]
      refine ⟨⟨.val (.error s), none⟩, [.list (vs.map .val)], ?_, Or.inr ⟨s, none, rfl, rfl, quiet_none c rfl⟩⟩
      unfold listAppend
      rw [hsh, hsx, dispatch_quiet c _ _ _ hq]
      have hres : resolveStatic ([(⟨.list [], none⟩ : VA), x].map VA.v)
          ([(⟨"#list_append", false, [kList, kAny], true⟩ : FnDesc)].map fun d => (⟨d, fun _ h => (.ub, h)⟩ : Overload Unit)) =
          some ⟨⟨"#list_append", false, [kList, kAny], true⟩, fun _ h => (.ub, h)⟩ := by
        simp [resolveStatic, argumentKindsMatch, kindsMatchLoop, Value.kind, kList, kAny]
      rw [hres]
      simp only [List.map_cons, List.map_nil]
      rw [Cel.Opt.plain_accept Cel.Opt.plain_list, hs]
      simp [shouldAcceptOverload, Value.isError, Value.isUnknown, noOverloadResult, firstError]
  · rw [append_error c fr e t x hb hx]
    refine ⟨⟨.val (.error e), none⟩, H, ?_, Or.inr ⟨e, none, rfl, rfl, quiet_none c rfl⟩⟩
    unfold listAppend
    have hsh : shadow H ⟨.val (.error e), t⟩ = ⟨.error e, t⟩ := rfl
    have hsx : shadow H (lift x) = x := rfl
    rw [hsh, hsx, dispatch_quiet c _ _ _ (mem2 hb hx)]
    simp [resolveStatic, argumentKindsMatch, kindsMatchLoop, Value.kind, kList, kAny, kError, noOverloadResult, firstError]

/-! ## The loop -/

theorem loop_sim {R : HVA → Heap → VA → Prop} {step : Item → HVA → Heap → Res (HVA × Heap)} {pstep : VA → Item → VA}
    (l : List Item)
    (hs : ∀ it ∈ l, ∀ a H b, R a H b → ∃ a' H', step it a H = .ok (a', H') ∧ R a' H' (pstep b it)) :
    ∀ a H b, R a H b → ∃ a' H', loopInPlace step l a H = .ok (a', H') ∧ R a' H' (l.foldl pstep b) := by
  induction l with
  | nil => intro a H b hr; exact ⟨a, H, rfl, hr⟩
  | cons it l ih =>
    intro a H b hr
    obtain ⟨a', H', h1, h2⟩ := hs it List.mem_cons_self a H b hr
    rw [loopInPlace, h1, List.foldl_cons]
    exact ih (fun i hi => hs i (List.mem_cons_of_mem _ hi)) a' H' _ h2

theorem lrel_init (c : StepCfg) :
    LRel c (alloc [] (.list [])).1 (alloc [] (.list [])).2 ⟨.list [], none⟩ :=
  Or.inl ⟨[], rfl, rfl, rfl⟩

/-- A conditional update, with short-circuiting on. -/
theorem cond_sim {c : StepCfg} {R : HVA → Heap → VA → Prop} {p : VA}
    (hbad : ∀ H e t, Quiet c ⟨.error e, t⟩ → R ⟨.val (.error e), t⟩ H ⟨.error e, t⟩)
    (hp : Quiet c p) {branch : HVA → Heap → Res (HVA × Heap)} {a : HVA} {H : Heap} {b b' : VA}
    (hr : R a H b) (hbr : ∃ a' H', branch a H = .ok (a', H') ∧ R a' H' b') :
    ∃ a' H', condInPlace true c.unknowns p branch a H = .ok (a', H') ∧
      R a' H' (match ternOf p with | .stop y => y | .yes => b' | .no => b) := by
  obtain ⟨v, t⟩ := p
  unfold condInPlace
  simp only [if_true]
  cases v with
  | bool y => cases y with
    | true => exact hbr
    | false => exact ⟨a, H, rfl, hr⟩
  | error e => exact ⟨_, _, rfl, hbad H e t hp⟩
  | unknown u => exact absurd hp.1 (by simp [Value.isUnknown])
  | _ => exact ⟨_, _, rfl, hbad H _ none (quiet_none c rfl)⟩

/-- **C72 (`map`, `transformList`).** If every element's transform is an ordinary value or an error and does
not mention the accumulator, the program that appends in place yields the value the unoptimised program
computes. -/
theorem C72_list_append_partial (c : StepCfg) (fr : Bool) (accu x : String) (y : Option String) (target e : Expr σ)
    (ρ : PEnv) (hy : Hygienic accu x y e) (l : List Item)
    (hr : rangeOf cfg.unknowns cfg.pats (pden cfg h target ρ) = .items l)
    (hq : ∀ it ∈ l, Quiet c (valueAt cfg h x y (pden cfg h target ρ).t ρ e it)) :
    Yields (mapInPlace c (fun it _ => lift (valueAt cfg h x y (pden cfg h target ρ).t ρ e it)) l)
      (pden cfg h (map2Macro c fr accu x y target e) ρ).v := by
  unfold map2Macro
  rw [comp_true accu x y target _ _ _ ρ l hr, pden_accu_res]
  have hinit : pden cfg h (.op (listOp c) .nil) ρ = ⟨.list [], none⟩ := by
    simp only [pden, pdenArgs, list_none, valOf]
  rw [hinit]
  obtain ⟨a, H, h1, h2⟩ := loop_sim (R := LRel c)
    (step := fun it a H => listAppend c H a (lift (valueAt cfg h x y (pden cfg h target ρ).t ρ e it)))
    (pstep := fun b it => pden cfg h (appendExpr c fr accu e)
      (piterBinds cfg x y (pden cfg h target ρ).t it ++ (accu, b) :: ρ)) l
    (fun it hit a H b hab => by
      rw [pden_append c fr hy]
      exact append_sim c fr hab (hq it hit)) _ _ _ (lrel_init c)
  exact ⟨a, H, h1, lrel_denotes h2⟩

/-- **C72 (`filter`, `map` with a filter).** The same with a predicate, when evaluation short-circuits. -/
theorem C72_list_append_filter_partial (c : StepCfg) (fr : Bool) (accu x : String) (y : Option String)
    (target p e : Expr σ) (ρ : PEnv) (hyp : Hygienic accu x y p) (hy : Hygienic accu x y e) (l : List Item)
    (hsc : cfg.shortCircuit = true)
    (hr : rangeOf cfg.unknowns cfg.pats (pden cfg h target ρ) = .items l)
    (hqp : ∀ it ∈ l, Quiet c (valueAt cfg h x y (pden cfg h target ρ).t ρ p it))
    (hq : ∀ it ∈ l, Quiet c (valueAt cfg h x y (pden cfg h target ρ).t ρ e it)) :
    Yields (map3InPlace c true (fun it => valueAt cfg h x y (pden cfg h target ρ).t ρ p it)
      (fun it _ => lift (valueAt cfg h x y (pden cfg h target ρ).t ρ e it)) l)
      (pden cfg h (map3Macro c fr accu x y target p e) ρ).v := by
  unfold map3Macro
  rw [comp_true accu x y target _ _ _ ρ l hr, pden_accu_res]
  have hinit : pden cfg h (.op (listOp c) .nil) ρ = ⟨.list [], none⟩ := by
    simp only [pden, pdenArgs, list_none, valOf]
  rw [hinit]
  obtain ⟨a, H, h1, h2⟩ := loop_sim (R := LRel c)
    (step := fun it a H => condInPlace true c.unknowns (valueAt cfg h x y (pden cfg h target ρ).t ρ p it)
      (fun a H => listAppend c H a (lift (valueAt cfg h x y (pden cfg h target ρ).t ρ e it))) a H)
    (pstep := fun b it => pden cfg h (.cond p (appendExpr c fr accu e) (accuIdent accu))
      (piterBinds cfg x y (pden cfg h target ρ).t it ++ (accu, b) :: ρ)) l
    (fun it hit a H b hab => by
      rw [pden]
      simp only [hsc, if_true]
      rw [hyp.value, pden_append c fr hy, pden_accu hy]
      exact cond_sim (fun H e t hqe => Or.inr ⟨e, t, rfl, rfl, hqe⟩) (hqp it hit) hab
        (append_sim c fr hab (hq it hit))) _ _ _ (lrel_init c)
  exact ⟨a, H, h1, lrel_denotes h2⟩

/-! ## Inserting -/

/-- A map's entries in a mutable map. -/
def embed (m : List (Value × Value)) : List (Value × HV) := m.map fun e => (e.1, .val e.2)

theorem cellHas_embed (m : List (Value × Value)) (k : Value) : cellHas (embed m) k = mapHas m k := by
  unfold mapHas
  induction m with
  | nil => rfl
  | cons e m ih =>
    obtain ⟨a, b⟩ := e
    simp only [embed, List.map_cons, cellHas, mapFind] at ih ⊢
    rw [ih]
    split <;> simp_all

theorem cellPut_embed (m : List (Value × Value)) (k v : Value) :
    cellPut (embed m) k (.val v) = (match mapPut m k v with
      | .ok m' => .ok (embed m')
      | .err e => .err e
      | .ub => .ub) := by
  unfold cellPut mapPut
  cases checkMapKey k with
  | some e => rfl
  | none =>
    simp only []
    cases checkElement v with
    | some e => rfl
    | none =>
      simp only []
      rw [cellHas_embed]
      split <;> simp [embed]

theorem cellPutAll_embed (es : List (Value × Value)) : ∀ m, 
    (match putAll m es with
     | .ok m' => cellPutAll (embed m) (embed es) = (embed m', none)
     | .err e => ∃ c, cellPutAll (embed m) (embed es) = (c, some e)
     | .ub => False) := by
  induction es with
  | nil => intro m; rfl
  | cons e es ih =>
    intro m
    obtain ⟨k, v⟩ := e
    have hub := mapPut_not_ub m k v
    simp only [putAll]
    have hc : cellPutAll (embed m) (embed ((k, v) :: es)) = (match cellPut (embed m) k (.val v) with
      | .ok es' => cellPutAll es' (embed es)
      | .err e => (embed m, some e)
      | .ub => (embed m, none)) := rfl
    rw [hc, cellPut_embed]
    cases hp : mapPut m k v with
    | ok m' => exact ih m'
    | err e => exact ⟨_, rfl⟩
    | ub => contradiction

/-- How the accumulators correspond: the same error, or a mutable map and its content. -/
def MRel (c : StepCfg) (a : HVA) (H : Heap) (b : VA) : Prop :=
  (∃ m : List (Value × Value), a = ⟨.ref 0, none⟩ ∧ H = [.map (embed m)] ∧ b = ⟨.map m, none⟩ ∧ WellBuilt m) ∨
  ∃ e t, a = ⟨.val (.error e), t⟩ ∧ b = ⟨.error e, t⟩ ∧ Quiet c b

theorem mrel_denotes {c : StepCfg} {a : HVA} {H : Heap} {b : VA} (hr : MRel c a H b) : Denotes H a.v b.v := by
  rcases hr with ⟨m, rfl, rfl, rfl, -⟩ | ⟨e, t, rfl, rfl, -⟩
  · refine .map (es := embed m) rfl (by simp [embed]) ?_ ?_
    · intro i e f he hf
      simp only [embed, List.getElem?_map, hf, Option.map_some, Option.some.injEq] at he
      rw [← he]
    · intro i e f he hf
      simp only [embed, List.getElem?_map, hf, Option.map_some, Option.some.injEq] at he
      rw [← he]
      exact .val
  · exact .val

theorem insert_error_quiet (c : StepCfg) (fr fast : Bool) (e : Status) (t : Trail) (rest : List VA) (s : σ)
    (hb : Quiet c ⟨.error e, t⟩) (hq : ∀ x ∈ rest, Quiet c x) (hl : rest.length = 1 ∨ rest.length = 2) :
    mapInsertOp c fr fast (⟨.error e, t⟩ :: rest) s = (.ok ⟨.error e, none⟩, s) := by
  have := call_noOverload c fr "cel.@mapInsert" (mapInsertOverloads (σ := σ) fast) (⟨.error e, t⟩ :: rest) s
    (by
      intro x hx
      rcases List.mem_cons.1 hx with rfl | hx
      · exact hb
      · exact hq x hx)
    (Or.inl (by
      match rest, hl with
      | [y], _ =>
        simp [resolveStatic, mapInsertOverloads, argumentKindsMatch, kindsMatchLoop, Value.kind, kMap, kAny, kError]
      | [y, z], _ =>
        simp [resolveStatic, mapInsertOverloads, argumentKindsMatch, kindsMatchLoop, Value.kind, kMap, kAny, kError]
      | [], hl => simp at hl
      | _ :: _ :: _ :: _, hl => simp at hl))
  unfold mapInsertOp
  rw [this]
  rfl

theorem dispatch_error (c : StepCfg) (e : Status) (t : Trail) (rest : List VA)
    (hb : Quiet c ⟨.error e, t⟩) (hq : ∀ x ∈ rest, Quiet c x) (hl : rest.length = 1 ∨ rest.length = 2) :
    dispatch c "cel.@mapInsert" mapInsertDescs (⟨.error e, t⟩ :: rest) = some (.error e) := by
  rw [dispatch_quiet c _ _ _ (by
      intro x hx
      rcases List.mem_cons.1 hx with rfl | hx
      · exact hb
      · exact hq x hx)]
  match rest, hl with
  | [y], _ =>
    simp [resolveStatic, mapInsertDescs, argumentKindsMatch, kindsMatchLoop, Value.kind, kMap, kAny, kError,
      noOverloadResult, firstError]
  | [y, z], _ =>
    simp [resolveStatic, mapInsertDescs, argumentKindsMatch, kindsMatchLoop, Value.kind, kMap, kAny, kError,
      noOverloadResult, firstError]
  | [], hl => simp at hl
  | _ :: _ :: _ :: _, hl => simp at hl

theorem insert_sim (c : StepCfg) (fr : Bool) {a : HVA} {H : Heap} {b k x : VA} (hr : MRel c a H b)
    (hk : PlainOperand c k) (hx : Quiet c x) :
    ∃ a' H', mapInsertKVInPlace c H a k (lift x) = .ok (a', H') ∧
      MRel c a' H' (valOf (mapInsertOp c fr false [b, k, x] h)) := by
  rcases hr with ⟨m, rfl, rfl, rfl, hm⟩ | ⟨e, t, rfl, rfl, hb⟩
  · have hq := mem3 (P := Quiet c) (quiet_none c (v := .map []) rfl) (plainOperand_quiet hk) hx
    have hsh : shadow [.map (embed m)] ⟨.ref 0, none⟩ = ⟨.map [], none⟩ := rfl
    have hsx : shadow [.map (embed m)] (lift x) = x := rfl
    have hres : resolveStatic ([(⟨.map [], none⟩ : VA), k, x].map VA.v)
        (mapInsertDescs.map fun d => (⟨d, fun _ h => (.ub, h)⟩ : Overload Unit)) =
        some ⟨⟨"cel.@mapInsert", false, [kMap, kAny, kAny], true⟩, fun _ h => (.ub, h)⟩ := by
      simp [resolveStatic, mapInsertDescs, argumentKindsMatch, kindsMatchLoop, Value.kind, kMap, kAny]
    unfold mapInsertKVInPlace
    rw [hsh, hsx, dispatch_quiet c _ _ _ hq, hres]
    simp only [List.map_cons, List.map_nil]
    rw [Cel.Opt.plain_accept (plain_map []), Cel.Opt.plain_accept hk.1]
    rcases quiet_cases c hx with hp | ⟨s, hs⟩
    · rw [insert_step c fr false hm k x h hk hp, Cel.Opt.plain_accept hp.1]
      simp only [shouldAcceptOverload, if_true, List.getElem?_cons_zero, lift]
      rw [cellPut_embed]
      have hub := mapPut_not_ub m k.v x.v
      simp only [putAll]
      cases hput : mapPut m k.v x.v with
      | ok m' =>
        exact ⟨_, _, rfl, Or.inl ⟨m', rfl, rfl, rfl, mapPut_wellBuilt hm hput⟩⟩
      | err e => exact ⟨_, _, rfl, Or.inr ⟨e, none, rfl, rfl, quiet_none c rfl⟩⟩
      | ub => contradiction
    · rw [insert_error_arg c fr false m k x s h hk hs hx.2, hs]
      have hacc : shouldAcceptOverload ⟨"cel.@mapInsert", false, [kMap, kAny, kAny], true⟩ [.error s] = false := by
        simp [shouldAcceptOverload, Value.isError]
      rw [hacc]
      have hno : noOverloadResult "cel.@mapInsert" [.map [], k.v, .error s] false c.unknowns = .error s := by
        have h1 := hk.1.1
        unfold noOverloadResult
        have : firstError [.map [], k.v, .error s] = some (.error s) := by
          revert h1
          cases k.v <;> simp [firstError, Value.isError]
        rw [this]
      simp only [Bool.false_eq_true, if_false, hno]
      exact ⟨_, _, rfl, Or.inr ⟨s, none, rfl, rfl, quiet_none c rfl⟩⟩
  · rw [insert_error_quiet c fr false e t [k, x] h hb (mem2 (plainOperand_quiet hk) hx) (by simp)]
    unfold mapInsertKVInPlace
    have hsh : shadow H ⟨.val (.error e), t⟩ = ⟨.error e, t⟩ := rfl
    have hsx : shadow H (lift x) = x := rfl
    rw [hsh, hsx, dispatch_error c e t [k, x] hb (mem2 (plainOperand_quiet hk) hx) (by simp)]
    exact ⟨_, _, rfl, Or.inr ⟨e, none, rfl, rfl, quiet_none c rfl⟩⟩

theorem mrel_init (c : StepCfg) :
    MRel c (alloc [] (.map [])).1 (alloc [] (.map [])).2 ⟨.map [], none⟩ :=
  Or.inl ⟨[], rfl, rfl, rfl, wellBuilt_nil⟩

/-- **C72 (`transformMap`).** -/
theorem C72_map_insert_partial (c : StepCfg) (fr : Bool) (accu x y : String) (target e : Expr σ) (ρ : PEnv)
    (hy : Hygienic accu x (some y) e) (l : List Item)
    (hr : rangeOf cfg.unknowns cfg.pats (pden cfg h target ρ) = .items l)
    (hk : ∀ it ∈ l, PlainOperand c (keyAt cfg (pden cfg h target ρ).t it))
    (hq : ∀ it ∈ l, Quiet c (valueAt cfg h x (some y) (pden cfg h target ρ).t ρ e it)) :
    Yields (transformMapInPlace c (fun it => keyAt cfg (pden cfg h target ρ).t it)
      (fun it _ => lift (valueAt cfg h x (some y) (pden cfg h target ρ).t ρ e it)) l)
      (pden cfg h (transformMap3 c fr false accu x y target e) ρ).v := by
  unfold transformMap3
  rw [comp_true accu x (some y) target _ _ _ ρ l hr, pden_accu_res, pden_empty_map]
  obtain ⟨a, H, h1, h2⟩ := loop_sim (R := MRel c)
    (step := fun it a H => mapInsertKVInPlace c H a (keyAt cfg (pden cfg h target ρ).t it)
      (lift (valueAt cfg h x (some y) (pden cfg h target ρ).t ρ e it)))
    (pstep := fun b it => pden cfg h (insertExpr c fr false accu x e)
      (piterBinds cfg x (some y) (pden cfg h target ρ).t it ++ (accu, b) :: ρ)) l
    (fun it hit a H b hab => by
      rw [pden_insert c fr false hy]
      exact insert_sim c fr hab (hk it hit) (hq it hit)) _ _ _ (mrel_init c)
  exact ⟨a, H, h1, mrel_denotes h2⟩

/-- **C72 (`transformMap` with a filter).** -/
theorem C72_map_insert_filter_partial (c : StepCfg) (fr : Bool) (accu x y : String) (target p e : Expr σ) (ρ : PEnv)
    (hyp : Hygienic accu x (some y) p) (hy : Hygienic accu x (some y) e) (l : List Item)
    (hsc : cfg.shortCircuit = true)
    (hr : rangeOf cfg.unknowns cfg.pats (pden cfg h target ρ) = .items l)
    (hk : ∀ it ∈ l, PlainOperand c (keyAt cfg (pden cfg h target ρ).t it))
    (hqp : ∀ it ∈ l, Quiet c (valueAt cfg h x (some y) (pden cfg h target ρ).t ρ p it))
    (hq : ∀ it ∈ l, Quiet c (valueAt cfg h x (some y) (pden cfg h target ρ).t ρ e it)) :
    Yields (transformMap4InPlace c true (fun it => valueAt cfg h x (some y) (pden cfg h target ρ).t ρ p it)
      (fun it => keyAt cfg (pden cfg h target ρ).t it)
      (fun it _ => lift (valueAt cfg h x (some y) (pden cfg h target ρ).t ρ e it)) l)
      (pden cfg h (transformMap4 c fr false accu x y target p e) ρ).v := by
  unfold transformMap4
  rw [comp_true accu x (some y) target _ _ _ ρ l hr, pden_accu_res, pden_empty_map]
  obtain ⟨a, H, h1, h2⟩ := loop_sim (R := MRel c)
    (step := fun it a H => condInPlace true c.unknowns (valueAt cfg h x (some y) (pden cfg h target ρ).t ρ p it)
      (fun a H => mapInsertKVInPlace c H a (keyAt cfg (pden cfg h target ρ).t it)
        (lift (valueAt cfg h x (some y) (pden cfg h target ρ).t ρ e it))) a H)
    (pstep := fun b it => pden cfg h (.cond p (insertExpr c fr false accu x e) (accuIdent accu))
      (piterBinds cfg x (some y) (pden cfg h target ρ).t it ++ (accu, b) :: ρ)) l
    (fun it hit a H b hab => by
      rw [pden]
      simp only [hsc, if_true]
      rw [hyp.value, pden_insert c fr false hy, pden_accu hy]
      exact cond_sim (fun H e t hqe => Or.inr ⟨e, t, rfl, rfl, hqe⟩) (hqp it hit) hab
        (insert_sim c fr hab (hk it hit) (hq it hit))) _ _ _ (mrel_init c)
  exact ⟨a, H, h1, mrel_denotes h2⟩

/-- **C72 (`transformMapEntry`).** If every element's transform is a map of ordinary values. -/
theorem C72_entry_insert_partial (c : StepCfg) (fr : Bool) (accu x y : String) (target e : Expr σ) (ρ : PEnv)
    (hy : Hygienic accu x (some y) e) (l : List Item) (M : Item → List (Value × Value))
    (hr : rangeOf cfg.unknowns cfg.pats (pden cfg h target ρ) = .items l)
    (hp : ∀ it ∈ l, PlainOperand c (valueAt cfg h x (some y) (pden cfg h target ρ).t ρ e it))
    (hm : ∀ it ∈ l, (valueAt cfg h x (some y) (pden cfg h target ρ).t ρ e it).v = .map (M it) ∧ PlainEntries (M it)) :
    Yields (transformEntryInPlace c (fun it => valueAt cfg h x (some y) (pden cfg h target ρ).t ρ e it) l)
      (pden cfg h (transformEntry3 c fr false accu x y target e) ρ).v := by
  unfold transformEntry3
  rw [comp_true accu x (some y) target _ _ _ ρ l hr, pden_accu_res, pden_empty_map]
  have step : ∀ it ∈ l, ∀ a H b, MRel c a H b →
      ∃ a' H', mapInsertMapInPlace c H a (valueAt cfg h x (some y) (pden cfg h target ρ).t ρ e it) = .ok (a', H') ∧
        MRel c a' H' (valOf (mapInsertOp c fr false [b, valueAt cfg h x (some y) (pden cfg h target ρ).t ρ e it] h)) := by
    intro it hit a H b hr
    have hpx := hp it hit
    obtain ⟨hv, hpe⟩ := hm it hit
    generalize valueAt cfg h x (some y) (pden cfg h target ρ).t ρ e it = z at hpx hv
    rcases hr with ⟨m, rfl, rfl, rfl, hw⟩ | ⟨s, t, rfl, rfl, hb⟩
    · have hsh : shadow [.map (embed m)] ⟨.ref 0, none⟩ = ⟨.map [], none⟩ := rfl
      have hres : resolveStatic ([(⟨.map [], none⟩ : VA), z].map VA.v)
          (mapInsertDescs.map fun d => (⟨d, fun _ h => (.ub, h)⟩ : Overload Unit)) =
          some ⟨⟨"cel.@mapInsert", false, [kMap, kMap], true⟩, fun _ h => (.ub, h)⟩ := by
        simp [resolveStatic, mapInsertDescs, argumentKindsMatch, kindsMatchLoop, Value.kind, kMap, kAny, hv]
      rw [insertMap_step c fr false hw z h hpx hv hpe]
      unfold mapInsertMapInPlace
      rw [hsh, dispatch_quiet c _ _ _ (mem2 (quiet_none c (v := .map []) rfl) (plainOperand_quiet hpx)), hres]
      simp only [List.map_cons, List.map_nil]
      rw [Cel.Opt.plain_accept (plain_map []), Cel.Opt.plain_accept hpx.1]
      simp only [shouldAcceptOverload, if_true, hv, List.getElem?_cons_zero]
      have hc := cellPutAll_embed (M it) m
      cases hput : putAll m (M it) with
      | ok m' =>
        rw [hput] at hc
        simp only [] at hc
        rw [show (M it).map (fun e => (e.1, HV.val e.2)) = embed (M it) from rfl, hc]
        exact ⟨_, _, rfl, Or.inl ⟨m', rfl, rfl, rfl, putAll_wellBuilt _ hw hput⟩⟩
      | err s =>
        rw [hput] at hc
        obtain ⟨cell, hc⟩ := hc
        rw [show (M it).map (fun e => (e.1, HV.val e.2)) = embed (M it) from rfl, hc]
        exact ⟨_, _, rfl, Or.inr ⟨s, none, rfl, rfl, quiet_none c rfl⟩⟩
      | ub => exact absurd hput (putAll_not_ub _ _)
    · rw [insert_error_quiet c fr false s t [z] h hb (by simpa using (plainOperand_quiet hpx)) (by simp)]
      unfold mapInsertMapInPlace
      have hsh : shadow H ⟨.val (.error s), t⟩ = ⟨.error s, t⟩ := rfl
      rw [hsh, dispatch_error c s t [z] hb (by simpa using (plainOperand_quiet hpx)) (by simp)]
      exact ⟨_, _, rfl, Or.inr ⟨s, none, rfl, rfl, quiet_none c rfl⟩⟩
  obtain ⟨a, H, h1, h2⟩ := loop_sim (R := MRel c)
    (step := fun it a H => mapInsertMapInPlace c H a (valueAt cfg h x (some y) (pden cfg h target ρ).t ρ e it))
    (pstep := fun b it => pden cfg h (insertMapExpr c fr false accu e)
      (piterBinds cfg x (some y) (pden cfg h target ρ).t it ++ (accu, b) :: ρ)) l
    (fun it hit a H b hab => by
      rw [pden_insertMap c fr false hy]
      exact step it hit a H b hab) _ _ _ (mrel_init c)
  exact ⟨a, H, h1, mrel_denotes h2⟩

end Cel.Macro
