import Verif.Direct.Agree

/-!
# The recursion limit bounds recursion

`max_recursion_depth` is compared with a number the planner computes.  Here evaluation is run with a
counter of nested `Evaluate` calls that a run may have at one time: an accepted plan never needs more
than the limit.
-/

set_option linter.unusedSimpArgs false
set_option linter.unusedVariables false
set_option linter.unusedTactic false
set_option linter.unreachableTactic false

namespace Cel.Direct
open Cel Cel.Num Cel.Eval Cel.Data

variable {σ : Type}

/-- A step's `Evaluate` method. -/
abbrev EvalF (σ : Type) := DStep σ → (av at' : Option Nat) → (cur : Trail) → DS σ → DOut σ VA

/-- The argument loop (`eval/eval/function_step.cc` lines 427-437); `ev` is the nested call. -/
def argsW (ev : EvalF σ) : DSteps σ → DS σ → DOut σ (List VA)
  | .nil, s => .ok [] s
  | .cons d ds, s => (ev d none none none s).bind fun x s => (argsW ev ds s).bind fun xs s => .ok (x :: xs) s

/-- The element loop (`eval/eval/create_list_step.cc` lines 144-217). -/
def listW (r : RCfg σ) (ev : EvalF σ) (opt : Nat → Bool) : DSteps σ → (av : Option Nat) → (cur : Trail) →
    Nat → Option UnknownSet → List Value → Trail → DS σ → DOut σ VA
  | .nil, _, cur, _, acc, out, _, s =>
    match acc with
    | some u => .ok ⟨.unknown u, cur⟩ s
    | none => .ok ⟨.list out, cur⟩ s
  | .cons d ds, av, cur, i, acc, out, tmp, s =>
    (ev d av none tmp s).bind fun x s =>
      match listNext r.c opt i acc out x with
      | .done v => .ok ⟨v, cur⟩ s
      | .fail e => .err e s.host
      | .more acc' out' =>
        listW r ev opt ds av cur (i + 1) acc' out' x.t { s with slots := wrNext ds av x.v s.slots }

/-- The entry loop (`eval/eval/create_map_step.cc` lines 150-235). -/
def mapW (r : RCfg σ) (ev : EvalF σ) (opt : Nat → Bool) : DSteps σ → (cur : Trail) →
    Nat → Option UnknownSet → List (Value × Value) → (pend : Option Value) → Trail → DS σ → DOut σ VA
  | .nil, cur, _, acc, out, _, _, s =>
    match acc with
    | some u => .ok ⟨.unknown u, cur⟩ s
    | none => .ok ⟨.map out, cur⟩ s
  | .cons d ds, cur, i, acc, out, pend, tmp, s =>
    (ev d none none tmp s).bind fun x s =>
      match pend with
      | none =>
        match mapKeyNext r.c acc x with
        | .done v => .ok ⟨v, cur⟩ s
        | .fail e => .err e s.host
        | .more acc' _ => mapW r ev opt ds cur i acc' out (some x.v) x.t s
      | some key =>
        match mapValNext r.c opt i acc out key x with
        | .done v => .ok ⟨v, cur⟩ s
        | .fail e => .err e s.host
        | .more acc' out' => mapW r ev opt ds cur (i + 1) acc' out' none none s

/-- Evaluation with at most `n` nested `Evaluate` calls at any time: one more is undefined behaviour
(an exhausted stack).  Same cases as `dev`. -/
def devF (r : RCfg σ) : Nat → EvalF σ
  | 0 => fun _ _ _ _ _ => .ub
  | n + 1 => fun d av at' cur s =>
    match d with
    | .const v => .ok ⟨v, cur⟩ s
    | .ident x =>
      match r.global x s.host with
      | (.ok a, h) => .ok ⟨a.v, a.t.or cur⟩ { s with host := h }
      | (.err e, h) => .err e h
      | (.ub, _) => .ub
    | .slot x k =>
      match s.slots k with
      | some a => .ok ⟨a.v, if r.tracking then a.t else cur⟩ s
      | none => .err ⟨.internal, "Comprehension variable accessed out of scope: " ++ x⟩ s.host
    | .lazyInit k sub =>
      match s.slots k with
      | some a => .ok a s
      | none => (devF r n sub av at' cur s).bind fun a s => .ok a { s with slots := upd s.slots k (some a) }
    | .call cs args =>
      (argsW (devF r n) args s).bind fun xs s =>
        match evalCall r.callOpts cs xs s.host with
        | (.ok v, h) => .ok ⟨v, cur⟩ { s with host := h }
        | (.err e, h) => .err e h
        | (.ub, _) => .ub
    | .not a =>
      (devF r n a av at' cur s).bind fun x s => .ok ⟨(notStep r.c.unknowns r.c.pats x).v, x.t⟩ s
    | .nsf a =>
      (devF r n a av at' cur s).bind fun x s => .ok ⟨(notStrictlyFalse x).v, x.t⟩ s
    | .bin k a b =>
      (devF r n a av none none s).bind fun x s =>
        (devF r n b none none none { s with slots := wrV av x.v s.slots }).bind fun y s =>
          .ok ⟨binEval r.c k x y, cur⟩ s
    | .index a b =>
      (devF r n a none none none s).bind fun x s =>
        (devF r n b none none none s).bind fun y s => .ok (indexD r.c cur x y) s
    | .select f test a =>
      (devF r n a av at' cur s).bind fun x s =>
        match selectD r.c f test x with
        | .ok y => .ok y s
        | .err e => .err e s.host
        | .ub => .ub
    | .list opt args => listW r (devF r n) opt args av cur 0 none [] none s
    | .map opt args => mapW r (devF r n) opt args cur 0 none [] none none s
    | .logic o a b =>
      (devF r n a av at' cur s).bind fun x s =>
        match r.shortCircuit, x.v with
        | true, .bool y =>
          if y = o then .ok x s
          else (devF r n b none at' x.t { s with slots := wrT at' x.t (wrV av x.v s.slots) }).bind fun z s =>
            .ok (directLogic o r.c.unknowns x z) s
        | _, _ =>
          (devF r n b none at' x.t { s with slots := wrT at' x.t (wrV av x.v s.slots) }).bind fun z s =>
            .ok (directLogic o r.c.unknowns x z) s
    | .cond c t f =>
      (devF r n c none none none s).bind fun x s =>
        if r.shortCircuit then
          match ternD cur x with
          | .stop y => .ok y s
          | .yes => devF r n t av at' cur s
          | .no => devF r n f av at' cur s
        else
          (devF r n t none none none s).bind fun y s => (devF r n f none none none s).bind fun z s =>
            match ternD cur x with
            | .stop w => .ok w s
            | .yes => .ok y s
            | .no => .ok z s
    | .comp iter iter2 ka range init cnd stp res =>
      (devF r n range none none none s).bind fun x s =>
        match rangeOf r.c.unknowns r.c.pats x with
        | .stop y => .ok ⟨y.v, cur⟩ s
        | .items l =>
          (devF r n init none none none s).bind fun a s =>
            (dloop r iter iter2 ka x.t
              (fun ct s => devF r n cnd none none ct s)
              (fun s => devF r n stp (some ka) (some ka) ((s.slots ka).bind VA.t) s)
              l none { s with slots := upd s.slots ka (some a) }).bind fun e s =>
                let s1 : DS σ := { s with slots := clearOpt (upd s.slots iter none) iter2 }
                match e with
                | .stop v => .ok ⟨v, cur⟩ { s1 with slots := upd s1.slots ka none }
                | .result =>
                  (devF r n res av at' cur s1).bind fun y s => .ok y { s with slots := upd s.slots ka none }
    | .bind k _ body =>
      (devF r n body av at' cur s).bind fun x s => .ok x { s with slots := upd s.slots k none }

theorem argsW_eq (r : RCfg σ) (ev : EvalF σ) : ∀ ds : DSteps σ, ∀ n, ds.depth ≤ n →
    (∀ d : DStep σ, d.depth ≤ n → ev d = dev r d) → ∀ s, argsW ev ds s = devArgs r ds s
  | .nil, _, _, _, s => by simp only [argsW, devArgs]
  | .cons d ds, n, h, hev, s => by
    simp only [DSteps.depth] at h
    simp only [argsW, devArgs, hev d (by omega)]
    congr 1; funext x s1
    rw [argsW_eq r ev ds n (by omega) hev]

theorem listW_eq (r : RCfg σ) (ev : EvalF σ) (opt : Nat → Bool) : ∀ ds : DSteps σ, ∀ n, ds.depth ≤ n →
    (∀ d : DStep σ, d.depth ≤ n → ev d = dev r d) → ∀ av cur i acc out tmp s,
    listW r ev opt ds av cur i acc out tmp s = devList r opt ds av cur i acc out tmp s
  | .nil, _, _, _, _, _, _, _, _, _, s => by simp only [listW, devList] <;> rfl
  | .cons d ds, n, h, hev, av, cur, i, acc, out, tmp, s => by
    simp only [DSteps.depth] at h
    simp only [listW, devList, hev d (by omega)]
    congr 1; funext x s1
    cases listNext r.c opt i acc out x with
    | done v => rfl
    | fail e => rfl
    | more acc' out' => exact listW_eq r ev opt ds n (by omega) hev _ _ _ _ _ _ _

theorem mapW_eq (r : RCfg σ) (ev : EvalF σ) (opt : Nat → Bool) : ∀ ds : DSteps σ, ∀ n, ds.depth ≤ n →
    (∀ d : DStep σ, d.depth ≤ n → ev d = dev r d) → ∀ cur i acc out pend tmp s,
    mapW r ev opt ds cur i acc out pend tmp s = devMap r opt ds cur i acc out pend tmp s
  | .nil, _, _, _, _, _, _, _, _, _, s => by simp only [mapW, devMap] <;> rfl
  | .cons d ds, n, h, hev, cur, i, acc, out, pend, tmp, s => by
    simp only [DSteps.depth] at h
    simp only [mapW, devMap, hev d (by omega)]
    congr 1; funext x s1
    cases pend with
    | none =>
      simp only
      cases mapKeyNext r.c acc x with
      | done v => rfl
      | fail e => rfl
      | more acc' out' => exact mapW_eq r ev opt ds n (by omega) hev _ _ _ _ _ _ _
    | some key =>
      simp only
      cases mapValNext r.c opt i acc out key x with
      | done v => rfl
      | fail e => rfl
      | more acc' out' => exact mapW_eq r ev opt ds n (by omega) hev _ _ _ _ _ _ _

/-- The recorded depth is enough. -/
theorem devF_eq (r : RCfg σ) : ∀ (n : Nat) (d : DStep σ), d.depth ≤ n → devF r n d = dev r d := by
  intro n
  induction n with
  | zero => intro d h; cases d <;> simp only [DStep.depth] at h <;> omega
  | succ n ih =>
    intro d h
    funext av at' cur s
    cases d with
    | const v => simp only [devF, dev] <;> rfl
    | ident x => simp only [devF, dev] <;> rfl
    | slot x k => simp only [devF, dev] <;> rfl
    | lazyInit k sub =>
      simp only [DStep.depth] at h
      (simp only [devF, dev, ih sub (by omega)]) <;> rfl
    | call cs args =>
      simp only [DStep.depth] at h
      (simp only [devF, dev, argsW_eq r _ args n (by omega) ih]) <;> rfl
    | not a => simp only [DStep.depth] at h; (simp only [devF, dev, ih a (by omega)]) <;> rfl
    | nsf a => simp only [DStep.depth] at h; (simp only [devF, dev, ih a (by omega)]) <;> rfl
    | bin k a b =>
      simp only [DStep.depth] at h
      (simp only [devF, dev, ih a (by omega), ih b (by omega)]) <;> rfl
    | index a b =>
      simp only [DStep.depth] at h
      (simp only [devF, dev, ih a (by omega), ih b (by omega)]) <;> rfl
    | select f test a => simp only [DStep.depth] at h; (simp only [devF, dev, ih a (by omega)]) <;> rfl
    | list opt args =>
      simp only [DStep.depth] at h
      (simp only [devF, dev, listW_eq r _ opt args n (by omega) ih]) <;> rfl
    | map opt args =>
      simp only [DStep.depth] at h
      (simp only [devF, dev, mapW_eq r _ opt args n (by omega) ih]) <;> rfl
    | logic o a b =>
      simp only [DStep.depth] at h
      (simp only [devF, dev, ih a (by omega), ih b (by omega)]) <;> rfl
    | cond c t f =>
      simp only [DStep.depth] at h
      (simp only [devF, dev, ih c (by omega), ih t (by omega), ih f (by omega)]) <;> rfl
    | comp iter iter2 ka range init cnd stp res =>
      simp only [DStep.depth] at h
      (simp only [devF, dev, ih range (by omega), ih init (by omega), ih cnd (by omega), ih stp (by omega),
        ih res (by omega)]) <;> rfl
    | bind k sub body =>
      simp only [DStep.depth] at h
      (simp only [devF, dev, ih body (by omega)]) <;> rfl

/-- **C23 (recursion).** If planning with limit `limit` accepts an expression, evaluating the plan never
has more than `limit` nested `Evaluate` calls: with that many allowed the outcome is the same. -/
theorem C23_recursion_bounded (r : RCfg σ) (e : Src σ) (limit : Nat) (d : DStep σ)
    (h : planRec (limit : Int) e = .ok d) (host : σ) :
    (devF r limit d none none none ⟨host, 0, fun _ => none⟩).final = runDirect r e host := by
  have hl := ((C23_limit e (limit : Int)).2.1 d h)
  have hd : d.depth ≤ limit := by have := hl.2 (by omega); omega
  rw [devF_eq r limit d hd]
  rw [hl.1]; rfl

/-- A limit that is too small is noticed: `!(!true)` needs three levels. -/
example : planRec (σ := Unit) 3 (.not (.not (.const (.bool true)))) = .ok (.not (.not (.const (.bool true)))) ∧
    ∃ s, planRec (σ := Unit) 2 (.not (.not (.const (.bool true)))) = .err s := ⟨rfl, _, rfl⟩

end Cel.Direct
