import Verif.Direct.Nodes

/-!
# Simulation, node by node: literals, comprehensions, `cel.bind`
-/

set_option linter.unusedSimpArgs false
set_option linter.unusedVariables false

namespace Cel.Direct
open Cel Cel.Num Cel.Eval Cel.Data

section
variable {σ : Type} {r : RCfg σ}

theorem out_ok {α β : Type} (a : α) (s : SS σ) (f : α → SS σ → Out σ β) : (Out.ok a s).bind f = f a s := rfl

theorem dout_ok {α β : Type} (a : α) (s : DS σ) (f : α → DS σ → DOut σ β) : (DOut.ok a s).bind f = f a s := rfl

/-! ## Literals -/

/-- Operands without effects always evaluate. -/
theorem inert_args {K : String → Bool} {ρ : Env σ} (hp : PlainEnv K ρ) : ∀ (es : Srcs σ) (s : SS σ), AllInert r K es →
    ∃ ys, denArgs r.cfg (toExprs r es) ρ s = .ok ys s
  | .nil, s, _ => ⟨[], by simp only [toExprs, denArgs]⟩
  | .cons e es, s, h => by
    obtain ⟨y, hy⟩ := h.1 ρ s hp
    obtain ⟨ys, hys⟩ := inert_args hp es s h.2
    exact ⟨y :: ys, by simp only [toExprs, denArgs, hy, out_ok, hys]⟩

theorem TailInert.next {K : String → Bool} {es : Srcs σ} (h : AllInert r K es) : TailInert r K es := by
  cases es with
  | nil => trivial
  | cons e es => exact h.2

/-- Outcome of a literal that ends with `p`. -/
def resOut (cur : Trail) (s : DS σ) : Res Value → DOut σ VA
  | .ok v => .ok ⟨v, cur⟩ s
  | .err e => .err e s.host
  | .ub => .ub

/-- The end of a literal, as outcomes. -/
theorem concl_rv {Γ : DScope σ} {ρ : Env σ} {n N : Nat} {sl : Slots} {s : SS σ} {cur : Trail}
    {p : Res Value} {q : Res VA} {o : DOut σ VA}
    (hi : InvD r.c.unknowns Γ ρ n N sl s.heap) (hpq : RV r.c.unknowns p (q.bind fun x => .ok x.v))
    (ho : o = resOut cur ⟨s.host, s.count, sl⟩ p) :
    ConclD r.c.unknowns Γ ρ n N (VAR r.c.unknowns) sl s.heap o (lift (q, s.host) s) := by
  subst ho
  cases p with
  | ok v => cases q with
    | ok w => exact ConclD.ok hpq rfl rfl hi ChgD.refl
    | err e => exact hpq.elim
    | ub => exact hpq.elim
  | err e => cases q with
    | ok w => exact hpq.elim
    | err e => exact ⟨hpq, rfl⟩
    | ub => exact hpq.elim
  | ub => cases q with
    | ok w => exact hpq.elim
    | err e => exact hpq.elim
    | ub => trivial

theorem listStep_val (c : StepCfg) (opt : Nat → Bool) (xs : List VA) :
    ((listStep c opt xs).bind fun x => .ok x.v) = listEval c opt xs := by
  unfold listStep
  cases listEval c opt xs <;> rfl

theorem mapStep_val (c : StepCfg) (opt : Nat → Bool) (xs : List VA) :
    ((mapStep c opt xs).bind fun x => .ok x.v) = mapEval c opt xs := by
  unfold mapStep
  cases mapEval c opt xs <;> rfl

theorem spine_list2 {k : Nat} {opt : Nat → Bool} {d d2 : DStep σ} {ds : DSteps σ} :
    spineSafe k (.list opt (.cons d (.cons d2 ds))) = false := by
  simp only [spineSafe]

theorem sim_listFrom (hr : RunOK r) (opt : Nat → Bool) : ∀ (es : Srcs σ), SimAll r es →
    ∀ (Γ : DScope σ) (ρ : Env σ) (ini : Bool) (n N : Nat) (K : String → Bool), WF (sc Γ) n → GoodD r Γ ρ →
    PlainEnv K ρ → Adms r K es → aliasSafes (planDs Γ ini n es) = true → n + es.width ≤ N →
    ∀ (ys0 : List VA) (acc : Option UnknownSet) (out : List Value), ListInv r.c opt (ys0.map VA.v) acc out →
    OptLast opt ys0.length es → TailInert r K es →
    ∀ (av : Option Nat) (cur tmp : Trail) (sl : Slots) (s : SS σ),
    (∀ k, av = some k → spineSafe k (.list opt (planDs Γ ini n es)) = true) →
    InvD r.c.unknowns Γ ρ n N sl s.heap →
    ConclD r.c.unknowns Γ ρ n N (VAR r.c.unknowns) sl s.heap
      (devList r opt (planDs Γ ini n es) av cur ys0.length acc out tmp ⟨s.host, s.count, sl⟩)
      ((denArgs r.cfg (toExprs r es) ρ s).bind fun xs s => lift (opR (listStep r.c opt) (ys0 ++ xs) s.host) s)
  | .nil, _, Γ, ρ, ini, n, N, K, wf, hg, hp, ha, hal, hN, ys0, acc, out, inv, _, _, av, cur, tmp, sl, s, hs, hi => by
    simp only [planDs, devList, toExprs, denArgs, out_ok, List.append_nil, opR]
    have he := list_end hr.quiet inv (xs := ys0) rfl
    rw [← listStep_val] at he
    refine concl_rv (cur := cur) hi he ?_
    cases acc <;> rfl
  | .cons e es, hsim, Γ, ρ, ini, n, N, K, wf, hg, hp, ha, hal, hN, ys0, acc, out, inv, hop, hti, av, cur, tmp, sl, s, hs, hi => by
    simp only [planDs, devList, toExprs, denArgs, aliasSafes, Srcs.width, Adms, Bool.and_eq_true, out_assoc, out_ok] at *
    have haf := after_ge ini n e
    have hav : ∀ k, av = some k → spineSafe k (planD Γ ini n e) = true ∧ es = .nil := by
      intro k hk
      have := hs k hk
      cases es with
      | nil => exact ⟨by simpa only [planDs, spineSafe] using this, rfl⟩
      | cons e2 es2 => simp only [planDs, spineSafe] at this; cases this
    refine ConclD.bind (Nat.le_refl n) wf hi (hsim.1 Γ ρ ini n N K wf hg hp ha.1 hal.1 (by omega) av none tmp sl s
      (fun k hk => (hav k hk).1) hi) ?_
    intro x y s1 sl1 ho hxy hi1 _
    have hlen : (ys0.map VA.v).length = ys0.length := by simp
    cases es with
    | nil =>
      have hl := list_last hr.quiet inv hxy (xs := ys0 ++ [y]) (by simp)
      rw [← listStep_val, hlen] at hl
      simp only [planDs, toExprs, denArgs, out_ok, opR]
      refine concl_rv (cur := cur) hi1 hl ?_
      cases listNext r.c opt ys0.length acc out x with
      | done v => rfl
      | fail e => rfl
      | more acc' out' => cases acc' <;> rfl
    | cons e2 es2 =>
      have hopt : opt ys0.length = false := by
        rcases hop.1 with h | h
        · cases h
        · exact h
      have hnone : av = none := by
        cases hav' : av with
        | none => rfl
        | some k => have := (hav k hav').2; cases this
      have hnx := list_next hr.quiet inv hxy (by rw [hlen]; exact hopt)
      rw [hlen] at hnx
      rcases hnx with ⟨s', t', hye, hn, hst⟩ | ⟨acc', out', hn, inv'⟩
      · rw [hn]
        obtain ⟨ys, hys⟩ := inert_args hp (.cons e2 es2) s1 hti
        rw [hys]
        simp only [out_ok, opR]
        rw [(C47_literal_error r.c opt (ys0 ++ y :: ys) (ys0.map VA.v) (ys.map VA.v) t' (by simp [hye]) inv.noErr).1]
        exact ConclD.ok (VR.err hst) rfl rfl hi1 ChgD.refl
      · rw [hn]
        simp only
        have hw : wrNext (planDs Γ ini (e.after ini n) (.cons e2 es2)) av x.v sl1 = sl1 := by
          rw [hnone]; simp only [planDs]; rfl
        rw [hw]
        have hih := sim_listFrom hr opt (.cons e2 es2) hsim.2 Γ ρ ini (e.after ini n) N K (wf.mono haf.1) hg hp ha.2 hal.2
          (by omega) (ys0 ++ [y]) acc' out' (by simpa using inv') (by simpa using hop.2) (TailInert.next hti) av cur x.t sl1 s1
          (fun k hk => by rw [hnone] at hk; cases hk) (hi1.mono haf.1)
        have hl2 : (ys0 ++ [y]).length = ys0.length + 1 := by simp
        rw [hl2] at hih
        have := ConclD.mono haf.1 wf hi1 hih
        simpa only [List.append_assoc, List.singleton_append] using this

theorem sim_list (hr : RunOK r) {opt : Nat → Bool} {args : Srcs σ} (ih : SimAll r args) : SimExpr r (.list opt args) := by
  intro Γ ρ ini n N K wf hg hp ha hal hN av at' cur sl s hs hi
  simp only [planD, aliasSafe, Src.width, Adm] at *
  simp only [dev, toExpr, den]
  exact sim_listFrom hr opt args ih Γ ρ ini n N K wf hg hp ha.2.2 hal hN [] none [] (list_start opt) ha.1 ha.2.1
    av cur none sl s hs hi

theorem sim_mapFrom (hr : RunOK r) (opt : Nat → Bool) : ∀ (es : Srcs σ), SimAll r es →
    ∀ (Γ : DScope σ) (ρ : Env σ) (ini : Bool) (n N : Nat) (K : String → Bool), WF (sc Γ) n → GoodD r Γ ρ →
    PlainEnv K ρ → Adms r K es → aliasSafes (planDs Γ ini n es) = true → n + es.width ≤ N →
    ∀ (ys0 : List VA) (en : List (Value × Value)) (acc : Option UnknownSet) (out : List (Value × Value)),
    ys0.map VA.v = layout en → MapInv r.c opt en acc out → EntriesOK r K opt (en.map Prod.fst) es →
    ∀ (cur tmp : Trail) (sl : Slots) (s : SS σ), InvD r.c.unknowns Γ ρ n N sl s.heap →
    ConclD r.c.unknowns Γ ρ n N (VAR r.c.unknowns) sl s.heap
      (devMap r opt (planDs Γ ini n es) cur en.length acc out none tmp ⟨s.host, s.count, sl⟩)
      ((denArgs r.cfg (toExprs r es) ρ s).bind fun xs s => lift (opR (mapStep r.c opt) (ys0 ++ xs) s.host) s)
  | .nil, _, Γ, ρ, ini, n, N, K, wf, hg, hp, ha, hal, hN, ys0, en, acc, out, hy0, inv, _, cur, tmp, sl, s, hi => by
    simp only [planDs, devMap, toExprs, denArgs, out_ok, List.append_nil, opR]
    have he := map_end hr.quiet inv (xs := ys0) hy0
    rw [← mapStep_val] at he
    refine concl_rv (cur := cur) hi he ?_
    cases acc <;> rfl
  | .cons k .nil, _, Γ, ρ, ini, n, N, K, wf, hg, hp, ha, hal, hN, ys0, en, acc, out, hy0, inv, he, cur, tmp, sl, s, hi => by
    simp only [EntriesOK] at he
  | .cons k (.cons e es), hsim, Γ, ρ, ini, n, N, K, wf, hg, hp, ha, hal, hN, ys0, en, acc, out, hy0, inv, he, cur, tmp, sl, s, hi => by
    simp only [EntriesOK] at he
    obtain ⟨⟨kv, hk, hkk, hkd, hrest⟩, hop, hti⟩ := he
    subst hk
    have hks : (Src.const kv : Src σ).after ini n = n := by unfold Src.after Src.width; split <;> omega
    simp only [planDs, planD, dev, devMap, toExprs, toExpr, denArgs, den, aliasSafes, Srcs.width, Adms, Bool.and_eq_true,
      out_assoc, out_ok, dout_ok, hks, map_key hr.quiet hkk] at *
    have haf := after_ge ini n e
    refine ConclD.bind (Nat.le_refl n) wf hi (hsim.2.1 Γ ρ ini n N K wf hg hp ha.2.1 hal.2.1 (by omega) none none tmp sl s
      (fun k hk => (by cases hk)) hi) ?_
    intro x y s1 sl1 ho hxy hi1 _
    have hkd' : ∀ p ∈ en, keyEq p.1 kv = false := fun p hp => hkd p.1 (List.mem_map_of_mem hp)
    have hlen : (en.map Prod.fst).length = en.length := by simp
    rw [hlen] at hop
    cases es with
    | nil =>
      have hl := map_last hr.quiet inv hkk hkd' hxy (xs := ys0 ++ [⟨kv, none⟩, y]) (by simp [hy0, layout])
      rw [← mapStep_val] at hl
      simp only [planDs, toExprs, denArgs, out_ok, opR, devMap]
      refine concl_rv (cur := cur) hi1 hl ?_
      cases mapValNext r.c opt en.length acc out kv x with
      | done v => rfl
      | fail e => rfl
      | more acc' out' => cases acc' <;> rfl
    | cons e2 es2 =>
      have hopt : opt en.length = false := by
        rcases hop with h | h
        · cases h
        · exact h
      rcases map_next hr.quiet inv hkk hkd' hxy hopt with ⟨s', t', hye, hn, hst⟩ | ⟨acc', out', hn, inv'⟩
      · rw [hn]
        obtain ⟨ys, hys⟩ := inert_args hp (.cons e2 es2) s1 hti
        rw [hys]
        simp only [out_ok, opR]
        rw [(C47_literal_error r.c opt (ys0 ++ ⟨kv, none⟩ :: y :: ys) (layout en ++ [kv]) (ys.map VA.v) t'
          (by simp [hye, hy0]) (fun v hv => by
            rcases List.mem_append.1 hv with hv | hv
            · exact inv.noErr v hv
            · rw [List.mem_singleton.1 hv]; exact (keyKind_plain hkk).1)).2]
        exact ConclD.ok (VR.err hst) rfl rfl hi1 ChgD.refl
      · rw [hn]
        simp only
        have hih := sim_mapFrom hr opt (.cons e2 es2) hsim.2.2 Γ ρ ini (e.after ini n) N K (wf.mono haf.1) hg hp ha.2.2 hal.2.2
          (by omega) (ys0 ++ [⟨kv, none⟩, y]) (en ++ [(kv, y.v)]) acc' out' (by simp [hy0, layout]) inv'
          (by simpa using hrest) cur none sl1 s1 (hi1.mono haf.1)
        have hl2 : (en ++ [(kv, y.v)]).length = en.length + 1 := by simp
        rw [hl2] at hih
        have := ConclD.mono haf.1 wf hi1 hih
        simpa only [List.append_assoc, List.singleton_append, List.cons_append, List.nil_append] using this

theorem sim_map (hr : RunOK r) {opt : Nat → Bool} {args : Srcs σ} (ih : SimAll r args) : SimExpr r (.map opt args) := by
  intro Γ ρ ini n N K wf hg hp ha hal hN av at' cur sl s hs hi
  simp only [planD, aliasSafe, Src.width, Adm] at *
  simp only [dev, toExpr, den]
  exact sim_mapFrom hr opt args ih Γ ρ ini n N K wf hg hp ha.2 hal hN [] [] none [] rfl (map_start opt) ha.1
    cur none sl s hi

/-! ## Comprehensions -/

theorem sc_loop (iter : String) (iter2 : Option String) (accu : String) (n ka : Nat) (Γ : DScope σ) :
    sc (diterScope iter iter2 n ++ (accu, .val ka) :: Γ) = iterScope iter iter2 n ++ (accu, .val ka) :: sc Γ := by
  cases iter2 <;> rfl

theorem goodD_loop {iter : String} {iter2 : Option String} {accu : String} {n ka : Nat} {t : Trail}
    {it : Item} {a : VA} {Γ : DScope σ} {ρ : Env σ} (hg : GoodD r Γ ρ) :
    GoodD r (diterScope iter iter2 n ++ (accu, .val ka) :: Γ)
      (iterBinds r.cfg iter iter2 t it ++ (accu, .val a) :: ρ) := by
  cases iter2 <;> exact hg

/-- Setting the iteration variables establishes the extended relation. -/
theorem relD_loop (hr : RunOK r) {iter : String} {iter2 : Option String} {accu : String} {n : Nat} {t t' : Trail}
    {it : Item} {a : VA} {v : Value} {Γ : DScope σ} {ρ : Env σ} {sl : Slots} {h : List (Option VA)}
    (wf : WF (sc Γ) n) (hrel : RelD r.c.unknowns Γ ρ sl h)
    (hit : Fine r.c.unknowns it.key ∧ Fine r.c.unknowns it.val ∧ Fine r.c.unknowns it.one)
    (hv : sv sl (n + iterSlots iter2) = some v) (hva : VR r.c.unknowns v a.v) :
    RelD r.c.unknowns (diterScope iter iter2 n ++ (accu, .val (n + iterSlots iter2)) :: Γ)
      (iterBinds r.cfg iter iter2 t' it ++ (accu, .val a) :: ρ)
      (setIter r.c.unknowns r.c.pats sl n (slot2 iter2 n) t it) h := by
  cases iter2 with
  | none =>
    refine ⟨rfl, ⟨it.one, ?_, ?_⟩, rfl, ⟨v, ?_, hva⟩, ?_⟩
    · simp only [setIter, slot2]
      rw [sv_upd_eq rfl]
      exact congrArg some (item1_val hr.quiet t it)
    · show VR _ it.one (item1 r.c.unknowns r.c.pats t' it).v
      rw [item1_val hr.quiet t' it]; exact VR.refl hit.2.2
    · simp only [setIter, slot2]
      rw [sv_upd_ne (by simp only [iterSlots_none]; omega)]
      exact hv
    · refine hrel.frame wf (fun j hj => ?_) (fun _ _ => rfl)
      simp only [setIter, slot2]
      rw [sv_upd_ne (by omega)]
  | some y =>
    refine ⟨rfl, ⟨it.key, ?_, ?_⟩, rfl, ⟨it.val, ?_, ?_⟩, rfl, ⟨v, ?_, hva⟩, ?_⟩
    · simp only [setIter, slot2]
      rw [sv_upd_ne (by omega), sv_upd_eq rfl]
      exact congrArg some (item2_val hr.quiet t it).1
    · show VR _ it.key (item2 r.c.unknowns r.c.pats t' it).1.v
      rw [(item2_val hr.quiet t' it).1]; exact VR.refl hit.1
    · simp only [setIter, slot2]
      rw [sv_upd_eq rfl]
      exact congrArg some (item2_val hr.quiet t it).2
    · show VR _ it.val (item2 r.c.unknowns r.c.pats t' it).2.v
      rw [(item2_val hr.quiet t' it).2]; exact VR.refl hit.2.1
    · simp only [setIter, slot2]
      rw [sv_upd_ne (by simp only [iterSlots_some]; omega), sv_upd_ne (by simp only [iterSlots_some]; omega)]
      exact hv
    · refine hrel.frame wf (fun j hj => ?_) (fun _ _ => rfl)
      simp only [setIter, slot2]
      rw [sv_upd_ne (by omega), sv_upd_ne (by omega)]

/-- The extended relation contains the accumulator and the outer relation. -/
theorem relD_unloop {unk : Bool} {iter : String} {iter2 : Option String} {accu : String} {n ka : Nat} {t : Trail}
    {it : Item} {a : VA} {Γ : DScope σ} {ρ : Env σ} {sl : Slots} {h : List (Option VA)}
    (hr : RelD unk (diterScope iter iter2 n ++ (accu, .val ka) :: Γ)
      (iterBinds r.cfg iter iter2 t it ++ (accu, .val a) :: ρ) sl h) :
    (∃ v, sv sl ka = some v ∧ VR unk v a.v) ∧ RelD unk Γ ρ sl h := by
  cases iter2 with
  | none => exact ⟨hr.2.2.2.1, hr.2.2.2.2⟩
  | some y => exact ⟨hr.2.2.2.2.2.1, hr.2.2.2.2.2.2⟩

theorem chgD_loop {iter : String} {iter2 : Option String} {accu : String} {n ka n' N : Nat} {t : Trail}
    {it : Item} {a : VA} {Γ : DScope σ} {ρ : Env σ} {sl sl' : Slots} {h h' : List (Option VA)}
    (hc : ChgD (diterScope iter iter2 n ++ (accu, .val ka) :: Γ)
      (iterBinds r.cfg iter iter2 t it ++ (accu, .val a) :: ρ) n' N sl h sl' h') :
    ChgD Γ ρ n' N sl h sl' h' :=
  ⟨fun j h1 h2 => hc.1 j h1 (fun hf => h2 (by rw [sc_loop] at hf; exact (fp_loop ..).1 hf)), hc.2.1,
   fun c h1 => hc.2.2 c (fun hf => h1 ((cells_loop ..).1 hf))⟩

theorem svIter_ne {u : Bool} {pats : List Pattern} {sl : Slots} {n j : Nat} {iter2 : Option String} {t : Trail} {it : Item}
    (hj : ¬ (n ≤ j ∧ j < n + iterSlots iter2)) : sv (setIter u pats sl n (slot2 iter2 n) t it) j = sv sl j := by
  cases iter2 with
  | none =>
    simp only [iterSlots_none] at hj
    simp only [setIter, slot2]
    rw [sv_upd_ne (by omega)]
  | some y =>
    simp only [iterSlots_some] at hj
    simp only [setIter, slot2]
    rw [sv_upd_ne (by omega), sv_upd_ne (by omega)]

/-- Outcomes of the loops. -/
def LoopC (unk : Bool) (Γ : DScope σ) (ρ : Env σ) (n N ka : Nat) (sl : Slots) (h : List (Option VA))
    (o : DOut σ DEnd) (o' : Out σ LoopEnd) : Prop :=
  match o, o' with
  | .ok e s', .ok e' s => s'.host = s.host ∧ s'.count = s.count ∧ InvD unk Γ ρ (ka + 1) N s'.slots s.heap ∧
      ChgD Γ ρ n N sl h s'.slots s.heap ∧
      match e, e' with
      | .result, .accu a => ∃ v, sv s'.slots ka = some v ∧ VR unk v a.v
      | .stop v, .stop x => VR unk v x.v
      | _, _ => False
  | .err e x, .err e' y => StSim e e' ∧ x = y
  | .ub, .ub => True
  | _, _ => False

theorem LoopC.pre {unk : Bool} {Γ : DScope σ} {ρ : Env σ} {n N ka : Nat} {sl sl' : Slots} {h h' : List (Option VA)}
    {o : DOut σ DEnd} {o' : Out σ LoopEnd} (hc : ChgD Γ ρ n N sl h sl' h') (hl : LoopC unk Γ ρ n N ka sl' h' o o') :
    LoopC unk Γ ρ n N ka sl h o o' := by
  cases o with
  | err e x => cases o' <;> exact hl
  | ub => cases o' <;> exact hl
  | ok e s' =>
    cases o' with
    | err e' y => exact hl
    | ub => exact hl
    | ok e' s => exact ⟨hl.1, hl.2.1, hl.2.2.1, hc.trans hl.2.2.2.1, hl.2.2.2.2⟩

theorem sim_loopD (hr : RunOK r) {Γ : DScope σ} {ρ : Env σ} {iter accu : String} {iter2 : Option String}
    {n N n2 n3 : Nat} (wf : WF (sc Γ) n) (hN : n + iterSlots iter2 + 1 ≤ N)
    (hn2 : n + iterSlots iter2 + 1 ≤ n2) (hn3 : n2 ≤ n3) {rt rt' : Trail} {dc ds : DStep σ}
    {condF stepF : Item → VA → SS σ → Out σ VA} (hsp : spineSafe (n + iterSlots iter2) ds = true)
    (simC : ∀ it a, SimD r (diterScope iter iter2 n ++ (accu, .val (n + iterSlots iter2)) :: Γ)
      (iterBinds r.cfg iter iter2 rt' it ++ (accu, .val a) :: ρ) n2 N dc (condF it a))
    (simS : ∀ it a, SimD r (diterScope iter iter2 n ++ (accu, .val (n + iterSlots iter2)) :: Γ)
      (iterBinds r.cfg iter iter2 rt' it ++ (accu, .val a) :: ρ) n3 N ds (stepF it a)) :
    ∀ (l : List Item) (a : VA) (v : Value) (ct : Trail) (sl : Slots) (s : SS σ), ItemsFine r.c.unknowns l →
      InvD r.c.unknowns Γ ρ (n + iterSlots iter2 + 1) N sl s.heap → sv sl (n + iterSlots iter2) = some v →
      VR r.c.unknowns v a.v →
      LoopC r.c.unknowns Γ ρ n N (n + iterSlots iter2) sl s.heap
        (dloop r n (slot2 iter2 n) (n + iterSlots iter2) rt (fun ct s => dev r dc none none ct s)
          (fun s => dev r ds (some (n + iterSlots iter2)) (some (n + iterSlots iter2))
            ((s.slots (n + iterSlots iter2)).bind VA.t) s) l ct ⟨s.host, s.count, sl⟩)
        (loop r.cfg condF stepF l a s) := by
  generalize hka : n + iterSlots iter2 = ka at *
  have hnf : ∀ j, n ≤ j → ¬ FP (sc Γ) j := fun j hj hf => by have := wf.fp hf; omega
  intro l
  induction l with
  | nil =>
    intro a v ct sl s _ hi hv hva
    exact ⟨rfl, rfl, hi, ChgD.refl, v, hv, hva⟩
  | cons it l ih =>
    intro a v ct sl s hit hi hv hva
    simp only [dloop, loop]
    show LoopC r.c.unknowns Γ ρ n N ka sl s.heap (match tick r.maxIter s.count with | none => _ | some n => _)
      (match tick r.maxIter s.count with | none => _ | some n => _)
    cases htk : tick r.maxIter s.count with
    | none => exact ⟨.refl _, rfl⟩
    | some cnt =>
      simp only
      generalize hsl1 : setIter r.c.unknowns r.c.pats sl n (slot2 iter2 n) rt it = sl1
      have hrel1 := relD_loop hr (iter := iter) (iter2 := iter2) (accu := accu) (t := rt) (t' := rt') wf hi.1
        (hit it List.mem_cons_self) (by rw [hka]; exact hv) hva
      rw [hsl1, hka] at hrel1
      have hne : ∀ j, ¬ (n ≤ j ∧ j < ka) → sv sl1 j = sv sl j := by
        intro j hj; rw [← hsl1]; exact svIter_ne (by rw [hka]; exact hj)
      have hch1 : ChgD Γ ρ n N sl s.heap sl1 s.heap :=
        ⟨fun j h1 h2 => hne j (by omega), rfl, fun _ _ => rfl⟩
      have hC := simC it a none none ct sl1 ⟨s.host, cnt, s.heap⟩ (fun k hk => by cases hk)
        ⟨hrel1, fun j h1 h2 => by rw [hne j (by omega)]; exact hi.2 j (by omega) h2⟩
      refine LoopC.pre hch1 ?_
      revert hC
      cases hod : dev r dc none none ct ⟨s.host, cnt, sl1⟩ with
      | err e x =>
        cases hcd : condF it a ⟨s.host, cnt, s.heap⟩ with
        | err e' y => exact fun hC => hC
        | ok _ _ => exact fun hC => hC.elim
        | ub => exact fun hC => hC.elim
      | ub =>
        cases hcd : condF it a ⟨s.host, cnt, s.heap⟩ with
        | err e' y => exact fun hC => hC.elim
        | ok _ _ => exact fun hC => hC.elim
        | ub => exact fun _ => trivial
      | ok x s' =>
        cases hcd : condF it a ⟨s.host, cnt, s.heap⟩ with
        | err e' y => exact fun hC => hC.elim
        | ub => exact fun hC => hC.elim
        | ok y s2 =>
          rintro ⟨hxy, hh, hcn, hi2, hch2⟩
          obtain ⟨x', c', sl2⟩ := s'
          simp only at hh hcn hi2 hch2
          subst hh; subst hcn
          have hch2' := chgD_loop hch2
          obtain ⟨⟨v2, hv2, hva2⟩, hrel2⟩ := relD_unloop hi2.1
          have hi2' : InvD r.c.unknowns Γ ρ (ka + 1) N sl2 s2.heap := by
            refine ⟨hrel2, fun j h1 h2 => ?_⟩
            by_cases hj : n2 ≤ j
            · exact hi2.2 j hj h2
            · rw [hch2'.1 j (by omega) (hnf j (by omega)), hne j (by omega)]
              exact hi.2 j h1 h2
          simp only [out_ok, dout_ok]
          show LoopC r.c.unknowns Γ ρ n N ka sl1 s.heap (match condOf r.shortCircuit x with
            | .stop y => _ | .brk => _ | .go => _) (match condOf r.shortCircuit y with
            | .stop y => _ | .brk => _ | .go => _)
          have hcr := cond_rel r.shortCircuit hxy
          revert hcr
          generalize condOf r.shortCircuit x = p
          generalize condOf r.shortCircuit y = q
          intro hcr
          cases hcr with
          | stop p q hpq => exact ⟨rfl, rfl, hi2', hch2'.mono (by omega), hpq⟩
          | brk => exact ⟨rfl, rfl, hi2', hch2'.mono (by omega), v2, hv2, hva2⟩
          | go =>
            simp only
            have hS := simS it a (some ka) (some ka) ((sl2 ka).bind VA.t) sl2 s2
              (fun k hk => by cases hk; exact hsp) (hi2.mono hn3)
            refine LoopC.pre (hch2'.mono (by omega)) ?_
            revert hS
            cases hod2 : dev r ds (some ka) (some ka) ((sl2 ka).bind VA.t) ⟨s2.host, s2.count, sl2⟩ with
            | err e x =>
              cases hcd : stepF it a s2 with
              | err e' y => exact fun hC => hC
              | ok _ _ => exact fun hC => hC.elim
              | ub => exact fun hC => hC.elim
            | ub =>
              cases hcd : stepF it a s2 with
              | err e' y => exact fun hC => hC.elim
              | ok _ _ => exact fun hC => hC.elim
              | ub => exact fun _ => trivial
            | ok x3 s3' =>
              cases hcd : stepF it a s2 with
              | err e' y => exact fun hC => hC.elim
              | ub => exact fun hC => hC.elim
              | ok y3 s3 =>
                rintro ⟨hxy3, hh, hcn, hi3, hch3⟩
                obtain ⟨x', c', sl3⟩ := s3'
                simp only at hh hcn hi3 hch3
                subst hh; subst hcn
                have hch3' := chgD_loop hch3
                obtain ⟨_, hrel3⟩ := relD_unloop hi3.1
                simp only [out_ok, dout_ok]
                have hch4 : ChgD Γ ρ n N sl2 s2.heap (upd sl3 ka (some x3)) s3.heap :=
                  (hch3'.mono (by omega)).upd _ (by omega) (by omega)
                refine LoopC.pre hch4 (ih y3 x3.v x.t (upd sl3 ka (some x3)) s3
                  (fun it hit' => hit it (List.mem_cons_of_mem _ hit')) ⟨?_, ?_⟩ ?_ hxy3)
                · exact hrel3.frame wf (fun j hj => sv_upd_ne (by omega)) (fun _ _ => rfl)
                · intro j h1 h2
                  rw [sv_upd_ne (by omega)]
                  by_cases hj : n3 ≤ j
                  · exact hi3.2 j hj h2
                  · rw [hch3'.1 j (by omega) (hnf j (by omega))]
                    exact hi2'.2 j h1 h2
                · exact sv_upd_eq rfl

end

end Cel.Direct
