import Verif.Direct.Loops
import Verif.Eval.PlanProps

/-!
# C23: recursive evaluation agrees with the stack machine
-/

set_option linter.unusedSimpArgs false
set_option linter.unusedVariables false

namespace Cel.Direct
open Cel Cel.Num Cel.Eval Cel.Data

section
variable {σ : Type} {r : RCfg σ}

theorem sv_clear {sl : Slots} {n j : Nat} {iter2 : Option String} :
    sv (clearOpt (upd sl n none) (slot2 iter2 n)) j =
      if n ≤ j ∧ j < n + iterSlots iter2 then none else sv sl j := by
  by_cases hj : n ≤ j ∧ j < n + iterSlots iter2
  · rw [if_pos hj]
    cases iter2 with
    | none =>
      simp only [iterSlots_none] at hj
      simp only [clearOpt, slot2]
      rw [sv_upd_eq (by omega)]; rfl
    | some y =>
      simp only [iterSlots_some] at hj
      simp only [clearOpt, slot2]
      by_cases h1 : j = n + 1
      · rw [sv_upd_eq h1]; rfl
      · rw [sv_upd_ne h1, sv_upd_eq (by omega)]; rfl
  · rw [if_neg hj]
    cases iter2 with
    | none =>
      simp only [iterSlots_none] at hj
      simp only [clearOpt, slot2]
      rw [sv_upd_ne (by omega)]
    | some y =>
      simp only [iterSlots_some] at hj
      simp only [clearOpt, slot2]
      rw [sv_upd_ne (by omega), sv_upd_ne (by omega)]

theorem sim_comp (hr : RunOK r) {iter : String} {iter2 : Option String} {accu : String} {range init cnd stp res : Src σ}
    (ih0 : SimExpr r range) (ih1 : SimExpr r init) (ih2 : SimExpr r cnd) (ih3 : SimExpr r stp) (ih4 : SimExpr r res) :
    SimExpr r (.comp iter iter2 accu range init cnd stp res) := by
  intro Γ ρ ini n N K wf hg hp ha hal hN av at' cur sl s hs hi
  simp only [planD, aliasSafe, spineSafe, Src.width, Adm, Bool.and_eq_true] at *
  obtain ⟨hsp, hal0, hal1, hal2, hal3, hal4⟩ := hal
  obtain ⟨ha0, ha1, ha2, ha3, ha4⟩ := ha
  have hnf : ∀ j, n ≤ j → ¬ FP (sc Γ) j := fun j hj hf => by have := wf.fp hf; omega
  have hf0 := after_ge ini (n + iterSlots iter2 + 1) range
  generalize hn1 : range.after ini (n + iterSlots iter2 + 1) = n1 at *
  have hf1 := after_ge ini n1 init
  generalize hn2 : init.after ini n1 = n2 at *
  have hf2 := after_ge ini n2 cnd
  generalize hn3 : cnd.after ini n2 = n3 at *
  have hf3 := after_ge ini n3 stp
  generalize hn4 : stp.after ini n3 = n4 at *
  simp only [dev, toExpr, den]
  refine ConclD.bind (by omega : n ≤ n + iterSlots iter2 + 1) wf hi
    (ih0 Γ ρ ini _ N K (wf.mono (by omega)) hg hp ha0 hal0 (by omega) none none none sl s
      (fun k hk => (by cases hk)) (hi.mono (by omega))) ?_
  intro x y s1 sl1 _ hxy hi1 _
  show ConclD r.c.unknowns Γ ρ n N (VAR r.c.unknowns) sl1 s1.heap
    (match rangeOf r.c.unknowns r.c.pats x with | .stop y => _ | .items l => _)
    (match rangeOf r.c.unknowns r.c.pats y with | .stop y => _ | .items l => _)
  have hrg := range_rel hr.quiet hxy
  revert hrg
  generalize rangeOf r.c.unknowns r.c.pats x = p
  generalize rangeOf r.c.unknowns r.c.pats y = q
  intro hrg
  cases hrg with
  | stop a b hab => exact ConclD.ok hab rfl rfl hi1 ChgD.refl
  | items l hl =>
    simp only
    refine ConclD.bind (by omega : n ≤ n1) wf hi1
      (ih1 Γ ρ ini _ N K (wf.mono (by omega)) hg hp ha1 hal1 (by omega) none none none sl1 s1
        (fun k hk => (by cases hk)) (hi1.mono (by omega))) ?_
    intro a b s2 sl2 _ hab hi2 _
    have simC : ∀ it a', SimD r (diterScope iter iter2 n ++ (accu, .val (n + iterSlots iter2)) :: Γ)
        (iterBinds r.cfg iter iter2 y.t it ++ (accu, .val a') :: ρ) n2 N
        (planD (diterScope iter iter2 n ++ (accu, .val (n + iterSlots iter2)) :: Γ) ini n2 cnd)
        (fun s => den r.cfg (toExpr r cnd) (iterBinds r.cfg iter iter2 y.t it ++ (accu, .val a') :: ρ) s) :=
      fun it a' => ih2 _ _ ini n2 N _ (by rw [sc_loop]; exact wf_loop wf (by omega)) (goodD_loop hg)
        (hp.loop r.cfg iter iter2 accu y.t it a') ha2 hal2 (by omega)
    have simS : ∀ it a', SimD r (diterScope iter iter2 n ++ (accu, .val (n + iterSlots iter2)) :: Γ)
        (iterBinds r.cfg iter iter2 y.t it ++ (accu, .val a') :: ρ) n3 N
        (planD (diterScope iter iter2 n ++ (accu, .val (n + iterSlots iter2)) :: Γ) ini n3 stp)
        (fun s => den r.cfg (toExpr r stp) (iterBinds r.cfg iter iter2 y.t it ++ (accu, .val a') :: ρ) s) :=
      fun it a' => ih3 _ _ ini n3 N _ (by rw [sc_loop]; exact wf_loop wf (by omega)) (goodD_loop hg)
        (hp.loop r.cfg iter iter2 accu y.t it a') ha3 hal3 (by omega)
    have hL := sim_loopD hr (rt := x.t) wf (by omega : n + iterSlots iter2 + 1 ≤ N) (by omega : n + iterSlots iter2 + 1 ≤ n2)
      hf2.1 hsp simC simS l b a.v none (upd sl2 (n + iterSlots iter2) (some a)) s2 hl
      ⟨hi2.1.frame wf (fun j hj => sv_upd_ne (by omega)) (fun _ _ => rfl),
        fun j h1 h2 => by rw [sv_upd_ne (by omega)]; exact hi2.2 j (by omega) h2⟩ (sv_upd_eq rfl) hab
    generalize hka : n + iterSlots iter2 = ka at *
    generalize hl1 : loop r.cfg (fun it a s => den r.cfg (toExpr r cnd) (iterBinds r.cfg iter iter2 y.t it ++ (accu, .val a) :: ρ) s)
      (fun it a s => den r.cfg (toExpr r stp) (iterBinds r.cfg iter iter2 y.t it ++ (accu, .val a) :: ρ) s) l b s2 = o' at *
    revert hL
    generalize (dloop r n (slot2 iter2 n) ka x.t _ _ l none _) = o
    intro hL
    cases o with
    | err e h =>
      cases o' with
      | err e' h' => exact hL
      | ok _ _ => exact hL.elim
      | ub => exact hL.elim
    | ub =>
      cases o' with
      | err e' h' => exact hL.elim
      | ok _ _ => exact hL.elim
      | ub => trivial
    | ok e s3' =>
      cases o' with
      | err e' h' => exact hL.elim
      | ub => exact hL.elim
      | ok e' s3 =>
        obtain ⟨hh, hcn, hi3, hch3, hend⟩ := hL
        obtain ⟨x', c', sl3⟩ := s3'
        simp only at hh hcn hi3 hch3 hend
        subst hh; subst hcn
        have hch3' : ChgD Γ ρ n N sl2 s2.heap sl3 s3.heap :=
          ⟨fun j h1 h2 => by rw [hch3.1 j h1 h2, sv_upd_ne (by omega)], hch3.2⟩
        simp only [dout_ok, out_ok]
        have hclr : ∀ j, sv (clearOpt (upd sl3 n none) (slot2 iter2 n)) j = if n ≤ j ∧ j < ka then none else sv sl3 j := by
          intro j; rw [sv_clear, hka]
        have hchc : ChgD Γ ρ n N sl2 s2.heap (clearOpt (upd sl3 n none) (slot2 iter2 n)) s3.heap :=
          ⟨fun j h1 h2 => by rw [hclr, if_neg (by omega)]; exact hch3'.1 j h1 h2, hch3'.2⟩
        cases e with
        | stop v =>
          cases e' with
          | accu _ => exact hend.elim
          | stop w =>
            simp only
            refine ConclD.ok hend rfl rfl ⟨?_, ?_⟩ (hchc.upd _ (by omega) (by omega))
            · refine hi3.1.frame wf (fun j hj => ?_) (fun _ _ => rfl)
              rw [sv_upd_ne (by omega), hclr, if_neg (by omega)]
            · intro j h1 h2
              rw [sv_upd]
              by_cases hj : j = ka
              · rw [if_pos hj]; rfl
              · rw [if_neg hj, hclr]
                by_cases hj2 : j < ka
                · rw [if_pos (by omega)]
                · rw [if_neg (by omega)]; exact hi3.2 j (by omega) h2
        | result =>
          cases e' with
          | stop _ => exact hend.elim
          | accu a' =>
            simp only at hend
            obtain ⟨v, hv, hva⟩ := hend
            simp only
            have h4 := ih4 ((accu, .val ka) :: Γ) ((accu, .val a') :: ρ) ini n4 N _
              (show WF ((accu, .val ka) :: sc Γ) n4 from ⟨by omega, hnf _ (by omega), wf.mono (by omega)⟩) hg (hp.val accu a') ha4 hal4 (by omega)
              av at' cur (clearOpt (upd sl3 n none) (slot2 iter2 n)) s3 hs
              ⟨⟨rfl, ⟨v, by rw [hclr, if_neg (by omega)]; exact hv, hva⟩,
                hi3.1.frame wf (fun j hj => by rw [hclr, if_neg (by omega)]) (fun _ _ => rfl)⟩,
               fun j h1 h2 => by rw [hclr, if_neg (by omega)]; exact hi3.2 j (by omega) h2⟩
            revert h4
            generalize dev r (planD ((accu, .val ka) :: Γ) ini n4 res) av at' cur _ = o4
            generalize den r.cfg (toExpr r res) ((accu, .val a') :: ρ) s3 = o4'
            intro h4
            cases o4 with
            | err e h =>
              cases o4' with
              | err e' h' => exact h4
              | ok _ _ => exact h4.elim
              | ub => exact h4.elim
            | ub =>
              cases o4' with
              | err e' h' => exact h4.elim
              | ok _ _ => exact h4.elim
              | ub => trivial
            | ok z s4' =>
              cases o4' with
              | err e' h' => exact h4.elim
              | ub => exact h4.elim
              | ok w s4 =>
                obtain ⟨hzw, hh, hcn, hi4, hch4⟩ := h4
                obtain ⟨x', c', sl4⟩ := s4'
                simp only at hh hcn hi4 hch4
                subst hh; subst hcn
                have hch4' : ChgD Γ ρ n4 N (clearOpt (upd sl3 n none) (slot2 iter2 n)) s3.heap sl4 s4.heap :=
                  ⟨hch4.1, hch4.2⟩
                refine ConclD.ok hzw rfl rfl ⟨?_, ?_⟩
                  ((hchc.trans (hch4'.mono (by omega))).upd _ (by omega) (by omega))
                · exact hi4.1.2.2.frame wf (fun j hj => sv_upd_ne (by omega)) (fun _ _ => rfl)
                · intro j h1 h2
                  rw [sv_upd]
                  by_cases hj : j = ka
                  · rw [if_pos hj]; rfl
                  · rw [if_neg hj]
                    by_cases hj4 : n4 ≤ j
                    · exact hi4.2 j hj4 h2
                    · rw [hch4'.1 j (by omega) (hnf j h1), hclr]
                      by_cases hj2 : j < ka
                      · rw [if_pos (by omega)]
                      · rw [if_neg (by omega)]; exact hi3.2 j (by omega) h2

theorem sim_bind {x : String} {init body : Src σ} (ih1 : SimExpr r init) (ih2 : SimExpr r body) :
    SimExpr r (.bind x init body) := by
  intro Γ ρ ini n N K wf hg hp ha hal hN av at' cur sl s hs hi
  simp only [planD, aliasSafe, spineSafe, Src.width, Adm, Bool.and_eq_true] at *
  have hnf : ∀ j, n ≤ j → ¬ FP (sc Γ) j := fun j hj hf => by have := wf.fp hf; omega
  have hI := ih1 Γ ρ true (n + 1) (n + 1 + init.width) K (wf.mono (by omega)) hg hp ha.1 hal.1 (Nat.le_refl _)
  have hcell : ∀ c', Cells ρ c' → c' < s.heap.length := fun c' hc => hi.1.cells hc
  simp only [dev, toExpr, den]
  have hB := ih2 ((x, .delayed n init.width (planD Γ true (n + 1) init)) :: Γ)
    ((x, .delayed s.heap.length (fun s => den r.cfg (toExpr r init) ρ s)) :: ρ) ini (n + 1 + init.width) N _
    (show WF ((x, .delayed n init.width 0) :: sc Γ) _ from ⟨by omega, wf⟩) ⟨hcell, hI, hg⟩ (hp.delayed x _) ha.2 hal.2
    (by omega) av at' cur sl { s with heap := s.heap ++ [none] } hs
    ⟨⟨rfl, by
        rw [hi.2 n (by omega) (by omega)]
        simp [CellR], fun j h1 h2 => hi.2 j (by omega) (by omega),
      hi.1.frame wf (fun _ _ => rfl) (fun c hc => List.getElem?_append_left (hcell c hc))⟩,
     fun j h1 h2 => hi.2 j (by omega) h2⟩
  revert hB
  generalize dev r (planD ((x, .delayed n init.width (planD Γ true (n + 1) init)) :: Γ) ini (n + 1 + init.width) body)
    av at' cur _ = o
  generalize den r.cfg (toExpr r body) _ _ = o'
  intro hB
  cases o with
  | err e h =>
    cases o' with
    | err e' h' => exact hB
    | ok _ _ => exact hB.elim
    | ub => exact hB.elim
  | ub =>
    cases o' with
    | err e' h' => exact hB.elim
    | ok _ _ => exact hB.elim
    | ub => trivial
  | ok z s' =>
    cases o' with
    | err e' h' => exact hB.elim
    | ub => exact hB.elim
    | ok w s2 =>
      obtain ⟨hzw, hh, hcn, hi', hch'⟩ := hB
      obtain ⟨x', c', sl'⟩ := s'
      simp only at hh hcn hi' hch'
      subst hh; subst hcn
      have hl' : s2.heap.length = s.heap.length + 1 := by
        rw [hch'.2.1]; simp
      simp only [out_ok, dout_ok]
      refine ConclD.ok hzw rfl rfl ⟨?_, ?_⟩ ⟨?_, ?_, ?_⟩
      · exact hi'.1.2.2.2.frame wf (fun j hj => sv_upd_ne (by omega)) (fun c hc => List.getElem?_take_of_lt (hcell c hc))
      · intro j h1 h2
        rw [sv_upd]
        by_cases hj : j = n
        · rw [if_pos hj]; rfl
        · rw [if_neg hj]
          by_cases hj2 : j < n + 1 + init.width
          · exact hi'.1.2.2.1 j (by omega) hj2
          · exact hi'.2 j (by omega) h2
      · intro j h1 h2
        rw [sv_upd_ne (by omega)]
        exact hch'.1 j (by omega) (fun hf => by
          rcases hf with hf | hf
          · omega
          · exact h2 hf)
      · simp [hl']
      · intro c hc
        by_cases h1 : c < s.heap.length
        · simp only [List.getElem?_take_of_lt h1]
          rw [hch'.2.2 c (fun hf => by
            rcases hf with hf | hf
            · omega
            · exact hc hf)]
          exact List.getElem?_append_left h1
        · rw [List.getElem?_eq_none (by simp; omega), List.getElem?_eq_none (by omega)]

mutual
/-- Every expression is simulated. -/
theorem sim_expr (hr : RunOK r) : ∀ e : Src σ, SimExpr r e
  | .const v => sim_const v
  | .ident x abs => sim_ident hr x abs
  | .call cs args => sim_call (sim_all hr args)
  | .not a => sim_not hr (sim_expr hr a)
  | .nsf a => sim_nsf hr (sim_expr hr a)
  | .bin k a b => sim_bin hr (sim_expr hr a) (sim_expr hr b) k
  | .index a b => sim_index hr (sim_expr hr a) (sim_expr hr b)
  | .select f test a => sim_select hr (sim_expr hr a) f test
  | .list opt args => sim_list hr (sim_all hr args)
  | .map opt args => sim_map hr (sim_all hr args)
  | .logic o a b => sim_logic (sim_expr hr a) (sim_expr hr b) o
  | .cond c t f => sim_cond (sim_expr hr c) (sim_expr hr t) (sim_expr hr f)
  | .comp iter iter2 accu range init cnd stp res =>
    sim_comp hr (sim_expr hr range) (sim_expr hr init) (sim_expr hr cnd) (sim_expr hr stp) (sim_expr hr res)
  | .bind x init body => sim_bind (sim_expr hr init) (sim_expr hr body)
theorem sim_all (hr : RunOK r) : ∀ es : Srcs σ, SimAll r es
  | .nil => trivial
  | .cons e es => ⟨sim_expr hr e, sim_all hr es⟩
end

/-! ## The theorem -/

/-- Outcomes an embedder cannot tell apart, up to the text of one error: the same value, the same
failing status (`_?_:_` where the other says `<jump_condition>`), the same final host state. -/
def SameOutcome : Final σ → Final σ → Prop
  | .value v h, .value w h' => VSim v w ∧ h = h'
  | .status e h, .status e' h' => StSim e e' ∧ h = h'
  | .ub, .ub => True
  | _, _ => False

/-- What recursive evaluation of an expression computes is its meaning. -/
theorem direct_meaning_partial (hr : RunOK r) (e : Src σ) (ha : Adm r (fun _ => false) e)
    (hal : aliasSafe (planD [] false 0 e) = true) (h : σ) :
    SameOutcome (runDirect r e h) (meaning r.cfg (toExpr r e) h) := by
  have hs := sim_expr hr e [] [] false 0 e.width (fun _ => false) trivial trivial (plain_nil _) ha hal (by omega)
    none none none (fun _ => none) ⟨h, 0, []⟩ (fun k hk => (by cases hk)) ⟨trivial, fun _ _ _ => rfl⟩
  unfold runDirect meaning
  revert hs
  generalize dev r (planD [] false 0 e) none none none _ = o
  show ConclD _ _ _ _ _ _ _ _ o (den r.cfg (toExpr r e) [] ⟨h, 0, []⟩) → _
  generalize den r.cfg (toExpr r e) [] _ = o'
  intro hs
  cases o with
  | err e h =>
    cases o' with
    | err e' h' => exact hs
    | ok _ _ => exact hs.elim
    | ub => exact hs.elim
  | ub =>
    cases o' with
    | err e' h' => exact hs.elim
    | ok _ _ => exact hs.elim
    | ub => trivial
  | ok z s' =>
    cases o' with
    | err e' h' => exact hs.elim
    | ub => exact hs.elim
    | ok w s2 => exact ⟨hs.1.1, hs.2.1⟩

/-- **C23.** Recursive planning does not change the outcome: whatever outcome the stack machine stops
with on the flattened program, evaluating the tree gives the same value (or the same failing status)
and leaves the host in the same state.  Missing from the full claim: attribute patterns in force,
optional elements before the last one of a literal, effects in later entries of a literal after an
error, loop steps that read the accumulator after overwriting it, `has()` on optionals; in each of
these cases the two evaluators really differ (`Verif/Direct/Examples.lean`). -/
theorem C23_recursive_agrees_partial (hr : RunOK r) (e : Src σ) (ha : Adm r (fun _ => false) e)
    (hal : aliasSafe (planD [] false 0 e) = true) (hc : NoClash r.cfg (toExpr r e)) (h : σ) (f : Final σ)
    (hm : Halts r.cfg (plan r.cfg (toExpr r e)) (MS.start h) f) : SameOutcome (runDirect r e h) f := by
  rw [plan_exact_partial _ _ hc] at hm
  subst hm
  exact direct_meaning_partial hr e ha hal h

/-- **C23 (values).** A result that is no error is the same value, not just a corresponding one. -/
theorem C23_same_value_partial (hr : RunOK r) (e : Src σ) (ha : Adm r (fun _ => false) e)
    (hal : aliasSafe (planD [] false 0 e) = true) (hc : NoClash r.cfg (toExpr r e)) (h h' : σ) (v : Value)
    (hv : v.isError = false) :
    runDirect r e h = .value v h' ↔ Halts r.cfg (plan r.cfg (toExpr r e)) (MS.start h) (.value v h') := by
  rw [plan_exact_partial _ _ hc]
  have hs := direct_meaning_partial hr e ha hal h
  generalize runDirect r e h = a at *
  generalize meaning r.cfg (toExpr r e) h = b at *
  have hsame : ∀ w : Value, VSim v w → w = v := by
    intro w hw
    rcases hw with hw | ⟨s, t, e1, _, _⟩
    · exact hw.symm
    · rw [e1] at hv; exact Bool.noConfusion (show true = false from hv)
  have hsame' : ∀ w : Value, VSim w v → w = v := by
    intro w hw
    rcases hw with hw | ⟨s, t, _, e2, _⟩
    · exact hw
    · rw [e2] at hv; exact Bool.noConfusion (show true = false from hv)
  constructor
  · intro hab
    subst hab
    cases b with
    | value w h2 => rw [hsame w hs.1, hs.2]
    | status e h2 => exact hs.elim
    | ub => exact hs.elim
  · intro hab
    subst hab
    cases a with
    | value w h2 => rw [hsame' w hs.1, hs.2]
    | status e h2 => exact hs.elim
    | ub => exact hs.elim

/-- **C23 (codes).** Error values and failing statuses have the same code on both sides; only the text
of one no-matching-overload message can differ. -/
theorem StSim.code {s t : Status} (h : StSim s t) : s.code = t.code := by
  rcases h with h | ⟨h1, h2⟩
  · rw [h]
  · rw [h1, h2]; rfl

/-! ## The recursion limit -/

mutual
theorem depth_le_peak : ∀ d : DStep σ, d.depth ≤ d.peak
  | .const _ => Nat.le_refl _
  | .ident _ => Nat.le_refl _
  | .slot _ _ => Nat.le_refl _
  | .lazyInit _ _ => Nat.le_refl _
  | .call _ _ => Nat.le_max_left _ _
  | .not _ => Nat.le_max_left _ _
  | .nsf _ => Nat.le_max_left _ _
  | .bin _ _ _ => Nat.le_max_left _ _
  | .index _ _ => Nat.le_max_left _ _
  | .select _ _ _ => Nat.le_max_left _ _
  | .list _ _ => Nat.le_max_left _ _
  | .map _ _ => Nat.le_max_left _ _
  | .logic _ _ _ => Nat.le_max_left _ _
  | .cond _ _ _ => Nat.le_max_left _ _
  | .comp _ _ _ _ _ _ _ _ => Nat.le_max_left _ _
  | .bind _ _ _ => Nat.le_max_left _ _
end

/-- **C23 (limit).** A plan is either refused or the one that is built without a limit; when it is
accepted no tree in it is deeper than the limit; and a larger limit accepts it too. -/
theorem C23_limit (e : Src σ) (limit : Int) :
    planRec (-1) e = .ok (planD [] false 0 e) ∧
    (∀ d, planRec limit e = .ok d → d = planD [] false 0 e ∧ (limit ≠ -1 → (d.depth : Int) ≤ limit)) ∧
    (∀ limit', limit ≠ -1 → limit ≤ limit' → ∀ d, planRec limit e = .ok d → planRec limit' e = .ok d) ∧
    (∀ s, planRec limit e = .err s →
      s = ⟨.invalidArgument, "Maximum recursion depth of " ++ toString limit ++ " exceeded"⟩ ∧
        limit < ((planD [] false 0 e).peak : Int)) := by
  refine ⟨?_, ?_, ?_, ?_⟩
  · unfold planRec
    rw [if_neg (fun h => h.1 rfl)]
  · intro d hd
    unfold planRec at hd
    simp only at hd
    split at hd
    · cases hd
    · rename_i hn
      cases hd
      refine ⟨rfl, fun hl => ?_⟩
      have h1 := depth_le_peak (planD [] false 0 e)
      have h2 : ¬ ((planD [] false 0 e).peak : Int) > limit := fun h => hn ⟨hl, h⟩
      omega
  · intro limit' hl hle d hd
    unfold planRec at hd ⊢
    simp only at hd ⊢
    split at hd
    · cases hd
    · rename_i hn
      cases hd
      rw [if_neg]
      rintro ⟨h1, h2⟩
      exact hn ⟨hl, by omega⟩
  · intro s hs
    unfold planRec at hs
    simp only at hs
    split at hs
    · rename_i h
      cases hs
      exact ⟨rfl, h.2⟩
    · cases hs

end

end Cel.Direct
