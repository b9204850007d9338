import Verif.Select.Main

/-! # Selects that are optimized have the outcome of selects that are not -/

set_option linter.unusedSimpArgs false
set_option linter.unusedVariables false

namespace Cel.Select
open Cel

/-- `e` selects the field `d` of a message. -/
def Selects (L : Lib) (e : Expr) (d : FDesc) : Prop :=
  ∃ c T o f test, e = .select c (.message T) o f test ∧ byName L T f = some d

def FInv (L : Lib) (e : Expr) (v : Val) : Front → Prop
  | .next s => Rel L s v ∧ ∀ d z, s.rep = some d → d.shape = .rep (.scalar z) → Selects L e d
  | .result r rest =>
    (isError r = true → isError v = true) ∧ (isError r = false → VAgree (fbFold L r rest) v)
  | .status s => s.code = .unimplemented

/-- What the traversal has reached when the plain evaluation has the value `v` for `e`. -/
def Inv (L : Lib) (e : Expr) (m : Msg) (v : Val) : Prop :=
  FInv L e v (front L ⟨m, none⟩ (pathOf L e)) ∧ VAgree (fbFold L (.msg m) (pathOf L e)) v

theorem fb_step {L : Lib} {r v w : Val} {rest : List SQ} {q : SQ} (hr : isError r = false)
    (h : VAgree (fbFold L r rest) v) (hv : isError v = true → w = v)
    (hg : isError v = false → Good L v q w) : VAgree (fbFold L r (rest ++ [q])) w := by
  obtain ⟨h1, h2⟩ := fbFold_snoc L rest q r hr
  rcases he : isError (fbFold L r rest) with _ | _
  · rw [h2 he]
    have := h.ok he
    rw [this] at he
    rw [this]
    exact good_apply (hg he)
  · rw [h1 he]
    have := h.err he
    rw [hv this]
    exact .inr ⟨he, this⟩

/-- From an operand to a select or index of it that is not the last step. -/
theorem inv_step {L : Lib} (hL : LibOK L) {o e : Expr} {m : Msg} {v w : Val} {q : SQ}
    (h : Inv L o m v) (hp : pathOf L e = pathOf L o ++ [q]) (hv : isError v = true → w = v)
    (hg : isError v = false → Good L v q w)
    (hdeep : ∀ d z m', v = wrapField L true m' d → d.shape = .rep (.scalar z) → ¬ Selects L o d)
    (hsel : ∀ n f m' d, q = .field n f → v = .msg m' → byName L m'.type f = some d → Selects L e d) :
    Inv L e m w := by
  obtain ⟨h1, h2⟩ := h
  refine ⟨?_, by rw [hp]; exact fb_step rfl h2 hv hg⟩
  rw [hp, front_snoc]
  rcases hf : front L ⟨m, none⟩ (pathOf L o) with s | ⟨r, rest⟩ | s
  · rw [hf] at h1
    obtain ⟨hr, hs⟩ := h1
    have hg' := hg hr.noError
    have hst := step_ok hL hr hg' (by
      intro d z hd hz
      refine hdeep d z s.msg ?_ hz (hs d z hd hz)
      obtain ⟨sm, sr⟩ := s
      simp only at hd; subst hd
      exact hr.2.2.2)
    simp only [frontSnoc]
    rcases ha : applySelectQualifier L s q with s' | r | st
    · rw [ha] at hst
      refine ⟨hst, fun d z hd hz => ?_⟩
      obtain ⟨sm, sr⟩ := s
      cases q with
      | attr a =>
        -- an element is never a container
        exfalso
        cases sr with
        | none => simp [applySelectQualifier] at ha
        | some d' =>
          simp only [applySelectQualifier, applyAttr] at ha
          (repeat' split at ha) <;> simp_all <;> cases ha <;> simp at hd
      | field n f =>
        obtain ⟨m', d', rfl, hm, hb, rfl, _⟩ := hg'
        refine hsel d'.number f m' d rfl rfl ?_
        rw [hb]
        cases sr with
        | some _ => simp [applySelectQualifier] at ha
        | none =>
          rcases hr with ⟨_, hr⟩ | hr | ⟨_, hr⟩ | ⟨_, hr⟩
          · cases hr
            simp only [applySelectQualifier, applyField, byNumber_of hm hb] at ha
            (repeat' split at ha) <;> simp_all <;> cases ha <;> simp_all
          · cases hr
          · cases hr
          · cases hr
    · rw [ha] at hst
      exact ⟨fun hr' => VAgree.err hst hr', fun _ => hst⟩
    · rw [ha] at hst
      exact hst
  · rw [hf] at h1
    obtain ⟨ha, hb⟩ := h1
    simp only [frontSnoc, FInv]
    refine ⟨fun hr => ?_, fun hr => fb_step hr (hb hr) hv hg⟩
    have := ha hr
    rw [hv this]; exact this
  · rw [hf] at h1
    exact h1

/-- The last step of a chain, with or without the traversal in protobuf messages. -/
theorem last_step {L : Lib} {o : Expr} {m : Msg} {v w : Val} {q : SQ} {test force : Bool}
    (h : Inv L o m v) (hv : isError v = true → w = v)
    (hg : test = false → isError v = false → Good L v q w)
    (hh : test = true → isError v = false → GoodHas L v q w) :
    ∃ r, applySelect L force m (pathOf L o ++ [q]) test = .ok r ∧ VAgree r w := by
  obtain ⟨h1, h2⟩ := h
  have hfb : ∀ r rest, isError r = false → VAgree (fbFold L r rest) v →
      ∃ x, fallback L test r (rest ++ [q]) = .ok x ∧ VAgree x w := by
    intro r rest hr hfold
    obtain ⟨g1, g2⟩ := fallback_snoc L test rest q r hr
    rcases he : isError (fbFold L r rest) with _ | _
    · rw [g2 he]
      have := hfold.ok he
      rw [this] at he ⊢
      cases test with
      | false => exact ⟨_, rfl, good_apply (hg rfl he)⟩
      | true => exact ⟨_, goodHas_fallback (hh rfl he), .rfl' _⟩
    · refine ⟨_, g1 he, ?_⟩
      have := hfold.err he
      rw [hv this]
      exact .inr ⟨he, this⟩
  have hmsg := hfb (.msg m) (pathOf L o) rfl h2
  cases force with
  | true => rw [applySelect_force]; exact hmsg
  | false =>
    rw [applySelect_snoc]
    rcases hf : front L ⟨m, none⟩ (pathOf L o) with s | ⟨r, rest⟩ | s
    · rw [hf] at h1
      obtain ⟨hr, _⟩ := h1
      have hlast : LastOK w (qLast L test s q) := by
        cases test with
        | false => exact last_ok hr (hg rfl hr.noError)
        | true => exact lastHas_ok hr (hh rfl hr.noError)
      simp only [finish]
      rcases hq : qLast L test s q with x | x | _
      · rw [hq] at hlast
        exact ⟨x, rfl, hlast⟩
      · rw [hq] at hlast
        have hlast : x.code = .unimplemented := hlast
        simp only [if_pos hlast]
        exact hmsg
      · rw [hq] at hlast; exact hlast.elim
    · rw [hf] at h1
      simp only [finish]
      rcases he : isError r with _ | _
      · simp only [Bool.false_eq_true, if_false]
        exact hfb r rest he (h1.2 he)
      · simp only [if_true]
        refine ⟨r, rfl, ?_⟩
        have := h1.1 he
        rw [hv this]
        exact .inr ⟨he, this⟩
    · rw [hf] at h1
      have h1 : s.code = .unimplemented := h1
      simp only [finish]
      rw [if_pos h1]
      exact hmsg

/-- What is known of a chain's operand: an abort or an error of the root is its outcome too, and the
traversal has followed it from a message. -/
structure Follows (L : Lib) (N : Env) (o : Expr) : Prop where
  err : ∀ s, eval L N (bottomOf L o) = .err s → eval L N o = .err s
  ub : eval L N (bottomOf L o) = .ub → eval L N o = .ub
  error : ∀ b, eval L N (bottomOf L o) = .ok b → isError b = true → eval L N o = .ok b
  msg : ∀ m, eval L N (bottomOf L o) = .ok (.msg m) → L.wk m.type = .none →
    ∃ v, eval L N o = .ok v ∧ Inv L o m v
  root : Chain L o = true → ∀ b, eval L N (bottomOf L o) = .ok b → isError b = true ∨
    ∃ m, b = .msg m ∧ L.wk m.type = .none

theorem follows_base (L : Lib) (N : Env) (o : Expr) (h : Chain L o = false) : Follows L N o := by
  obtain ⟨p1, p2, p3⟩ := path_none L o h
  refine ⟨?_, ?_, ?_, ?_, ?_⟩
  · rw [p2]; exact fun s h => h
  · rw [p2]; exact fun h => h
  · rw [p2]; exact fun b h _ => h
  · rw [p2]
    intro m hm hw
    refine ⟨_, hm, ?_⟩
    rw [Inv, p1]
    refine ⟨⟨.inl ⟨hw, rfl⟩, fun d z hd => by cases hd⟩, .rfl' _⟩
  · simp [h]

theorem selectStep_error (L : Lib) (b : Bool) (v : Val) (f : String) (t : Bool) (h : isError v = true) :
    selectStep L b v f t = v := by
  cases v <;> simp_all [isError, selectStep]

theorem indexStep_error (b : Bool) (v : Val) (c : Const) (h : isError v = true) :
    indexStep b v c = v := by
  cases v <;> simp_all [isError, indexStep]

theorem chain_select {L : Lib} {c : Option SQ} {t : OType} {o : Expr} {f : String} {test : Bool}
    (h : Chain L (.select c t o f test) = true) :
    ∃ q, candSelect L t f = some q ∧ pathOf L (.select c t o f test) = pathOf L o ++ [q] ∧
      bottomOf L (.select c t o f test) = bottomOf L o ∧
      testOf L (.select c t o f test) = (test || testOf L o) := by
  rcases hq : candSelect L t f with _ | q
  · simp [Chain, hq] at h
  · exact ⟨q, rfl, by rw [pathOf, if_pos h, hq], by rw [bottomOf, if_pos h], by rw [testOf, if_pos h]⟩

theorem chain_index {L : Lib} {c : Option SQ} {o : Expr} {k : Const}
    (h : Chain L (.index c o k) = true) :
    Chain L o = true ∧ ∃ q, candIndex k = some q ∧ pathOf L (.index c o k) = pathOf L o ++ [q] ∧
      bottomOf L (.index c o k) = bottomOf L o ∧ testOf L (.index c o k) = testOf L o := by
  rcases hq : candIndex k with _ | q
  · simp [Chain, hq] at h
  · exact ⟨by simp only [Chain, Bool.and_eq_true] at h; exact h.2, q, rfl, by rw [pathOf, if_pos h, hq],
      by rw [bottomOf, if_pos h], by rw [testOf, if_pos h]⟩

/-- The root of a chain is a message. -/
theorem root_select {L : Lib} {N : Env} {c : Option SQ} {t : OType} {o : Expr} {f : String} {test : Bool}
    (h : Chain L (.select c t o f test) = true) (ho : Follows L N o)
    (hs : ∀ v, eval L N o = .ok v → SelFine L N v t f test) (b : Val)
    (hb : eval L N (bottomOf L o) = .ok b) :
    isError b = true ∨ ∃ m, b = .msg m ∧ L.wk m.type = .none := by
  rcases hc : Chain L o with _ | _
  · obtain ⟨p1, p2, p3⟩ := path_none L o hc
    rw [p2] at hb
    have := hs b hb
    cases t with
    | message T =>
      rcases this with h | ⟨m, rfl, _, hm, _⟩
      · exact .inl h
      · exact .inr ⟨m, rfl, hm.plain⟩
    | map => simp [Chain, candSelect, hc] at h
    | other => simp [Chain, candSelect] at h
  · exact ho.root hc b hb

theorem follows {L : Lib} (hL : LibOK L) (N : Env) (e : Expr) (hf : Fine L N e)
    (hd : Chain L e = true → Deep L e = false) : Follows L N e ∧ testOf L e = false := by
  match e with
  | .leaf n => exact ⟨follows_base L N _ rfl, rfl⟩
  | .node n args => exact ⟨follows_base L N _ rfl, rfl⟩
  | .attr e p t => exact ⟨follows_base L N _ rfl, rfl⟩
  | .select c t o f test =>
    rcases hc : Chain L (.select c t o f test) with _ | _
    · exact ⟨follows_base L N _ hc, (path_none L _ hc).2.2⟩
    · obtain ⟨q, hq, hp, hb, ht⟩ := chain_select hc
      rw [Fine] at hf
      obtain ⟨hfo, hf⟩ := hf
      obtain ⟨hf1, hf2⟩ := hf hc
      obtain ⟨ho, hto⟩ := follows hL N o hfo hf1
      have htest : test = false := by
        have := hd hc
        simp only [Deep, isTest, Bool.or_eq_false_iff] at this
        exact this.2
      subst htest
      refine ⟨⟨?_, ?_, ?_, ?_, ?_⟩, by rw [ht, hto]; rfl⟩
      · rw [hb]; intro s h; rw [eval, ho.err s h]; rfl
      · rw [hb]; intro h; rw [eval, ho.ub h]; rfl
      · rw [hb]; intro b h1 h2; rw [eval, ho.error b h1 h2]
        simp only [Res.bind_ok, selectStep_error L _ b f _ h2]
      · rw [hb]; intro m hm hw
        obtain ⟨v, hv, hi⟩ := ho.msg m hm hw
        refine ⟨selectStep L N.unsetNull v f false, by rw [eval, hv]; rfl, ?_⟩
        have hsf := hf2 v hv
        refine inv_step hL hi hp (fun h => selectStep_error L _ v f _ h)
          (fun h => select_good hsf h hq) ?_ ?_
        · intro d z m' hv' hs hsel
          rw [hv'] at hsf
          simp only [wrapField, hs] at hsf
          cases t with
          | message T => rcases hsf with h | ⟨m, h, _⟩ <;> cases h
          | map => rcases hsf with h | ⟨_, _, h, _⟩ <;> cases h
          | other => simp [candSelect] at hq
        · intro n g m' d hqe hv' hbn
          cases t with
          | message T =>
            obtain ⟨d', h1, h2, h3⟩ := candSelect_message hq
            rw [hqe] at h3
            cases h3
            rw [hv'] at hsf
            rcases hsf with h | ⟨m'', h, hT, _⟩
            · cases h
            · cases h
              exact ⟨c, T, o, f, false, rfl, by rw [← hT]; exact hbn⟩
          | map => simp [candSelect] at hq; rw [← hq] at hqe; cases hqe
          | other => simp [candSelect] at hq
      · rw [hb]; exact fun _ => root_select hc ho hf2
  | .index c o k =>
    rcases hc : Chain L (.index c o k) with _ | _
    · exact ⟨follows_base L N _ hc, (path_none L _ hc).2.2⟩
    · obtain ⟨hco, q, hq, hp, hb, ht⟩ := chain_index hc
      rw [Fine] at hf
      obtain ⟨hfo, hf⟩ := hf
      obtain ⟨hf1, hf2, hf3⟩ := hf hc
      obtain ⟨ho, hto⟩ := follows hL N o hfo (fun _ => hf1)
      refine ⟨⟨?_, ?_, ?_, ?_, ?_⟩, by rw [ht, hto]⟩
      · rw [hb]; intro s h; rw [eval, ho.err s h]; rfl
      · rw [hb]; intro h; rw [eval, ho.ub h]; rfl
      · rw [hb]; intro b h1 h2; rw [eval, ho.error b h1 h2]
        simp only [Res.bind_ok, indexStep_error _ b k h2]
      · rw [hb]; intro m hm hw
        obtain ⟨v, hv, hi⟩ := ho.msg m hm hw
        refine ⟨indexStep N.het v k, by rw [eval, hv]; rfl, ?_⟩
        refine inv_step hL hi hp (fun h => indexStep_error _ v k h)
          (fun h => index_good hf2 (hf3 v hv) h hq) ?_ ?_
        · rintro d z m' hv' hs ⟨c', T, o', g, tt, rfl, hbn⟩
          have := hd hc
          simp [Deep, scalarElem, hbn, hs] at this
        · intro n g m' d hqe
          obtain ⟨a, ha, _⟩ := candIndex_ok hf2 hq
          rw [hqe] at ha; cases ha
      · rw [hb]; exact fun _ => ho.root hco

theorem Agree.refl (r : Res Val) : Agree r r := by
  cases r with
  | ok v => exact .rfl' v
  | err s => trivial
  | ub => trivial

theorem select_agree {L : Lib} {b : Bool} {f : String} {t : Bool} {v w : Val} (h : VAgree v w) :
    VAgree (selectStep L b v f t) (selectStep L b w f t) := by
  rcases h with rfl | ⟨h1, h2⟩
  · exact .rfl' _
  · rw [selectStep_error L b v f t h1, selectStep_error L b w f t h2]; exact .inr ⟨h1, h2⟩

theorem index_agree {b : Bool} {c : Const} {v w : Val} (h : VAgree v w) :
    VAgree (indexStep b v c) (indexStep b w c) := by
  rcases h with rfl | ⟨h1, h2⟩
  · exact .rfl' _
  · rw [indexStep_error b v c h1, indexStep_error b w c h2]; exact .inr ⟨h1, h2⟩

theorem bind_agree {r s : Res Val} {g : Val → Val} (h : Agree r s)
    (hg : ∀ v w, VAgree v w → VAgree (g v) (g w)) :
    Agree (r.bind fun v => .ok (g v)) (s.bind fun v => .ok (g v)) := by
  cases r <;> cases s <;> first | exact hg _ _ h | trivial | exact h.elim

/-- A chain, given that its root agrees. -/
theorem chain_agree {L : Lib} {N : Env} {o e : Expr} {q : SQ} {test : Bool} {x : Res Val} {g : Val → Val}
    (ho : Follows L N o)
    (hx : Agree x (eval L N (bottomOf L o)))
    (hroot : ∀ b, eval L N (bottomOf L o) = .ok b → isError b = true ∨
      ∃ m, b = .msg m ∧ L.wk m.type = .none)
    (hv : ∀ v, isError v = true → g v = v)
    (hg : test = false → ∀ v, eval L N o = .ok v → isError v = false → Good L v q (g v))
    (hh : test = true → ∀ v, eval L N o = .ok v → isError v = false → GoodHas L v q (g v))
    (he : eval L N e = (eval L N o).bind fun v => .ok (g v)) :
    Agree (x.bind fun v => attributeStep L N.force v (pathOf L o ++ [q]) test) (eval L N e) := by
  rcases hb : eval L N (bottomOf L o) with b | s | _
  · rw [hb] at hx
    cases x with
    | err s => exact hx.elim
    | ub => exact hx.elim
    | ok b' =>
      have hx : VAgree b' b := hx
      rcases hroot b hb with h | ⟨m, rfl, hw⟩
      · rw [he, ho.error b hb h]
        have h' := hx.symm.err h
        cases b' <;> simp [isError] at h'
        refine .inr ⟨rfl, ?_⟩
        rw [hv b h]; exact h
      · have : b' = .msg m := (hx.symm.ok rfl).symm
        subst this
        obtain ⟨v, hv', hi⟩ := ho.msg m hb hw
        rw [he, hv']
        obtain ⟨r, h1, h2⟩ := last_step (force := N.force) (w := g v) hi (hv v) (fun t => hg t v hv')
          (fun t => hh t v hv')
        simp only [Res.bind_ok, attributeStep, h1]
        exact h2
  · rw [hb] at hx
    rw [he, ho.err s hb]
    cases x <;> first | exact hx.elim | trivial
  · rw [hb] at hx
    rw [he, ho.ub hb]
    cases x <;> first | exact hx.elim | trivial

mutual
theorem agree_both {L : Lib} (hL : LibOK L) {N : Env} (hN : Respects N) (e : Expr) (hf : Fine L N e) :
    Agree (eval L N (visit false (mark L (bottomOf L e)))) (eval L N (bottomOf L e)) ∧
      Agree (eval L N (visit false (mark L e))) (eval L N e) := by
  match e with
  | .leaf n => exact ⟨Agree.refl _, Agree.refl _⟩
  | .attr e p t => rw [Fine] at hf; exact hf.elim
  | .node n args =>
    have : Agree (eval L N (visit false (mark L (.node n args)))) (eval L N (.node n args)) := by
      rw [Fine] at hf
      simp only [mark, visit, eval]
      exact hN n _ _ (agree_all hL hN args hf)
    exact ⟨this, this⟩
  | .select c t o f test =>
    have hf' := hf
    rw [Fine] at hf
    obtain ⟨hfo, hf⟩ := hf
    obtain ⟨ih1, ih2⟩ := agree_both hL hN o hfo
    rcases hc : Chain L (.select c t o f test) with _ | _
    · obtain ⟨p1, p2, p3⟩ := path_none L _ hc
      rw [p2]
      have : Agree (eval L N (visit false (mark L (.select c t o f test))))
          (eval L N (.select c t o f test)) := by
        have h1 : eval L N (visit false (mark L (.select c t o f test))) =
            (eval L N (visit false (mark L o))).bind fun v => .ok (selectStep L N.unsetNull v f test) := by
          rcases hq : candSelect L t f with _ | q
          · simp [mark, visit, hq, postVisit, cand, eval]
          · cases q with
            | field n g => simp [Chain, hq] at hc
            | attr a =>
              have hco : Chain L o = false := by simpa [Chain, hq] using hc
              obtain ⟨h1, h2⟩ := (visit_spec L o).1 hco true
              have hr : hasRoot (.select (some (.attr a)) t (visit false (mark L o)) f test) (.attr a) =
                  false := by
                show (cand (visit false (mark L o))).isSome = false
                rw [← h2, h1]; rfl
              simp [mark, visit, hq, postVisit, cand, hr, erase, eval, h2]
        rw [h1, eval]
        exact bind_agree ih2 fun _ _ h => select_agree h
      exact ⟨this, this⟩
    · obtain ⟨q, hq, hp, hb, ht⟩ := chain_select hc
      obtain ⟨hf1, hf2⟩ := hf hc
      obtain ⟨ho, hto⟩ := follows hL N o hfo hf1
      refine ⟨by rw [hb]; exact ih1, ?_⟩
      rw [((visit_spec L _).2 hc).2.2.2, hp, hb, ht, hto, Bool.or_false, eval]
      refine chain_agree (e := .select c t o f test) (g := fun v => selectStep L N.unsetNull v f test) ho ih1
        (root_select hc ho hf2) (fun v h => selectStep_error L _ v f _ h) ?_ ?_ (by simp only [eval])
      · rintro rfl v hv he; exact select_good (hf2 v hv) he hq
      · rintro rfl v hv he; exact has_good (hf2 v hv) he hq
  | .index c o k =>
    have hf' := hf
    rw [Fine] at hf
    obtain ⟨hfo, hf⟩ := hf
    obtain ⟨ih1, ih2⟩ := agree_both hL hN o hfo
    rcases hc : Chain L (.index c o k) with _ | _
    · obtain ⟨p1, p2, p3⟩ := path_none L _ hc
      rw [p2]
      have : Agree (eval L N (visit false (mark L (.index c o k))))
          (eval L N (.index c o k)) := by
        have h1 : eval L N (visit false (mark L (.index c o k))) =
            (eval L N (visit false (mark L o))).bind fun v => .ok (indexStep N.het v k) := by
          rcases hq : candIndex k with _ | q
          · simp [mark, visit, hq, postVisit, cand, eval]
          · have hco : Chain L o = false := by simpa [Chain, hq] using hc
            obtain ⟨h1, h2⟩ := (visit_spec L o).1 hco true
            cases q with
            | field n g =>
              rcases k with i | i | b | s | ⟨_ | a, _ | b⟩ <;> simp [candIndex] at hq
            | attr a =>
              have hr : hasRoot (.index (some (.attr a)) (visit false (mark L o)) k) (.attr a) =
                  false := by
                show (cand (visit false (mark L o))).isSome = false
                rw [← h2, h1]; rfl
              simp [mark, visit, hq, postVisit, cand, hr, erase, eval, h2]
        rw [h1, eval]
        exact bind_agree ih2 fun _ _ h => index_agree h
      exact ⟨this, this⟩
    · obtain ⟨hco, q, hq, hp, hb, ht⟩ := chain_index hc
      obtain ⟨hf1, hf2, hf3⟩ := hf hc
      obtain ⟨ho, hto⟩ := follows hL N o hfo (fun _ => hf1)
      refine ⟨by rw [hb]; exact ih1, ?_⟩
      rw [((visit_spec L _).2 hc).2.2.2, hp, hb, ht, hto, eval]
      refine chain_agree (e := .index c o k) (g := fun v => indexStep N.het v k) ho ih1
        (fun b hb => ho.root hco b hb) (fun v h => indexStep_error _ v k h) ?_ ?_ (by simp only [eval])
      · rintro _ v hv he; exact index_good hf2 (hf3 v hv) he hq
      · rintro h; cases h
theorem agree_all {L : Lib} (hL : LibOK L) {N : Env} (hN : Respects N) (l : List Expr) (hf : FineAll L N l) :
    AgreeAll (evalAll L N (visitAll (markAll L l))) (evalAll L N l) := by
  match l with
  | [] => simp only [markAll, visitAll, evalAll]; exact .nil
  | e :: l =>
    rw [FineAll] at hf
    simp only [markAll, visitAll, evalAll]
    exact .cons _ _ _ _ (agree_both hL hN e hf.1).2 (agree_all hL hN l hf.2)
end

/-- **C80.**  Optimizing the selects of an expression does not change its outcome: a value stays the
same value, an error stays an error and an aborted evaluation stays aborted, in protobuf messages and
with the fallback, when the conditions `Fine` hold. -/
theorem optimized_selects_agree_partial (L : Lib) (hL : LibOK L) (N : Env) (hN : Respects N) (e : Expr)
    (hf : Fine L N e) : Agree (eval L N (rewrite L e)) (eval L N e) :=
  (agree_both hL hN e hf).2

end Cel.Select
