import Verif.Types.Link

/-!
# C60: deciding the hypotheses

Sound boolean tests for the conditions of `C60_sound_partial` that do not concern the run-time side, so that a given program can be put through
the theorem by evaluation.
-/

set_option linter.unusedSimpArgs false
set_option linter.unusedVariables false

namespace Cel.Types
open Cel Cel.Eval Cel.Data Cel.Direct Cel.Checker

def strictBaseB (legacy : Bool) : Base → Bool
  | .bool | .int | .uint | .double | .string | .bytes | .duration | .timestamp => true
  | .null => !legacy
  | _ => false

def keyB : List Ty → Bool
  | [.con (.base .bool) [], _] | [.con (.base .int) [], _] | [.con (.base .uint) [], _] | [.con (.base .string) [], _] => true
  | _ => false

mutual
def strictB (legacy : Bool) : Ty → Bool
  | .param _ => false
  | .con h ps =>
    match h with
    | .base b => strictBaseB legacy b && ps.isEmpty
    | .struct _ => ps.isEmpty
    | .type => decide (ps.length ≤ 1)
    | .list => decide (ps.length = 1) && strictAllB legacy ps
    | .map => keyB ps && strictAllB legacy ps
    | .opaque _ => strictAllB legacy ps
    | _ => false
def strictAllB (legacy : Bool) : List Ty → Bool
  | [] => true
  | p :: ps => strictB legacy p && strictAllB legacy ps
end

theorem strictBaseB_ok {l : Bool} {b : Base} (h : strictBaseB l b = true) : StrictBase l b := by
  cases b <;> first | trivial | (cases l <;> first | rfl | contradiction)

theorem keyB_ok : ∀ {ps : List Ty}, keyB ps = true → ∃ k v, ps = [k, v] ∧ KeyTy k := by
  intro ps h
  unfold keyB at h
  split at h <;> first | exact ⟨_, _, rfl, by unfold KeyTy; simp [Ty.b]⟩ | exact Bool.noConfusion h

mutual
theorem strictB_ok {l : Bool} : ∀ t : Ty, strictB l t = true → Strict l t
  | .param _, h => by rw [strictB] at h; exact Bool.noConfusion h
  | .con hd ps, h => by
    rw [strictB.eq_def] at h
    dsimp only at h
    cases hd with
    | base b =>
      rw [Bool.and_eq_true, List.isEmpty_iff] at h
      rw [h.2]; exact .base (strictBaseB_ok h.1)
    | struct n => rw [List.isEmpty_iff] at h; rw [h]; exact .struct n
    | type => exact .type (of_decide_eq_true h)
    | list =>
      rw [Bool.and_eq_true, decide_eq_true_eq] at h
      have := strictAllB_ok ps h.2
      obtain ⟨p, e⟩ := List.length_eq_one_iff.mp h.1
      rw [e] at this ⊢
      exact .list (this p (by simp))
    | map =>
      rw [Bool.and_eq_true] at h
      obtain ⟨k, v, e, hk⟩ := keyB_ok h.1
      have := strictAllB_ok ps h.2
      rw [e] at this ⊢
      exact .map hk (this v (by simp))
    | «opaque» n => exact .opaque (strictAllB_ok ps h)
    | enum _ => exact Bool.noConfusion h
    | function => exact Bool.noConfusion h
theorem strictAllB_ok {l : Bool} : ∀ ps : List Ty, strictAllB l ps = true → ∀ p ∈ ps, Strict l p
  | [], _, p, hp => nomatch hp
  | q :: qs, h, p, hp => by
    rw [strictAllB, Bool.and_eq_true] at h
    rcases List.mem_cons.mp hp with e | hp
    · rw [e]; exact strictB_ok q h.1
    · exact strictAllB_ok qs h.2 p hp
end

mutual
/-- For declared types. -/
def cleanB (legacy : Bool) : Ty → Bool
  | .param x => !isTypeVar x
  | .con h ps =>
    match h with
    | .base b => strictBaseB legacy b && ps.isEmpty
    | .struct _ => ps.isEmpty
    | .type => decide (ps.length ≤ 1) && cleanAllB legacy ps
    | .list => decide (ps.length = 1) && cleanAllB legacy ps
    | .map => decide (ps.length = 2) && cleanAllB legacy ps
    | .opaque _ => cleanAllB legacy ps
    | _ => false
def cleanAllB (legacy : Bool) : List Ty → Bool
  | [] => true
  | p :: ps => cleanB legacy p && cleanAllB legacy ps
end

/-- What `cleanB` shows. -/
structure CleanDecl (l : Bool) (t : Ty) : Prop where
  clean : Clean l t
  inst : Inst t
  shaped : Shaped t
  vars : ∀ x, Occurs x t → isTypeVar x = false

mutual
theorem cleanB_ok {l : Bool} : ∀ t : Ty, cleanB l t = true → CleanDecl l t
  | .param x, h => by
    rw [cleanB] at h
    refine ⟨.param x, .param x, .param x, ?_⟩
    intro y hy; cases hy; simpa using h
  | .con hd ps, h => by
    rw [cleanB.eq_def] at h
    dsimp only at h
    have noOcc : ∀ hd, ∀ x, ¬ Occurs x (.con hd []) := by intro hd x h; cases h; contradiction
    have inside : (∀ p ∈ ps, CleanDecl l p) → ∀ x, Occurs x (.con hd ps) → isTypeVar x = false := by
      intro h x hx
      cases hx with
      | inside hm ho => exact (h _ hm).vars x ho
    cases hd with
    | base b =>
      rw [Bool.and_eq_true, List.isEmpty_iff] at h
      rw [h.2]
      refine ⟨.base (strictBaseB_ok h.1), .base ?_, .leaf _, fun x hx => absurd hx (noOcc _ x)⟩
      rintro rfl; exact Bool.noConfusion h.1
    | struct n =>
      rw [List.isEmpty_iff] at h; rw [h]
      exact ⟨.struct n, .struct n, .leaf _, fun x hx => absurd hx (noOcc _ x)⟩
    | type =>
      rw [Bool.and_eq_true, decide_eq_true_eq] at h
      have := cleanAllB_ok ps h.2
      exact ⟨.type h.1 fun p hp => (this p hp).shaped, .type h.1 fun p hp => (this p hp).inst, .node rfl fun p hp => (this p hp).shaped, inside this⟩
    | list =>
      rw [Bool.and_eq_true, decide_eq_true_eq] at h
      have := cleanAllB_ok ps h.2
      have i := inside this
      obtain ⟨p, e⟩ := List.length_eq_one_iff.mp h.1
      rw [e] at this i ⊢
      have q := this p (by simp)
      exact ⟨.list q.clean, .list q.inst, .node rfl fun p hp => (this p hp).shaped, i⟩
    | map =>
      rw [Bool.and_eq_true, decide_eq_true_eq] at h
      have := cleanAllB_ok ps h.2
      have i := inside this
      obtain ⟨p, q, e⟩ := List.length_eq_two.mp h.1
      rw [e] at this i ⊢
      have a := this p (by simp)
      have b := this q (by simp)
      exact ⟨.map a.clean b.clean, .map a.inst b.inst, .node rfl fun p hp => (this p hp).shaped, i⟩
    | «opaque» n =>
      have := cleanAllB_ok ps h
      exact ⟨.opaque fun p hp => (this p hp).clean, .opaque fun p hp => (this p hp).inst, .node rfl fun p hp => (this p hp).shaped, inside this⟩
    | enum _ => exact Bool.noConfusion h
    | function => exact Bool.noConfusion h
theorem cleanAllB_ok {l : Bool} : ∀ ps : List Ty, cleanAllB l ps = true → ∀ p ∈ ps, CleanDecl l p
  | [], _, p, hp => nomatch hp
  | q :: qs, h, p, hp => by
    rw [cleanAllB, Bool.and_eq_true] at h
    rcases List.mem_cons.mp hp with e | hp
    · rw [e]; exact cleanB_ok q h.1
    · exact cleanAllB_ok qs h.2 p hp
end

def overloadB (l : Bool) (o : Checker.Overload) : Bool := cleanB l o.result && cleanAllB l o.args

theorem overloadB_ok {l : Bool} {o : Checker.Overload} (h : overloadB l o = true) : StrictOverload l o := by
  unfold overloadB at h
  rw [Bool.and_eq_true] at h
  have a := cleanB_ok _ h.1
  have b := cleanAllB_ok _ h.2
  refine ⟨⟨a.clean, a.inst⟩, fun p hp => ⟨(b p hp).clean, (b p hp).inst⟩, ?_⟩
  rintro x (hx | ⟨p, hp, hx⟩)
  · exact a.vars x hx
  · exact (b p hp).vars x hx

mutual
def Ast.everyB {α : Type} (p : α → Bool) : Ast α → Bool
  | .const a _ => p a
  | .ident a _ _ => p a
  | .select a e _ _ => p a && e.everyB p
  | .call a _ _ args => p a && args.everyB p
  | .list a es => p a && es.everyB p
  | .map a es => p a && es.everyB p
  | .struct a _ _ vs => p a && vs.everyB p
  | .comp a iter iter2 _ range init cnd stp res =>
    p a && (isBind iter iter2 range cnd || range.everyB p) && init.everyB p && cnd.everyB p && stp.everyB p && res.everyB p
def Asts.everyB {α : Type} (p : α → Bool) : Asts α → Bool
  | .nil => true
  | .cons e es => e.everyB p && es.everyB p
end

mutual
theorem Ast.everyB_ok {α : Type} {p : α → Bool} {P : α → Prop} (hp : ∀ a, p a = true → P a) : ∀ e : Ast α, e.everyB p = true → e.Every P
  | .const a _, h => hp a h
  | .ident a _ _, h => hp a h
  | .select a e _ _, h => by
    simp only [Ast.everyB, Bool.and_eq_true] at h
    exact ⟨hp a h.1, e.everyB_ok hp h.2⟩
  | .call a _ _ args, h => by
    simp only [Ast.everyB, Bool.and_eq_true] at h
    exact ⟨hp a h.1, args.everyB_ok hp h.2⟩
  | .list a es, h => by
    simp only [Ast.everyB, Bool.and_eq_true] at h
    exact ⟨hp a h.1, es.everyB_ok hp h.2⟩
  | .map a es, h => by
    simp only [Ast.everyB, Bool.and_eq_true] at h
    exact ⟨hp a h.1, es.everyB_ok hp h.2⟩
  | .struct a _ _ vs, h => by
    simp only [Ast.everyB, Bool.and_eq_true] at h
    exact ⟨hp a h.1, vs.everyB_ok hp h.2⟩
  | .comp a iter iter2 _ range init cnd stp res, h => by
    simp only [Ast.everyB, Bool.and_eq_true, Bool.or_eq_true] at h
    obtain ⟨⟨⟨⟨⟨h1, h2⟩, h3⟩, h4⟩, h5⟩, h6⟩ := h
    exact ⟨hp a h1, h2.imp id (range.everyB_ok hp), init.everyB_ok hp h3, cnd.everyB_ok hp h4, stp.everyB_ok hp h5, res.everyB_ok hp h6⟩
theorem Asts.everyB_ok {α : Type} {p : α → Bool} {P : α → Prop} (hp : ∀ a, p a = true → P a) : ∀ e : Asts α, e.everyB p = true → e.Every P
  | .nil, _ => trivial
  | .cons e es, h => by
    simp only [Asts.everyB, Bool.and_eq_true] at h
    exact ⟨e.everyB_ok hp h.1, es.everyB_ok hp h.2⟩
end

def selectableB : Ty → Bool
  | .con (.struct _) _ => true
  | .con .map _ => true
  | _ => false

theorem selectableB_ok {t : Ty} (h : selectableB t = true) : Selectable t := by
  unfold selectableB at h
  split at h <;> trivial

def isOptList : List Ty → Bool
  | .con (.opaque _) _ :: _ => true
  | _ => false

mutual
/-- A little stronger than `Regular`: types are compared by `shape`, and no optional at all is indexed. -/
def Ast.regularB (same : Ty → Ty → Bool) : Ast Ty → Bool
  | .const _ _ => true
  | .ident _ _ _ => true
  | .select _ e _ test => (!test || selectableB e.ann || (match optionalOf e.ann with | some t => selectableB t | none => false)) && e.regularB same
  | .call _ fn recv args => (decide (fn ≠ "_[_]") || recv || !isOptList args.anns) && args.regularB same
  | .list _ es => es.regularB same
  | .map _ es => es.regularB same
  | .struct _ _ _ vs => vs.regularB same
  | .comp _ iter iter2 _ range init cnd stp res =>
    (isBind iter iter2 range cnd ||
      (same cnd.ann (.b .bool) && same stp.ann init.ann && !cnd.mentions iter &&
        (match iter2 with | some y => !cnd.mentions y | none => true))) &&
      range.regularB same && init.regularB same && cnd.regularB same && stp.regularB same && res.regularB same
def Asts.regularB (same : Ty → Ty → Bool) : Asts Ty → Bool
  | .nil => true
  | .cons e es => e.regularB same && es.regularB same
end

mutual
theorem Ast.regularB_ok {same : Ty → Ty → Bool} (hs : ∀ a b, same a b = true → a = b) : ∀ e : Ast Ty, e.regularB same = true → e.Regular
  | .const _ _, _ => trivial
  | .ident _ _ _, _ => trivial
  | .select _ e _ test, h => by
    simp only [Ast.regularB, Bool.and_eq_true, Bool.or_eq_true] at h
    refine ⟨?_, e.regularB_ok hs h.2⟩
    intro ht
    rcases h.1 with (h | h) | h
    · rw [ht] at h; exact Bool.noConfusion h
    · exact .inl (selectableB_ok h)
    · split at h
      · rename_i t e; exact .inr ⟨t, e, selectableB_ok h⟩
      · exact Bool.noConfusion h
  | .call _ fn recv args, h => by
    simp only [Ast.regularB, Bool.and_eq_true, Bool.or_eq_true] at h
    refine ⟨?_, args.regularB_ok hs h.2⟩
    intro hf hr t ts e
    rcases h.1 with (h | h) | h
    · exact of_decide_eq_true h hf
    · rw [hr] at h; exact Bool.noConfusion h
    · rw [e] at h; exact Bool.noConfusion h
  | .list _ es, h => es.regularB_ok hs h
  | .map _ es, h => es.regularB_ok hs h
  | .struct _ _ _ vs, h => vs.regularB_ok hs h
  | .comp _ iter iter2 _ range init cnd stp res, h => by
    simp only [Ast.regularB, Bool.and_eq_true, Bool.or_eq_true] at h
    obtain ⟨⟨⟨⟨⟨h1, h2⟩, h3⟩, h4⟩, h5⟩, h6⟩ := h
    refine ⟨h1.imp id ?_, range.regularB_ok hs h2, init.regularB_ok hs h3, cnd.regularB_ok hs h4, stp.regularB_ok hs h5, res.regularB_ok hs h6⟩
    rintro ⟨⟨⟨a, b⟩, c⟩, d⟩
    refine ⟨hs _ _ a, hs _ _ b, by simpa using c, ?_⟩
    rintro y rfl
    simpa using d
theorem Asts.regularB_ok {same : Ty → Ty → Bool} (hs : ∀ a b, same a b = true → a = b) : ∀ e : Asts Ty, e.regularB same = true → e.Regular
  | .nil, _ => trivial
  | .cons e es, h => by
    simp only [Asts.regularB, Bool.and_eq_true] at h
    exact ⟨e.regularB_ok hs h.1, es.regularB_ok hs h.2⟩
end

mutual
/-- Structural equality of types. -/
def same : Ty → Ty → Bool
  | .param x, .param y => decide (x = y)
  | .con h ps, .con k qs => decide (h = k) && sameAll ps qs
  | _, _ => false
def sameAll : List Ty → List Ty → Bool
  | [], [] => true
  | p :: ps, q :: qs => same p q && sameAll ps qs
  | _, _ => false
end

mutual
theorem same_ok : ∀ a b : Ty, same a b = true → a = b
  | .param x, .param y, h => by rw [same] at h; rw [of_decide_eq_true h]
  | .con h ps, .con k qs, e => by
    rw [same, Bool.and_eq_true] at e
    rw [of_decide_eq_true e.1, sameAll_ok ps qs e.2]
  | .param _, .con _ _, h => by simp [same] at h
  | .con _ _, .param _, h => by simp [same] at h
theorem sameAll_ok : ∀ a b : List Ty, sameAll a b = true → a = b
  | [], [], _ => rfl
  | p :: ps, q :: qs, h => by
    rw [sameAll, Bool.and_eq_true] at h
    rw [same_ok p q h.1, sameAll_ok ps qs h.2]
  | [], _ :: _, h => by simp [sameAll] at h
  | _ :: _, [], h => by simp [sameAll] at h
end

mutual
def Ast.usesB {α : Type} (d : Decls) (l : Bool) : Ast α → Bool
  | .const _ _ => true
  | .ident _ _ _ => true
  | .select _ e _ _ => e.usesB d l
  | .call _ fn _ args => (match d.funcs fn with | some fd => fd.overloads.all (overloadB l) | none => true) && args.usesB d l
  | .list _ es => es.usesB d l
  | .map _ es => es.usesB d l
  | .struct _ name fs vs => fs.all (fun f => match d.fields name f with | some t => strictB l t | none => true) && vs.usesB d l
  | .comp _ _ _ _ range init cnd stp res => range.usesB d l && init.usesB d l && cnd.usesB d l && stp.usesB d l && res.usesB d l
def Asts.usesB {α : Type} (d : Decls) (l : Bool) : Asts α → Bool
  | .nil => true
  | .cons e es => e.usesB d l && es.usesB d l
end

mutual
theorem Ast.usesB_ok {α : Type} {d : Decls} {l : Bool} : ∀ e : Ast α, e.usesB d l = true → e.Uses d l
  | .const _ _, _ => trivial
  | .ident _ _ _, _ => trivial
  | .select _ e _ _, h => e.usesB_ok h
  | .call _ fn _ args, h => by
    rw [Ast.usesB, Bool.and_eq_true] at h
    refine ⟨?_, args.usesB_ok h.2⟩
    intro fd hf o ho
    have := h.1
    rw [hf] at this
    exact overloadB_ok (List.all_eq_true.mp this o ho)
  | .list _ es, h => es.usesB_ok h
  | .map _ es, h => es.usesB_ok h
  | .struct _ name fs vs, h => by
    rw [Ast.usesB, Bool.and_eq_true] at h
    refine ⟨?_, vs.usesB_ok h.2⟩
    intro f hf t ht
    have := List.all_eq_true.mp h.1 f hf
    rw [ht] at this
    exact strictB_ok t this
  | .comp _ _ _ _ range init cnd stp res, h => by
    simp only [Ast.usesB, Bool.and_eq_true] at h
    obtain ⟨⟨⟨⟨h2, h3⟩, h4⟩, h5⟩, h6⟩ := h
    exact ⟨range.usesB_ok h2, init.usesB_ok h3, cnd.usesB_ok h4, stp.usesB_ok h5, res.usesB_ok h6⟩
theorem Asts.usesB_ok {α : Type} {d : Decls} {l : Bool} : ∀ e : Asts α, e.usesB d l = true → e.Uses d l
  | .nil, _ => trivial
  | .cons e es, h => by
    rw [Asts.usesB, Bool.and_eq_true] at h
    exact ⟨e.usesB_ok h.1, es.usesB_ok h.2⟩
end

/-- All of it at once: the expression is accepted, with a type map without dynamic types or optional ones, is regular, and uses only
functions and fields declared without dynamic types. -/
def goodB (d : Decls) (l : Bool) (n : Nat) (e : Ast Unit) : Bool :=
  match check d l none n e with
  | some te => te.everyB (strictB l) && te.regularB same && e.usesB d l && te.everyB (fun a => (optionalOf a).isNone)
  | none => false

/-- **C60**, for a program that passes the test: its value has its type. -/
theorem sound_of_goodB {σ : Type} {d : Decls} (hd : d.Ok) {l : Bool} {n : Nat} {e : Ast Unit} (h : goodB d l n e = true) {r : RCfg σ} {m : Impl σ}
    (hc : Conforms d l r m) (k : σ) :
    ∃ te, check d l none n e = some te ∧ FineFinal r.c.unknowns te.ann (meaning r.cfg (plan r m te) k) := by
  unfold goodB at h
  split at h
  · rename_i te ht
    simp only [Bool.and_eq_true] at h
    obtain ⟨⟨⟨h1, h2⟩, h3⟩, h4⟩ := h
    refine ⟨te, ht, (C60_sound_partial hd (fun t h => by cases h) ht (te.everyB_ok strictB_ok h1) (e.usesB_ok h3) (te.regularB_ok same_ok h2) hc
      (te.everyB_ok (fun a ha => .inl (Option.isNone_iff_eq_none.mp ha)) h4) k).1⟩
  · exact Bool.noConfusion h

end Cel.Types
