import Verif.Eval.PresProps

/-!
# C32: provenance of unknowns over whole evaluations
-/

set_option linter.unusedSimpArgs false
set_option linter.unusedVariables false

namespace Cel.Eval
open Cel

/-- Every unknown set occurring in the value, at any depth, mentions only attributes in `A` and only
function results in `F`. -/
inductive UnkOK (A : Attr → Prop) (F : FnResult → Prop) : Value → Prop where
  | unk {u} : (∀ a ∈ u.attrs, A a) → (∀ f ∈ u.fns, F f) → UnkOK A F (.unknown u)
  | list {l} : (∀ v ∈ l, UnkOK A F v) → UnkOK A F (.list l)
  | map {m} : (∀ k v, (k, v) ∈ m → UnkOK A F k) → (∀ k v, (k, v) ∈ m → UnkOK A F v) → UnkOK A F (.map m)
  | optNone : UnkOK A F (.opt none)
  | optSome {v} : UnkOK A F v → UnkOK A F (.opt (some v))
  | atom {v} : (∀ u, v ≠ .unknown u) → (∀ l, v ≠ .list l) → (∀ m, v ≠ .map m) → (∀ o, v ≠ .opt o) →
      UnkOK A F v

/-- The attribute is one that the activation's unknown patterns designate: some pattern matches it,
fully or partially. -/
def Designated (pats : List Pattern) (a : Attr) : Prop := ∃ p ∈ pats, p.isMatch a ≠ .none

section
variable {σ : Type} {A : Attr → Prop} {F : FnResult → Prop}

theorem UnkOK.error (s : Status) : UnkOK A F (.error s) := .atom (by simp) (by simp) (by simp) (by simp)
theorem UnkOK.bool (b : Bool) : UnkOK A F (.bool b) := .atom (by simp) (by simp) (by simp) (by simp)
theorem UnkOK.int (b : Int) : UnkOK A F (.int b) := .atom (by simp) (by simp) (by simp) (by simp)

theorem UnkOK.unk_inv {u : UnknownSet} (h : UnkOK A F (.unknown u)) :
    (∀ a ∈ u.attrs, A a) ∧ (∀ f ∈ u.fns, F f) := by
  cases h with
  | unk h1 h2 => exact ⟨h1, h2⟩
  | atom h _ _ _ => exact absurd rfl (h u)

theorem UnkOK.list_inv {l : List Value} (h : UnkOK A F (.list l)) : ∀ v ∈ l, UnkOK A F v := by
  cases h with
  | list h => exact h
  | atom _ h _ _ => exact absurd rfl (h l)

theorem UnkOK.map_inv {m : List (Value × Value)} (h : UnkOK A F (.map m)) :
    ∀ k v, (k, v) ∈ m → UnkOK A F k ∧ UnkOK A F v := by
  cases h with
  | map h1 h2 => exact fun k v hm => ⟨h1 k v hm, h2 k v hm⟩
  | atom _ _ h _ => exact absurd rfl (h m)

theorem designated_of_check {pats : List Pattern} {a : Attr} {p : Bool}
    (h : checkUnknown pats (some a) p = true) : Designated pats a := by
  have hne : matchAgainst pats a ≠ .none := by
    intro hn; rw [checkUnknown, hn] at h; cases h
  refine Classical.byContradiction fun hno => hne ?_
  rw [(match_against_iff pats a).2]
  intro q hq
  refine Classical.byContradiction fun hq' => hno ⟨q, hq, hq'⟩

theorem UnkOK.unknownOf {a : Attr} (h : A a) : UnkOK A F (.unknown (unknownOf a)) :=
  .unk (by simp [Cel.Eval.unknownOf]; exact h) (by simp [Cel.Eval.unknownOf])

theorem UnkOK.merge {vs : List Value} {u : UnknownSet} (hv : ∀ v ∈ vs, UnkOK A F v)
    (h : mergeUnknowns vs = some u) : UnkOK A F (.unknown u) := by
  obtain ⟨m1, _, m3, _⟩ := mergeLoop_mem vs none u h
  refine .unk (fun a ha => ?_) (fun f hf => ?_)
  · rcases m1 a ha with ⟨_, h, _⟩ | ⟨w, hw, haw⟩
    · cases h
    · exact (hv _ hw).unk_inv.1 a haw
  · rcases m3 f hf with ⟨_, h, _⟩ | ⟨w, hw, haw⟩
    · cases h
    · exact (hv _ hw).unk_inv.2 f haw

theorem UnkOK.calcLogic {o unk : Bool} {a b : Value} (ha : UnkOK A F a) (hb : UnkOK A F b) :
    UnkOK A F (calcLogic o unk a b) := by
  have hrest : UnkOK A F (Cel.Eval.calcLogic.rest o unk a b) := by
    unfold Cel.Eval.calcLogic.rest
    split
    · rename_i u hu
      cases unk with
      | false => cases hu
      | true => exact UnkOK.merge (vs := [a, b]) (by simp [ha, hb]) hu
    · split <;> exact UnkOK.error _
  unfold Cel.Eval.calcLogic
  split
  · split
    · exact UnkOK.bool _
    · split
      · exact UnkOK.bool _
      · split <;> exact UnkOK.bool _
  · split
    · exact UnkOK.bool _
    · exact hrest
  · split
    · exact UnkOK.bool _
    · exact hrest
  · exact hrest

theorem UnkOK.notStep {unk : Bool} {pats : List Pattern} {x : VA} (hA : ∀ a, Designated pats a → A a)
    (hx : UnkOK A F x.v) : UnkOK A F (notStep unk pats x).v := by
  unfold Cel.Eval.notStep
  split
  · rename_i a ha
    split at ha
    · rename_i hc
      rw [ha] at hc
      exact UnkOK.unknownOf (hA a (designated_of_check hc.2))
    · cases ha
  · split
    · exact UnkOK.bool _
    · exact hx
    · exact hx
    · exact UnkOK.error _

theorem UnkOK.notStrictlyFalse {x : VA} (hx : UnkOK A F x.v) : UnkOK A F (notStrictlyFalse x).v := by
  unfold Cel.Eval.notStrictlyFalse
  split
  · exact hx
  · exact UnkOK.bool _
  · exact UnkOK.bool _
  · exact UnkOK.error _

theorem UnkOK.lookupIdent {tr me unk : Bool} {missing pats : List Pattern} {vars : String → Option Value}
    (hA : ∀ a, Designated pats a → A a) (hv : ∀ x v, vars x = some v → UnkOK A F v) (x : String) (s : σ) (r : VA) (s' : σ)
    (h : lookupIdent tr me unk missing pats vars x s = (.ok r, s')) : UnkOK A F r.v := by
  unfold Cel.Eval.lookupIdent at h
  generalize htr : (if tr = true then some (Attr.mk x []) else none) = t at h
  simp only at h
  split at h
  · split at h
    · cases h; exact UnkOK.error _
    · cases h
  · split at h
    · rename_i hc
      cases h
      refine UnkOK.unknownOf (hA _ ?_)
      have := hc.2.2
      rw [← htr, if_pos hc.1] at this
      exact designated_of_check this
    · split at h
      · rename_i v hv'
        cases h; exact hv x v hv'
      · cases h; exact UnkOK.error _

theorem UnkOK.partialUnknowns {pats : List Pattern} (hA : ∀ a, Designated pats a → A a) :
    ∀ (xs : List VA), (∀ x ∈ xs, UnkOK A F x.v) → ∀ v ∈ checkPartialUnknowns pats xs, UnkOK A F v
  | [], _, v, hv => by cases hv
  | x :: xs, hx, v, hv => by
    unfold checkPartialUnknowns at hv
    rcases List.mem_cons.1 hv with hv | hv
    · subst hv
      split
      · rename_i a ha
        split at ha
        · rename_i hc
          rw [ha] at hc
          exact UnkOK.unknownOf (hA a (designated_of_check hc))
        · cases ha
      · exact hx x List.mem_cons_self
    · exact partialUnknowns hA xs (fun y hy => hx y (List.mem_cons_of_mem _ hy)) v hv

theorem UnkOK.noOverloadResult {name : String} {args : List Value} {recv unk : Bool}
    (h : ∀ v ∈ args, UnkOK A F v) : UnkOK A F (noOverloadResult name args recv unk) := by
  unfold Cel.Eval.noOverloadResult
  split
  · rename_i e he
    have : ∀ (l : List Value), firstError l = some e → ∃ s, e = .error s := by
      intro l
      induction l with
      | nil => intro h; cases h
      | cons a l ih =>
        intro h
        unfold firstError at h
        split at h
        · cases h
        · rename_i heq; cases heq; cases h; exact ⟨_, rfl⟩
        · rename_i heq; cases heq; exact ih h
    obtain ⟨s, rfl⟩ := this args he
    exact UnkOK.error _
  · split
    · rename_i u hu
      cases unk with
      | false => cases hu
      | true => exact UnkOK.merge h hu
    · split
      · split <;> exact UnkOK.error _
      · exact UnkOK.error _

/-- A function call preserves provenance when its implementations do; unknown function results are
added only for the call site's own expression. -/
theorem UnkOK.evalCall {opts : CallOpts} {c : CallSite σ} {xs : List VA} {s s' : σ} {r : Value}
    (hA : ∀ a, Designated opts.pats a → A a)
    (hF : ∀ d, F ⟨d, c.exprId⟩)
    (himpl : ∀ o args, c.resolve args = .ok (some o) → ∀ args' h v h', o.impl args' h = (.ok v, h') →
      (∀ a ∈ args', UnkOK A F a) → UnkOK A F v)
    (hx : ∀ x ∈ xs, UnkOK A F x.v) (h : evalCall opts c xs s = (.ok r, s')) : UnkOK A F r := by
  have hargs : ∀ v ∈ (if opts.unknowns then checkPartialUnknowns opts.pats xs else xs.map (·.v)), UnkOK A F v := by
    split
    · exact UnkOK.partialUnknowns hA xs hx
    · intro v hv
      obtain ⟨x, hx', rfl⟩ := List.mem_map.1 hv
      exact hx x hx'
  unfold Cel.Eval.evalCall at h
  generalize hag : (if opts.unknowns then checkPartialUnknowns opts.pats xs else xs.map (·.v)) = args at *
  simp only at h
  split at h
  · cases h
  · cases h
  · cases h; exact UnkOK.noOverloadResult hargs
  · rename_i o ho
    split at h
    · unfold invoke at h
      split at h
      · rename_i v s1 hi
        have hv := himpl o args ho args s v s1 hi hargs
        split at h
        · split at h
          · cases h
            exact .unk (by simp) (by simp; exact hF _)
          · cases h; exact hv
        · cases h; exact hv
      · rename_i hne
        exact absurd h (hne r s')
    · cases h; exact UnkOK.noOverloadResult hargs

theorem mem_listItems : ∀ (l : List Value) (i : Int) (it : Item), it ∈ listItems i l →
    (∃ j, it.key = .int j) ∧ it.val ∈ l ∧ it.one ∈ l
  | [], _, _, h => by cases h
  | v :: vs, i, it, h => by
    rcases List.mem_cons.1 h with h | h
    · subst h; exact ⟨⟨i, rfl⟩, List.mem_cons_self, List.mem_cons_self⟩
    · have := mem_listItems vs (i + 1) it h
      exact ⟨this.1, List.mem_cons_of_mem _ this.2.1, List.mem_cons_of_mem _ this.2.2⟩

theorem mem_mapItems : ∀ (m : List (Value × Value)) (it : Item), it ∈ mapItems m →
    (it.key, it.val) ∈ m ∧ it.one = it.key
  | [], _, h => by cases h
  | (k, v) :: m, it, h => by
    rcases List.mem_cons.1 h with h | h
    · subst h; exact ⟨List.mem_cons_self, rfl⟩
    · have := mem_mapItems m it h
      exact ⟨List.mem_cons_of_mem _ this.1, this.2⟩

theorem items_ok {unk : Bool} {pats : List Pattern} {x : VA} {l : List Item} (hx : UnkOK A F x.v)
    (h : rangeOf unk pats x = .items l) : ∀ it ∈ l, UnkOK A F it.key ∧ UnkOK A F it.val ∧ UnkOK A F it.one := by
  intro it hit
  unfold rangeOf at h
  split at h
  · cases h
  · cases h
  · rename_i l' hl
    rw [hl] at hx
    cases h
    obtain ⟨⟨j, hj⟩, h2, h3⟩ := mem_listItems _ _ _ hit
    exact ⟨hj ▸ UnkOK.int j, hx.list_inv _ h2, hx.list_inv _ h3⟩
  · rename_i m hm
    rw [hm] at hx
    split at h
    · cases h
    · cases h
      obtain ⟨h1, h2⟩ := mem_mapItems _ _ hit
      have := hx.map_inv _ _ h1
      exact ⟨this.1, this.2, h2 ▸ this.1⟩
  · cases h

/-! ### The machine preserves provenance, step by step -/

/-- A property of all values the machine holds: value stack, iterators, slots. -/
structure Holds (V : Value → Prop) (m : MS σ) : Prop where
  stack : ∀ x ∈ m.stack, V x.v
  iters : ∀ l ∈ m.iters, ∀ it ∈ l, V it.key ∧ V it.val ∧ V it.one
  slots : ∀ k x, m.slots k = some x → V x.v

/-- One instruction's own step and constants do not invent unknowns. -/
def InstrOK (V : Value → Prop) : Instr σ → Prop
  | .const v => V v
  | .op n f => ∀ xs h r h', xs.length = n → f xs h = (.ok r, h') → (∀ x ∈ xs, V x.v) → V r.v
  | _ => True

theorem holds_upd {V : Value → Prop} {sl : Slots} {k : Nat} {o : Option VA}
    (h : ∀ j x, sl j = some x → V x.v) (ho : ∀ x, o = some x → V x.v) : ∀ j x, upd sl k o j = some x → V x.v := by
  intro j x hx
  unfold upd at hx
  split at hx
  · exact ho x hx
  · exact h j x hx

theorem holds_clearOpt {V : Value → Prop} {sl : Slots} {k : Option Nat}
    (h : ∀ j x, sl j = some x → V x.v) : ∀ j x, clearOpt sl k j = some x → V x.v := by
  cases k with
  | none => exact h
  | some k => exact holds_upd h (by simp)

theorem holds_jump {V : Value → Prop} {size : Nat} {off : Int} {a b : MS σ}
    (h : jumpTo size off a = .next b) (ha : Holds V a) : Holds V b := by
  unfold jumpTo at h
  split at h
  · cases h
  · cases h; exact ⟨ha.stack, ha.iters, ha.slots⟩

theorem exec_holds {cfg : Cfg σ} {F : FnResult → Prop} {size : Nat} {i : Instr σ} {m m' : MS σ}
    (hglob : ∀ x h r h', cfg.global x h = (.ok r, h') → UnkOK (Designated cfg.pats) F r.v)
    (hi : InstrOK (UnkOK (Designated cfg.pats) F) i)
    (hm : Holds (UnkOK (Designated cfg.pats) F) m) (hs : exec cfg size i m = .next m') :
    Holds (UnkOK (Designated cfg.pats) F) m' := by
  have hpush : ∀ {x : VA} {st : List VA}, UnkOK (Designated cfg.pats) F x.v →
      (∀ y ∈ st, UnkOK (Designated cfg.pats) F y.v) → ∀ y ∈ x :: st, UnkOK (Designated cfg.pats) F y.v := by
    intro x st hx hst y hy
    rcases List.mem_cons.1 hy with hy | hy
    · exact hy ▸ hx
    · exact hst y hy
  have hst := hm.stack
  cases i with
  | const v => cases hs; exact ⟨hpush hi hst, hm.iters, hm.slots⟩
  | ident x =>
    simp only [exec] at hs
    split at hs
    · rename_i a h hg; cases hs; exact ⟨hpush (hglob _ _ _ _ hg) hst, hm.iters, hm.slots⟩
    · cases hs
    · cases hs
  | slot x k =>
    simp only [exec] at hs
    split at hs
    · rename_i a ha; cases hs; exact ⟨hpush (hm.slots _ _ ha) hst, hm.iters, hm.slots⟩
    · cases hs
  | lazyInit k sub =>
    simp only [exec] at hs
    split at hs
    · rename_i a ha; cases hs; exact ⟨hpush (hm.slots _ _ ha) hst, hm.iters, hm.slots⟩
    · cases hs; exact ⟨hst, hm.iters, hm.slots⟩
  | op n f =>
    simp only [exec] at hs
    split at hs
    · cases hs
    · rename_i hlen
      split at hs
      · rename_i a h hf
        cases hs
        refine ⟨hpush (hi _ _ _ _ (by simp; omega) hf ?_) (fun y hy => hst y (List.mem_of_mem_drop hy)),
          hm.iters, hm.slots⟩
        intro x hx
        exact hst x (List.mem_of_mem_take (List.mem_reverse.1 hx))
      · cases hs
      · cases hs
  | logic o =>
    simp only [exec] at hs
    split at hs
    · rename_i b a st heq
      cases hs
      rw [heq] at hst
      exact ⟨hpush (UnkOK.calcLogic (hst a (by simp)) (hst b (by simp))) (fun y hy => hst y (by simp [hy])),
        hm.iters, hm.slots⟩
    · cases hs
  | ternary =>
    simp only [exec] at hs
    split at hs
    · rename_i f t c st heq
      cases hs
      rw [heq] at hst
      refine ⟨hpush ?_ (fun y hy => hst y (by simp [hy])), hm.iters, hm.slots⟩
      unfold ternaryStep
      split
      · split
        · exact hst c (by simp)
        · exact UnkOK.error _
      · exact hst c (by simp)
      · exact hst t (by simp)
      · exact hst f (by simp)
      · exact UnkOK.error _
    · cases hs
  | jump off => exact holds_jump hs hm
  | condJump b l off =>
    simp only [exec] at hs
    split at hs
    · cases hs
    · rename_i x st heq
      have hm' : Holds (UnkOK (Designated cfg.pats) F) (if l = true then m else { m with stack := st }) := by
        split
        · exact hm
        · exact ⟨fun y hy => hst y (by rw [heq]; simp [hy]), hm.iters, hm.slots⟩
      split at hs
      · split at hs
        · exact holds_jump hs hm'
        · cases hs; exact hm'
      · cases hs; exact hm'
  | boolCheckJump off =>
    simp only [exec] at hs
    split at hs
    · cases hs
    · rename_i x st heq
      split at hs
      · cases hs; exact hm
      · exact holds_jump hs hm
      · exact holds_jump hs hm
      · refine holds_jump hs ⟨hpush (UnkOK.error _) (fun y hy => hst y (by rw [heq]; simp [hy])), hm.iters, hm.slots⟩
  | clearSlot k => cases hs; exact ⟨hst, hm.iters, holds_upd hm.slots (by simp)⟩
  | compInit off =>
    simp only [exec] at hs
    split at hs
    · cases hs
    · rename_i x st heq
      have hx := hst x (by rw [heq]; simp)
      split at hs
      · rename_i y hy
        refine holds_jump hs ⟨hpush ?_ (fun y hy => hst y (by rw [heq]; simp [hy])), hm.iters, hm.slots⟩
        unfold rangeOf at hy
        split at hy
        · cases hy; exact hx
        · cases hy; exact hx
        · cases hy
        · split at hy
          · rename_i a ha
            cases hy
            split at ha
            · rename_i hc
              rw [ha] at hc
              exact UnkOK.unknownOf (designated_of_check hc.2)
            · cases ha
          · cases hy
        · cases hy; exact UnkOK.error _
      · rename_i l hl
        cases hs
        refine ⟨hst, ?_, hm.slots⟩
        intro l' hl' it hit
        rcases List.mem_cons.1 hl' with hl' | hl'
        · subst hl'; exact items_ok hx hl it hit
        · exact hm.iters l' hl' it hit
  | compNext a b c d =>
    simp only [exec] at hs
    split at hs
    · rename_i ac r st heq
      have hac := hst ac (by rw [heq]; simp)
      have hrest : ∀ y ∈ r :: st, UnkOK (Designated cfg.pats) F y.v :=
        fun y hy => hst y (by rw [heq]; exact List.mem_cons_of_mem _ hy)
      have hsl : ∀ j x, upd m.slots c (some ac) j = some x → UnkOK (Designated cfg.pats) F x.v :=
        holds_upd hm.slots (fun x hx => by cases hx; exact hac)
      split at hs
      · cases hs
      · exact holds_jump hs ⟨hrest, hm.iters, holds_clearOpt (holds_upd hsl (by simp))⟩
      · rename_i it rest is heq2
        split at hs
        · cases hs
        · cases hs
          have hit := hm.iters (it :: rest) (by rw [heq2]; simp) it (by simp)
          refine ⟨hrest, ?_, ?_⟩
          · intro l hl i hi
            rcases List.mem_cons.1 hl with hl | hl
            · rw [hl] at hi
              exact hm.iters (it :: rest) (by rw [heq2]; simp) i (List.mem_cons_of_mem _ hi)
            · exact hm.iters l (by rw [heq2]; exact List.mem_cons_of_mem _ hl) i hi
          · have h12 : UnkOK (Designated cfg.pats) F (item1 cfg.unknowns cfg.pats r.t it).v ∧
                UnkOK (Designated cfg.pats) F (item2 cfg.unknowns cfg.pats r.t it).1.v ∧
                UnkOK (Designated cfg.pats) F (item2 cfg.unknowns cfg.pats r.t it).2.v := by
              unfold item1 item2
              split
              · simp only
                split
                · rename_i a ha
                  have hd : UnkOK (Designated cfg.pats) F (.unknown (unknownOf a)) := by
                    split at ha
                    · rename_i hc
                      rw [ha] at hc
                      exact UnkOK.unknownOf (designated_of_check hc)
                    · cases ha
                  exact ⟨hd, hit.1, hd⟩
                · exact ⟨hit.2.2, hit.1, hit.2.1⟩
              · exact ⟨hit.2.2, hit.1, hit.2.1⟩
            cases b with
            | none => exact holds_upd hsl (fun x hx => by cases hx; exact h12.1)
            | some k2 =>
              exact holds_upd (holds_upd hsl (fun x hx => by cases hx; exact h12.2.1))
                (fun x hx => by cases hx; exact h12.2.2)
    · cases hs
  | compCond a b c d e =>
    simp only [exec] at hs
    split at hs
    · rename_i x r st heq
      have hrest : ∀ y ∈ r :: st, UnkOK (Designated cfg.pats) F y.v :=
        fun y hy => hst y (by rw [heq]; exact List.mem_cons_of_mem _ hy)
      split at hs
      · cases hs; exact ⟨hrest, hm.iters, hm.slots⟩
      · exact holds_jump hs ⟨hrest, hm.iters, hm.slots⟩
      · rename_i y hy
        refine holds_jump hs ⟨hpush ?_ (fun z hz => hrest z (List.mem_cons_of_mem _ hz)),
          fun l hl => hm.iters l (List.mem_of_mem_tail hl), holds_upd (holds_clearOpt (holds_upd hm.slots (by simp))) (by simp)⟩
        unfold condOf at hy
        split at hy
        · split at hy <;> cases hy
        · cases hy; exact hst x (by rw [heq]; simp)
        · cases hy; exact hst x (by rw [heq]; simp)
        · cases hy; exact UnkOK.error _
    · cases hs
  | compFinish a =>
    simp only [exec] at hs
    split at hs
    · rename_i x r st heq
      cases hs
      rw [heq] at hst
      exact ⟨hpush (hst x (by simp)) (fun z hz => hst z (by simp [hz])), fun l hl => hm.iters l (List.mem_of_mem_tail hl),
        holds_upd hm.slots (by simp)⟩
    · cases hs

/-- **C32 (any program).** Whatever program the machine runs — planned or not — the unknown sets it
ever returns only mention attributes designated by the activation's patterns and function results in
`F`, provided no variable, constant or individual step of the program invents unknowns. -/
theorem unknown_provenance_machine {cfg : Cfg σ} {F : FnResult → Prop} (p : Prog σ) (h : σ)
    (hglob : ∀ x h r h', cfg.global x h = (.ok r, h') → UnkOK (Designated cfg.pats) F r.v)
    (hp : ∀ code ∈ p, ∀ i ∈ code, InstrOK (UnkOK (Designated cfg.pats) F) i)
    {v : Value} {h' : σ} (hr : Halts cfg p (MS.start h) (.value v h')) :
    UnkOK (Designated cfg.pats) F v := by
  have key : ∀ m m' : MS σ, Holds (UnkOK (Designated cfg.pats) F) m → Steps cfg p m m' →
      Holds (UnkOK (Designated cfg.pats) F) m' := by
    intro m m' hm hst
    induction hst with
    | refl => exact hm
    | cons hs _ ih =>
      refine ih ?_
      unfold step at hs
      split at hs
      · cases hs
      · rename_i code hc
        split at hs
        · rename_i i hi
          refine exec_holds hglob (hp code (List.mem_of_getElem? hc) i (List.mem_of_getElem? hi)) ?_ hs
          exact ⟨hm.stack, hm.iters, hm.slots⟩
        · split at hs
          · split at hs
            · unfold finish at hs; split at hs <;> cases hs
            · split at hs
              · rename_i x st heq
                cases hs
                exact ⟨hm.stack, hm.iters, holds_upd hm.slots
                  (fun y hy => by cases hy; exact hm.stack x (by rw [heq]; simp))⟩
              · cases hs
          · unfold finish at hs; split at hs <;> cases hs
  obtain ⟨m', hst, hfin⟩ := hr
  have hm' := key _ m' ⟨by simp [MS.start], by simp [MS.start], by simp [MS.start]⟩ hst
  have hfinish : ∀ m : MS σ, Holds (UnkOK (Designated cfg.pats) F) m → finish m = .fin (.value v h') →
      UnkOK (Designated cfg.pats) F v := by
    intro m hm hf
    unfold finish at hf
    split at hf
    · rename_i x heq; cases hf; exact hm.stack x (by rw [heq]; simp)
    · cases hf
  have hexec : ∀ {size : Nat} {i : Instr σ} {m : MS σ}, exec cfg size i m ≠ .fin (.value v h') := by
    intro size i m
    have hj : ∀ {size : Nat} {off : Int} {m : MS σ}, jumpTo size off m ≠ .fin (.value v h') := by
      intro size off m h
      unfold jumpTo at h
      split at h <;> cases h
    intro h
    cases i <;> simp only [exec] at h
    all_goals
      first
        | exact hj h
        | (repeat' first | exact hj h | (cases h; done) | split at h)
  unfold step at hfin
  split at hfin
  · cases hfin
  · split at hfin
    · exact absurd hfin hexec
    · split at hfin
      · split at hfin
        · exact hfinish _ hm' hfin
        · split at hfin <;> cases hfin
      · exact hfinish _ hm' hfin

mutual
theorem compile_instrOK {cfg : Cfg σ} {V : Value → Prop} (e : Expr σ)
    (ho : ∀ f k, HasOp f k e → ∀ xs h r h', xs.length = k → f xs h = (.ok r, h') → (∀ x ∈ xs, V x.v) → V r.v)
    (hc : ∀ v, HasConst v e → V v) : ∀ (Γ : Scope) (ini : Bool) (n m : Nat),
    (∀ i ∈ (compile cfg Γ ini n m e).1, InstrOK V i) ∧
    (∀ c ∈ (compile cfg Γ ini n m e).2, ∀ i ∈ c, InstrOK V i) := by
  cases e with
  | const v => intro Γ ini n m; simp only [compile]; exact ⟨by simp [InstrOK]; exact hc v rfl, by simp⟩
  | ident x a =>
    intro Γ ini n m
    simp only [compile]
    split
    · simp [InstrOK]
    · simp [InstrOK]
    · simp [InstrOK]
  | op f args =>
    intro Γ ini n m
    have := compileArgs_instrOK args (fun g k hg => ho g k (Or.inr hg)) hc Γ ini n m (cfg := cfg)
    simp only [compile]
    refine ⟨fun i hi => ?_, this.2⟩
    rcases List.mem_append.1 hi with hi | hi
    · exact this.1 i hi
    · rw [List.mem_singleton.1 hi]
      exact ho f args.len (Or.inl ⟨rfl, rfl⟩)
  | logic o a b =>
    intro Γ ini n m
    have ha := compile_instrOK a (fun g k hg => ho g k (Or.inl hg)) (fun v hv => hc v (Or.inl hv)) Γ ini n m (cfg := cfg)
    have hb := compile_instrOK b (fun g k hg => ho g k (Or.inr hg)) (fun v hv => hc v (Or.inr hv)) Γ ini
      (after ini n a) (m + (compile cfg Γ ini n m a).2.length) (cfg := cfg)
    simp only [compile]
    split <;> refine ⟨fun i hi => ?_, fun c hc' => ?_⟩
    all_goals simp only [List.mem_append, List.mem_singleton] at *
    · rcases hi with hi | rfl | hi | rfl
      · exact ha.1 i hi
      · trivial
      · exact hb.1 i hi
      · trivial
    · rcases hc' with hc' | hc'
      · exact ha.2 c hc'
      · exact hb.2 c hc'
    · rcases hi with hi | hi | rfl
      · exact ha.1 i hi
      · exact hb.1 i hi
      · trivial
    · rcases hc' with hc' | hc'
      · exact ha.2 c hc'
      · exact hb.2 c hc'
  | cond c t f =>
    intro Γ ini n m
    have ha := compile_instrOK c (fun g k hg => ho g k (Or.inl hg)) (fun v hv => hc v (Or.inl hv)) (cfg := cfg)
    have hb := compile_instrOK t (fun g k hg => ho g k (Or.inr (Or.inl hg))) (fun v hv => hc v (Or.inr (Or.inl hv))) (cfg := cfg)
    have hd := compile_instrOK f (fun g k hg => ho g k (Or.inr (Or.inr hg))) (fun v hv => hc v (Or.inr (Or.inr hv))) (cfg := cfg)
    simp only [compile]
    split <;> refine ⟨fun i hi => ?_, fun c hc' => ?_⟩
    all_goals simp only [List.mem_append, List.mem_cons, List.not_mem_nil, or_false] at *
    · rcases hi with hi | (rfl | rfl) | hi | rfl | hi
      · exact (ha _ _ _ _).1 i hi
      · trivial
      · trivial
      · exact (hb _ _ _ _).1 i hi
      · trivial
      · exact (hd _ _ _ _).1 i hi
    · rcases hc' with hc' | hc' | hc'
      · exact (ha _ _ _ _).2 c hc'
      · exact (hb _ _ _ _).2 c hc'
      · exact (hd _ _ _ _).2 c hc'
    · rcases hi with hi | hi | hi | rfl
      · exact (ha _ _ _ _).1 i hi
      · exact (hb _ _ _ _).1 i hi
      · exact (hd _ _ _ _).1 i hi
      · trivial
    · rcases hc' with hc' | hc' | hc'
      · exact (ha _ _ _ _).2 c hc'
      · exact (hb _ _ _ _).2 c hc'
      · exact (hd _ _ _ _).2 c hc'
  | comp i j a r e0 c s t =>
    intro Γ ini n m
    have h0 := compile_instrOK r (fun g k hg => ho g k (Or.inl hg)) (fun v hv => hc v (Or.inl hv)) (cfg := cfg)
    have h1 := compile_instrOK e0 (fun g k hg => ho g k (Or.inr (Or.inl hg))) (fun v hv => hc v (Or.inr (Or.inl hv))) (cfg := cfg)
    have h2 := compile_instrOK c (fun g k hg => ho g k (Or.inr (Or.inr (Or.inl hg)))) (fun v hv => hc v (Or.inr (Or.inr (Or.inl hv)))) (cfg := cfg)
    have h3 := compile_instrOK s (fun g k hg => ho g k (Or.inr (Or.inr (Or.inr (Or.inl hg)))))
        (fun v hv => hc v (Or.inr (Or.inr (Or.inr (Or.inl hv))))) (cfg := cfg)
    have h4 := compile_instrOK t (fun g k hg => ho g k (Or.inr (Or.inr (Or.inr (Or.inr hg)))))
        (fun v hv => hc v (Or.inr (Or.inr (Or.inr (Or.inr hv))))) (cfg := cfg)
    simp only [compile]
    refine ⟨fun i hi => ?_, fun c hc' => ?_⟩
    all_goals simp only [List.mem_append, List.mem_singleton] at *
    · rcases hi with hi | rfl | hi | rfl | hi | rfl | hi | rfl | hi | rfl
      · exact (h0 _ _ _ _).1 i hi
      · trivial
      · exact (h1 _ _ _ _).1 i hi
      · trivial
      · exact (h2 _ _ _ _).1 i hi
      · trivial
      · exact (h3 _ _ _ _).1 i hi
      · trivial
      · exact (h4 _ _ _ _).1 i hi
      · trivial
    · rcases hc' with hc' | hc' | hc' | hc' | hc'
      · exact (h0 _ _ _ _).2 c hc'
      · exact (h1 _ _ _ _).2 c hc'
      · exact (h2 _ _ _ _).2 c hc'
      · exact (h3 _ _ _ _).2 c hc'
      · exact (h4 _ _ _ _).2 c hc'
  | bind x e0 b =>
    intro Γ ini n m
    have h0 := compile_instrOK e0 (fun g k hg => ho g k (Or.inl hg)) (fun v hv => hc v (Or.inl hv)) (cfg := cfg)
    have h1 := compile_instrOK b (fun g k hg => ho g k (Or.inr hg)) (fun v hv => hc v (Or.inr hv)) (cfg := cfg)
    simp only [compile]
    refine ⟨fun i hi => ?_, fun c hc' => ?_⟩
    all_goals simp only [List.mem_append, List.mem_singleton] at *
    · rcases hi with hi | rfl
      · exact (h1 _ _ _ _).1 i hi
      · trivial
    · rcases hc' with hc' | rfl | hc'
      · exact (h0 _ _ _ _).2 c hc'
      · exact (h0 _ _ _ _).1
      · exact (h1 _ _ _ _).2 c hc'
theorem compileArgs_instrOK {cfg : Cfg σ} {V : Value → Prop} (es : Exprs σ)
    (ho : ∀ f k, HasOps f k es → ∀ xs h r h', xs.length = k → f xs h = (.ok r, h') → (∀ x ∈ xs, V x.v) → V r.v)
    (hc : ∀ v, HasConsts v es → V v) : ∀ (Γ : Scope) (ini : Bool) (n m : Nat),
    (∀ i ∈ (compileArgs cfg Γ ini n m es).1, InstrOK V i) ∧
    (∀ c ∈ (compileArgs cfg Γ ini n m es).2, ∀ i ∈ c, InstrOK V i) := by
  cases es with
  | nil => intro Γ ini n m; simp [compileArgs]
  | cons e es =>
    intro Γ ini n m
    have h0 := compile_instrOK e (fun g k hg => ho g k (Or.inl hg)) (fun v hv => hc v (Or.inl hv)) (cfg := cfg)
    have h1 := compileArgs_instrOK es (fun g k hg => ho g k (Or.inr hg)) (fun v hv => hc v (Or.inr hv)) (cfg := cfg)
    simp only [compileArgs]
    refine ⟨fun i hi => ?_, fun c hc' => ?_⟩
    · rcases List.mem_append.1 hi with hi | hi
      · exact (h0 _ _ _ _).1 i hi
      · exact (h1 _ _ _ _).1 i hi
    · rcases List.mem_append.1 hc' with hi | hi
      · exact (h0 _ _ _ _).2 c hi
      · exact (h1 _ _ _ _).2 c hi
end

/-- **C32.** Provenance of unknowns over a whole evaluation.  Suppose the activation's variables,
the constants and the individual steps never invent unknowns: given operands whose unknown sets only
mention attributes designated by the activation's patterns (and function results in `F`), a step's
result does too (`lookupIdent`, `evalCall`, `notStep`, `notStrictlyFalse` are shown to do so).  Then
every unknown set anywhere in the value an expression evaluates to only mentions designated
attributes and function results in `F` — for every expression, in both modes. -/
theorem unknown_provenance {cfg : Cfg σ} {F : FnResult → Prop} (e : Expr σ) (h : σ)
    (hglob : ∀ x h r h', cfg.global x h = (.ok r, h') → UnkOK (Designated cfg.pats) F r.v)
    (hops : ∀ f k, HasOp f k e → ∀ xs h r h', xs.length = k → f xs h = (.ok r, h') →
      (∀ x ∈ xs, UnkOK (Designated cfg.pats) F x.v) → UnkOK (Designated cfg.pats) F r.v)
    (hconst : ∀ v, HasConst v e → UnkOK (Designated cfg.pats) F v)
    {v : Value} {h' : σ} (hr : Halts cfg (plan cfg e) (MS.start h) (.value v h')) :
    UnkOK (Designated cfg.pats) F v := by
  refine unknown_provenance_machine _ h hglob ?_ hr
  have := compile_instrOK (cfg := cfg) (V := UnkOK (Designated cfg.pats) F) e hops hconst [] false 0 1
  intro code hcode
  simp only [plan] at hcode
  rcases List.mem_cons.1 hcode with rfl | hcode
  · exact this.1
  · exact this.2 code hcode

/-- Options with attribute tracking: `x` is an int, everything below `y` is unknown. -/
def exUnkCfg : Cfg Unit :=
  ⟨true, true, [⟨"y", []⟩], 0, lookupIdent true false true [] [⟨"y", []⟩]
    (fun n => if n = "x" then some (.bool false) else none)⟩

/-- `x || !y` evaluates to an unknown set, which by the theorem mentions only designated
attributes. -/
example : ∃ u, Halts exUnkCfg (plan exUnkCfg (.logic true (.ident "x" false)
      (.op (fun xs h => match xs with | [x] => (.ok (notStep true [⟨"y", []⟩] x), h) | _ => (.ub, h))
        (args1 (.ident "y" false))))) (MS.start ()) (.value (.unknown u) ()) ∧
    u.attrs = [⟨"y", []⟩] ∧ UnkOK (Designated exUnkCfg.pats) (fun _ => False) (.unknown u) := by
  have hh : Halts exUnkCfg (plan exUnkCfg (.logic true (.ident "x" false)
      (.op (fun xs h => match xs with | [x] => (.ok (notStep true [⟨"y", []⟩] x), h) | _ => (.ub, h))
        (args1 (.ident "y" false))))) (MS.start ()) (.value (.unknown ⟨[⟨"y", []⟩], []⟩) ()) :=
    run_halts (n := 10) rfl
  refine ⟨_, hh, rfl, unknown_provenance _ () ?_ ?_ ?_ hh⟩
  · intro x h r h' hg
    simp only [exUnkCfg] at hg
    refine UnkOK.lookupIdent (pats := [⟨"y", []⟩]) (fun _ h => h) ?_ x h r h' hg
    intro n v hv
    split at hv
    · cases hv; exact UnkOK.bool _
    · cases hv
  · intro f k hf xs h r h' hl hfx hx
    simp [HasOp, HasOps, args1] at hf
    obtain ⟨rfl, -⟩ := hf
    simp only at hfx
    split at hfx
    · cases hfx
      exact UnkOK.notStep (fun _ h => h) (hx _ (by simp))
    · cases hfx
  · intro v hv
    simp [HasConst, HasConsts, args1] at hv

end

end Cel.Eval
