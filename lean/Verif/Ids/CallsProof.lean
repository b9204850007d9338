import Verif.Ids.CallsSpec
import Verif.Ids.Visit

set_option linter.unusedSimpArgs false
set_option linter.unusedVariables false

/-!
# Macro calls record the source: lemmas
-/

namespace Cel.Ids
open Cel Cel.Proto

mutual
/-- `Reads` with all ids that are looked at below `n`. -/
inductive ReadsN (n : Int) (calls : Int → Option NExpr) : NExpr → NExpr → Prop
  | recorded {l : NNode} {ks : List NExpr} {i : Int} {f : String} {cs rs : List NExpr} (hn : l.id < n)
      (hc : calls l.id = some (.node ⟨i, .call f⟩ cs)) (h : ReadsAllN n calls true cs rs) :
      ReadsN n calls (.node l ks) (.node ⟨0, .call f⟩ rs)
  | plain {l : NNode} {ks rs : List NExpr} (hn : l.id < n) (hc : calls l.id = none) (hk : isComp l.kind = false)
      (h : ReadsAllN n calls (isCall l.kind) ks rs) :
      ReadsN n calls (.node l ks) (.node ⟨0, bareKind l.kind⟩ rs)
inductive ReadsAllN (n : Int) (calls : Int → Option NExpr) : Bool → List NExpr → List NExpr → Prop
  | nil {c : Bool} : ReadsAllN n calls c [] []
  | unset {ks rs : List NExpr} (h : ReadsAllN n calls true ks rs) :
      ReadsAllN n calls true (.absent :: ks) (.absent :: rs)
  | cons {c : Bool} {k r : NExpr} {ks rs : List NExpr} (h : ReadsN n calls k r) (hs : ReadsAllN n calls c ks rs) :
      ReadsAllN n calls c (k :: ks) (r :: rs)
end

theorem ReadsN.reads {n : Int} {calls : Int → Option NExpr} {e r : NExpr} (h : ReadsN n calls e r) :
    Reads calls e r :=
  ReadsN.rec (motive_1 := fun e r _ => Reads calls e r) (motive_2 := fun c ks rs _ => ReadsAll calls c ks rs)
    (fun _ hc _ ih => .recorded hc ih) (fun _ hc hk _ ih => .plain hc hk ih) .nil (fun _ ih => .unset ih)
    (fun _ _ ih1 ih2 => .cons ih1 ih2) h

theorem ReadsN.mono {n n' : Int} {calls calls' : Int → Option NExpr} (hn : n ≤ n')
    (hc : ∀ i, i < n → calls' i = calls i) {e r : NExpr} (h : ReadsN n calls e r) : ReadsN n' calls' e r :=
  ReadsN.rec (motive_1 := fun e r _ => ReadsN n' calls' e r) (motive_2 := fun c ks rs _ => ReadsAllN n' calls' c ks rs)
    (fun h1 h2 _ ih => .recorded (by omega) (by rw [hc _ h1]; exact h2) ih)
    (fun h1 h2 hk _ ih => .plain (by omega) (by rw [hc _ h1]; exact h2) hk ih) .nil (fun _ ih => .unset ih)
    (fun _ _ ih1 ih2 => .cons ih1 ih2) h

theorem ReadsN.present {n : Int} {calls : Int → Option NExpr} {e r : NExpr} (h : ReadsN n calls e r) :
    e.present = true := by
  cases h <;> rfl

theorem oneVar_of {k : NKind} (h : isComp k = false) : oneVar k = k := by
  cases k <;> first | rfl | simp [isComp] at h

theorem ReadsN.buildArg {n : Int} {calls : Int → Option NExpr} {e r : NExpr} (h : ReadsN n calls e r) :
    ReadsN n calls (Ids.buildArg calls e) r :=
  ReadsN.rec (motive_1 := fun e r _ => ReadsN n calls (Ids.buildArg calls e) r)
    (motive_2 := fun c ks rs _ => ∀ keep, (c = true → keep = true) → ReadsAllN n calls c (buildArgs calls keep ks) rs)
    (fun {l ks i f cs rs} hn hc h ih => by
      rw [Ids.buildArg, if_pos (by simp [hc])]
      exact .recorded hn hc h)
    (fun {l ks rs} hn hc hk h ih => by
      rw [Ids.buildArg, if_neg (by simp [hc]), oneVar_of hk]
      exact .plain (l := ⟨l.id, l.kind⟩) hn hc hk (ih _ (by intro hc; simp [hc])))
    (fun {c} keep _ => by rw [buildArgs]; exact .nil)
    (fun {ks rs} h ih keep hk => by
      rw [buildArgs, if_pos (by simp [hk rfl, Tree.present])]
      exact .unset (ih keep hk))
    (fun {c k r ks rs} h1 h2 ih1 ih2 keep hk => by
      rw [buildArgs, if_neg (by simp [h1.present])]
      exact .cons ih1 (ih2 keep hk)) h

/-- Pairs that read. -/
def Pairs (n : Int) (calls : Int → Option NExpr) (es es0 : List NExpr) : Prop :=
  List.Forall₂ (fun e e0 => ReadsN n calls e (bare e0)) es es0

theorem Pairs.mono {n n' : Int} {calls calls' : Int → Option NExpr} (hn : n ≤ n')
    (hc : ∀ i, i < n → calls' i = calls i) {es es0 : List NExpr} (h : Pairs n calls es es0) : Pairs n' calls' es es0 := by
  induction h with
  | nil => exact .nil
  | cons h _ ih => exact .cons (h.mono hn hc) ih

theorem Pairs.all {n : Int} {calls : Int → Option NExpr} (c : Bool) {es es0 : List NExpr} (h : Pairs n calls es es0) :
    ReadsAllN n calls c es (bareAll es0) := by
  induction h with
  | nil => rw [bareAll]; exact .nil
  | cons h _ ih => rw [bareAll]; exact .cons h ih

theorem Pairs.built {n : Int} {calls calls' : Int → Option NExpr} (hc : ∀ i, i < n → calls' i = calls i)
    {es es0 : List NExpr} (h : Pairs n calls es es0) :
    Pairs n calls' (es.map (buildArg calls)) es0 := by
  induction h with
  | nil => exact .nil
  | cons h _ ih => exact .cons (h.buildArg.mono (Int.le_refl n) hc) ih

/-! ## Programs leave the macro calls alone -/

structure Grows (s s1 : St) : Prop where
  next : s.next ≤ s1.next
  calls : s1.calls = s.calls

theorem Grows.refl (s : St) : Grows s s := ⟨Int.le_refl _, rfl⟩
theorem Grows.trans {a b c : St} (h1 : Grows a b) (h2 : Grows b c) : Grows a c :=
  ⟨by have := h1.next; have := h2.next; omega, h2.calls.trans h1.calls⟩

theorem grows_next (r : Range) (s : St) : Grows s (nextIdAt r s).2 := ⟨by simp only [nextIdAt]; omega, rfl⟩

theorem grows_alloc : ∀ (rs : List Range) (s : St), Grows s (allocAll rs s).2
  | [], s => Grows.refl s
  | r :: rs, s => (grows_next r s).trans (grows_alloc rs _)

theorem grows_copyId (i : Int) (s : St) : Grows s (copyId i s).2 := by
  unfold copyId
  split
  · exact Grows.refl s
  · exact grows_next _ s

theorem grows_copyIds : ∀ (is : List Int) (s : St), Grows s (copyIds is s).2
  | [], s => Grows.refl s
  | i :: is, s => (grows_copyId i s).trans (grows_copyIds is _)

mutual
theorem grows_copy : ∀ (e : NExpr) (s : St), Grows s (copy e s).2
  | .absent, s => by rw [copy]; exact Grows.refl s
  | .node l ks, s => by
    rw [copy]
    exact (grows_copyId l.id s).trans (grows_copyKids (isCall l.kind) ks _ _)
theorem grows_copyKids (call : Bool) : ∀ (ks : List NExpr) (gs : List (List Int)) (s : St),
    Grows s (copyKids call gs ks s).2.2
  | [], gs, s => by rw [copyKids]; exact grows_copyIds _ s
  | k :: ks, gs, s => by
    rw [copyKids]
    simp only []
    refine (grows_copyIds (gs.headD []) s).trans (Grows.trans ?_ (grows_copyKids call ks _ _))
    split
    · exact Grows.refl _
    · exact grows_copy k _
end

theorem grows_step {regs regs1 : Regs} {s s1 : St} {i : Instr} (h : step regs s i = some (regs1, s1)) : Grows s s1 := by
  cases i with
  | new k is =>
    simp only [step] at h
    split at h
    · cases h
    · simp only [Option.some.injEq, Prod.mk.injEq] at h
      rw [← h.2]
      exact (grows_alloc _ s).trans (grows_next _ _)
  | call f is =>
    simp only [step] at h
    split at h
    · cases h
    · simp only [Option.some.injEq, Prod.mk.injEq] at h
      rw [← h.2]
      exact grows_next _ _
  | copy i =>
    simp only [step] at h
    split at h
    · simp only [Option.some.injEq, Prod.mk.injEq] at h
      rw [← h.2]
      exact grows_copy _ _
    · cases h
  | release i =>
    simp only [step] at h
    split at h
    · simp only [Option.some.injEq, Prod.mk.injEq] at h
      rw [← h.2]
      exact Grows.refl _
    · cases h

theorem grows_instrs : ∀ (is : List Instr) {regs regs1 : Regs} {s s1 : St}
    (h : runInstrs regs s is = some (regs1, s1)), Grows s s1
  | [], regs, regs1, s, s1, h => by
    simp only [runInstrs, Option.some.injEq, Prod.mk.injEq] at h
    rw [← h.2]; exact Grows.refl _
  | i :: is, regs, regs1, s, s1, h => by
    simp only [runInstrs] at h
    split at h
    · cases h
    · rename_i h1
      exact (grows_step h1).trans (grows_instrs is h)

theorem grows_prog {p : Prog} {inputs : List NExpr} {s s1 : St} {e : NExpr} (h : runProg p inputs s = some (e, s1)) :
    Grows s s1 := by
  unfold runProg at h
  split at h
  · cases h
  · rename_i h1
    split at h
    · cases h
    · simp only [Option.some.injEq, Prod.mk.injEq] at h
      rw [← h.2]
      exact grows_instrs _ h1

/-! ## The balancer does the same for both -/

inductive RelT (R : NExpr → NExpr → Prop) : Parser.Tree NExpr → Parser.Tree NExpr → Prop
  | leaf {a b : NExpr} (h : R a b) : RelT R (.leaf a) (.leaf b)
  | node {i j : Int} {l r l' r' : Parser.Tree NExpr} (hl : RelT R l l') (hr : RelT R r r') :
      RelT R (.node i l r) (.node j l' r')
  | flat {i j : Int} {xs ys : List NExpr} (h : List.Forall₂ R xs ys) : RelT R (.flat i xs) (.flat j ys)

abbrev RelO (R : NExpr → NExpr → Prop) (a b : Option NExpr) : Prop :=
  (a = none ∧ b = none) ∨ ∃ x y, a = some x ∧ b = some y ∧ R x y

/-- Both fail, or both give related results. -/
def RelR (R : NExpr → NExpr → Prop) (a b : Option (Parser.Tree NExpr × List (Option NExpr))) : Prop :=
  (a = none ∧ b = none) ∨ ∃ t ts t' ts', a = some (t, ts) ∧ b = some (t', ts') ∧ RelT R t t' ∧
    List.Forall₂ (RelO R) ts ts'

theorem forall2_get {α β : Type} {R : α → β → Prop} {xs : List α} {ys : List β} (h : List.Forall₂ R xs ys) (i : Nat) :
    (xs[i]? = none ∧ ys[i]? = none) ∨ ∃ x y, xs[i]? = some x ∧ ys[i]? = some y ∧ R x y := by
  induction h generalizing i with
  | nil => exact .inl (by simp)
  | cons h hs ih =>
    cases i with
    | zero => exact .inr ⟨_, _, by simp, by simp, h⟩
    | succ i => simpa using ih i

theorem forall2_set {α β : Type} {R : α → β → Prop} {xs : List α} {ys : List β} {x : α} {y : β}
    (h : List.Forall₂ R xs ys) (hr : R x y) (i : Nat) : List.Forall₂ R (xs.set i x) (ys.set i y) := by
  induction h generalizing i with
  | nil => simp
  | cons h hs ih =>
    cases i with
    | zero => exact .cons hr hs
    | succ i => exact .cons h (ih i)

theorem takeTerm_rel {R : NExpr → NExpr → Prop} {ts ts' : List (Option NExpr)} (h : List.Forall₂ (RelO R) ts ts')
    (i : Nat) : RelR R ((Parser.takeTerm ts i).map fun p => (Parser.Tree.leaf p.1, p.2))
      ((Parser.takeTerm ts' i).map fun p => (Parser.Tree.leaf p.1, p.2)) := by
  rcases forall2_get h i with ⟨h1, h2⟩ | ⟨x, y, h1, h2, h3⟩
  · exact .inl (by simp [Parser.takeTerm, h1, h2])
  · rcases h3 with ⟨rfl, rfl⟩ | ⟨a, b, rfl, rfl, h3⟩
    · exact .inl (by simp [Parser.takeTerm, h1, h2])
    · refine .inr ⟨.leaf a, ts.set i none, .leaf b, ts'.set i none, by simp [Parser.takeTerm, h1],
        by simp [Parser.takeTerm, h2], .leaf h3, forall2_set h (.inl ⟨rfl, rfl⟩) i⟩

theorem balanced_rel {R : NExpr → NExpr → Prop} {ops ops' : List Int} (hl : ops.length = ops'.length) (k : Nat) :
    ∀ (lo hi : Nat) (ts ts' : List (Option NExpr)), hi - lo ≤ k → List.Forall₂ (RelO R) ts ts' →
      RelR R (Parser.balancedTree ops lo hi ts) (Parser.balancedTree ops' lo hi ts') := by
  induction k with
  | zero =>
    intro lo hi ts ts' hk h
    rw [Parser.balancedTree, Parser.balancedTree]
    by_cases hlt : hi < lo
    · rw [dif_pos hlt, dif_pos hlt]; exact .inl ⟨rfl, rfl⟩
    · have : hi = lo := by omega
      subst this
      rw [dif_neg hlt, dif_neg hlt]
      have hm : (hi + hi + 1) / 2 = hi := by omega
      simp only [hm, dif_pos]
      rcases takeTerm_rel h hi with ⟨e1, e2⟩ | ⟨t, ts1, t', ts1', e1, e2, e3, e4⟩
      · rw [e1, e2]; exact .inl ⟨rfl, rfl⟩
      · rw [e1, e2]
        simp only []
        rcases takeTerm_rel e4 (hi + 1) with ⟨f1, f2⟩ | ⟨u, us, u', us', f1, f2, f3, f4⟩
        · rw [f1, f2]; exact .inl ⟨rfl, rfl⟩
        · rw [f1, f2]
          simp only []
          cases ho : ops[hi]? with
          | none =>
            have : ops'[hi]? = none := by
              rw [List.getElem?_eq_none_iff] at ho ⊢; omega
            rw [this]; exact .inl ⟨rfl, rfl⟩
          | some i =>
            have hlt' : hi < ops'.length := by
              have := (List.getElem?_eq_some_iff.1 ho).1; omega
            rw [List.getElem?_eq_getElem hlt']
            exact .inr ⟨_, _, _, _, rfl, rfl, .node e3 f3, f4⟩
  | succ k ih =>
    intro lo hi ts ts' hk h
    rw [Parser.balancedTree, Parser.balancedTree]
    by_cases hlt : hi < lo
    · rw [dif_pos hlt, dif_pos hlt]; exact .inl ⟨rfl, rfl⟩
    · rw [dif_neg hlt, dif_neg hlt]
      simp only []
      have hleft : RelR R (if hm : (lo + hi + 1) / 2 = lo then
            (Parser.takeTerm ts ((lo + hi + 1) / 2)).map (fun p => (Parser.Tree.leaf p.1, p.2))
            else Parser.balancedTree ops lo ((lo + hi + 1) / 2 - 1) ts)
          (if hm : (lo + hi + 1) / 2 = lo then
            (Parser.takeTerm ts' ((lo + hi + 1) / 2)).map (fun p => (Parser.Tree.leaf p.1, p.2))
            else Parser.balancedTree ops' lo ((lo + hi + 1) / 2 - 1) ts') := by
        split
        · exact takeTerm_rel h _
        · exact ih _ _ _ _ (by omega) h
      rcases hleft with ⟨e1, e2⟩ | ⟨t, ts1, t', ts1', e1, e2, e3, e4⟩
      · rw [e1, e2]; exact .inl ⟨rfl, rfl⟩
      · rw [e1, e2]
        simp only []
        have hright : RelR R (if hm : (lo + hi + 1) / 2 = hi then
              (Parser.takeTerm ts1 ((lo + hi + 1) / 2 + 1)).map (fun p => (Parser.Tree.leaf p.1, p.2))
              else Parser.balancedTree ops ((lo + hi + 1) / 2 + 1) hi ts1)
            (if hm : (lo + hi + 1) / 2 = hi then
              (Parser.takeTerm ts1' ((lo + hi + 1) / 2 + 1)).map (fun p => (Parser.Tree.leaf p.1, p.2))
              else Parser.balancedTree ops' ((lo + hi + 1) / 2 + 1) hi ts1') := by
          split
          · exact takeTerm_rel e4 _
          · exact ih _ _ _ _ (by omega) e4
        rcases hright with ⟨f1, f2⟩ | ⟨u, us, u', us', f1, f2, f3, f4⟩
        · rw [f1, f2]; exact .inl ⟨rfl, rfl⟩
        · rw [f1, f2]
          simp only []
          cases ho : ops[(lo + hi + 1) / 2]? with
          | none =>
            have : ops'[(lo + hi + 1) / 2]? = none := by
              rw [List.getElem?_eq_none_iff] at ho ⊢; omega
            rw [this]; exact .inl ⟨rfl, rfl⟩
          | some i =>
            have hlt' : (lo + hi + 1) / 2 < ops'.length := by
              have := (List.getElem?_eq_some_iff.1 ho).1; omega
            rw [List.getElem?_eq_getElem hlt']
            exact .inr ⟨_, _, _, _, rfl, rfl, .node e3 f3, f4⟩

theorem forall2_some {R : NExpr → NExpr → Prop} {xs ys : List NExpr} (h : List.Forall₂ R xs ys) :
    List.Forall₂ (RelO R) (xs.map some) (ys.map some) := by
  induction h with
  | nil => exact .nil
  | cons h _ ih => exact .cons (.inr ⟨_, _, rfl, rfl, h⟩) ih

theorem balance_rel {R : NExpr → NExpr → Prop} {variadic : Bool} {e e' : NExpr} {is is' : List Int}
    {es es' : List NExpr} {t : Parser.Tree NExpr} (hl : is.length = es.length) (hl' : is'.length = es'.length)
    (h : R e e') (hs : List.Forall₂ R es es') (hb : Parser.balance variadic e (is.zip es) = some t) :
    ∃ t', Parser.balance variadic e' (is'.zip es') = some t' ∧ RelT R t t' := by
  have hes := hs.length_eq
  cases is with
  | nil =>
    have he : es = [] := List.eq_nil_of_length_eq_zero (by simpa using hl.symm)
    subst he
    have he' : es' = [] := List.eq_nil_of_length_eq_zero (by simpa using hes.symm)
    subst he'
    simp only [Parser.balance, List.zip_nil_right, List.map_nil, List.length_cons, List.length_nil, if_true,
      Option.some.injEq] at hb ⊢
    subst hb
    exact ⟨_, rfl, .leaf h⟩
  | cons i is =>
    cases es with
    | nil => simp at hl
    | cons a es =>
      cases es' with
      | nil => simp at hes
      | cons b es' =>
        cases is' with
        | nil => simp at hl'
        | cons j is' =>
          cases variadic with
          | true =>
            simp only [List.zip_cons_cons] at hb ⊢
            rw [Parser.C39_variadic] at hb
            rw [Parser.C39_variadic]
            injection hb with hb
            subst hb
            refine ⟨_, rfl, .flat ?_⟩
            rw [zip_snd is es (by simpa using hl), zip_snd is' es' (by simpa using hl')]
            exact .cons h hs
          | false =>
            have e1 : ((i :: is).zip (a :: es)).map (·.2) = a :: es := zip_snd _ _ hl
            have e2 : ((i :: is).zip (a :: es)).map (·.1) = i :: is := zip_fst _ _ hl
            have e3 : ((j :: is').zip (b :: es')).map (·.2) = b :: es' := zip_snd _ _ hl'
            have e4 : ((j :: is').zip (b :: es')).map (·.1) = j :: is' := zip_fst _ _ hl'
            unfold Parser.balance at hb ⊢
            simp only [e1, e2, e3, e4] at hb ⊢
            rw [if_neg (by simp)] at hb
            rw [if_neg (by simp)] at hb
            rw [if_neg (by simp), if_neg (by simp)]
            have hll : (i :: is).length = (j :: is').length := by
              rw [hl, hl']; exact hes
            rw [← hll]
            rcases balanced_rel (R := R) hll _ 0 ((i :: is).length - 1) _ _ (Nat.le_refl _)
              (forall2_some (List.Forall₂.cons h hs)) with ⟨f1, f2⟩ | ⟨u, us, u', us', f1, f2, f3, f4⟩
            · rw [f1] at hb; simp at hb
            · rw [f1] at hb
              simp only [Option.map_some, Option.some.injEq] at hb
              subst hb
              exact ⟨u', by rw [f2]; rfl, f3⟩

theorem ofTerms_reads {n : Int} {calls : Int → Option NExpr} (f : String) {t t' : Parser.Tree NExpr}
    (h : RelT (fun e e0 => ReadsN n calls e (bare e0)) t t') (ho : ∀ i ∈ t.ops, i < n ∧ calls i = none) :
    ReadsN n calls (ofTerms f t) (bare (ofTerms f t')) := by
  induction h with
  | leaf h => exact h
  | node hl hr ihl ihr =>
    simp only [Parser.Tree.ops] at ho
    simp only [ofTerms, bare, bareAll]
    have hi := ho _ (List.mem_append_right _ (List.mem_cons_self))
    exact .plain hi.1 hi.2 rfl (.unset (.cons (ihl fun i h => ho i (List.mem_append_left _ h))
      (.cons (ihr fun i h => ho i (List.mem_append_right _ (List.mem_cons_of_mem _ h))) .nil)))
  | flat h =>
    simp only [Parser.Tree.ops] at ho
    simp only [ofTerms, bare, bareAll]
    have hi := ho _ (List.mem_singleton.2 rfl)
    exact .plain hi.1 hi.2 rfl (.unset (Pairs.all true h))

end Cel.Ids
