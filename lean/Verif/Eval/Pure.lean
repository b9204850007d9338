import Verif.Eval.PresProps

/-!
# Evaluation without effects

When the steps and the activation neither fail nor touch the host, the meaning of an expression is a
plain function of its environment, in which `cel.bind` is a `let`.  `den_pure` connects this reading
(`pden`) with `den`, i.e. shows that lazy, memoised evaluation of `cel.bind` variables is
unobservable; together with `plan_correct_partial` it describes what the planned program computes.
-/

set_option linter.unusedSimpArgs false
set_option linter.unusedVariables false

namespace Cel.Eval
open Cel

/-- The value a step returned. -/
def valOf {σ : Type} (r : Res VA × σ) : VA :=
  match r.1 with
  | .ok a => a
  | _ => ⟨.null, none⟩

/-- Environments of plain values, innermost first. -/
abbrev PEnv := List (String × VA)

/-- The innermost binding of `x`. -/
def penvGet : PEnv → String → Option VA
  | [], _ => none
  | (y, a) :: ρ, x => if x = y then some a else penvGet ρ x

/-- A loop without effects: condition, then step; a condition that is false stops it. -/
def ploop (shortCircuit : Bool) (condF stepF : Item → VA → VA) : List Item → VA → LoopEnd
  | [], a => .accu a
  | it :: its, a =>
    match condOf shortCircuit (condF it a) with
    | .stop x => .stop x
    | .brk => .accu a
    | .go => ploop shortCircuit condF stepF its (stepF it a)

/-- Bindings of the iteration variables for one item. -/
def piterBinds {σ : Type} (cfg : Cfg σ) (iter : String) (iter2 : Option String) (t : Trail) (it : Item) : PEnv :=
  match iter2 with
  | none => [(iter, item1 cfg.unknowns cfg.pats t it)]
  | some y =>
    let p := item2 cfg.unknowns cfg.pats t it
    [(iter, p.1), (y, p.2)]

mutual
/-- The meaning of an expression whose steps have no effects; `h` is the (constant) host state. -/
def pden {σ : Type} (cfg : Cfg σ) (h : σ) : Expr σ → PEnv → VA
  | .const v, _ => ⟨v, none⟩
  | .ident x abs, ρ =>
    match (if abs then none else penvGet ρ x) with
    | none => valOf (cfg.global x h)
    | some a => a
  | .op f args, ρ => valOf (f (pdenArgs cfg h args ρ) h)
  | .logic isOr a b, ρ =>
    let x := pden cfg h a ρ
    match cfg.shortCircuit, x.v with
    | true, .bool y =>
      if y = isOr then x else ⟨calcLogic isOr cfg.unknowns x.v (pden cfg h b ρ).v, none⟩
    | _, _ => ⟨calcLogic isOr cfg.unknowns x.v (pden cfg h b ρ).v, none⟩
  | .cond c t f, ρ =>
    let x := pden cfg h c ρ
    if cfg.shortCircuit then
      match ternOf x with
      | .stop y => y
      | .yes => pden cfg h t ρ
      | .no => pden cfg h f ρ
    else ternaryStep cfg.unknowns x (pden cfg h t ρ) (pden cfg h f ρ)
  | .comp iter iter2 accu range init cnd stp res, ρ =>
    let r := pden cfg h range ρ
    match rangeOf cfg.unknowns cfg.pats r with
    | .stop x => x
    | .items l =>
      match ploop cfg.shortCircuit
          (fun it a => pden cfg h cnd (piterBinds cfg iter iter2 r.t it ++ (accu, a) :: ρ))
          (fun it a => pden cfg h stp (piterBinds cfg iter iter2 r.t it ++ (accu, a) :: ρ))
          l (pden cfg h init ρ) with
      | .stop x => x
      | .accu a => pden cfg h res ((accu, a) :: ρ)
  | .bind x init body, ρ => pden cfg h body ((x, pden cfg h init ρ) :: ρ)
/-- Operands. -/
def pdenArgs {σ : Type} (cfg : Cfg σ) (h : σ) : Exprs σ → PEnv → List VA
  | .nil, _ => []
  | .cons e es, ρ => pden cfg h e ρ :: pdenArgs cfg h es ρ
end

/-- The step, applied to `k` operands, returns a value and leaves the host state `h` alone. -/
def PureOp {σ : Type} (h : σ) (k : Nat) (f : Op σ) : Prop :=
  ∀ xs, xs.length = k → ∃ a, f xs h = (.ok a, h)

/-- The activation's variables have values, read without effects. -/
def PureGlobal {σ : Type} (h : σ) (cfg : Cfg σ) : Prop := ∀ x, ∃ a, cfg.global x h = (.ok a, h)

section
variable {σ : Type} {cfg : Cfg σ} {h : σ}

/-- Memo cells hold the values `W` or are still empty. -/
def Cons (W : List VA) (heap : List (Option VA)) : Prop :=
  heap.length = W.length ∧ ∀ (c : Nat) (a : VA), heap[c]? = some (some a) → W[c]? = some a

/-- The environments have the same variables with the same values. -/
def EnvOK (h : σ) (W : List VA) : Env σ → PEnv → Prop
  | [], [] => True
  | (x, .val a) :: ρ, (y, b) :: ρ' => x = y ∧ a = b ∧ EnvOK h W ρ ρ'
  | (x, .delayed c th) :: ρ, (y, b) :: ρ' =>
    x = y ∧ W[c]? = some b ∧
    (∀ (X : List VA) (cnt : Int) (heap : List (Option VA)), Cons (W ++ X) heap →
      ∃ heap', th ⟨h, cnt, heap⟩ = .ok b ⟨h, cnt, heap'⟩ ∧ Cons (W ++ X) heap') ∧
    EnvOK h W ρ ρ'
  | _, _ => False

theorem EnvOK.ext {W : List VA} (X : List VA) : ∀ {ρ : Env σ} {ρ' : PEnv}, EnvOK h W ρ ρ' → EnvOK h (W ++ X) ρ ρ'
  | [], [], _ => trivial
  | [], _ :: _, he => he.elim
  | (_, .val _) :: _, [], he => he.elim
  | (_, .delayed _ _) :: _, [], he => he.elim
  | (x, .val a) :: ρ, (y, b) :: ρ', he => ⟨he.1, he.2.1, EnvOK.ext X he.2.2⟩
  | (x, .delayed c th) :: ρ, (y, b) :: ρ', he => by
    obtain ⟨h1, h2, h3, h4⟩ := he
    refine ⟨h1, ?_, fun X' cnt heap hc => ?_, EnvOK.ext X h4⟩
    · rw [List.getElem?_append_left (List.getElem?_eq_some_iff.1 h2).1]; exact h2
    · have := h3 (X ++ X') cnt heap (by rw [← List.append_assoc]; exact hc)
      rw [← List.append_assoc] at this
      exact this

/-- Reading a variable gives its value. -/
theorem EnvOK.get {W : List VA} {cnt : Int} {heap : List (Option VA)} (hc : Cons W heap) (x : String) :
    ∀ {ρ : Env σ} {ρ' : PEnv}, EnvOK h W ρ ρ' →
      match envGet ρ x with
      | none => penvGet ρ' x = none
      | some b => ∃ a heap', penvGet ρ' x = some a ∧ readBinding b ⟨h, cnt, heap⟩ = .ok a ⟨h, cnt, heap'⟩ ∧ Cons W heap'
  | [], [], _ => rfl
  | [], _ :: _, he => he.elim
  | (_, .val _) :: _, [], he => he.elim
  | (_, .delayed _ _) :: _, [], he => he.elim
  | (y, .val a) :: ρ, (z, b) :: ρ', he => by
    obtain ⟨h1, h2, h3⟩ := he
    subst h1; subst h2
    unfold envGet penvGet
    by_cases hx : x = y
    · rw [if_pos hx, if_pos hx]
      exact ⟨a, heap, rfl, rfl, hc⟩
    · rw [if_neg hx, if_neg hx]
      exact EnvOK.get hc x h3
  | (y, .delayed c th) :: ρ, (z, b) :: ρ', he => by
    obtain ⟨h1, h2, h3, h4⟩ := he
    subst h1
    unfold envGet penvGet
    by_cases hx : x = y
    · rw [if_pos hx, if_pos hx]
      have hlt : c < heap.length := by rw [hc.1]; exact (List.getElem?_eq_some_iff.1 h2).1
      simp only [readBinding]
      cases hcell : heap[c]? with
      | none => have := List.getElem?_eq_none_iff.1 hcell; omega
      | some o =>
        cases o with
        | some a =>
          have := hc.2 c a hcell
          rw [h2] at this
          cases this
          exact ⟨b, heap, rfl, rfl, hc⟩
        | none =>
          obtain ⟨heap', hth, hc'⟩ := h3 [] cnt heap (by simpa using hc)
          simp only [List.append_nil] at hc'
          refine ⟨b, heap'.set c (some b), rfl, ?_, ?_⟩
          · simp only [hth, Out.bind]
          · refine ⟨by simp [hc'.1], fun c' a' hca => ?_⟩
            by_cases hcc : c = c'
            · subst hcc
              rw [List.getElem?_set_self (by rw [hc'.1]; exact (List.getElem?_eq_some_iff.1 h2).1)] at hca
              cases hca; exact h2
            · rw [List.getElem?_set_ne hcc] at hca
              exact hc'.2 c' a' hca
    · rw [if_neg hx, if_neg hx]
      exact EnvOK.get hc x h4

theorem loop_pure (hmax : cfg.maxIter = 0) {W : List VA} {condF stepF : Item → VA → SS σ → Out σ VA}
    {pc ps : Item → VA → VA} {all : List Item}
    (hcF : ∀ it ∈ all, ∀ a cnt heap, Cons W heap → ∃ heap', condF it a ⟨h, cnt, heap⟩ = .ok (pc it a) ⟨h, cnt, heap'⟩ ∧ Cons W heap')
    (hsF : ∀ it ∈ all, ∀ a cnt heap, Cons W heap → ∃ heap', stepF it a ⟨h, cnt, heap⟩ = .ok (ps it a) ⟨h, cnt, heap'⟩ ∧ Cons W heap') :
    ∀ (l : List Item), (∀ it ∈ l, it ∈ all) → ∀ (a : VA) (cnt : Int) (heap : List (Option VA)), Cons W heap →
      ∃ heap', loop cfg condF stepF l a ⟨h, cnt, heap⟩ = .ok (ploop cfg.shortCircuit pc ps l a) ⟨h, cnt, heap'⟩ ∧ Cons W heap' := by
  intro l
  induction l with
  | nil => intro _ a cnt heap hc; exact ⟨heap, rfl, hc⟩
  | cons it l ih =>
    intro hsub a cnt heap hc
    have ht : tick cfg.maxIter cnt = some cnt := by simp [tick, hmax]
    obtain ⟨h1, he1, hc1⟩ := hcF it (hsub it List.mem_cons_self) a cnt heap hc
    unfold loop ploop
    simp only [ht, he1, Out.bind]
    cases hco : condOf cfg.shortCircuit (pc it a) with
    | stop x => exact ⟨h1, rfl, hc1⟩
    | brk => exact ⟨h1, rfl, hc1⟩
    | go =>
      obtain ⟨h2, he2, hc2⟩ := hsF it (hsub it List.mem_cons_self) a cnt h1 hc1
      simp only [he2, Out.bind]
      exact ih (fun i hi => hsub i (List.mem_cons_of_mem _ hi)) (ps it a) cnt h2 hc2

mutual
theorem den_pure (hmax : cfg.maxIter = 0) (hg : PureGlobal h cfg) (e : Expr σ)
    (ho : ∀ f k, HasOp f k e → PureOp h k f) : ∀ (W : List VA) (ρ : Env σ) (ρ' : PEnv) (cnt : Int) (heap : List (Option VA)),
    EnvOK h W ρ ρ' → Cons W heap →
    ∃ heap', den cfg e ρ ⟨h, cnt, heap⟩ = .ok (pden cfg h e ρ') ⟨h, cnt, heap'⟩ ∧ Cons W heap' := by
  cases e with
  | const v => intro W ρ ρ' cnt heap he hc; exact ⟨heap, rfl, hc⟩
  | ident x abs =>
    intro W ρ ρ' cnt heap he hc
    simp only [den, pden]
    obtain ⟨a, ha⟩ := hg x
    have hglob : lift (cfg.global x h) ⟨h, cnt, heap⟩ = .ok (valOf (cfg.global x h)) ⟨h, cnt, heap⟩ := by
      rw [ha]; rfl
    cases abs with
    | true =>
      simp only [if_true]
      exact ⟨heap, hglob, hc⟩
    | false =>
      have := EnvOK.get (cnt := cnt) hc x he
      simp only [Bool.false_eq_true, if_false]
      cases hx : envGet ρ x with
      | none =>
        rw [hx] at this
        simp only at this
        rw [this]
        exact ⟨heap, hglob, hc⟩
      | some b =>
        rw [hx] at this
        obtain ⟨a', heap', h1, h2, h3⟩ := this
        rw [h1]
        exact ⟨heap', h2, h3⟩
  | op f args =>
    intro W ρ ρ' cnt heap he hc
    obtain ⟨h1, he1, hc1, hl⟩ := denArgs_pure hmax hg args (fun g k hgk => ho g k (Or.inr hgk)) W ρ ρ' cnt heap he hc
    obtain ⟨a, ha⟩ := ho f args.len (Or.inl ⟨rfl, rfl⟩) (pdenArgs cfg h args ρ') hl
    refine ⟨h1, ?_, hc1⟩
    simp only [den, pden, he1, Out.bind, lift, ha, valOf]
  | logic o a b =>
    intro W ρ ρ' cnt heap he hc
    obtain ⟨h1, he1, hc1⟩ := den_pure hmax hg a (fun g k hgk => ho g k (Or.inl hgk)) W ρ ρ' cnt heap he hc
    obtain ⟨h2, he2, hc2⟩ := den_pure hmax hg b (fun g k hgk => ho g k (Or.inr hgk)) W ρ ρ' cnt h1 he hc1
    simp only [den, pden, he1, Out.bind]
    generalize cfg.shortCircuit = sc
    generalize hv : (pden cfg h a ρ').v = v
    by_cases hb : sc = true ∧ ∃ y, v = .bool y
    · obtain ⟨rfl, y, rfl⟩ := hb
      simp only
      by_cases hy : y = o
      · rw [if_pos hy, if_pos hy]; exact ⟨h1, rfl, hc1⟩
      · rw [if_neg hy, if_neg hy]; exact ⟨h2, by rw [he2], hc2⟩
    · refine ⟨h2, ?_, hc2⟩
      rw [he2]
      cases sc with
      | false => rfl
      | true =>
        cases v with
        | bool y => exact absurd ⟨rfl, y, rfl⟩ hb
        | _ => rfl
  | cond c t f =>
    intro W ρ ρ' cnt heap he hc
    obtain ⟨h1, he1, hc1⟩ := den_pure hmax hg c (fun g k hgk => ho g k (Or.inl hgk)) W ρ ρ' cnt heap he hc
    have hT := den_pure hmax hg t (fun g k hgk => ho g k (Or.inr (Or.inl hgk))) W ρ ρ' cnt
    have hF := den_pure hmax hg f (fun g k hgk => ho g k (Or.inr (Or.inr hgk))) W ρ ρ' cnt
    simp only [den, pden, he1, Out.bind]
    split
    · cases ht : ternOf (pden cfg h c ρ') with
      | stop y => exact ⟨h1, rfl, hc1⟩
      | yes => exact hT h1 he hc1
      | no => exact hF h1 he hc1
    · obtain ⟨h2, he2, hc2⟩ := hT h1 he hc1
      obtain ⟨h3, he3, hc3⟩ := hF h2 he hc2
      exact ⟨h3, by simp only [he2, he3], hc3⟩
  | comp iter iter2 accu range init cnd stp res =>
    intro W ρ ρ' cnt heap he hc
    obtain ⟨h1, he1, hc1⟩ := den_pure hmax hg range (fun g k hgk => ho g k (Or.inl hgk)) W ρ ρ' cnt heap he hc
    simp only [den, pden, he1, Out.bind]
    cases hr : rangeOf cfg.unknowns cfg.pats (pden cfg h range ρ') with
    | stop x => exact ⟨h1, rfl, hc1⟩
    | items l =>
      obtain ⟨h2, he2, hc2⟩ := den_pure hmax hg init (fun g k hgk => ho g k (Or.inr (Or.inl hgk))) W ρ ρ' cnt h1 he hc1
      simp only [he2, Out.bind]
      have henv : ∀ it a, EnvOK h W (iterBinds cfg iter iter2 (pden cfg h range ρ').t it ++ (accu, .val a) :: ρ)
          (piterBinds cfg iter iter2 (pden cfg h range ρ').t it ++ (accu, a) :: ρ') := by
        intro it a
        cases iter2 with
        | none => exact ⟨rfl, rfl, rfl, rfl, he⟩
        | some y => exact ⟨rfl, rfl, rfl, rfl, rfl, rfl, he⟩
      obtain ⟨h3, he3, hc3⟩ := loop_pure (h := h) (W := W) (cfg := cfg) hmax
        (condF := fun it a s => den cfg cnd (iterBinds cfg iter iter2 (pden cfg h range ρ').t it ++ (accu, .val a) :: ρ) s)
        (stepF := fun it a s => den cfg stp (iterBinds cfg iter iter2 (pden cfg h range ρ').t it ++ (accu, .val a) :: ρ) s)
        (pc := fun it a => pden cfg h cnd (piterBinds cfg iter iter2 (pden cfg h range ρ').t it ++ (accu, a) :: ρ'))
        (ps := fun it a => pden cfg h stp (piterBinds cfg iter iter2 (pden cfg h range ρ').t it ++ (accu, a) :: ρ'))
        (all := l)
        (fun it _ a cnt heap hc => den_pure hmax hg cnd (fun g k hgk => ho g k (Or.inr (Or.inr (Or.inl hgk)))) W _ _ cnt heap (henv it a) hc)
        (fun it _ a cnt heap hc => den_pure hmax hg stp (fun g k hgk => ho g k (Or.inr (Or.inr (Or.inr (Or.inl hgk))))) W _ _ cnt heap (henv it a) hc)
        l (fun _ hi => hi) (pden cfg h init ρ') cnt h2 hc2
      simp only [he3, Out.bind]
      cases ploop cfg.shortCircuit
          (fun it a => pden cfg h cnd (piterBinds cfg iter iter2 (pden cfg h range ρ').t it ++ (accu, a) :: ρ'))
          (fun it a => pden cfg h stp (piterBinds cfg iter iter2 (pden cfg h range ρ').t it ++ (accu, a) :: ρ'))
          l (pden cfg h init ρ') with
      | stop x => exact ⟨h3, rfl, hc3⟩
      | accu a =>
        exact den_pure hmax hg res (fun g k hgk => ho g k (Or.inr (Or.inr (Or.inr (Or.inr hgk))))) W _ _ cnt h3 ⟨rfl, rfl, he⟩ hc3
  | bind x init body =>
    intro W ρ ρ' cnt heap he hc
    simp only [den, pden]
    have hcW : Cons (W ++ [pden cfg h init ρ']) (heap ++ [none]) := by
      refine ⟨by simp [hc.1], fun c a hca => ?_⟩
      by_cases hlt : c < heap.length
      · rw [List.getElem?_append_left hlt] at hca
        rw [List.getElem?_append_left (by rw [← hc.1]; exact hlt)]
        exact hc.2 c a hca
      · rw [List.getElem?_append_right (by omega)] at hca
        cases hk : c - heap.length with
        | zero => rw [hk] at hca; cases hca
        | succ k => rw [hk] at hca; cases hca
    obtain ⟨h1, he1, hc1⟩ := den_pure hmax hg body (fun g k hgk => ho g k (Or.inr hgk)) (W ++ [pden cfg h init ρ'])
      ((x, .delayed heap.length (fun s => den cfg init ρ s)) :: ρ) ((x, pden cfg h init ρ') :: ρ') cnt (heap ++ [none])
      ⟨rfl, by rw [hc.1]; simp, fun X cnt' heap' hc' => by
        have := den_pure hmax hg init (fun g k hgk => ho g k (Or.inl hgk)) (W ++ [pden cfg h init ρ'] ++ X) ρ ρ' cnt' heap'
          ((he.ext _).ext _) hc'
        exact this, he.ext _⟩ hcW
    refine ⟨h1.take heap.length, ?_, ?_⟩
    · simp only [he1, Out.bind]
    · refine ⟨by simp [hc1.1, hc.1], fun c a hca => ?_⟩
      rw [List.getElem?_take] at hca
      split at hca
      · rename_i hlt
        have := hc1.2 c a hca
        rw [List.getElem?_append_left (by rw [← hc.1]; exact hlt)] at this
        exact this
      · cases hca
theorem denArgs_pure (hmax : cfg.maxIter = 0) (hg : PureGlobal h cfg) (es : Exprs σ)
    (ho : ∀ f k, HasOps f k es → PureOp h k f) : ∀ (W : List VA) (ρ : Env σ) (ρ' : PEnv) (cnt : Int) (heap : List (Option VA)),
    EnvOK h W ρ ρ' → Cons W heap →
    ∃ heap', denArgs cfg es ρ ⟨h, cnt, heap⟩ = .ok (pdenArgs cfg h es ρ') ⟨h, cnt, heap'⟩ ∧ Cons W heap' ∧
      (pdenArgs cfg h es ρ').length = es.len := by
  cases es with
  | nil => intro W ρ ρ' cnt heap he hc; exact ⟨heap, rfl, hc, rfl⟩
  | cons e es =>
    intro W ρ ρ' cnt heap he hc
    obtain ⟨h1, he1, hc1⟩ := den_pure hmax hg e (fun g k hgk => ho g k (Or.inl hgk)) W ρ ρ' cnt heap he hc
    obtain ⟨h2, he2, hc2, hl⟩ := denArgs_pure hmax hg es (fun g k hgk => ho g k (Or.inr hgk)) W ρ ρ' cnt h1 he hc1
    refine ⟨h2, ?_, hc2, by simp [pdenArgs, Exprs.len, hl]⟩
    simp only [denArgs, pdenArgs, he1, he2, Out.bind]
end

/-- The outcome of the planned program of an effect-free expression is its plain meaning. -/
theorem plan_pure (hmax : cfg.maxIter = 0) (hg : PureGlobal h cfg) (e : Expr σ)
    (ho : ∀ f k, HasOp f k e → PureOp h k f) (hc : NoClash cfg e) (r : Final σ) :
    Halts cfg (plan cfg e) (MS.start h) r ↔ r = .value (pden cfg h e []).v h := by
  rw [plan_exact_partial e h hc]
  obtain ⟨heap, he, _⟩ := den_pure hmax hg e ho [] [] [] 0 [] trivial ⟨rfl, fun c a hc => by simp at hc⟩
  unfold meaning
  rw [he]
  rfl

end

end Cel.Eval
