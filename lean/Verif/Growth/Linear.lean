import Verif.Growth.Bound

/-!
# Comprehensions that pass the check grow linearly
-/

set_option linter.unusedSimpArgs false
set_option linter.unusedVariables false

namespace Cel.Growth
variable {V : Type} (D : Dom V)

mutual
/-- Does the value of the expression depend on the variable? -/
def free (a : String) : X → Prop
  | .unspecified => False
  | .const _ => False
  | .ident n => n = a
  | .select e _ _ => free a e
  | .call _ t args => frees a t ∨ frees a args
  | .list es => frees a es
  | .struct _ vs => frees a vs
  | .map ks vs => frees a ks ∨ frees a vs
  | .comp iter iter2 accu range init cond step result =>
    free a range ∨ free a init ∨ (a ≠ iter ∧ a ≠ iter2 ∧ a ≠ accu ∧ (free a cond ∨ free a step)) ∨
      (a ≠ accu ∧ free a result)
def frees (a : String) : Xs → Prop
  | .nil => False
  | .cons e es => free a e ∨ frees a es
end

theorem bind_agree {a x : String} {v : V} {ρ ρ' : String → V} (h : ∀ n, n ≠ a → ρ n = ρ' n) (n : String) (hn : n ≠ a) :
    bind ρ x v n = bind ρ' x v n := by
  unfold bind; split
  · rfl
  · exact h n hn

theorem bind_same {a : String} {v : V} {ρ ρ' : String → V} (h : ∀ n, n ≠ a → ρ n = ρ' n) :
    bind ρ a v = bind ρ' a v := by
  funext n; unfold bind; split
  · rfl
  · rename_i hn; exact h n hn

mutual
theorem eval_agree {a : String} : ∀ (e : X) {ρ ρ' : String → V}, ¬ free a e → (∀ n, n ≠ a → ρ n = ρ' n) →
    eval D e ρ = eval D e ρ'
  | .unspecified, _, _, _, _ => rfl
  | .const _, _, _, _, _ => rfl
  | .ident x, ρ, ρ', hf, h => by rw [eval, eval]; exact h x hf
  | .select e f test, ρ, ρ', hf, h => by rw [eval, eval, eval_agree e hf h]
  | .call fn t args, ρ, ρ', hf, h => by
      simp only [free, not_or] at hf
      rw [eval, eval, evals_agree t hf.1 h, evals_agree args hf.2 h]
  | .list es, ρ, ρ', hf, h => by rw [eval, eval, evals_agree es hf h]
  | .struct ty es, ρ, ρ', hf, h => by rw [eval, eval, evals_agree es hf h]
  | .map ks vs, ρ, ρ', hf, h => by
      simp only [free, not_or] at hf
      rw [eval, eval, evals_agree ks hf.1 h, evals_agree vs hf.2 h]
  | .comp iter iter2 accu range init cond step result, ρ, ρ', hf, h => by
      simp only [free, not_or, not_and, ne_eq] at hf
      obtain ⟨h1, h2, h3, h4⟩ := hf
      rw [eval, eval, eval_agree range h1 h, eval_agree init h2 h]
      have hb : ∀ (x : V) (it : V × V), ∀ n, n ≠ a → bind (bind (bind ρ accu x) iter2 it.2) iter it.1 n =
          bind (bind (bind ρ' accu x) iter2 it.2) iter it.1 n := fun x it n hn =>
        bind_agree (fun n hn => bind_agree (fun n hn => bind_agree h n hn) n hn) n hn
      have hb2 : (a = iter ∨ a = iter2 ∨ a = accu) → ∀ (x : V) (it : V × V),
          bind (bind (bind ρ accu x) iter2 it.2) iter it.1 = bind (bind (bind ρ' accu x) iter2 it.2) iter it.1 := by
        intro hs x it
        funext n
        by_cases hn : n = a
        · subst hn
          rcases hs with rfl | rfl | rfl
          · simp [bind]
          · simp [bind]
          · simp [bind]
        · exact hb x it n hn
      have hcs : (∀ (x : V) (it : V × V), eval D cond (bind (bind (bind ρ accu x) iter2 it.2) iter it.1) =
            eval D cond (bind (bind (bind ρ' accu x) iter2 it.2) iter it.1)) ∧
          (∀ (x : V) (it : V × V), eval D step (bind (bind (bind ρ accu x) iter2 it.2) iter it.1) =
            eval D step (bind (bind (bind ρ' accu x) iter2 it.2) iter it.1)) := by
        by_cases hs : a = iter ∨ a = iter2 ∨ a = accu
        · exact ⟨fun x it => by rw [hb2 hs], fun x it => by rw [hb2 hs]⟩
        · simp only [not_or] at hs
          have h3 := h3 hs.1 hs.2.1 hs.2.2
          exact ⟨fun x it => eval_agree cond h3.1 (hb x it), fun x it => eval_agree step h3.2 (hb x it)⟩
      have hr : ∀ x, eval D result (bind ρ accu x) = eval D result (bind ρ' accu x) := by
        intro x
        by_cases ha : a = accu
        · subst ha; rw [bind_same h]
        · exact eval_agree result (h4 ha) (fun n hn => bind_agree h n hn)
      simp only [hcs.1, hcs.2, hr]
theorem evals_agree {a : String} : ∀ (es : Xs) {ρ ρ' : String → V}, ¬ frees a es → (∀ n, n ≠ a → ρ n = ρ' n) →
    evals D es ρ = evals D es ρ'
  | .nil, _, _, _, _ => rfl
  | .cons e es, ρ, ρ', hf, h => by
      simp only [frees, not_or] at hf
      rw [evals, evals, eval_agree e hf.1 h, evals_agree es hf.2 h]
end

mutual
/-- The part of the language for which the check is exact enough: the accumulator `a` occurs where the check
counts it (as an operand of `+`, `dyn` or indexing, under a selection, as an element of a list, a field or map
value, in a branch of a conditional), or where its size does not matter (`has`, conditions, index keys,
arguments of functions with small results). -/
def Counted (a : String) : X → Prop
  | .unspecified => True
  | .const _ => True
  | .ident _ => True
  | .select e _ test => test = true ∨ Counted a e
  | .call fn t args => D.flat fn ∧ fn ∉ [kTernary, kAdd, kIndex, kDyn] ∨ (¬ frees a t ∧ ¬ frees a args) ∨ CountedCall a fn args
  | .list es => CountedAll a es
  | .struct _ vs => CountedAll a vs
  | .map ks vs => ¬ frees a ks ∧ CountedAll a vs
  | .comp iter iter2 accu range init cond step result => ¬ free a (.comp iter iter2 accu range init cond step result)
def CountedCall (a : String) (fn : String) : Xs → Prop
  | .nil => False
  | .cons x .nil => (fn = kAdd ∨ fn = kDyn) ∧ Counted a x
  | .cons x (.cons y .nil) => fn = kAdd ∧ Counted a x ∧ Counted a y ∨ fn = kIndex ∧ Counted a x
  | .cons _ (.cons y (.cons z .nil)) => fn = kTernary ∧ Counted a y ∧ Counted a z
  | .cons _ (.cons _ (.cons _ (.cons _ _))) => False
def CountedAll (a : String) : Xs → Prop
  | .nil => True
  | .cons e es => Counted a e ∧ CountedAll a es
end

/-- Every variable but `a` holds a value of size at most `b`. -/
def EnvLeBut (a : String) (b : Nat) (ρ : String → V) : Prop := ∀ x, x ≠ a → D.size (ρ x) ≤ b

theorem notFree_bound {a : String} {e : X} (hf : ¬ free a e) (b : Nat) :
    ∃ k, ∀ ρ, EnvLeBut D a b ρ → D.size (eval D e ρ) ≤ k := by
  obtain ⟨k, hk⟩ := eval_bound D e (max b D.c)
  refine ⟨k, fun ρ h => ?_⟩
  rw [eval_agree D e (ρ' := bind ρ a D.undef) hf (fun n hn => by simp [bind, hn])]
  refine hk _ (fun x => ?_)
  unfold bind; split
  · have := D.undef_size; omega
  · rename_i hx; have := h x hx; omega

theorem notFrees_bound {a : String} {es : Xs} (hf : ¬ frees a es) (b : Nat) :
    ∃ k, ∀ ρ, EnvLeBut D a b ρ → ∀ v ∈ evals D es ρ, D.size v ≤ k := by
  obtain ⟨k, hk⟩ := evals_bound D es (max b D.c)
  refine ⟨k, fun ρ h => ?_⟩
  rw [evals_agree D es (ρ' := bind ρ a D.undef) hf (fun n hn => by simp [bind, hn])]
  refine hk _ (fun x => ?_)
  unfold bind; split
  · have := D.undef_size; omega
  · rename_i hx; have := h x hx; omega

theorem flat_call {fn : String} (hf : D.flat fn) (hn : fn ∉ [kTernary, kAdd, kIndex, kDyn]) (t vs : List V) :
    D.size (evalCall D fn t vs) ≤ D.c := by
  simp only [List.mem_cons, List.not_mem_nil, or_false, not_or] at hn
  unfold evalCall
  rw [if_neg hn.1, if_neg hn.2.1, if_neg hn.2.2.1, if_neg hn.2.2.2]
  exact D.flat_size fn hf t vs

mutual
/-- The value is at most as large as the accumulator for each counted reference, plus a constant that does not
depend on the accumulator. -/
theorem eval_linear {a : String} (b : Nat) : ∀ (e : X), Counted D a e →
    ∃ k, ∀ ρ, EnvLeBut D a b ρ → D.size (eval D e ρ) ≤ refs a e * D.size (ρ a) + k
  | .unspecified, _ => ⟨D.c, fun ρ _ => by rw [eval, refs]; have := D.undef_size; omega⟩
  | .const n, _ => ⟨D.size (D.const n), fun ρ _ => by rw [eval, refs]; omega⟩
  | .ident x, _ => ⟨b, fun ρ h => by
      rw [eval, refs]
      split
      · rename_i hx; subst hx; omega
      · rename_i hx; have := h x hx; omega⟩
  | .select e f test, hc => by
      cases test with
      | true => exact ⟨D.c, fun ρ _ => by rw [eval, refs]; simp only [if_true]; have := D.has_size (eval D e ρ) f; omega⟩
      | false =>
        simp only [Counted, Bool.false_eq_true, false_or] at hc
        obtain ⟨k, hk⟩ := eval_linear b e hc
        refine ⟨k + D.c, fun ρ h => ?_⟩
        rw [eval, refs]
        simp only [Bool.false_eq_true, if_false]
        have := D.select_size (eval D e ρ) f
        have := hk ρ h
        omega
  | .call fn t args, hc => by
      rw [Counted] at hc
      rcases hc with hc | hc | hc
      · exact ⟨D.c, fun ρ _ => by rw [eval]; exact le_trans (flat_call D hc.1 hc.2 _ _) (by omega)⟩
      · obtain ⟨k, hk⟩ := notFree_bound D (e := .call fn t args) (a := a) (by rw [free]; exact not_or.2 hc) b
        exact ⟨k, fun ρ h => le_trans (hk ρ h) (by omega)⟩
      · obtain ⟨k, hk⟩ := call_linear b fn t args hc
        exact ⟨k, fun ρ h => by rw [eval, refs]; exact hk ρ h⟩
  | .list es, hc => by
      obtain ⟨k, hk⟩ := sum_linear b es hc
      refine ⟨k + es.length + D.c, fun ρ h => ?_⟩
      rw [eval, refs]
      have h1 := D.list_size (evals D es ρ)
      rw [evals_length] at h1
      have := hk ρ h
      omega
  | .struct ty es, hc => by
      obtain ⟨k, hk⟩ := sum_linear b es hc
      refine ⟨k + es.length + D.c, fun ρ h => ?_⟩
      rw [eval, refs]
      have h1 := D.struct_size ty (evals D es ρ)
      rw [evals_length] at h1
      have := hk ρ h
      omega
  | .map ks vs, hc => by
      rw [Counted] at hc
      obtain ⟨k, hk⟩ := sum_linear b vs hc.2
      obtain ⟨k', hk'⟩ := notFrees_bound D hc.1 b
      refine ⟨k + ks.length * k' + ks.length + D.c, fun ρ h => ?_⟩
      rw [eval, refs]
      have h1 := D.map_size (evals D ks ρ) (evals D vs ρ)
      have h2 := sum_le D (hk' ρ h)
      rw [evals_length] at h1 h2
      have := hk ρ h
      omega
  | .comp iter iter2 accu range init cond step result, hc => by
      obtain ⟨k, hk⟩ := notFree_bound D hc b
      exact ⟨k, fun ρ h => le_trans (hk ρ h) (by omega)⟩
theorem call_linear {a : String} (b : Nat) (fn : String) (t : Xs) : ∀ (args : Xs), CountedCall D a fn args →
    ∃ k, ∀ ρ, EnvLeBut D a b ρ →
      D.size (evalCall D fn (evals D t ρ) (evals D args ρ)) ≤ callRefs a fn args * D.size (ρ a) + k
  | .nil, hc => by exact hc.elim
  | .cons x .nil, hc => by
      rw [CountedCall] at hc
      obtain ⟨k, hk⟩ := eval_linear b x hc.2
      refine ⟨k + D.c, fun ρ h => ?_⟩
      have := hk ρ h
      rcases hc.1 with rfl | rfl
      · simp only [evals, evalCall, callRefs]
        simp only [show ¬ kAdd = kTernary by decide, if_true, if_false]
        have := D.add_size [eval D x ρ]
        simp at this
        omega
      · simp only [evals, evalCall, callRefs]
        simp only [show ¬ kDyn = kTernary by decide, show ¬ kDyn = kAdd by decide, show ¬ kDyn = kIndex by decide,
          if_true, if_false]
        have := D.dyn_size (eval D x ρ)
        omega
  | .cons x (.cons y .nil), hc => by
      rw [CountedCall] at hc
      rcases hc with ⟨rfl, hx, hy⟩ | ⟨rfl, hx⟩
      · obtain ⟨k1, h1⟩ := eval_linear b x hx
        obtain ⟨k2, h2⟩ := eval_linear b y hy
        refine ⟨k1 + k2 + D.c, fun ρ h => ?_⟩
        have := h1 ρ h
        have := h2 ρ h
        simp only [evals, evalCall, callRefs]
        simp only [show ¬ kAdd = kTernary by decide, if_true, if_false]
        have := D.add_size [eval D x ρ, eval D y ρ]
        simp at this
        rw [Nat.add_mul]
        omega
      · obtain ⟨k1, h1⟩ := eval_linear b x hx
        refine ⟨k1 + D.c, fun ρ h => ?_⟩
        have := h1 ρ h
        simp only [evals, evalCall, callRefs]
        simp only [show ¬ kIndex = kTernary by decide, show ¬ kIndex = kAdd by decide, if_true, if_false]
        have := D.index_size (eval D x ρ) (eval D y ρ)
        omega
  | .cons x (.cons y (.cons z .nil)), hc => by
      rw [CountedCall] at hc
      obtain ⟨rfl, hy, hz⟩ := hc
      obtain ⟨k1, h1⟩ := eval_linear b y hy
      obtain ⟨k2, h2⟩ := eval_linear b z hz
      refine ⟨max k1 k2 + D.c, fun ρ h => ?_⟩
      have := h1 ρ h
      have := h2 ρ h
      simp only [evals, evalCall, callRefs]
      simp only [if_true]
      have m1 : refs a y * D.size (ρ a) ≤ max (refs a y) (refs a z) * D.size (ρ a) :=
        Nat.mul_le_mul_right _ (le_max_left _ _)
      have m2 : refs a z * D.size (ρ a) ≤ max (refs a y) (refs a z) * D.size (ρ a) :=
        Nat.mul_le_mul_right _ (le_max_right _ _)
      split
      · omega
      · omega
      · have := D.noCond_size (eval D x ρ); omega
  | .cons x (.cons y (.cons z (.cons w ws))), hc => by exact hc.elim
theorem sum_linear {a : String} (b : Nat) : ∀ (es : Xs), CountedAll D a es →
    ∃ k, ∀ ρ, EnvLeBut D a b ρ → ((evals D es ρ).map D.size).sum ≤ sumRefs a es * D.size (ρ a) + k
  | .nil, _ => ⟨0, fun ρ _ => by simp [evals]⟩
  | .cons e es, hc => by
      obtain ⟨k1, h1⟩ := eval_linear b e hc.1
      obtain ⟨k2, h2⟩ := sum_linear b es hc.2
      refine ⟨k1 + k2, fun ρ h => ?_⟩
      have := h1 ρ h
      have := h2 ρ h
      rw [evals, sumRefs, Nat.add_mul, List.map_cons, List.sum_cons]
      omega
end

end Cel.Growth
