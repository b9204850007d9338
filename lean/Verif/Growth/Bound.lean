import Verif.Growth.Model
import Mathlib.Tactic.Linarith
import Mathlib.Algebra.BigOperators.Group.List.Basic

/-!
# Bounds on the size of values
-/

set_option linter.unusedSimpArgs false
set_option linter.unusedVariables false

namespace Cel.Growth
variable {V : Type} (D : Dom V)

/-- Every variable holds a value of size at most `b`. -/
def EnvLe (b : Nat) (ρ : String → V) : Prop := ∀ x, D.size (ρ x) ≤ b

theorem sum_le {vs : List V} {k : Nat} (h : ∀ v ∈ vs, D.size v ≤ k) : (vs.map D.size).sum ≤ vs.length * k := by
  induction vs with
  | nil => simp
  | cons v vs ih =>
    simp only [List.map_cons, List.sum_cons, List.length_cons]
    have h1 := h v (by simp)
    have h2 := ih (fun w hw => h w (by simp [hw]))
    rw [Nat.add_mul]; omega

theorem evals_length : ∀ (es : Xs) (ρ : String → V), (evals D es ρ).length = es.length
  | .nil, _ => rfl
  | .cons e es, ρ => by simp [evals, Xs.length, evals_length es ρ]

theorem call_bound (fn : String) (m b : Nat) : ∃ k, ∀ t vs : List V, t.length + vs.length ≤ m →
    (∀ v ∈ t, D.size v ≤ b) → (∀ v ∈ vs, D.size v ≤ b) → D.size (evalCall D fn t vs) ≤ k := by
  obtain ⟨k, hk⟩ := D.fn_size fn m b
  refine ⟨k + m * b + b + D.c, ?_⟩
  intro t vs hm ht hv
  have hk := hk t vs hm ht hv
  unfold evalCall
  split
  · split
    · rename_i p x y
      have h2 := hv x (by simp)
      have h3 := hv y (by simp)
      split
      · omega
      · omega
      · have := D.noCond_size p; omega
    · omega
  · split
    · have := D.add_size vs
      have h2 := sum_le D hv
      have : vs.length * b ≤ m * b := Nat.mul_le_mul_right _ (by omega)
      omega
    · split
      · split
        · rename_i x k'
          have := D.index_size x k'
          have := hv x (by simp)
          omega
        · omega
      · split
        · split
          · rename_i x
            have := D.dyn_size x
            have := hv x (by simp)
            omega
          · omega
        · omega

theorem bind_le {b : Nat} {ρ : String → V} (h : EnvLe D b ρ) {x : String} {v : V} (hv : D.size v ≤ b) :
    EnvLe D b (bind ρ x v) := by
  intro n; unfold bind; split
  · exact hv
  · exact h n

mutual
/-- With bounded variables every expression has a bounded value. -/
theorem eval_bound : ∀ (e : X) (b : Nat), ∃ k, ∀ ρ, EnvLe D b ρ → D.size (eval D e ρ) ≤ k
  | .unspecified, b => ⟨D.c, fun ρ _ => by rw [eval]; exact D.undef_size⟩
  | .const n, b => ⟨D.size (D.const n), fun ρ _ => by rw [eval]⟩
  | .ident x, b => ⟨b, fun ρ h => by rw [eval]; exact h x⟩
  | .select e f test, b => by
      obtain ⟨k, hk⟩ := eval_bound e b
      refine ⟨k + D.c, fun ρ h => ?_⟩
      have := hk ρ h
      rw [eval]
      split
      · have := D.has_size (eval D e ρ) f; omega
      · have := D.select_size (eval D e ρ) f; omega
  | .call fn t args, b => by
      obtain ⟨k1, h1⟩ := evals_bound t b
      obtain ⟨k2, h2⟩ := evals_bound args b
      obtain ⟨k, hk⟩ := call_bound D fn (t.length + args.length) (max k1 k2)
      refine ⟨k, fun ρ h => ?_⟩
      rw [eval]
      refine hk _ _ ?_ ?_ ?_
      · rw [evals_length, evals_length]
      · intro v hv; exact le_trans (h1 ρ h v hv) (le_max_left _ _)
      · intro v hv; exact le_trans (h2 ρ h v hv) (le_max_right _ _)
  | .list es, b => by
      obtain ⟨k, hk⟩ := evals_bound es b
      refine ⟨es.length * k + es.length + D.c, fun ρ h => ?_⟩
      rw [eval]
      have h1 := D.list_size (evals D es ρ)
      have h2 := sum_le D (hk ρ h)
      rw [evals_length] at h1 h2
      omega
  | .struct ty es, b => by
      obtain ⟨k, hk⟩ := evals_bound es b
      refine ⟨es.length * k + es.length + D.c, fun ρ h => ?_⟩
      rw [eval]
      have h1 := D.struct_size ty (evals D es ρ)
      have h2 := sum_le D (hk ρ h)
      rw [evals_length] at h1 h2
      omega
  | .map ks vs, b => by
      obtain ⟨k1, hk1⟩ := evals_bound ks b
      obtain ⟨k2, hk2⟩ := evals_bound vs b
      refine ⟨ks.length * k1 + vs.length * k2 + ks.length + D.c, fun ρ h => ?_⟩
      rw [eval]
      have h1 := D.map_size (evals D ks ρ) (evals D vs ρ)
      have h2 := sum_le D (hk1 ρ h)
      have h3 := sum_le D (hk2 ρ h)
      rw [evals_length] at h1 h2 h3
      omega
  | .comp iter iter2 accu range init cond step result, b => by
      obtain ⟨kr, hr⟩ := eval_bound range b
      obtain ⟨ki, hi⟩ := eval_bound init b
      have hstep : ∀ b', ∃ k, ∀ ρ, EnvLe D b' ρ → D.size (eval D step ρ) ≤ k := fun b' => eval_bound step b'
      have hres : ∀ b', ∃ k, ∀ ρ, EnvLe D b' ρ → D.size (eval D result ρ) ≤ k := fun b' => eval_bound result b'
      choose gs hgs using hstep
      choose gr hgr using hres
      have hloop : ∃ k, ∀ ρ, EnvLe D b ρ → ∀ its, D.items (decide (iter2 ≠ "")) (eval D range ρ) = some its →
          match loop D (fun a it => eval D cond (bind (bind (bind ρ accu a) iter2 it.2) iter it.1))
            (fun a it => eval D step (bind (bind (bind ρ accu a) iter2 it.2) iter it.1)) its (eval D init ρ) with
          | .inl v => D.size v ≤ k
          | .inr v => D.size v ≤ k := by
        -- the bound must not depend on the environment: use a monotone step bound
        have key : ∀ (m b0 : Nat), ∃ k, ∀ ρ, EnvLe D b ρ → ∀ its a, its.length ≤ m →
            (∀ it ∈ its, D.size it.1 ≤ kr + D.c ∧ D.size it.2 ≤ kr + D.c) → D.size a ≤ b0 →
            match loop D (fun a it => eval D cond (bind (bind (bind ρ accu a) iter2 it.2) iter it.1))
              (fun a it => eval D step (bind (bind (bind ρ accu a) iter2 it.2) iter it.1)) its a with
            | .inl v => D.size v ≤ k
            | .inr v => D.size v ≤ k := by
          intro m
          induction m with
          | zero =>
            intro b0
            refine ⟨b0, ?_⟩
            intro ρ _ its a hl _ ha
            cases its with
            | nil => exact ha
            | cons => simp at hl
          | succ m ih =>
            intro b0
            obtain ⟨k, hk⟩ := ih (gs (max b (max b0 (kr + D.c))))
            refine ⟨max b0 (max D.c k), ?_⟩
            intro ρ hρ its a hl hit ha
            cases its with
            | nil => simp only [loop]; omega
            | cons it its =>
              unfold loop
              cases hc : D.truth (eval D cond (bind (bind (bind ρ accu a) iter2 it.2) iter it.1)) with
              | none =>
                simp only []
                have := D.noCond_size (eval D cond (bind (bind (bind ρ accu a) iter2 it.2) iter it.1))
                omega
              | some t =>
                cases t with
                | false => simp only []; omega
                | true =>
                  simp only []
                  have h1 := hit it (by simp)
                  have hb : EnvLe D (max b (max b0 (kr + D.c))) (bind (bind (bind ρ accu a) iter2 it.2) iter it.1) := by
                    refine bind_le D (bind_le D (bind_le D ?_ ?_) ?_) ?_
                    · intro x; have := hρ x; omega
                    · omega
                    · have := h1.2; omega
                    · have := h1.1; omega
                  have := hk ρ hρ its (eval D step (bind (bind (bind ρ accu a) iter2 it.2) iter it.1)) (by simpa using hl)
                    (fun x hx => hit x (by simp [hx])) (hgs _ _ hb)
                  revert this
                  cases loop D (fun a it => eval D cond (bind (bind (bind ρ accu a) iter2 it.2) iter it.1))
                    (fun a it => eval D step (bind (bind (bind ρ accu a) iter2 it.2) iter it.1)) its
                    (eval D step (bind (bind (bind ρ accu a) iter2 it.2) iter it.1)) <;> simp only [] <;> intro h <;> omega
        obtain ⟨k, hk⟩ := key kr ki
        refine ⟨k, ?_⟩
        intro ρ hρ its hits
        obtain ⟨hl, hsz⟩ := D.items_size _ _ _ hits
        have hrr := hr ρ hρ
        refine hk ρ hρ its _ (by omega) ?_ (hi ρ hρ)
        intro it hit
        have := hsz it hit
        omega
      obtain ⟨kl, hl⟩ := hloop
      refine ⟨max D.c (max kl (gr (max b kl))), ?_⟩
      intro ρ hρ
      rw [eval]
      cases hits : D.items (decide (iter2 ≠ "")) (eval D range ρ) with
      | none => simp only []; have := D.noRange_size (eval D range ρ); omega
      | some its =>
        simp only []
        have := hl ρ hρ its hits
        revert this
        cases loop D (fun a it => eval D cond (bind (bind (bind ρ accu a) iter2 it.2) iter it.1))
            (fun a it => eval D step (bind (bind (bind ρ accu a) iter2 it.2) iter it.1)) its (eval D init ρ) with
        | inl a =>
          simp only []
          intro h
          have hb : EnvLe D (max b kl) (bind ρ accu a) := by
            refine bind_le D ?_ (by omega)
            intro x; have := hρ x; omega
          have := hgr _ _ hb
          omega
        | inr v => simp only []; intro h; omega
theorem evals_bound : ∀ (es : Xs) (b : Nat), ∃ k, ∀ ρ, EnvLe D b ρ → ∀ v ∈ evals D es ρ, D.size v ≤ k
  | .nil, b => ⟨0, fun ρ _ v hv => by simp [evals] at hv⟩
  | .cons e es, b => by
      obtain ⟨k1, h1⟩ := eval_bound e b
      obtain ⟨k2, h2⟩ := evals_bound es b
      refine ⟨max k1 k2, fun ρ h v hv => ?_⟩
      rw [evals] at hv
      rcases List.mem_cons.1 hv with rfl | hv
      · have := h1 ρ h; omega
      · have := h2 ρ h v hv; omega
end

end Cel.Growth
