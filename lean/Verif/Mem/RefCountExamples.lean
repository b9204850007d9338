import Verif.Mem.RefCountProps

/-
C51: the calls finish, the bound on the number of handles is needed, and a
racing execution that meets the hypotheses of the theorems.
-/

set_option linter.unusedVariables false
set_option linter.unusedSimpArgs false

namespace Cel.Mem

/-- `n` steps of one thread while the others stand still and
`compare_exchange_weak` does not fail spuriously. -/
inductive Solo : Nat → Block → Th → Block → Th → Prop where
  | zero (b : Block) (t : Th) : Solo 0 b t b t
  | succ {n : Nat} {b b' b'' : Block} {t t' t'' : Th} {e : Ev}
      (h : TStep b t e b' t')
      (real : ∀ c, t.pc = .strengthening c → e = .strongLoad b.strong → c ≠ b.strong)
      (r : Solo n b' t' b'' t'') : Solo (n + 1) b t b'' t''

/-- **C51.** A call that is not disturbed returns after at most three more
steps, whatever the state it is in. -/
theorem C51_calls_return (b : Block) (t : Th) :
    ∃ n b' t', n ≤ 3 ∧ Solo n b t b' t' ∧ t'.pc = .idle := by
  obtain ⟨s, w, pc⟩ := t
  have del : ∀ b, Solo 1 b ⟨s, w, .atDelete⟩ b ⟨s, w, .idle⟩ := fun b =>
    .succ (.delete ..) (fun c hc => by cases hc) (.zero ..)
  have wk : ∀ b, ∃ n b', n ≤ 2 ∧ Solo n b ⟨s, w, .atWeakUnref⟩ b' ⟨s, w, .idle⟩ := by
    intro b
    by_cases h : b.weak = 1
    · exact ⟨2, _, by omega,
        .succ (.weakUnrefInnerLast _ _ _ h) (fun c hc => by cases hc) (del _)⟩
    · exact ⟨1, _, by omega,
        .succ (.weakUnrefInner _ _ _ h) (fun c hc => by cases hc) (.zero ..)⟩
  have str : ∀ b : Block, ∃ b' t', Solo 1 b ⟨s, w, .strengthening b.strong⟩ b' t'
      ∧ t'.pc = .idle := by
    intro b
    by_cases h : b.strong = 0
    · refine ⟨b, ⟨s, w, .idle⟩, ?_, rfl⟩
      rw [h]
      exact .succ (.strengthenFail ..) (fun c _ he => Ev.noConfusion he) (.zero ..)
    · exact ⟨_, ⟨s + 1, w, .idle⟩,
        .succ (.strengthenCas _ _ _ h) (fun c _ he => Ev.noConfusion he) (.zero ..), rfl⟩
  cases pc with
  | idle => exact ⟨0, _, _, by omega, .zero .., rfl⟩
  | atDelete => exact ⟨1, _, _, by omega, del b, rfl⟩
  | atWeakUnref =>
    obtain ⟨n, b', hn, h⟩ := wk b
    exact ⟨n, _, _, by omega, h, rfl⟩
  | atFinalize =>
    obtain ⟨n, b', hn, h⟩ := wk b
    exact ⟨n + 1, _, _, by omega, .succ (.finalize ..) (fun c hc => by cases hc) h, rfl⟩
  | strengthening c =>
    by_cases hc : c = b.strong
    · subst hc
      obtain ⟨b', t', h, hi⟩ := str b
      exact ⟨1, _, _, by omega, h, hi⟩
    · by_cases hz : c = 0
      · subst hz
        exact ⟨1, _, ⟨s, w, .idle⟩, by omega,
          .succ (.strengthenFail ..) (fun c _ he => Ev.noConfusion he) (.zero ..), rfl⟩
      · obtain ⟨b', t', h, hi⟩ := str b
        exact ⟨2, _, _, by omega,
          .succ (.strengthenRetry _ _ _ _ hz) (fun c' hc' _ => by cases hc'; exact hc) h,
          hi⟩

/-! ### The bound on the number of handles is needed -/

theorem many_refs (n : Nat) :
    ∃ tr, ExecAny tr ⟨⟨wrap32 (1 + n), 1⟩, [⟨1 + n, 0, .idle⟩], 0, 0⟩ := by
  induction n with
  | zero => exact ⟨[], .nil⟩
  | succ n ih =>
    obtain ⟨tr, h⟩ := ih
    refine ⟨tr ++ [.strongAdd (wrap32 (1 + n))], ?_⟩
    have st := Step.run [] [] _ _ _ _ 0 0 _
      (TStep.strongRef ⟨wrap32 (1 + (n : Int)), 1⟩ n 0)
    have e1 : wrap32 (wrap32 (1 + (n : Int)) + 1) = wrap32 (1 + ((n + 1 : Nat) : Int)) := by
      unfold wrap32; omega
    have e2 : (1 + n : Nat) = n + 1 := by omega
    have e3 : (1 + (n + 1) : Nat) = n + 2 := by omega
    rw [e2] at h
    rw [e3]
    simp only [e1, List.nil_append] at st
    exact .step h st

/-- **C51.** Without a bound on the number of handles the claim is false:
2³² + 1 handles make the counter read 1 again, and giving up one handle
finalizes the object under the other 2³². -/
theorem C51_needs_bounded_handles :
    ∃ tr s, ExecAny tr s ∧ .finalize ∈ tr ∧ 0 < strongHandles s := by
  obtain ⟨tr, h⟩ := many_refs 4294967296
  have e : wrap32 (1 + ((4294967296 : Nat) : Int)) = 1 := by decide
  rw [e] at h
  have s1 := Step.run [] [] _ _ _ _ 0 0 _
    (TStep.strongUnrefLast ⟨1, 1⟩ 4294967296 0 rfl)
  have s2 := Step.run [] [] _ _ _ _ 0 0 _
    (TStep.finalize ⟨wrap32 (1 - 1), 1⟩ 4294967296 0)
  refine ⟨_, _, .step (.step h s1) s2, by simp, ?_⟩
  simp [strongHandles]

/-! ### A race -/

instance (s : Sys) : Decidable (Fits s) := by unfold Fits; infer_instance

/-- Thread 1 gives up the last strong handle between the load and the
compare-exchange of thread 2's `StrengthenRef`. -/
example : ∃ tr s, Exec tr s
    ∧ tr = [.weakAdd 1, .pass, .pass, .pass, .strongLoad 1, .strongSub 1, .strongLoad 0,
        .strengthened false, .finalize, .weakSub 2, .weakSub 1, .delete]
    ∧ s = ⟨⟨0, 0⟩, [⟨0, 0, .idle⟩, ⟨0, 0, .idle⟩], 0, 0⟩ := by
  have h := Exec.nil
  have h := Exec.step h (Step.run [] [] _ _ _ _ _ _ _ (.weakRefOfStrong _ 0 0)) (by decide)
  have h := Exec.step h (Step.giveWeak [] [] _ 1 0 0 0) (by decide)
  have h := Exec.step h (Step.spawn _ _ _ _) (by decide)
  have h := Exec.step h (Step.takeWeak [] [⟨1, 0, .idle⟩] _ 0 0 0 0) (by decide)
  have h := Exec.step h
    (Step.run [] [⟨1, 0, .idle⟩] _ _ _ _ _ _ _ (.strengthenLoad _ 0 0)) (by decide)
  have h := Exec.step h
    (Step.run [⟨0, 1, .strengthening 1⟩] [] _ _ _ _ _ _ _ (.strongUnrefLast _ 0 0 rfl))
    (by decide)
  have h := Exec.step h
    (Step.run [] [⟨0, 0, .atFinalize⟩] _ _ _ _ _ _ _ (.strengthenRetry _ 0 1 1 (by decide)))
    (by decide)
  have h := Exec.step h
    (Step.run [] [⟨0, 0, .atFinalize⟩] _ _ _ _ _ _ _ (.strengthenFail _ 0 1)) (by decide)
  have h := Exec.step h
    (Step.run [⟨0, 1, .idle⟩] [] _ _ _ _ _ _ _ (.finalize _ 0 0)) (by decide)
  have h := Exec.step h
    (Step.run [⟨0, 1, .idle⟩] [] _ _ _ _ _ _ _ (.weakUnrefInner _ 0 0 (by decide)))
    (by decide)
  have h := Exec.step h
    (Step.run [] [⟨0, 0, .idle⟩] _ _ _ _ _ _ _ (.weakUnrefLast _ 0 0 rfl)) (by decide)
  have h := Exec.step h
    (Step.run [] [⟨0, 0, .idle⟩] _ _ _ _ _ _ _ (.delete _ 0 0)) (by decide)
  exact ⟨_, _, h, rfl, rfl⟩

end Cel.Mem
