import Verif.Macro.Alpha

/-!
# C28: a planned expression writes only its own slots
-/

set_option linter.unusedSimpArgs false
set_option linter.unusedVariables false

namespace Cel.Eval
open Cel

variable {σ : Type} {cfg : Cfg σ}

/-- The slots a step may set or clear (`lazyInit` sets its slot when the extracted subexpression returns). -/
def writes : Instr σ → List Nat
  | .lazyInit k _ => [k]
  | .clearSlot k => [k]
  | .compNext i j a _ => i :: a :: j.toList
  | .compCond i j a _ _ => i :: a :: j.toList
  | .compFinish a => [a]
  | _ => []

/-- Slots that a pending return from an extracted subexpression will set. -/
def pending (m : MS σ) : List Nat := m.calls.map (·.2.2)

theorem jumpTo_slots {size : Nat} {off : Int} {m m' : MS σ} (h : jumpTo size off m = .next m') :
    m'.slots = m.slots ∧ m'.calls = m.calls := by
  unfold jumpTo at h
  split at h
  · cases h
  · cases h; exact ⟨rfl, rfl⟩

theorem upd_neQ (sl : Slots) (k j : Nat) (x : Option VA) (h : j ≠ k) : upd sl k x j = sl j := by
  unfold upd; rw [if_neg h]

theorem clearOpt_ne (sl : Slots) (o : Option Nat) (j : Nat) (h : j ∉ o.toList) : clearOpt sl o j = sl j := by
  cases o with
  | none => rfl
  | some k => exact upd_neQ _ _ _ _ (by simpa using h)

theorem setIter_ne (u : Bool) (ps : List Pattern) (sl : Slots) (i : Nat) (o : Option Nat) (t : Trail) (it : Item) (j : Nat)
    (h1 : j ≠ i) (h2 : j ∉ o.toList) : setIter u ps sl i o t it j = sl j := by
  cases o with
  | none => exact upd_neQ _ _ _ _ h1
  | some k =>
    have h2' : j ≠ k := by simpa using h2
    show upd (upd sl i _) k _ j = sl j
    rw [upd_neQ _ _ _ _ h2', upd_neQ _ _ _ _ h1]

/-- A step changes no slot but those it writes, and leaves the pending returns alone (or adds its own). -/
theorem exec_slots {size : Nat} {i : Instr σ} {m m' : MS σ} (h : exec cfg size i m = .next m') :
    (∀ k, k ∉ writes i → m'.slots k = m.slots k) ∧ ∀ k ∈ pending m', k ∈ pending m ∨ k ∈ writes i := by
  cases i with
  | const v => simp only [exec, MRes.next.injEq] at h; subst h; exact ⟨fun _ _ => rfl, fun _ hk => Or.inl hk⟩
  | ident x =>
    simp only [exec] at h
    split at h <;> cases h
    exact ⟨fun _ _ => rfl, fun _ hk => Or.inl hk⟩
  | slot x k =>
    simp only [exec] at h
    split at h <;> cases h
    exact ⟨fun _ _ => rfl, fun _ hk => Or.inl hk⟩
  | lazyInit k sub =>
    simp only [exec] at h
    split at h <;> cases h
    · exact ⟨fun _ _ => rfl, fun _ hk => Or.inl hk⟩
    · refine ⟨fun _ _ => rfl, fun j hj => ?_⟩
      simp only [pending, List.map_cons, List.mem_cons] at hj
      rcases hj with rfl | hj
      · exact Or.inr (by simp [writes])
      · exact Or.inl hj
  | op n f =>
    simp only [exec] at h
    split at h
    · cases h
    · split at h <;> cases h
      exact ⟨fun _ _ => rfl, fun _ hk => Or.inl hk⟩
  | logic o =>
    simp only [exec] at h
    split at h <;> cases h
    exact ⟨fun _ _ => rfl, fun _ hk => Or.inl hk⟩
  | ternary =>
    simp only [exec] at h
    split at h <;> cases h
    exact ⟨fun _ _ => rfl, fun _ hk => Or.inl hk⟩
  | jump off =>
    have := jumpTo_slots h
    exact ⟨fun k _ => by rw [this.1], fun k hk => Or.inl (by simpa only [pending, this.2] using hk)⟩
  | condJump b leave off =>
    simp only [exec] at h
    split at h
    · cases h
    · split at h
      · split at h
        · have := jumpTo_slots h
          refine ⟨fun k _ => by rw [this.1]; split <;> rfl, fun k hk => Or.inl ?_⟩
          simp only [pending, this.2] at hk ⊢
          cases leave <;> exact hk
        · cases h; cases leave <;> exact ⟨fun _ _ => rfl, fun _ hk => Or.inl hk⟩
      · cases h; cases leave <;> exact ⟨fun _ _ => rfl, fun _ hk => Or.inl hk⟩
  | boolCheckJump off =>
    simp only [exec] at h
    split at h
    · cases h
    · split at h
      · cases h; exact ⟨fun _ _ => rfl, fun _ hk => Or.inl hk⟩
      all_goals
        have := jumpTo_slots h
        exact ⟨fun k _ => by rw [this.1], fun k hk => Or.inl (by simpa only [pending, this.2] using hk)⟩
  | clearSlot j =>
    simp only [exec, MRes.next.injEq] at h
    subst h
    exact ⟨fun k hk => upd_neQ _ _ _ _ (by simpa [writes] using hk), fun _ hk => Or.inl hk⟩
  | compInit off =>
    simp only [exec] at h
    split at h
    · cases h
    · split at h
      · have := jumpTo_slots h
        exact ⟨fun k _ => by rw [this.1], fun k hk => Or.inl (by simpa only [pending, this.2] using hk)⟩
      · cases h; exact ⟨fun _ _ => rfl, fun _ hk => Or.inl hk⟩
  | compNext i j a off =>
    simp only [exec] at h
    split at h
    · split at h
      · cases h
      · have := jumpTo_slots h
        refine ⟨fun k hk => ?_, fun k hk => Or.inl (by simpa only [pending, this.2] using hk)⟩
        simp only [writes, List.mem_cons, not_or] at hk
        rw [this.1]
        simp only []
        rw [clearOpt_ne _ _ _ hk.2.2, upd_neQ _ _ _ _ hk.1, upd_neQ _ _ _ _ hk.2.1]
      · split at h
        · cases h
        · cases h
          refine ⟨fun k hk => ?_, fun _ hk => Or.inl hk⟩
          simp only [writes, List.mem_cons, not_or] at hk
          simp only []
          rw [setIter_ne _ _ _ _ _ _ _ _ hk.1 hk.2.2, upd_neQ _ _ _ _ hk.2.1]
    · cases h
  | compCond i j a off eo =>
    simp only [exec] at h
    split at h
    · split at h
      · cases h; exact ⟨fun _ _ => rfl, fun _ hk => Or.inl hk⟩
      · have := jumpTo_slots h
        exact ⟨fun k _ => by rw [this.1], fun k hk => Or.inl (by simpa only [pending, this.2] using hk)⟩
      · have := jumpTo_slots h
        refine ⟨fun k hk => ?_, fun k hk => Or.inl (by simpa only [pending, this.2] using hk)⟩
        simp only [writes, List.mem_cons, not_or] at hk
        rw [this.1]
        simp only []
        rw [upd_neQ _ _ _ _ hk.2.1, clearOpt_ne _ _ _ hk.2.2, upd_neQ _ _ _ _ hk.1]
    · cases h
  | compFinish a =>
    simp only [exec] at h
    split at h
    · cases h
      exact ⟨fun k hk => upd_neQ _ _ _ _ (by simpa [writes] using hk), fun _ hk => Or.inl hk⟩
    · cases h

/-- `k` is a slot reserved for the expression planned at `n`, or that of a `cel.bind` variable in scope. -/
def Own (Γ : Scope) (n w k : Nat) : Prop := (n ≤ k ∧ k < n + w) ∨ ∃ x v sub, (x, Ent.delayed k v sub) ∈ Γ

/-- All code writes such slots only. -/
def OwnCode (Γ : Scope) (n w : Nat) (c : List (Instr σ)) : Prop := ∀ i ∈ c, ∀ k ∈ writes i, Own Γ n w k

theorem OwnCode.mono {Γ : Scope} {n n' w w' : Nat} {c : List (Instr σ)} (h : OwnCode Γ n' w' c) (h1 : n ≤ n')
    (h2 : n' + w' ≤ n + w) : OwnCode Γ n w c := by
  intro i hi k hk
  rcases h i hi k hk with h | h
  · exact Or.inl ⟨by omega, by omega⟩
  · exact Or.inr h

theorem OwnCode.append {Γ : Scope} {n w : Nat} {c d : List (Instr σ)} (h1 : OwnCode Γ n w c) (h2 : OwnCode Γ n w d) :
    OwnCode Γ n w (c ++ d) := by
  intro i hi
  rcases List.mem_append.1 hi with hi | hi
  exacts [h1 i hi, h2 i hi]

theorem OwnCode.single {Γ : Scope} {n w : Nat} {i : Instr σ} (h : ∀ k ∈ writes i, Own Γ n w k) : OwnCode Γ n w [i] := by
  intro j hj; rw [List.mem_singleton.1 hj]; exact h

/-- The scope changes only in comprehension variables. -/
theorem OwnCode.scope {Γ Γ' : Scope} {n w : Nat} {c : List (Instr σ)} (h : OwnCode Γ' n w c)
    (hs : ∀ x k v sub, (x, Ent.delayed k v sub) ∈ Γ' → (x, Ent.delayed k v sub) ∈ Γ ∨ (n ≤ k ∧ k < n + w)) :
    OwnCode Γ n w c := by
  intro i hi k hk
  rcases h i hi k hk with h | ⟨x, v, sub, h⟩
  · exact Or.inl h
  · rcases hs x k v sub h with h | h
    · exact Or.inr ⟨x, v, sub, h⟩
    · exact Or.inl h

def OwnAll (Γ : Scope) (n w : Nat) (r : List (Instr σ) × List (List (Instr σ))) : Prop :=
  OwnCode Γ n w r.1 ∧ ∀ c ∈ r.2, OwnCode Γ n w c

theorem after_leQ (ini : Bool) (n : Nat) (e : Expr σ) : n ≤ after ini n e ∧ after ini n e ≤ n + width e := by
  unfold after; split <;> omega

theorem OwnAll.mono {Γ : Scope} {n n' w w' : Nat} {r : List (Instr σ) × List (List (Instr σ))} (h : OwnAll Γ n' w' r)
    (h1 : n ≤ n') (h2 : n' + w' ≤ n + w) : OwnAll Γ n w r :=
  ⟨h.1.mono h1 h2, fun c hc => (h.2 c hc).mono h1 h2⟩

theorem OwnAll.scope {Γ Γ' : Scope} {n w : Nat} {r : List (Instr σ) × List (List (Instr σ))} (h : OwnAll Γ' n w r)
    (hs : ∀ x k v sub, (x, Ent.delayed k v sub) ∈ Γ' → (x, Ent.delayed k v sub) ∈ Γ ∨ (n ≤ k ∧ k < n + w)) :
    OwnAll Γ n w r := ⟨h.1.scope hs, fun c hc => (h.2 c hc).scope hs⟩

theorem subs_append {Γ : Scope} {n w : Nat} {a b : List (List (Instr σ))} (h1 : ∀ c ∈ a, OwnCode Γ n w c)
    (h2 : ∀ c ∈ b, OwnCode Γ n w c) : ∀ c ∈ a ++ b, OwnCode Γ n w c := by
  intro c hc
  rcases List.mem_append.1 hc with hc | hc
  exacts [h1 c hc, h2 c hc]

theorem iterScope_delayed {x : String} {i : String} {j : Option String} {n k v sub : Nat} {Γ : Scope}
    (h : (x, Ent.delayed k v sub) ∈ iterScope i j n ++ Γ) : (x, Ent.delayed k v sub) ∈ Γ := by
  cases j <;> simpa [iterScope] using h

theorem scopeGet_mem : ∀ {Γ : Scope} {x : String} {e : Ent}, scopeGet Γ x = some e → (x, e) ∈ Γ
  | [], _, _, h => by cases h
  | (y, e') :: Γ, x, e, h => by
    unfold scopeGet at h
    split at h
    · rename_i hh; cases h; rw [hh]; simp
    · exact List.mem_cons_of_mem _ (scopeGet_mem h)

theorem noWrites {Γ : Scope} {n w : Nat} {i : Instr σ} (h : writes i = []) : OwnCode Γ n w [i] :=
  OwnCode.single (by rw [h]; simp)

mutual
theorem compile_own (e : Expr σ) : ∀ (Γ : Scope) (ini : Bool) (n m : Nat), OwnAll Γ n (width e) (compile cfg Γ ini n m e) := by
  cases e with
  | const v => intro Γ ini n m; simp only [compile]; exact ⟨noWrites rfl, by simp⟩
  | ident x abs =>
    intro Γ ini n m
    simp only [compile]
    cases abs with
    | true => simp only [if_true]; exact ⟨noWrites rfl, by simp⟩
    | false =>
      simp only [Bool.false_eq_true, if_false]
      cases hg : scopeGet Γ x with
      | none => exact ⟨noWrites rfl, by simp⟩
      | some e =>
        cases e with
        | val k => exact ⟨noWrites rfl, by simp⟩
        | delayed k v sub =>
          refine ⟨OwnCode.single fun j hj => ?_, by simp⟩
          rw [List.mem_singleton.1 hj]
          exact Or.inr ⟨x, v, sub, scopeGet_mem hg⟩
  | op f args =>
    intro Γ ini n m
    have h := compileArgs_own args Γ ini n m
    simp only [compile, width]
    exact ⟨h.1.append (noWrites rfl), h.2⟩
  | logic o a b =>
    intro Γ ini n m
    have ha := (compile_own a Γ ini n m).mono (n := n) (w := width (.logic o a b)) (Nat.le_refl _) (by simp only [width]; omega)
    have hle := after_leQ ini n a
    have hb := (compile_own b Γ ini (after ini n a) (m + (compile cfg Γ ini n m a).2.length)).mono (n := n)
      (w := width (.logic o a b)) hle.1 (by simp only [width]; omega)
    simp only [compile]
    split
    · exact ⟨ha.1.append ((noWrites rfl).append (hb.1.append (noWrites rfl))), subs_append ha.2 hb.2⟩
    · exact ⟨ha.1.append (hb.1.append (noWrites rfl)), subs_append ha.2 hb.2⟩
  | cond c t f =>
    intro Γ ini n m
    have hc := (compile_own c Γ ini n m).mono (n := n) (w := width (.cond c t f)) (Nat.le_refl _) (by simp only [width]; omega)
    have hle := after_leQ ini n c
    have hle' := after_leQ ini (after ini n c) t
    have ht := (compile_own t Γ ini (after ini n c) (m + (compile cfg Γ ini n m c).2.length)).mono (n := n)
      (w := width (.cond c t f)) hle.1 (by simp only [width]; omega)
    have hf := (compile_own f Γ ini (after ini (after ini n c) t) (m + (compile cfg Γ ini n m c).2.length +
      (compile cfg Γ ini (after ini n c) (m + (compile cfg Γ ini n m c).2.length) t).2.length)).mono (n := n)
      (w := width (.cond c t f)) (by omega) (by simp only [width]; omega)
    simp only [compile]
    split
    · refine ⟨hc.1.append (OwnCode.append ?_ (ht.1.append ((noWrites rfl).append hf.1))), subs_append hc.2 (subs_append ht.2 hf.2)⟩
      intro i hi
      simp only [List.mem_cons, List.not_mem_nil, or_false] at hi
      rcases hi with rfl | rfl <;> simp [writes]
    · exact ⟨hc.1.append (ht.1.append (hf.1.append (noWrites rfl))), subs_append hc.2 (subs_append ht.2 hf.2)⟩
  | comp i j accu range init cnd stp res =>
    intro Γ ini n m
    have hw : width (.comp i j accu range init cnd stp res) =
      iterSlots j + 1 + width range + width init + width cnd + width stp + width res := by simp only [width]
    generalize hW : width (.comp i j accu range init cnd stp res) = W at *
    simp only [compile]
    generalize hm1 : m + (compile cfg Γ ini (n + iterSlots j + 1) m range).2.length = m1
    have hl0 := after_leQ ini (n + iterSlots j + 1) range
    generalize hn1 : after ini (n + iterSlots j + 1) range = n1 at *
    generalize hm2 : m1 + (compile cfg Γ ini n1 m1 init).2.length = m2
    have hl1 := after_leQ ini n1 init
    generalize hn2 : after ini n1 init = n2 at *
    generalize hΓr : ((accu, Ent.val (n + iterSlots j)) :: Γ : Scope) = Γr
    generalize hΓl : iterScope i j n ++ Γr = Γl
    generalize hm3 : m2 + (compile cfg Γl ini n2 m2 cnd).2.length = m3
    have hl2 := after_leQ ini n2 cnd
    generalize hn3 : after ini n2 cnd = n3 at *
    generalize hm4 : m3 + (compile cfg Γl ini n3 m3 stp).2.length = m4
    have hl3 := after_leQ ini n3 stp
    generalize hn4 : after ini n3 stp = n4 at *
    have hsr : ∀ x k v sub, (x, Ent.delayed k v sub) ∈ Γr → (x, Ent.delayed k v sub) ∈ Γ := by
      intro x k v sub hh; rw [← hΓr] at hh; simpa using hh
    have hsl : ∀ x k v sub, (x, Ent.delayed k v sub) ∈ Γl → (x, Ent.delayed k v sub) ∈ Γ := by
      intro x k v sub hh; rw [← hΓl] at hh; exact hsr x k v sub (iterScope_delayed hh)
    have h0 := (compile_own range Γ ini (n + iterSlots j + 1) m).mono (n := n) (w := W) (by omega) (by omega)
    have h1 := (compile_own init Γ ini n1 m1).mono (n := n) (w := W) (by omega) (by omega)
    have h2 := ((compile_own cnd Γl ini n2 m2).mono (n := n) (w := W) (by omega) (by omega)).scope
      (fun x k v sub hh => Or.inl (hsl x k v sub hh))
    have h3 := ((compile_own stp Γl ini n3 m3).mono (n := n) (w := W) (by omega) (by omega)).scope
      (fun x k v sub hh => Or.inl (hsl x k v sub hh))
    have h4 := ((compile_own res Γr ini n4 m4).mono (n := n) (w := W) (by omega) (by omega)).scope
      (fun x k v sub hh => Or.inl (hsr x k v sub hh))
    have hslots : ∀ k, k ∈ (n :: (n + iterSlots j) :: (slot2 j n).toList) → Own Γ n W k := by
      intro k hk
      have : n ≤ k ∧ k < n + (iterSlots j + 1) := by
        cases j with
        | none => simp [slot2, iterSlots] at hk ⊢; omega
        | some y => simp [slot2, iterSlots] at hk ⊢; omega
      exact Or.inl ⟨this.1, by omega⟩
    refine ⟨h0.1.append ((noWrites rfl).append (h1.1.append (OwnCode.append (OwnCode.single hslots) (h2.1.append
      (OwnCode.append (OwnCode.single hslots) (h3.1.append ((noWrites rfl).append (h4.1.append (OwnCode.single ?_))))))))),
      subs_append h0.2 (subs_append h1.2 (subs_append h2.2 (subs_append h3.2 h4.2)))⟩
    intro k hk
    exact hslots k (by simp [writes] at hk; simp [hk])
  | bind x init body =>
    intro Γ ini n m
    have hw : width (.bind x init body) = 1 + width init + width body := by simp only [width]
    generalize hW : width (.bind x init body) = W at *
    simp only [compile]
    have h0 := (compile_own init Γ true (n + 1) m).mono (n := n) (w := W) (by omega) (by omega)
    have h1 := ((compile_own body ((x, .delayed n (width init) (m + (compile cfg Γ true (n + 1) m init).2.length)) :: Γ) ini
      (n + 1 + width init) (m + (compile cfg Γ true (n + 1) m init).2.length + 1)).mono (n := n) (w := W) (by omega) (by omega)).scope
      (Γ := Γ) (fun y k v sub hh => by
        rcases List.mem_cons.1 hh with hh | hh
        · cases hh; exact Or.inr ⟨by omega, by omega⟩
        · exact Or.inl hh)
    refine ⟨h1.1.append (OwnCode.single fun k hk => ?_), subs_append h0.2 (subs_append ?_ h1.2)⟩
    · rw [List.mem_singleton.1 hk]; exact Or.inl ⟨by omega, by omega⟩
    · intro c hc; rw [List.mem_singleton.1 hc]; exact h0.1
theorem compileArgs_own (es : Exprs σ) : ∀ (Γ : Scope) (ini : Bool) (n m : Nat),
    OwnAll Γ n (widths es) (compileArgs cfg Γ ini n m es) := by
  cases es with
  | nil => intro Γ ini n m; simp only [compileArgs]; exact ⟨by intro i hi; simp at hi, by simp⟩
  | cons e es =>
    intro Γ ini n m
    have ha := (compile_own e Γ ini n m).mono (n := n) (w := widths (.cons e es)) (Nat.le_refl _) (by simp only [widths]; omega)
    have hle := after_leQ ini n e
    have hb := (compileArgs_own es Γ ini (after ini n e) (m + (compile cfg Γ ini n m e).2.length)).mono (n := n)
      (w := widths (.cons e es)) hle.1 (by simp only [widths]; omega)
    simp only [compileArgs]
    exact ⟨ha.1.append hb.1, subs_append ha.2 hb.2⟩
end

/-- **C28 (own slots).** Wherever an expression is planned — in scope `Γ`, with first free slot `n` — no step
of its program, nor of the subexpressions extracted from it, sets or clears a slot outside the range
`[n, n + width e)` reserved for it, except to initialise a `cel.bind` variable in scope.  In particular a
comprehension variable of an enclosing comprehension (whose slot is below `n`) is never overwritten. -/
theorem C28_writes_own_slots (e : Expr σ) (Γ : Scope) (ini : Bool) (n m : Nat) (code : List (Instr σ))
    (hc : code = (compile cfg Γ ini n m e).1 ∨ code ∈ (compile cfg Γ ini n m e).2) (i : Instr σ) (hi : i ∈ code) (k : Nat)
    (hk : k ∈ writes i) : (n ≤ k ∧ k < n + width e) ∨ ∃ x v sub, (x, Ent.delayed k v sub) ∈ Γ := by
  have h := compile_own (cfg := cfg) e Γ ini n m
  rcases hc with rfl | hc
  · exact h.1 i hi k hk
  · exact h.2 code hc i hi k hk

/-- **C28 (what a step can change).** One round of the machine changes only slots the executed step writes,
or the slot a finished extracted subexpression returns to. -/
theorem C28_step_writes {p : Prog σ} {m m' : MS σ} (h : step cfg p m = .next m') (k : Nat)
    (hk : m'.slots k ≠ m.slots k) :
    (∃ code i, p[m.code]? = some code ∧ code[m.pc]? = some i ∧ k ∈ writes i) ∨ k ∈ pending m := by
  unfold step at h
  split at h
  · cases h
  · rename_i code hcode
    split at h
    · rename_i i hi
      left
      refine ⟨code, i, hcode, hi, ?_⟩
      by_contra hne
      exact hk ((exec_slots h).1 k hne)
    · split at h
      · split at h
        · unfold finish at h; split at h <;> cases h
        · split at h
          · cases h
            right
            rename_i rc rp j cs hcalls _ x st hst
            by_contra hne
            refine hk (upd_neQ _ _ _ _ ?_)
            rintro rfl
            apply hne
            simp_all [pending]
          · cases h
      · unfold finish at h; split at h <;> cases h

/-- A nested comprehension over two variables inside one over one variable, both called `x`: the inner one
works in slots 2..4, the outer variable is in slot 0. -/
def nested : Expr Unit :=
  .comp "x" none "a" (.const (.list [.int 1])) (.const (.bool true)) (.const (.bool true))
    (.comp "x" (some "y") "a" (.const (.list [.int 2])) (.const (.bool true)) (.const (.bool true)) (.ident "x" false) (.ident "a" false))
    (.ident "a" false)

example : width nested = 5 ∧ (plan exCfg nested).flatten.flatMap writes = [0, 1, 0, 1, 2, 4, 3, 2, 4, 3, 4, 1] := by
  refine ⟨rfl, rfl⟩

/-- Renaming applies to it: the inner `x` is not captured. -/
example (h : Unit) (r : Final Unit) :
    Halts exCfg (plan exCfg (.comp "z" none "a" (.const (.list [.int 1])) (.const (.bool true)) (.const (.bool true))
      (.comp "x" (some "y") "a" (.const (.list [.int 2])) (.const (.bool true)) (.const (.bool true)) (.ident "x" false) (.ident "a" false))
      (.ident "a" false))) (MS.start h) r ↔ Halts exCfg (plan exCfg nested) (MS.start h) r := by
  refine C28_planned_rename "x" "z" "a" none (.const (.list [.int 1])) (.const (.bool true)) (.const (.bool true))
    (.comp "x" (some "y") "a" (.const (.list [.int 2])) (.const (.bool true)) (.const (.bool true)) (.ident "x" false) (.ident "a" false))
    (.ident "a" false) (by decide) (by decide) (by simp) (by simp) (by simp [Fresh]) ?_ (noClash_noBind ?_) (noClash_noBind ?_) h r
  · simp [Fresh]
  · simp [NoBind]
  · simp [ren, NoBind]

end Cel.Eval
