import Verif.Runtime.Activation

/-!
# C44: variables of an activation

Specification: what a history says about a variable, read off the interface events alone.
-/

set_option linter.unusedSimpArgs false
set_option linter.unusedVariables false

namespace Cel.Runtime
open Cel

variable {V P : Type}

/-! ## Specification -/

/-- What the history (latest event first) last bound the name to: a value or a provider. -/
def bound : List (Event V P) → String → Option (V ⊕ P)
  | [], _ => none
  | .bindValue m v _ :: past, n => if m = n then some (.inl v) else bound past n
  | .bindProvider m p _ :: past, n => if m = n then some (.inr p) else bound past n
  | _ :: past, n => bound past n

/-- What a lookup should answer according to the history: nothing for a name never bound; the value last bound; for a
name last bound to a provider, what the provider last answered since (`none` if it has not answered yet). -/
def meaning : List (Event V P) → String → Option (Out V)
  | [], _ => some (.ok none)
  | .bindValue m v _ :: past, n => if m = n then some (.ok (some v)) else meaning past n
  | .bindProvider m _ _ :: past, n => if m = n then none else meaning past n
  | .returned _ m o :: past, n => if m = n then some o else meaning past n
  | _ :: past, n => meaning past n

/-- The event is a binding of the name. -/
def Event.Binds : Event V P → String → Prop
  | .bindValue m _ _, n => m = n
  | .bindProvider m _ _, n => m = n
  | _, _ => False

/-- The event is an action of the thread in a lookup. -/
def Event.By : Event V P → Nat → Prop
  | .invoked u _ _, t => u = t
  | .returned u _ _, t => u = t
  | .looked u _ _, t => u = t
  | _, _ => False

/-- Calls of providers begun. -/
def begun : List (Event V P) → Nat
  | [] => 0
  | .invoked _ _ _ :: past => begun past + 1
  | _ :: past => begun past

/-- Calls of providers ended. -/
def ended : List (Event V P) → Nat
  | [] => 0
  | .returned _ _ _ :: past => ended past + 1
  | _ :: past => ended past

/-- The history has a value for the name. -/
def HasValue (past : List (Event V P)) (n : String) : Prop := ∃ v, meaning past n = some (.ok (some v))

/-- The last thing the thread did was to hear the provider of `n` answer `o`. -/
def JustAnswered (past : List (Event V P)) (t : Nat) (n : String) (o : Out V) : Prop :=
  ∃ since before, past = since ++ .returned t n o :: before ∧ ∀ e ∈ since, ¬ e.By t

/-- What must hold when an event happens after a history. -/
def EventOk (past : List (Event V P)) : Event V P → Prop
  | .bindValue n _ fresh => fresh = true ↔ bound past n = none
  | .bindProvider n _ fresh => fresh = true ↔ bound past n = none
  | .invoked _ n p => bound past n = some (.inr p) ∧ ¬ HasValue past n ∧ begun past = ended past
  | .returned _ n _ => (∃ p, bound past n = some (.inr p)) ∧ ¬ HasValue past n ∧ begun past = ended past + 1
  | .looked t n o => meaning past n = some o ∧
      ((∃ p, bound past n = some (.inr p)) → (∀ v, o ≠ .ok (some v)) → JustAnswered past t n o)

/-- Every event of the history was right when it happened. -/
def TraceOk : List (Event V P) → Prop
  | [] => True
  | e :: past => EventOk past e ∧ TraceOk past

/-! ## Invariant -/

/-- A thread's stack against the mutex. -/
def Shape (s : AState V P) (t : Nat) : Prop :=
  (s.lock ≠ some t ∧ (s.th t = [] ∨ ∃ n, s.th t = [.waiting n])) ∨
  (s.lock = some t ∧ ((∃ n, s.th t = [.locked n]) ∨ (∃ n, s.th t = [.calling n]) ∨ (∃ n o, s.th t = [.got n o]) ∨
    ∃ m n, s.th t = [.waiting m, .calling n]))

/-- What a frame requires. -/
def FrameOk (s : AState V P) (t : Nat) : Frame V → Prop
  | .waiting n => ∃ e p, s.entries n = some e ∧ e.provider = some p
  | .locked n => ∃ e p, s.entries n = some e ∧ e.provider = some p ∧ (e.value = none → ¬ HasValue s.trace n)
  | .calling n => ∃ e p, s.entries n = some e ∧ e.provider = some p ∧ e.value = none ∧ ¬ HasValue s.trace n
  | .got n o => ∃ e p, s.entries n = some e ∧ e.provider = some p ∧ e.value = none ∧ meaning s.trace n = some o ∧
      JustAnswered s.trace t n o

/-- An entry against the history. -/
def EntryInv (s : AState V P) (n : String) : Prop :=
  match s.entries n with
  | none => bound s.trace n = none ∧ meaning s.trace n = some (.ok none)
  | some e =>
    match e.provider with
    | none => ∃ v, e.value = some v ∧ bound s.trace n = some (.inl v) ∧ meaning s.trace n = some (.ok (some v))
    | some p => bound s.trace n = some (.inr p) ∧
      match e.value with
      | some v => meaning s.trace n = some (.ok (some v))
      | none => HasValue s.trace n → ∃ t o, .got n o ∈ s.th t

/-- A provider is running. -/
def Busy (s : AState V P) : Prop := ∃ t n, .calling n ∈ s.th t

structure Inv (s : AState V P) : Prop where
  shape : ∀ t, Shape s t
  frames : ∀ t, ∀ f ∈ s.th t, FrameOk s t f
  entries : ∀ n, EntryInv s n
  busy : Busy s → begun s.trace = ended s.trace + 1
  free : ¬ Busy s → begun s.trace = ended s.trace
  trace : TraceOk s.trace

theorem others_waiting {s : AState V P} (h : Inv s) {t : Nat} (hu : s.lock ≠ some t) {f : Frame V} (hf : f ∈ s.th t) :
    s.th t = [f] ∧ ∃ n, f = .waiting n := by
  rcases h.shape t with ⟨-, h1 | ⟨n, h1⟩⟩ | ⟨h1, -⟩
  · rw [h1] at hf; simp at hf
  · rw [h1] at hf ⊢; simp at hf; subst hf; exact ⟨rfl, n, rfl⟩
  · exact absurd h1 hu

theorem got_holder {s : AState V P} (h : Inv s) {t : Nat} {n : String} {o : Out V} (hf : .got n o ∈ s.th t) :
    s.lock = some t ∧ s.th t = [.got n o] := by
  by_cases hl : s.lock = some t
  · refine ⟨hl, ?_⟩
    rcases h.shape t with ⟨h1, -⟩ | ⟨-, ⟨n', h1⟩ | ⟨n', h1⟩ | ⟨n', o', h1⟩ | ⟨m', n', h1⟩⟩
    · exact absurd hl h1
    all_goals (rw [h1] at hf ⊢; simp at hf)
    obtain ⟨rfl, rfl⟩ := hf; rfl
  · obtain ⟨-, n', hn⟩ := others_waiting h hl hf; simp at hn

theorem calling_holder {s : AState V P} (h : Inv s) {t : Nat} {n : String} (hf : .calling n ∈ s.th t) : s.lock = some t := by
  by_cases hl : s.lock = some t
  · exact hl
  · obtain ⟨-, n', hn⟩ := others_waiting h hl hf; simp at hn

theorem head_waiting {s : AState V P} (h : Inv s) (hl : s.lock = none) {t : Nat} {n : String} {rest : List (Frame V)}
    (ht : s.th t = .waiting n :: rest) : rest = [] := by
  rcases h.shape t with ⟨-, h1 | ⟨n', h1⟩⟩ | ⟨h1, -⟩
  · rw [h1] at ht; simp at ht
  · rw [h1] at ht; simp at ht; exact ht.2
  · rw [hl] at h1; simp at h1

theorem head_holding {s : AState V P} (h : Inv s) {t : Nat} {f : Frame V} {rest : List (Frame V)}
    (ht : s.th t = f :: rest) (hf : ∀ n, f ≠ .waiting n) : rest = [] ∧ s.lock = some t := by
  rcases h.shape t with ⟨-, h1 | ⟨n', h1⟩⟩ | ⟨hl, ⟨n', h1⟩ | ⟨n', h1⟩ | ⟨n', o', h1⟩ | ⟨m', n', h1⟩⟩
  · rw [h1] at ht; simp at ht
  · rw [h1] at ht; simp at ht; exact absurd ht.1.symm (hf n')
  · rw [h1] at ht; simp at ht; exact ⟨ht.2, hl⟩
  · rw [h1] at ht; simp at ht; exact ⟨ht.2, hl⟩
  · rw [h1] at ht; simp at ht; exact ⟨ht.2, hl⟩
  · rw [h1] at ht; simp at ht; exact absurd ht.1.symm (hf m')

theorem JustAnswered.cons {past : List (Event V P)} {t : Nat} {n : String} {o : Out V} (h : JustAnswered past t n o)
    {e : Event V P} (he : ¬ e.By t) : JustAnswered (e :: past) t n o := by
  obtain ⟨a, b, rfl, ha⟩ := h
  refine ⟨e :: a, b, rfl, ?_⟩
  intro x hx
  rcases List.mem_cons.1 hx with rfl | hx
  · exact he
  · exact ha x hx

theorem entry_bound {s : AState V P} (h : Inv s) (n : String) : (s.entries n).isNone = true ↔ bound s.trace n = none := by
  have := h.entries n
  unfold EntryInv at this
  cases he : s.entries n with
  | none => rw [he] at this; simp [this.1]
  | some e =>
    rw [he] at this
    cases hp : e.provider with
    | none => simp only [hp] at this; obtain ⟨v, -, hb, -⟩ := this; simp [hb]
    | some p => simp only [hp] at this; simp [this.1]

/-- Insertions. -/
theorem inv_insert {s : AState V P} (h : Inv s) (n : String) (e : VEntry V P) (ev : Event V P) (hs : ∀ t, s.th t = [])
    (hev : (∃ v, e = ⟨some v, none⟩ ∧ ev = .bindValue n v (s.entries n).isNone) ∨
      ∃ p, e = ⟨none, some p⟩ ∧ ev = .bindProvider n p (s.entries n).isNone) :
    Inv ((s.put n e).emit ev) := by
  have hb : ¬ Busy s := by rintro ⟨t, m, hm⟩; rw [hs t] at hm; simp at hm
  have hb' : ¬ Busy ((s.put n e).emit ev) := by rintro ⟨t, m, hm⟩; simp only [AState.emit, AState.put] at hm; rw [hs t] at hm; simp at hm
  refine ⟨?_, ?_, ?_, fun hx => absurd hx hb', ?_, ?_⟩
  · intro t; exact h.shape t
  · intro t f hf; simp only [AState.emit, AState.put] at hf; rw [hs t] at hf; simp at hf
  · intro m
    have hm := h.entries m
    unfold EntryInv at hm ⊢
    simp only [AState.emit, AState.put]
    by_cases hmn : m = n
    · subst hmn
      simp only [if_true]
      rcases hev with ⟨v, rfl, rfl⟩ | ⟨p, rfl, rfl⟩
      · exact ⟨v, rfl, by simp [bound], by simp [meaning]⟩
      · simp [bound, HasValue, meaning]
    · simp only [if_neg hmn]
      have hnm : ¬ n = m := fun h => hmn h.symm
      rcases hev with ⟨v, rfl, rfl⟩ | ⟨p, rfl, rfl⟩ <;>
        simpa only [bound, meaning, HasValue, if_neg hnm] using hm
  · intro _
    rcases hev with ⟨v, rfl, rfl⟩ | ⟨p, rfl, rfl⟩ <;> exact h.free hb
  · refine ⟨?_, h.trace⟩
    rcases hev with ⟨v, rfl, rfl⟩ | ⟨p, rfl, rfl⟩ <;> exact entry_bound h n

/-- A lookup that does not touch the mutex. -/
theorem inv_looked {s : AState V P} (h : Inv s) {t : Nat} {n : String} {o : Out V} (hc : CanCall (s.th t))
    (hok : EventOk s.trace (.looked t n o)) : Inv (s.emit (.looked t n o)) := by
  refine ⟨h.shape, ?_, h.entries, h.busy, h.free, hok, h.trace⟩
  intro u f hf
  have := h.frames u f hf
  cases f with
  | waiting => exact this
  | locked => exact this
  | calling => exact this
  | got m o' =>
    obtain ⟨e, p, h1, h2, h3, h4, h5⟩ := this
    refine ⟨e, p, h1, h2, h3, h4, h5.cons ?_⟩
    intro (htu : t = u)
    subst htu
    have := (got_holder h hf).2
    rcases hc with hc | ⟨_, _, hc⟩ <;> rw [this] at hc <;> simp at hc

/-- The holder of the mutex finishes its lookup. -/
theorem inv_finish {s s' : AState V P} (h : Inv s) {t : Nat} {f : Frame V} {rest : List (Frame V)} {n : String} {o : Out V}
    (ht : s.th t = f :: rest) (hf : ∀ n, f ≠ .waiting n) (hcall : ∀ n, f ≠ .calling n)
    (htr : s'.trace = .looked t n o :: s.trace) (hl : s'.lock = none) (hth : s'.th = (s.goto t rest).th)
    (hpr : ∀ m e p, s.entries m = some e → e.provider = some p → ∃ e', s'.entries m = some e' ∧ e'.provider = some p)
    (hok : EventOk s.trace (.looked t n o)) (hent : ∀ m, EntryInv s' m) : Inv s' := by
  obtain ⟨rfl, hlock⟩ := head_holding h ht hf
  have hsh : ∀ u, s'.th u = [] ∨ ∃ n, s'.th u = [.waiting n] := by
    intro u
    rw [hth]
    simp only [AState.goto]
    by_cases hut : u = t
    · simp [hut]
    · rw [if_neg hut]
      rcases h.shape u with ⟨-, h1⟩ | ⟨h1, -⟩
      · exact h1
      · rw [hlock] at h1; simp at h1; exact absurd h1.symm hut
  have hnb : ¬ Busy s := by
    rintro ⟨u, m, hm⟩
    have hu := calling_holder h hm
    rw [hlock] at hu; simp at hu; subst hu
    rw [ht] at hm; simp at hm; exact hcall m hm.symm
  refine ⟨?_, ?_, hent, ?_, ?_, ?_⟩
  · intro u; exact .inl ⟨by rw [hl]; simp, hsh u⟩
  · intro u g hg
    rcases hsh u with h1 | ⟨m, h1⟩
    · rw [h1] at hg; simp at hg
    · have : g = .waiting m := by rw [h1] at hg; simpa using hg
      subst this
      have hg' : .waiting m ∈ s.th u := by
        rw [hth] at hg; simp only [AState.goto] at hg
        by_cases hut : u = t
        · rw [if_pos hut] at hg; simp at hg
        · rw [if_neg hut] at hg; exact hg
      obtain ⟨e, p, h1, h2⟩ := h.frames u _ hg'
      obtain ⟨e', h1', h2'⟩ := hpr m e p h1 h2
      exact ⟨e', p, h1', h2'⟩
  · rintro ⟨u, m, hm⟩
    rcases hsh u with h1 | ⟨k, h1⟩ <;> rw [h1] at hm <;> simp at hm
  · intro _; rw [htr]; exact h.free hnb
  · rw [htr]; exact ⟨hok, h.trace⟩

/-- With the mutex held by a thread that has no answer pending, an entry without a value has no value in the history. -/
theorem no_pending {s : AState V P} (h : Inv s) {n : String} {e : VEntry V P} {p : P} (he : s.entries n = some e)
    (hp : e.provider = some p) (hv : e.value = none) (hno : ∀ t o, .got n o ∉ s.th t) : ¬ HasValue s.trace n := by
  have := h.entries n
  unfold EntryInv at this
  rw [he] at this
  simp only [hp, hv] at this
  intro hh
  obtain ⟨t, o, hm⟩ := this.2 hh
  exact hno t o hm

theorem inv_step {s s' : AState V P} (h : Inv s) (hs : AStep s s') : Inv s' := by
  cases hs with
  | insertValue n v hall => exact inv_insert h n _ _ hall (.inl ⟨v, rfl, rfl⟩)
  | insertProvider n p hall => exact inv_insert h n _ _ hall (.inr ⟨p, rfl, rfl⟩)
  | findMissing t n hc he =>
    refine inv_looked h hc ?_
    have := h.entries n
    unfold EntryInv at this
    rw [he] at this
    refine ⟨this.2, ?_⟩
    rintro ⟨p, hp⟩; rw [this.1] at hp; simp at hp
  | findValue t n e hc he hp =>
    refine inv_looked h hc ?_
    have := h.entries n
    unfold EntryInv at this
    rw [he] at this
    simp only [hp] at this
    obtain ⟨v, hv, hb, hm⟩ := this
    rw [hv]
    refine ⟨hm, ?_⟩
    rintro ⟨p, hp⟩; rw [hb] at hp; simp at hp
  | findProvided t n e hc he hp =>
    have hsh := h.shape t
    have hcall : ∀ u m, (.calling m ∈ (s.goto t (.waiting n :: s.th t)).th u) ↔ .calling m ∈ s.th u := by
      intro u m
      simp only [AState.goto]
      by_cases hut : u = t
      · subst hut; simp
      · rw [if_neg hut]
    have hgot : ∀ u m o, (.got m o ∈ (s.goto t (.waiting n :: s.th t)).th u) ↔ .got m o ∈ s.th u := by
      intro u m o
      simp only [AState.goto]
      by_cases hut : u = t
      · subst hut; simp
      · rw [if_neg hut]
    have hbusy : Busy (s.goto t (.waiting n :: s.th t)) ↔ Busy s := by unfold Busy; simp only [hcall]
    refine ⟨?_, ?_, ?_, fun hb => h.busy (hbusy.1 hb), fun hb => h.free (fun hb' => hb (hbusy.2 hb')), h.trace⟩
    · intro u
      unfold Shape AState.goto
      by_cases hut : u = t
      · subst hut
        simp only [if_true]
        rcases hc with hc | ⟨m, rest, hc⟩
        · rcases hsh with ⟨h1, -⟩ | ⟨-, ⟨n', h1⟩ | ⟨n', h1⟩ | ⟨n', o', h1⟩ | ⟨m', n', h1⟩⟩
          · left; rw [hc]; exact ⟨h1, .inr ⟨n, rfl⟩⟩
          all_goals (rw [hc] at h1; simp at h1)
        · obtain ⟨rfl, hl⟩ := head_holding h hc (by intro _ h; simp at h)
          right; rw [hc]; exact ⟨hl, .inr (.inr (.inr ⟨n, m, rfl⟩))⟩
      · simp only [if_neg hut]; exact h.shape u
    · intro u f hf
      simp only [AState.goto] at hf
      by_cases hut : u = t
      · rw [if_pos hut] at hf
        rcases List.mem_cons.1 hf with rfl | hf
        · cases hp' : e.provider with
          | none => exact absurd hp' hp
          | some p => exact ⟨e, p, he, hp'⟩
        · subst hut; exact h.frames u f hf
      · rw [if_neg hut] at hf; exact h.frames u f hf
    · intro m
      have := h.entries m
      unfold EntryInv at this ⊢
      simp only [hgot]
      exact this
  | lock t n rest ht hl =>
    have hr := head_waiting h hl ht
    subst hr
    have hwait : ∀ u, s.th u = [] ∨ ∃ n, s.th u = [.waiting n] := by
      intro u
      rcases h.shape u with ⟨-, h1⟩ | ⟨h1, -⟩
      · exact h1
      · rw [hl] at h1; simp at h1
    have hnog : ∀ m u o, .got m o ∉ s.th u := by
      intro m u o hm
      rcases hwait u with h1 | ⟨k, h1⟩ <;> rw [h1] at hm <;> simp at hm
    have hnb : ¬ Busy s := by
      rintro ⟨u, m, hm⟩
      rcases hwait u with h1 | ⟨k, h1⟩ <;> rw [h1] at hm <;> simp at hm
    refine ⟨?_, ?_, ?_, ?_, fun _ => h.free hnb, h.trace⟩
    · intro u
      unfold Shape AState.goto
      by_cases hut : u = t
      · subst hut; simp only [if_true]; right; exact ⟨trivial, .inl ⟨n, rfl⟩⟩
      · simp only [if_neg hut]; left; exact ⟨by simp; exact fun h => hut h.symm, hwait u⟩
    · intro u f hf
      simp only [AState.goto] at hf
      by_cases hut : u = t
      · rw [if_pos hut] at hf
        simp at hf; subst hf
        obtain ⟨e, p, h1, h2⟩ := h.frames t (.waiting n) (by rw [ht]; simp)
        exact ⟨e, p, h1, h2, fun hv => no_pending h h1 h2 hv (hnog n)⟩
      · rw [if_neg hut] at hf
        have := h.frames u f hf
        rcases hwait u with h1 | ⟨k, h1⟩
        · rw [h1] at hf; simp at hf
        · have hfk : f = .waiting k := by rw [h1] at hf; simpa using hf
          subst hfk; exact this
    · intro m
      have := h.entries m
      unfold EntryInv at this ⊢
      simp only [AState.goto]
      cases he : s.entries m with
      | none => rw [he] at this; exact this
      | some e =>
        rw [he] at this
        cases hp : e.provider with
        | none => simp only [hp] at this ⊢; exact this
        | some p =>
          simp only [hp] at this ⊢
          refine ⟨this.1, ?_⟩
          cases hv : e.value with
          | some v => simp only [hv] at this ⊢; exact this.2
          | none => intro hh; exact absurd hh (no_pending h he hp hv (hnog m))
    · rintro ⟨u, m, hm⟩
      simp only [AState.goto] at hm
      by_cases hut : u = t
      · rw [if_pos hut] at hm; simp at hm
      · rw [if_neg hut] at hm; exact absurd ⟨u, m, hm⟩ hnb
  | memoised t n rest e v ht he hv =>
    obtain ⟨rfl, hl⟩ := head_holding h ht (by intro _ h; simp at h)
    obtain ⟨e', p, he', hp, -⟩ := h.frames t (.locked n) (by rw [ht]; simp)
    rw [he] at he'; simp at he'; subst he'
    have hnog : ∀ m u o, .got m o ∉ s.th u := by
      intro m u o hm
      have hu := (got_holder h hm).1
      rw [hl] at hu; simp at hu; subst hu
      rw [ht] at hm; simp at hm
    have hmean : meaning s.trace n = some (.ok (some v)) := by
      have := h.entries n
      unfold EntryInv at this
      rw [he] at this
      simp only [hp, hv] at this
      exact this.2
    refine inv_finish h ht (by intro _ h; simp at h) (by intro _ h; simp at h) rfl rfl rfl (fun m e p h1 h2 => ⟨e, h1, h2⟩)
      ⟨hmean, fun _ hno => absurd rfl (hno v)⟩ ?_
    intro m
    have := h.entries m
    unfold EntryInv at this ⊢
    simp only [AState.goto, AState.emit]
    cases he2 : s.entries m with
    | none => rw [he2] at this; exact this
    | some e2 =>
      rw [he2] at this
      cases hp2 : e2.provider with
      | none => simp only [hp2] at this ⊢; exact this
      | some p2 =>
        simp only [hp2] at this ⊢
        refine ⟨this.1, ?_⟩
        cases hv2 : e2.value with
        | some v => simp only [hv2] at this ⊢; exact this.2
        | none => intro hh; exact absurd hh (no_pending h he2 hp2 hv2 (hnog m))
  | invoke t n rest e p ht he hv hp =>
    obtain ⟨rfl, hl⟩ := head_holding h ht (by intro _ h; simp at h)
    obtain ⟨e', p', he', hp', hval⟩ := h.frames t (.locked n) (by rw [ht]; simp)
    rw [he] at he'; simp at he'; subst he'
    have hno := hval hv
    have hnog : ∀ m u o, .got m o ∉ s.th u := by
      intro m u o hm
      have hu := (got_holder h hm).1
      rw [hl] at hu; simp at hu; subst hu
      rw [ht] at hm; simp at hm
    have hnb : ¬ Busy s := by
      rintro ⟨u, m, hm⟩
      have hu := calling_holder h hm
      rw [hl] at hu; simp at hu; subst hu
      rw [ht] at hm; simp at hm
    refine ⟨?_, ?_, ?_, ?_, ?_, ?_⟩
    · intro u
      unfold Shape AState.goto AState.emit
      by_cases hut : u = t
      · subst hut; simp only [if_true]; right; exact ⟨hl, .inr (.inl ⟨n, rfl⟩)⟩
      · simp only [if_neg hut]; exact h.shape u
    · intro u f hf
      simp only [AState.goto, AState.emit] at hf
      by_cases hut : u = t
      · rw [if_pos hut] at hf
        simp at hf; subst hf
        exact ⟨e, p, he, hp, hv, hno⟩
      · rw [if_neg hut] at hf
        obtain ⟨-, k, rfl⟩ := others_waiting h (by rw [hl]; simp; exact fun h => hut h.symm) hf
        exact h.frames u _ hf
    · intro m
      have := h.entries m
      unfold EntryInv at this ⊢
      simp only [AState.goto, AState.emit]
      cases he2 : s.entries m with
      | none => rw [he2] at this; exact this
      | some e2 =>
        rw [he2] at this
        cases hp2 : e2.provider with
        | none => simp only [hp2] at this ⊢; exact this
        | some p2 =>
          simp only [hp2] at this ⊢
          refine ⟨this.1, ?_⟩
          cases hv2 : e2.value with
          | some v => simp only [hv2] at this ⊢; exact this.2
          | none => intro hh; exact absurd hh (no_pending h he2 hp2 hv2 (hnog m))
    · intro _
      show begun s.trace + 1 = ended s.trace + 1
      rw [h.free hnb]
    · intro hb
      exact absurd ⟨t, n, by simp [AState.goto, AState.emit]⟩ hb
    · refine ⟨⟨?_, hno, h.free hnb⟩, h.trace⟩
      have := h.entries n
      unfold EntryInv at this
      rw [he] at this
      simp only [hp] at this
      exact this.1
  | answer t n rest o ht =>
    obtain ⟨rfl, hl⟩ := head_holding h ht (by intro _ h; simp at h)
    obtain ⟨e, p, he, hp, hv, hno⟩ := h.frames t (.calling n) (by rw [ht]; simp)
    have hnog : ∀ m u o, .got m o ∉ s.th u := by
      intro m u o hm
      have hu := (got_holder h hm).1
      rw [hl] at hu; simp at hu; subst hu
      rw [ht] at hm; simp at hm
    have hb : Busy s := ⟨t, n, by rw [ht]; simp⟩
    refine ⟨?_, ?_, ?_, ?_, ?_, ?_⟩
    · intro u
      unfold Shape AState.goto AState.emit
      by_cases hut : u = t
      · subst hut; simp only [if_true]; right; exact ⟨hl, .inr (.inr (.inl ⟨n, o, rfl⟩))⟩
      · simp only [if_neg hut]; exact h.shape u
    · intro u f hf
      simp only [AState.goto, AState.emit] at hf
      by_cases hut : u = t
      · rw [if_pos hut] at hf
        simp at hf; subst hf; subst hut
        exact ⟨e, p, he, hp, hv, by simp [AState.emit, meaning], [], s.trace, rfl, by simp⟩
      · rw [if_neg hut] at hf
        obtain ⟨-, k, rfl⟩ := others_waiting h (by rw [hl]; simp; exact fun h => hut h.symm) hf
        exact h.frames u _ hf
    · intro m
      have := h.entries m
      unfold EntryInv at this ⊢
      simp only [AState.goto, AState.emit]
      by_cases hmn : n = m
      · subst hmn
        rw [he] at this ⊢
        simp only [hp, hv] at this ⊢
        exact ⟨this.1, fun _ => ⟨t, o, by simp⟩⟩
      · have hm1 : meaning (Event.returned t n o :: s.trace) m = meaning s.trace m := by simp [meaning, hmn]
        cases he2 : s.entries m with
        | none => rw [he2] at this; rw [hm1]; exact this
        | some e2 =>
          rw [he2] at this
          cases hp2 : e2.provider with
          | none => simp only [hp2, hm1] at this ⊢; exact this
          | some p2 =>
            simp only [hp2] at this ⊢
            refine ⟨this.1, ?_⟩
            cases hv2 : e2.value with
            | some v => simp only [hv2, hm1] at this ⊢; exact this.2
            | none =>
              intro hh
              refine absurd ?_ (no_pending h he2 hp2 hv2 (hnog m))
              unfold HasValue at hh ⊢; rw [hm1] at hh; exact hh
    · rintro ⟨u, m, hm⟩
      exfalso
      simp only [AState.goto, AState.emit] at hm
      by_cases hut : u = t
      · rw [if_pos hut] at hm; simp at hm
      · rw [if_neg hut] at hm
        have := calling_holder h hm
        rw [hl] at this; simp at this; exact hut this.symm
    · intro _
      exact h.busy hb
    · refine ⟨⟨?_, hno, h.busy hb⟩, h.trace⟩
      have := h.entries n
      unfold EntryInv at this
      rw [he] at this
      simp only [hp] at this
      exact ⟨p, this.1⟩
  | fail t n rest er ht =>
    obtain ⟨rfl, hl⟩ := head_holding h ht (by intro _ h; simp at h)
    obtain ⟨e, p, he, hp, hv, hm, hj⟩ := h.frames t (.got n (.error er)) (by rw [ht]; simp)
    refine inv_finish h ht (by intro _ h; simp at h) (by intro _ h; simp at h) rfl rfl rfl (fun m e p h1 h2 => ⟨e, h1, h2⟩)
      ⟨hm, fun _ _ => hj⟩ ?_
    intro m
    have := h.entries m
    unfold EntryInv at this ⊢
    simp only [AState.goto, AState.emit]
    cases he2 : s.entries m with
    | none => rw [he2] at this; exact this
    | some e2 =>
      rw [he2] at this
      cases hp2 : e2.provider with
      | none => simp only [hp2] at this ⊢; exact this
      | some p2 =>
        simp only [hp2] at this ⊢
        refine ⟨this.1, ?_⟩
        cases hv2 : e2.value with
        | some v => simp only [hv2] at this ⊢; exact this.2
        | none =>
          intro hh
          exfalso
          simp only [hv2] at this
          obtain ⟨u, o, hu⟩ := this.2 hh
          have hu1 := got_holder h hu
          rw [hl] at hu1; simp at hu1
          obtain ⟨rfl, hu2⟩ := hu1
          rw [ht] at hu2; simp at hu2
          obtain ⟨rfl, rfl⟩ := hu2
          obtain ⟨v, hh⟩ := hh
          change meaning s.trace n = _ at hh
          rw [hm] at hh; simp at hh
  | absent t n rest ht =>
    obtain ⟨rfl, hl⟩ := head_holding h ht (by intro _ h; simp at h)
    obtain ⟨e, p, he, hp, hv, hm, hj⟩ := h.frames t (.got n (.ok none)) (by rw [ht]; simp)
    refine inv_finish h ht (by intro _ h; simp at h) (by intro _ h; simp at h) rfl rfl rfl (fun m e p h1 h2 => ⟨e, h1, h2⟩)
      ⟨hm, fun _ _ => hj⟩ ?_
    intro m
    have := h.entries m
    unfold EntryInv at this ⊢
    simp only [AState.goto, AState.emit]
    cases he2 : s.entries m with
    | none => rw [he2] at this; exact this
    | some e2 =>
      rw [he2] at this
      cases hp2 : e2.provider with
      | none => simp only [hp2] at this ⊢; exact this
      | some p2 =>
        simp only [hp2] at this ⊢
        refine ⟨this.1, ?_⟩
        cases hv2 : e2.value with
        | some v => simp only [hv2] at this ⊢; exact this.2
        | none =>
          intro hh
          exfalso
          simp only [hv2] at this
          obtain ⟨u, o, hu⟩ := this.2 hh
          have hu1 := got_holder h hu
          rw [hl] at hu1; simp at hu1
          obtain ⟨rfl, hu2⟩ := hu1
          rw [ht] at hu2; simp at hu2
          obtain ⟨rfl, rfl⟩ := hu2
          obtain ⟨v, hh⟩ := hh
          change meaning s.trace n = _ at hh
          rw [hm] at hh; simp at hh
  | store t n rest e v ht he =>
    obtain ⟨rfl, hl⟩ := head_holding h ht (by intro _ h; simp at h)
    obtain ⟨e', p, he', hp, hv, hm, hj⟩ := h.frames t (.got n (.ok (some v))) (by rw [ht]; simp)
    rw [he] at he'; simp at he'; subst he'
    refine inv_finish h ht (by intro _ h; simp at h) (by intro _ h; simp at h) rfl rfl rfl ?_
      ⟨hm, fun _ hno => absurd rfl (hno v)⟩ ?_
    · intro m e2 p2 h1 h2
      simp only [AState.put, AState.goto, AState.emit]
      by_cases hmn : m = n
      · subst hmn
        rw [he] at h1; simp at h1; subst h1
        exact ⟨_, if_pos rfl, h2⟩
      · exact ⟨e2, by rw [if_neg hmn]; exact h1, h2⟩
    · intro m
      have := h.entries m
      unfold EntryInv at this ⊢
      simp only [AState.put, AState.goto, AState.emit]
      by_cases hmn : m = n
      · subst hmn
        rw [he] at this
        simp only [if_true, hp] at this ⊢
        exact ⟨this.1, hm⟩
      · simp only [if_neg hmn]
        cases he2 : s.entries m with
        | none => rw [he2] at this; exact this
        | some e2 =>
          rw [he2] at this
          cases hp2 : e2.provider with
          | none => simp only [hp2] at this ⊢; exact this
          | some p2 =>
            simp only [hp2] at this ⊢
            refine ⟨this.1, ?_⟩
            cases hv2 : e2.value with
            | some v => simp only [hv2] at this ⊢; exact this.2
            | none =>
              intro hh
              exfalso
              simp only [hv2] at this
              obtain ⟨u, o, hu⟩ := this.2 hh
              have hu1 := got_holder h hu
              rw [hl] at hu1; simp at hu1
              obtain ⟨rfl, hu2⟩ := hu1
              rw [ht] at hu2; simp at hu2
              exact hmn hu2.1.symm

theorem inv_init : Inv (AState.init V P) := by
  refine ⟨?_, ?_, ?_, ?_, fun _ => rfl, trivial⟩
  · intro t; exact .inl ⟨by simp [AState.init], .inl rfl⟩
  · intro t f hf; simp [AState.init] at hf
  · intro n; exact ⟨rfl, rfl⟩
  · rintro ⟨t, n, hm⟩; simp [AState.init] at hm

theorem inv_reach {a b : AState V P} (h : Inv a) (hr : AReach a b) : Inv b := by
  induction hr with
  | refl => exact h
  | step _ hs ih => exact inv_step ih hs

theorem inv_reachable {s : AState V P} (h : s.Reachable) : Inv s := inv_reach inv_init h

theorem TraceOk.at {tr : List (Event V P)} (h : TraceOk tr) {later past : List (Event V P)} {e : Event V P}
    (ht : tr = later ++ e :: past) : EventOk past e := by
  subst ht
  induction later with
  | nil => exact h.1
  | cons x l ih => exact ih h.2

/-! ## C44 -/

/-- **C44 (lookups).** In every history of insertions, concurrent lookups and answers of providers, a lookup answers what
the name means at that moment: nothing if it was never bound, the value it was last bound to, or what the provider it was
last bound to has last answered. -/
theorem C44_lookup {s : AState V P} (h : s.Reachable) {later past : List (Event V P)} {t : Nat} {n : String} {o : Out V}
    (ht : s.trace = later ++ .looked t n o :: past) : meaning past n = some o := ((inv_reachable h).trace.at ht).1

/-- **C44 (bindings replace).** After a binding to a value, and until the next binding of the name, every lookup gives it. -/
theorem C44_last_binding {s : AState V P} (h : s.Reachable) {later between before : List (Event V P)} {t : Nat} {n : String}
    {o : Out V} {v : V} {fresh : Bool}
    (ht : s.trace = later ++ .looked t n o :: (between ++ .bindValue n v fresh :: before))
    (hno : ∀ e ∈ between, ¬ e.Binds n) : o = .ok (some v) := by
  have hi := inv_reachable h
  have hok := hi.trace
  rw [ht] at hok
  have hok2 : TraceOk (between ++ .bindValue n v fresh :: before) := by
    clear ht
    induction later with
    | nil => exact hok.2
    | cons x l ih => exact ih hok.2
  have hm : meaning (between ++ .bindValue n v fresh :: before) n = some (.ok (some v)) ∧
      bound (between ++ .bindValue n v fresh :: before) n = some (.inl v) := by
    clear ht hok
    induction between with
    | nil => simp [meaning, bound]
    | cons e b ih =>
      have ih' := ih (fun x hx => hno x (List.mem_cons_of_mem _ hx)) hok2.2
      have he := hno e (List.mem_cons_self ..)
      cases e with
      | bindValue m w f => simp only [Event.Binds] at he; simp only [List.cons_append, meaning, bound, if_neg he]; exact ih'
      | bindProvider m p f => simp only [Event.Binds] at he; simp only [List.cons_append, meaning, bound, if_neg he]; exact ih'
      | invoked => exact ih'
      | looked => exact ih'
      | returned u m o' =>
        by_cases hmn : m = n
        · subst hmn
          obtain ⟨⟨p, hp⟩, -⟩ := hok2.1
          have := ih'.2.symm.trans hp; simp at this
        · simp only [List.cons_append, meaning, bound, if_neg hmn]; exact ih'
  have := C44_lookup h ht
  rw [hm.1] at this; simpa using this.symm

/-- **C44 (memoisation).** A provider is called only while its name is bound to it and it has not given a value since. -/
theorem C44_invoked {s : AState V P} (h : s.Reachable) {later past : List (Event V P)} {t : Nat} {n : String} {p : P}
    (ht : s.trace = later ++ .invoked t n p :: past) : bound past n = some (.inr p) ∧ ¬ HasValue past n :=
  let x := (inv_reachable h).trace.at ht
  ⟨x.1, x.2.1⟩

/-- **C44 (at most once with a value).** Once a provider has answered with a value, a provider of that name is called
again only after the name has been bound again. -/
theorem C44_at_most_once {s : AState V P} (h : s.Reachable) {later between before : List (Event V P)} {t t' : Nat} {n : String}
    {p : P} {v : V} (ht : s.trace = later ++ .invoked t n p :: (between ++ .returned t' n (.ok (some v)) :: before)) :
    ∃ e ∈ between, e.Binds n := by
  apply Classical.byContradiction
  intro hno
  have hnob : ∀ e ∈ between, ¬ e.Binds n := fun e he hb => hno ⟨e, he, hb⟩
  have hok := (inv_reachable h).trace
  rw [ht] at hok
  have hok2 : TraceOk (between ++ .returned t' n (.ok (some v)) :: before) := by
    clear ht
    induction later with
    | nil => exact hok.2
    | cons x l ih => exact ih hok.2
  have hm : meaning (between ++ .returned t' n (.ok (some v)) :: before) n = some (.ok (some v)) := by
    clear ht hok hno
    induction between with
    | nil => simp [meaning]
    | cons e b ih =>
      have ih' := ih (fun x hx => hnob x (List.mem_cons_of_mem _ hx)) hok2.2
      have he := hnob e (List.mem_cons_self ..)
      cases e with
      | bindValue m w f => simp only [Event.Binds] at he; simp only [List.cons_append, meaning, if_neg he]; exact ih'
      | bindProvider m p f => simp only [Event.Binds] at he; simp only [List.cons_append, meaning, if_neg he]; exact ih'
      | invoked => exact ih'
      | looked => exact ih'
      | returned u m o' =>
        by_cases hmn : m = n
        · subst hmn
          exact absurd ⟨v, ih'⟩ hok2.1.2.1
        · simp only [List.cons_append, meaning, if_neg hmn]; exact ih'
  exact (C44_invoked h ht).2 ⟨v, hm⟩

/-- **C44 (asked again).** A lookup of a name bound to a provider that does not give a value gives what its own call of
the provider has just answered: errors and absences are not memoised. -/
theorem C44_asked_again {s : AState V P} (h : s.Reachable) {later past : List (Event V P)} {t : Nat} {n : String} {o : Out V}
    (ht : s.trace = later ++ .looked t n o :: past) {p : P} (hp : bound past n = some (.inr p)) (ho : ∀ v, o ≠ .ok (some v)) :
    JustAnswered past t n o := ((inv_reachable h).trace.at ht).2 ⟨p, hp⟩ ho

/-- **C44 (serial).** Providers of one activation never overlap: when one is called, every earlier call has ended. -/
theorem C44_serial {s : AState V P} (h : s.Reachable) {later past : List (Event V P)} {t : Nat} {n : String} {p : P}
    (ht : s.trace = later ++ .invoked t n p :: past) : begun past = ended past := ((inv_reachable h).trace.at ht).2.2

/-- **C44 (result of insertions).** An insertion reports whether the name was not bound before. -/
theorem C44_insert_result {s : AState V P} (h : s.Reachable) {later past : List (Event V P)} {n : String} {fresh : Bool} :
    (∀ v, s.trace = later ++ .bindValue n v fresh :: past → (fresh = true ↔ bound past n = none)) ∧
    ∀ p, s.trace = later ++ .bindProvider n p fresh :: past → (fresh = true ↔ bound past n = none) :=
  ⟨fun v ht => (inv_reachable h).trace.at ht, fun p ht => (inv_reachable h).trace.at ht⟩

/-- A lookup of a provided name, made by a provider of the same activation, waits for the mutex its own thread holds. -/
def Stuck (s : AState V P) (t : Nat) : Prop := ∃ m n, s.th t = [.waiting m, .calling n]

/-- **C44 (progress).** Full claim: a lookup in progress can always go on.  Proved: some lookup in progress can go on
unless a provider waits for its own thread. -/
theorem C44_progress_partial {s : AState V P} (h : s.Reachable) (hno : ∀ t, ¬ Stuck s t) {t : Nat} (ht : s.th t ≠ []) :
    ∃ u s', s.th u ≠ [] ∧ AStep s s' ∧ s'.th u ≠ s.th u := by
  have hi := inv_reachable h
  have hlocked : ∀ u, s.lock = some u → ∃ s', s.th u ≠ [] ∧ AStep s s' ∧ s'.th u ≠ s.th u := by
    intro u hl
    rcases hi.shape u with ⟨h1, -⟩ | ⟨-, ⟨n, h1⟩ | ⟨n, h1⟩ | ⟨n, o, h1⟩ | ⟨m, n, h1⟩⟩
    · exact absurd hl h1
    · obtain ⟨e, p, he, hp, -⟩ := hi.frames u (.locked n) (by rw [h1]; simp)
      cases hv : e.value with
      | some v => exact ⟨_, by simp [h1], .memoised u n [] e v h1 he hv, by simp [AState.goto, AState.emit, h1]⟩
      | none => exact ⟨_, by simp [h1], .invoke u n [] e p h1 he hv hp, by simp [AState.goto, AState.emit, h1]⟩
    · exact ⟨_, by simp [h1], .answer u n [] (.ok none) h1, by simp [AState.goto, AState.emit, h1]⟩
    · obtain ⟨e, p, he, -⟩ := hi.frames u (.got n o) (by rw [h1]; simp)
      cases o with
      | error er => exact ⟨_, by simp [h1], .fail u n [] er h1, by simp [AState.goto, AState.emit, h1]⟩
      | ok ov =>
        cases ov with
        | none => exact ⟨_, by simp [h1], .absent u n [] h1, by simp [AState.goto, AState.emit, h1]⟩
        | some v => exact ⟨_, by simp [h1], .store u n [] e v h1 he, by simp [AState.put, AState.goto, AState.emit, h1]⟩
    · exact absurd ⟨m, n, h1⟩ (hno u)
  cases hl : s.lock with
  | some u => obtain ⟨s', h'⟩ := hlocked u hl; exact ⟨u, s', h'⟩
  | none =>
    rcases hi.shape t with ⟨-, h1 | ⟨n, h1⟩⟩ | ⟨h1, -⟩
    · exact absurd h1 ht
    · exact ⟨t, _, ht, .lock t n [] h1 hl, by simp [AState.goto, h1]⟩
    · rw [hl] at h1; simp at h1

theorem stuck_step {s s' : AState V P} (h : Inv s) {t : Nat} {m n : String} (ht : s.th t = [.waiting m, .calling n])
    (hs : AStep s s') : s'.th t = s.th t ∧ s'.lock = s.lock := by
  have hl : s.lock = some t := calling_holder h (n := n) (by rw [ht]; simp)
  have key : ∀ {u : Nat} {f : Frame V} {rest : List (Frame V)}, s.th u = f :: rest → (∀ n, f ≠ .waiting n) → False := by
    intro u f rest hu hf
    have := (head_holding h hu hf).2
    rw [hl] at this; simp at this; subst this
    rw [ht] at hu; simp at hu; exact hf m hu.1.symm
  cases hs with
  | insertValue n v hall => rw [hall t] at ht; simp at ht
  | insertProvider n p hall => rw [hall t] at ht; simp at ht
  | findMissing => exact ⟨rfl, rfl⟩
  | findValue => exact ⟨rfl, rfl⟩
  | findProvided u k e hc he hp =>
    refine ⟨?_, rfl⟩
    simp only [AState.goto]
    by_cases hut : t = u
    · subst hut
      rcases hc with hc | ⟨_, _, hc⟩ <;> rw [ht] at hc <;> simp at hc
    · rw [if_neg hut]
  | lock u k rest hu hl' => rw [hl] at hl'; simp at hl'
  | memoised u k rest e v hu => exact (key hu (by intro _ h; simp at h)).elim
  | invoke u k rest e v hu => exact (key hu (by intro _ h; simp at h)).elim
  | answer u k rest o hu => exact (key hu (by intro _ h; simp at h)).elim
  | fail u k rest o hu => exact (key hu (by intro _ h; simp at h)).elim
  | absent u k rest hu => exact (key hu (by intro _ h; simp at h)).elim
  | store u k rest e v hu => exact (key hu (by intro _ h; simp at h)).elim

/-- **C44 (deadlock).** A provider that looks up a provided variable of its own activation never returns, and no other
lookup of a provided variable that is in progress does: nothing that can happen afterwards releases the mutex. -/
theorem C44_reentrant_deadlock {s s' : AState V P} (h : s.Reachable) {t : Nat} (hst : Stuck s t) (hr : AReach s s') :
    s'.th t = s.th t ∧ ∀ u, s.th u ≠ [] → u ≠ t → s'.th u = s.th u := by
  obtain ⟨m, n, ht⟩ := hst
  have hi := inv_reachable h
  have hl : s.lock = some t := calling_holder hi (n := n) (by rw [ht]; simp)
  have key : Inv s' ∧ s'.th t = s.th t ∧ s'.lock = some t ∧ ∀ u, s.th u ≠ [] → u ≠ t → s'.th u = s.th u := by
    induction hr with
    | refl => exact ⟨hi, rfl, hl, fun _ _ _ => rfl⟩
    | step _ hs ih =>
      rename_i a b _
      obtain ⟨ia, h1, h2, h3⟩ := ih
      have hat := h1.trans ht
      have h4 := stuck_step ia hat hs
      refine ⟨inv_step ia hs, h4.1.trans h1, h4.2.trans h2, ?_⟩
      intro u hu hut
      rw [← h3 u hu hut]
      have hua : ∃ k, a.th u = [.waiting k] := by
        rcases ia.shape u with ⟨-, h5 | h5⟩ | ⟨h5, -⟩
        · rw [h3 u hu hut] at h5; exact absurd h5 hu
        · exact h5
        · rw [h2] at h5; simp at h5; exact absurd h5.symm hut
      obtain ⟨k, hk⟩ := hua
      have key2 : ∀ {w : Nat} {f : Frame V} {rest : List (Frame V)}, a.th w = f :: rest → (∀ n, f ≠ .waiting n) → False := by
        intro w f rest hw hf
        have := (head_holding ia hw hf).2
        rw [h2] at this; simp at this; subst this
        rw [hat] at hw; simp at hw; exact hf m hw.1.symm
      cases hs with
      | insertValue n v hall => rw [hall u] at hk; simp at hk
      | insertProvider n p hall => rw [hall u] at hk; simp at hk
      | findMissing => rfl
      | findValue => rfl
      | findProvided w q e hc he hp =>
        simp only [AState.goto]
        by_cases huw : u = w
        · subst huw
          rcases hc with hc | ⟨_, _, hc⟩ <;> rw [hk] at hc <;> simp at hc
        · rw [if_neg huw]
      | lock w q rest hw hl' => rw [h2] at hl'; simp at hl'
      | memoised w q rest e v hw => exact (key2 hw (by intro _ h; simp at h)).elim
      | invoke w q rest e v hw => exact (key2 hw (by intro _ h; simp at h)).elim
      | answer w q rest o hw => exact (key2 hw (by intro _ h; simp at h)).elim
      | fail w q rest o hw => exact (key2 hw (by intro _ h; simp at h)).elim
      | absent w q rest hw => exact (key2 hw (by intro _ h; simp at h)).elim
      | store w q rest e v hw => exact (key2 hw (by intro _ h; simp at h)).elim
  exact ⟨key.2.1, key.2.2.2⟩

/-- A provider for `x` is bound and thread 0 looks `x` up; the provider runs. -/
theorem example_calling : ∃ s : AState Nat Unit, s.Reachable ∧ s.lock = some 0 ∧ s.th 0 = [.calling "x"] ∧ s.th 1 = [] ∧
    s.entries "x" = some ⟨none, some ()⟩ ∧
    s.trace = [.invoked 0 "x" (), .bindProvider "x" () true] := by
  refine ⟨_, .step (.step (.step (.step (.refl _) (.insertProvider "x" () ?_)) (.findProvided 0 "x" ⟨none, some ()⟩ ?_ ?_ ?_))
    (.lock 0 "x" [] ?_ ?_)) (.invoke 0 "x" [] ⟨none, some ()⟩ () ?_ ?_ ?_ ?_), ?_⟩
  all_goals first
    | (intro t; rfl)
    | exact .inl rfl
    | rfl
    | simp
    | skip
  all_goals simp [AState.init, AState.put, AState.goto, AState.emit]

/-- The premises of `C44_reentrant_deadlock` are met: the full claim of `C44_progress_partial` is false. -/
theorem C44_progress_fails : ∃ s : AState Nat Unit, s.Reachable ∧ Stuck s 0 := by
  obtain ⟨s, hs, -, h1, -, h3, -⟩ := example_calling
  refine ⟨_, .step hs (.findProvided 0 "x" _ (.inr ⟨_, _, h1⟩) h3 (by simp)), "x", "x", ?_⟩
  simp [AState.goto, h1]

/-- A history that meets the premises of the other theorems: the provider gives 7, and a second thread's lookup gives 7
without a call. -/
example : ∃ s : AState Nat Unit, s.Reachable ∧ s.trace = [.looked 1 "x" (.ok (some 7)), .looked 0 "x" (.ok (some 7)),
    .returned 0 "x" (.ok (some 7)), .invoked 0 "x" (), .bindProvider "x" () true] := by
  obtain ⟨s, hs, hl, h1, h2, h3, h4⟩ := example_calling
  refine ⟨_, .step (.step (.step (.step (.step hs (.answer 0 "x" [] (.ok (some 7)) h1)) (.store 0 "x" [] ⟨none, some ()⟩ 7 ?_ ?_))
    (.findProvided 1 "x" ⟨some 7, some ()⟩ ?_ ?_ ?_)) (.lock 1 "x" [] ?_ ?_)) (.memoised 1 "x" [] ⟨some 7, some ()⟩ 7 ?_ ?_ ?_), ?_⟩
  all_goals simp [AState.put, AState.goto, AState.emit, h1, h2, h3, h4, hl, CanCall]

/-- A provider that fails is asked again. -/
example : ∃ s : AState Nat Unit, s.Reachable ∧ s.trace = [.invoked 1 "x" (), .looked 0 "x" (.error ⟨.internal, "no"⟩),
    .returned 0 "x" (.error ⟨.internal, "no"⟩), .invoked 0 "x" (), .bindProvider "x" () true] := by
  obtain ⟨s, hs, hl, h1, h2, h3, h4⟩ := example_calling
  refine ⟨_, .step (.step (.step (.step (.step hs (.answer 0 "x" [] (.error ⟨.internal, "no"⟩) h1)) (.fail 0 "x" [] ⟨.internal, "no"⟩ ?_))
    (.findProvided 1 "x" ⟨none, some ()⟩ ?_ ?_ ?_)) (.lock 1 "x" [] ?_ ?_)) (.invoke 1 "x" [] ⟨none, some ()⟩ () ?_ ?_ ?_ ?_), ?_⟩
  all_goals simp [AState.put, AState.goto, AState.emit, h1, h2, h3, h4, hl, CanCall]

/-! ## Moving -/

/-- **C44 (move).** Full claim: a moved-to activation behaves as the one moved from.  Proved: it has its variables,
functions and patterns, and after a move construction the one moved from is empty; the attribute matcher is not moved. -/
theorem C44_move_partial {F A M : Type} (a b : Members V P F A M) :
    (∀ x, x = b.moveConstruct.1 ∨ x = (a.moveAssign b).1 →
      x.values = b.values ∧ x.functions = b.functions ∧ x.unknown = b.unknown ∧ x.missing = b.missing) ∧
    (∀ n, b.moveConstruct.2.values n = none) ∧ (∀ n, b.moveConstruct.2.functions n = []) := by
  refine ⟨?_, fun _ => rfl, fun _ => rfl⟩
  rintro x (rfl | rfl) <;> exact ⟨rfl, rfl, rfl, rfl⟩

/-- What is false of the full claim: a matcher set on an activation is lost by moving it, and a move assignment keeps the
matcher of the activation assigned to. -/
theorem C44_move_loses_matcher {F A M : Type} (a b : Members V P F A M) :
    b.moveConstruct.1.matcher = none ∧ (a.moveAssign b).1.matcher = a.matcher := ⟨rfl, rfl⟩

end Cel.Runtime
