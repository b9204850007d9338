import Verif.Regex.Model

/-!
# C74: `regex.extract`, `regex.extractAll`, `regex.replace` and `re.captureN`
-/

set_option linter.unusedSimpArgs false
set_option linter.unusedVariables false

namespace Cel.Regex
open Cel Cel.Eval Cel.Data

/-! ## Specification -/

/-- The matches of an expression in a text, from position `p`: repeatedly the first match, taking the non-empty
ones and stepping over the empty ones.  All searches are made in the same text. -/
inductive Scan (R : Re) (t : Bytes) : Nat → List Match → Prop
  | stop {p} : R.find t p = none → Scan R t p []
  | hit {p m ms} : R.find t p = some m → 0 < m.len → Scan R t (m.start + m.len) ms → Scan R t p (m :: ms)
  | skip {p m ms} : R.find t p = some m → m.len = 0 → m.start < t.length → Scan R t (m.start + 1) ms →
      Scan R t p ms
  | last {p m} : R.find t p = some m → m.len = 0 → m.start = t.length → Scan R t p []

/-- The text of each match, or of its only group; groups that took no part or captured nothing are left out. -/
def found (R : Re) (t : Bytes) (ms : List Match) : List Bytes :=
  if R.groups = 1 then (ms.map fun m => m.caps.headD []).filter (fun c => decide (c ≠ []))
  else ms.map fun m => (t.drop m.start).take m.len

/-- The text from `p` on with the given matches replaced. -/
def splice (rw : Rewrite) (t : Bytes) : Nat → List Match → Bytes
  | p, [] => t.drop p
  | p, m :: ms =>
    (t.drop p).take (m.start - p) ++ rw ((t.drop m.start).take m.len :: m.caps) ++
      splice rw t (m.start + m.len) ms

/-- Matches lie where they were searched. -/
def InRange (R : Re) : Prop :=
  ∀ t p m, p ≤ t.length → R.find t p = some m → p ≤ m.start ∧ m.start + m.len ≤ t.length

/-- The expression does not look at what precedes the search position (no `^`, `\b`, …). -/
def ContextFree (R : Re) : Prop :=
  ∀ t k p, k + p ≤ t.length →
    R.find (t.drop k) p = (R.find t (k + p)).map fun m => ⟨m.start - k, m.len, m.caps⟩

/-- The search finds the leftmost match: searching from a later position up to the match finds the same. -/
def Leftmost (R : Re) : Prop :=
  ∀ t p q m, R.find t p = some m → p ≤ q → q ≤ m.start → R.find t q = some m

/-- The expression does not match the empty string. -/
def NonEmpty (R : Re) : Prop := ∀ t p m, R.find t p = some m → 0 < m.len

/-! ## The scan -/

theorem Scan.det {R : Re} {t : Bytes} {p : Nat} {a : List Match} (ha : Scan R t p a) :
    ∀ {b}, Scan R t p b → a = b := by
  induction ha with
  | stop h =>
    intro b hb
    cases hb with
    | stop h' => rfl
    | hit h' _ _ => rw [h] at h'; cases h'
    | skip h' _ _ _ => rw [h] at h'; cases h'
    | last h' _ _ => rfl
  | hit h hl hs ih =>
    intro b hb
    cases hb with
    | stop h' => rw [h] at h'; cases h'
    | hit h' hl' hs' => rw [h] at h'; cases h'; rw [ih hs']
    | skip h' hl' _ _ => rw [h] at h'; cases h'; omega
    | last h' hl' _ => rw [h] at h'; cases h'; omega
  | skip h hl hlt hs ih =>
    intro b hb
    cases hb with
    | stop h' => rw [h] at h'; cases h'
    | hit h' hl' hs' => rw [h] at h'; cases h'; omega
    | skip h' hl' _ hs' => rw [h] at h'; cases h'; exact ih hs'
    | last h' hl' hlt' => rw [h] at h'; cases h'; omega
  | last h hl hlt =>
    intro b hb
    cases hb with
    | stop h' => rfl
    | hit h' hl' hs' => rw [h] at h'; cases h'; omega
    | skip h' hl' hlt' hs' => rw [h] at h'; cases h'; omega
    | last h' hl' hlt' => rfl

theorem Scan.exists {R : Re} (hr : InRange R) (t : Bytes) (p : Nat) (hp : p ≤ t.length) :
    ∃ ms, Scan R t p ms := by
  induction hn : t.length - p using Nat.strongRecOn generalizing p with
  | _ n ih =>
    cases hf : R.find t p with
    | none => exact ⟨[], .stop hf⟩
    | some m =>
      obtain ⟨h1, h2⟩ := hr t p m hp hf
      by_cases hl : m.len = 0
      · by_cases hlt : m.start < t.length
        · obtain ⟨ms, hs⟩ := ih (t.length - (m.start + 1)) (by omega) (m.start + 1) (by omega) rfl
          exact ⟨ms, .skip hf hl hlt hs⟩
        · exact ⟨[], .last hf hl (by omega)⟩
      · obtain ⟨ms, hs⟩ := ih (t.length - (m.start + m.len)) (by omega) (m.start + m.len) (by omega) rfl
        exact ⟨m :: ms, .hit hf (by omega) hs⟩

theorem Scan.length_le {R : Re} (hr : InRange R) {t : Bytes} {p : Nat} {ms : List Match} (hs : Scan R t p ms) :
    p ≤ t.length → ms.length ≤ t.length - p := by
  induction hs with
  | stop _ => intro _; simp
  | hit hf hl _ ih =>
    intro hp
    obtain ⟨h1, h2⟩ := hr _ _ _ hp hf
    have := ih (by omega)
    simp only [List.length_cons]; omega
  | skip hf hl hlt _ ih =>
    intro hp
    obtain ⟨h1, h2⟩ := hr _ _ _ hp hf
    have := ih (by omega)
    omega
  | last _ _ _ => intro _; simp

theorem Scan.bounds {R : Re} (hr : InRange R) {t : Bytes} {p : Nat} {ms : List Match} (hs : Scan R t p ms) :
    p ≤ t.length → (∀ m ∈ ms, p ≤ m.start ∧ m.start + m.len ≤ t.length ∧ 0 < m.len) ∧
      ms.Pairwise (fun a b => a.start + a.len ≤ b.start) := by
  induction hs with
  | stop _ => intro _; simp
  | hit hf hl _ ih =>
    intro hp
    obtain ⟨h1, h2⟩ := hr _ _ _ hp hf
    obtain ⟨i1, i2⟩ := ih (by omega)
    refine ⟨?_, List.pairwise_cons.2 ⟨fun b hb => (i1 b hb).1, i2⟩⟩
    intro b hb
    rcases List.mem_cons.1 hb with rfl | hb
    · exact ⟨h1, h2, hl⟩
    · obtain ⟨j1, j2, j3⟩ := i1 b hb
      exact ⟨by omega, j2, j3⟩
  | skip hf hl hlt _ ih =>
    intro hp
    obtain ⟨h1, h2⟩ := hr _ _ _ hp hf
    obtain ⟨i1, i2⟩ := ih (by omega)
    exact ⟨fun b hb => ⟨by have := (i1 b hb).1; omega, (i1 b hb).2⟩, i2⟩
  | last _ _ _ => intro _; simp

/-! ## `regex.extract` -/

/-- `regex.extract` answers the first match (its group if there is one), or none. -/
theorem C74_extract (R : Re) (t : Bytes) (hg : R.groups ≤ 1) :
    extract (.ok R) t = .ok ((R.find t 0).map fun m =>
      if R.groups = 1 then m.caps.headD [] else (t.drop m.start).take m.len) := by
  unfold extract
  simp only [bind, Res.bind]
  rw [if_neg (by omega)]
  cases R.find t 0 with
  | none => rfl
  | some m => rfl

/-- An invalid expression, and one with several groups, are errors for every target. -/
theorem C74_extract_error (t : Bytes) :
    (∀ e, extract (.err e) t = .err e ∧ extractAll (.err e) t = .err e) ∧
      ∀ R : Re, 1 < R.groups → extract (.ok R) t = .err tooManyGroups ∧ extractAll (.ok R) t = .err tooManyGroups := by
  refine ⟨fun e => ⟨rfl, rfl⟩, fun R hR => ⟨?_, ?_⟩⟩
  · unfold extract; simp only [bind, Res.bind]; rw [if_pos hR]
  · unfold extractAll; simp only [bind, Res.bind]; rw [if_pos hR]

/-! ## `regex.extractAll` -/

theorem desired_shift (R : Re) (t : Bytes) (p : Nat) (m : Match) (hp : p ≤ m.start) :
    desired R (t.drop p) ⟨m.start - p, m.len, m.caps⟩ =
      if R.groups = 1 then m.caps.headD [] else (t.drop m.start).take m.len := by
  unfold desired Match.text
  simp only [List.drop_drop]
  rw [show p + (m.start - p) = m.start by omega]

theorem found_cons (R : Re) (t : Bytes) (m : Match) (ms : List Match) :
    found R t (m :: ms) =
      if R.groups = 1 then (if m.caps.headD [] = [] then found R t ms else m.caps.headD [] :: found R t ms)
      else (t.drop m.start).take m.len :: found R t ms := by
  unfold found
  by_cases hg : R.groups = 1
  · simp only [hg, if_true, List.map_cons, List.filter_cons]
    by_cases hc : m.caps.headD [] = []
    · simp only [hc, ne_eq, not_true, decide_false, if_true]; simp
    · simp only [hc, ne_eq, not_false_iff, decide_true, if_true, if_false]
  · simp only [hg, if_false, List.map_cons]

theorem extractLoop_scan {R : Re} (hr : InRange R) (hc : ContextFree R) (hl : Leftmost R) (t : Bytes) (p : Nat)
    (hp : p ≤ t.length) : ∃ ms, Scan R t p ms ∧ extractLoop R (t.drop p) = .ok (found R t ms) := by
  induction hn : t.length - p using Nat.strongRecOn generalizing p with
  | _ n ih =>
    have hcf := hc t p 0 (by omega)
    simp only [Nat.add_zero] at hcf
    cases hf : R.find t p with
    | none =>
      refine ⟨[], .stop hf, ?_⟩
      rw [extractLoop, hcf, hf]
      simp only [Option.map_none]
      unfold found; split <;> simp
    | some m =>
      obtain ⟨h1, h2⟩ := hr t p m hp hf
      rw [extractLoop, hcf, hf]
      simp only [Option.map_some]
      by_cases hz : m.len = 0
      · rw [if_pos hz]
        by_cases he : (t.drop p).length = 0
        · rw [if_pos he]
          rw [List.length_drop] at he
          refine ⟨[], .last hf hz (by omega), ?_⟩
          unfold found; split <;> simp
        · rw [if_neg he]
          rw [List.length_drop] at he
          obtain ⟨ms, hs, hx⟩ := ih (t.length - (p + 1)) (by omega) (p + 1) (by omega) rfl
          refine ⟨ms, ?_, by rw [List.drop_drop]; exact hx⟩
          by_cases hsp : m.start = p
          · exact .skip hf hz (by omega) (by rw [hsp]; exact hs)
          · have hf' := hl t p (p + 1) m hf (by omega) (by omega)
            cases hs with
            | stop h' => rw [hf'] at h'; cases h'
            | hit h' hl' _ => rw [hf'] at h'; cases h'; omega
            | skip h' hl' hlt hs' => rw [hf'] at h'; cases h'; exact .skip hf hz hlt hs'
            | last h' hl' hlt => rw [hf'] at h'; cases h'; exact .last hf hz hlt
      · rw [if_neg hz]
        obtain ⟨ms, hs, hx⟩ := ih (t.length - (m.start + m.len)) (by omega) (m.start + m.len) (by omega) rfl
        refine ⟨m :: ms, .hit hf (by omega) hs, ?_⟩
        rw [desired_shift R t p m h1, List.drop_drop, show p + (m.start - p + m.len) = m.start + m.len by omega, hx,
          List.length_drop, if_pos (by omega), found_cons]
        by_cases hg : R.groups = 1
        · simp only [hg, if_true, true_and]
          split <;> rfl
        · simp only [hg, if_false, false_and]

/-- `regex.extractAll` answers every non-empty match, left to right and not overlapping (the group's text if the
expression has one, left out if empty), for expressions that do not look behind. -/
theorem C74_extractAll_partial {R : Re} (hg : R.groups ≤ 1) (hr : InRange R) (hc : ContextFree R)
    (hl : Leftmost R) (t : Bytes) :
    ∃ ms, Scan R t 0 ms ∧ extractAll (.ok R) t = .ok (found R t ms) := by
  obtain ⟨ms, hs, hx⟩ := extractLoop_scan hr hc hl t 0 (Nat.zero_le _)
  refine ⟨ms, hs, ?_⟩
  unfold extractAll
  simp only [bind, Res.bind]
  rw [if_neg (by omega)]
  simpa using hx

theorem extractLoop_total {R : Re} (hr : InRange R) (t : Bytes) : ∃ l, extractLoop R t = .ok l := by
  induction hn : t.length using Nat.strongRecOn generalizing t with
  | _ n ih =>
    rw [extractLoop]
    cases hf : R.find t 0 with
    | none => exact ⟨_, rfl⟩
    | some m =>
      obtain ⟨h1, h2⟩ := hr t 0 m (Nat.zero_le _) hf
      simp only []
      by_cases hz : m.len = 0
      · rw [if_pos hz]
        by_cases he : t.length = 0
        · rw [if_pos he]; exact ⟨_, rfl⟩
        · rw [if_neg he]
          exact ih (t.drop 1).length (by simp only [List.length_drop]; omega) _ rfl
      · rw [if_neg hz, if_pos h2]
        obtain ⟨l, hx⟩ := ih (t.drop (m.start + m.len)).length (by simp only [List.length_drop]; omega) _ rfl
        rw [hx]
        split
        · exact ⟨_, rfl⟩
        · exact ⟨_, rfl⟩

theorem extractLoop_nonempty {R : Re} (hr : InRange R) (t : Bytes) (l : List Bytes)
    (hx : extractLoop R t = .ok l) : l.length ≤ t.length ∧ ∀ c ∈ l, c ≠ [] := by
  induction hn : t.length using Nat.strongRecOn generalizing t l with
  | _ n ih =>
    subst hn
    rw [extractLoop] at hx
    cases hf : R.find t 0 with
    | none => rw [hf] at hx; cases hx; simp
    | some m =>
      obtain ⟨h1, h2⟩ := hr t 0 m (Nat.zero_le _) hf
      rw [hf] at hx
      simp only [] at hx
      by_cases hz : m.len = 0
      · rw [if_pos hz] at hx
        by_cases he : t.length = 0
        · rw [if_pos he] at hx; cases hx; simp
        · rw [if_neg he] at hx
          obtain ⟨a, b⟩ := ih (t.drop 1).length (by simp only [List.length_drop]; omega) _ _ hx rfl
          rw [List.length_drop] at a
          exact ⟨by omega, b⟩
      · rw [if_neg hz, if_pos h2] at hx
        obtain ⟨l', hx'⟩ := extractLoop_total hr (t.drop (m.start + m.len))
        obtain ⟨a, b⟩ := ih (t.drop (m.start + m.len)).length (by simp only [List.length_drop]; omega) _ _ hx' rfl
        rw [List.length_drop] at a
        rw [hx'] at hx
        split at hx
        · cases hx; exact ⟨by omega, b⟩
        · rename_i hne
          cases hx
          refine ⟨by simp only [List.length_cons]; omega, ?_⟩
          intro c hc
          rcases List.mem_cons.1 hc with rfl | hc
          · intro h0
            apply hne
            refine ⟨?_, h0⟩
            by_contra hg
            unfold desired Match.text at h0
            rw [if_neg hg] at h0
            have := congrArg List.length h0
            simp only [List.length_take, List.length_drop, List.length_nil] at this
            omega
          · exact b c hc

/-- `regex.extractAll` ends on every target with a list, whatever the expression looks at or matches; no entry is
empty, and there is at most one per byte of the target. -/
theorem C74_extractAll_total {R : Re} (hg : R.groups ≤ 1) (hr : InRange R) (t : Bytes) :
    ∃ l, extractAll (.ok R) t = .ok l ∧ l.length ≤ t.length ∧ ∀ c ∈ l, c ≠ [] := by
  obtain ⟨l, hx⟩ := extractLoop_total hr t
  obtain ⟨a, b⟩ := extractLoop_nonempty hr t l hx
  refine ⟨l, ?_, a, b⟩
  unfold extractAll
  simp only [bind, Res.bind]
  rw [if_neg (by omega)]
  exact hx

/-! ## `regex.replace` -/

theorem globalLoop_scan {R : Re} (hr : InRange R) (hne : NonEmpty R) (rw' : Rewrite) (adv : Bytes → Nat) {t : Bytes}
    {p : Nat} {ms : List Match} (hs : Scan R t p ms) :
    ∀ le, p ≤ t.length → globalLoop R rw' adv t p le = splice rw' t p ms := by
  induction hs with
  | stop hf => intro le hp; rw [globalLoop, dif_pos hp, hf]; rfl
  | hit hf hl _ ih =>
    intro le hp
    have hb := hr _ _ _ hp hf
    rw [globalLoop, dif_pos hp, hf]
    simp only []
    rw [dif_pos hb, dif_neg (by omega), ih _ (by omega)]
    rfl
  | skip hf hl _ _ _ => have := hne _ _ _ hf; omega
  | last hf hl _ => have := hne _ _ _ hf; omega

/-- `regex.replace(target, pattern, replacement)` replaces every match, for expressions that do not match the
empty string. -/
theorem C74_replaceAll_partial {R : Re} (hr : InRange R) (hne : NonEmpty R) (rw' : Rewrite) (adv : Bytes → Nat)
    (t : Bytes) : ∃ ms, Scan R t 0 ms ∧ replaceAll (.ok R) (.ok rw') adv t = .ok (splice rw' t 0 ms) := by
  obtain ⟨ms, hs⟩ := Scan.exists hr t 0 (Nat.zero_le _)
  refine ⟨ms, hs, ?_⟩
  unfold replaceAll
  simp only [bind, Res.bind, pure]
  rw [globalLoop_scan hr hne rw' adv hs none (Nat.zero_le _)]

theorem replaceLoop_scan {R : Re} (hr : InRange R) (hc : ContextFree R) (hne : NonEmpty R) (rw' : Rewrite)
    {t : Bytes} {p : Nat} {ms : List Match} (hs : Scan R t p ms) :
    ∀ n done, p ≤ t.length → done + (t.length - p) ≤ 2147483647 →
      replaceLoop R rw' n done (t.drop p) = .ok (splice rw' t p (ms.take n)) := by
  induction hs with
  | @stop p hf =>
    intro n done hp hd
    cases n with
    | zero => rfl
    | succ n =>
      have hcf := hc t p 0 (by omega)
      simp only [Nat.add_zero] at hcf
      rw [replaceLoop, hcf, hf]; simp [splice]
  | @hit p m ms hf hl _ ih =>
    intro n done hp hd
    cases n with
    | zero => rfl
    | succ n =>
      have hb := hr _ _ _ hp hf
      have hcf := hc t p 0 (by omega)
      simp only [Nat.add_zero] at hcf
      rw [replaceLoop, hcf, hf]
      simp only [Option.map_some]
      rw [List.length_drop, if_pos (by omega), if_neg (by omega), List.drop_drop,
        show p + (m.start - p + m.len) = m.start + m.len by omega, ih n (done + 1) (by omega) (by omega)]
      simp only [List.take_succ_cons, splice]
      unfold rewriteOf Match.text
      simp only [List.drop_drop]
      rw [show p + (m.start - p) = m.start by omega]
  | skip hf hl _ _ _ => have := hne _ _ _ hf; omega
  | last hf hl _ => have := hne _ _ _ hf; omega

/-- `regex.replace(target, pattern, replacement, count)` with a positive count replaces the first `count`
matches and leaves the rest, for expressions that neither look behind nor match the empty string. -/
theorem C74_replaceN_partial {R : Re} (hr : InRange R) (hc : ContextFree R) (hne : NonEmpty R) (rw' : Rewrite)
    (adv : Bytes → Nat) (t : Bytes) (ht : t.length ≤ 2147483647) (count : Int) (hpos : 0 ≤ count) :
    ∃ ms, Scan R t 0 ms ∧
      replaceN (.ok R) (.ok rw') adv t count = .ok (splice rw' t 0 (ms.take count.toNat)) := by
  obtain ⟨ms, hs⟩ := Scan.exists hr t 0 (Nat.zero_le _)
  refine ⟨ms, hs, ?_⟩
  unfold replaceN
  by_cases h0 : count = 0
  · subst h0; simp [splice]
  · rw [if_neg h0, if_neg (by omega)]
    simp only [bind, Res.bind]
    have := replaceLoop_scan hr hc hne rw' hs count.toNat 0 (Nat.zero_le _) (by omega)
    simpa using this

/-- A negative count replaces every match: the same as no count at all. -/
theorem C74_replaceN_negative (re : Res Re) (rw' : Res Rewrite) (adv : Bytes → Nat) (t : Bytes) (count : Int)
    (hneg : count < 0) : replaceN re rw' adv t count = replaceAll re rw' adv t := by
  unfold replaceN
  rw [if_neg (by omega), if_pos hneg]

/-- A count as large as the target replaces every match. -/
theorem C74_replaceN_large_partial {R : Re} (hr : InRange R) (hc : ContextFree R) (hne : NonEmpty R) (rw' : Rewrite)
    (adv : Bytes → Nat) (t : Bytes) (ht : t.length ≤ 2147483647) (count : Int) (hbig : (t.length : Int) ≤ count) :
    replaceN (.ok R) (.ok rw') adv t count = replaceAll (.ok R) (.ok rw') adv t := by
  obtain ⟨ms, hs, h1⟩ := C74_replaceN_partial hr hc hne rw' adv t ht count (by omega)
  obtain ⟨ms', hs', h2⟩ := C74_replaceAll_partial hr hne rw' adv t
  cases hs.det hs'
  rw [h1, h2, List.take_of_length_le]
  have := hs.length_le hr (Nat.zero_le _)
  omega

/-- An invalid expression or replacement string is an error, unless the count is zero. -/
theorem C74_replace_error (adv : Bytes → Nat) (t : Bytes) (e : Status) :
    (∀ rw', replaceAll (.err e) rw' adv t = .err e) ∧
      (∀ R, replaceAll (.ok R) (.err e) adv t = .err e) ∧
      (∀ rw' count, count ≠ 0 → replaceN (.err e) rw' adv t count = .err e) ∧
      ∀ R count, count ≠ 0 → replaceN (.ok R) (.err e) adv t count = .err e := by
  refine ⟨fun _ => rfl, fun _ => rfl, ?_, ?_⟩
  · intro rw' count h0
    unfold replaceN
    rw [if_neg h0]
    split <;> rfl
  · intro R count h0
    unfold replaceN
    rw [if_neg h0]
    split <;> rfl

/-! ## `re.captureN` -/

/-- The entries of the map, in terms of the groups. -/
def captureEntries (name : Nat → Option String) (gs : List String) : List (Value × Value) :=
  gs.zipIdx.map fun g => (.str (captureKey name (g.2 + 1)), .str g.1)

/-- The key of a group: its name, or its decimal number. -/
theorem C74_captureN_key (name : Nat → Option String) (i : Nat) :
    (∀ n, name i = some n → captureKey name i = n) ∧ (name i = none → captureKey name i = toString i) := by
  unfold captureKey
  constructor
  · intro n h; rw [h]
  · intro h; rw [h]

/-- When no two groups share a key, `re.captureN` of a matching target is the map from each group's name or
number to what it captured: looking up the key of the `i`th group gives its text. -/
theorem C74_captureN_partial (R : Re) (hg : R.groups ≠ 0) (name : Nat → Option String) (gs : List String)
    (hd : ∀ i j, i < j → j < gs.length → captureKey name (i + 1) ≠ captureKey name (j + 1)) :
    ∃ m, captureN (.ok R) name (some gs) = .ok (.map m) ∧ m.length = gs.length ∧
      ∀ i (hi : i < gs.length), (Value.str (captureKey name (i + 1)), Value.str gs[i]) ∈ m := by
  have hw : WellBuilt (captureEntries name gs) := by
    constructor
    · intro e he
      obtain ⟨g, hg, rfl⟩ := List.mem_map.1 he
      exact ⟨rfl, by simp [Plain, Value.isError, Value.isUnknown]⟩
    · rw [List.pairwise_iff_getElem]
      intro i j hi hj hij
      simp only [captureEntries, List.length_map, List.length_zipIdx] at hi hj
      simp only [captureEntries, List.getElem_map, List.getElem_zipIdx, Nat.zero_add]
      intro h
      exact hd i j hij hj (by simpa using h)
  refine ⟨captureEntries name gs, ?_, by simp [captureEntries], ?_⟩
  · unfold captureN
    simp only []
    rw [if_neg hg]
    have := Cel.Macro.putAll_nil hw
    unfold captureEntries at this
    rw [this]
    rfl
  · intro i hi
    refine List.mem_map.2 ⟨(gs[i], i), ?_, rfl⟩
    rw [List.mem_iff_getElem]
    exact ⟨i, by simpa using hi, by simp⟩

/-- A target that does not match, a pattern without groups and an invalid pattern are error values. -/
theorem C74_captureN_error (name : Nat → Option String) (gs : Option (List String)) :
    (∀ e, captureN (.err e) name gs = .ok (.error e)) ∧
      (∀ R : Re, R.groups = 0 → ∃ e, captureN (.ok R) name gs = .ok (.error e)) ∧
      ∀ R : Re, ∃ e, captureN (.ok R) name none = .ok (.error e) := by
  refine ⟨fun e => rfl, fun R h => ?_, fun R => ?_⟩
  · unfold captureN; simp only []; rw [if_pos h]; exact ⟨_, rfl⟩
  · unfold captureN; simp only []; split <;> exact ⟨_, rfl⟩

end Cel.Regex
