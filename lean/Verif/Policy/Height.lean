import Verif.Policy.Props

/-!
# How tall the unnested expression is (C57)

The option says that the height of the final AST may exceed the limit "by a small, fixed margin"
(policy/compiler.h:26-28). That holds, with a margin of `limit + 1`, when every node has at most one tall
child; in general no margin is enough.
-/

set_option linter.unusedSimpArgs false
set_option linter.unusedVariables false

namespace Policy

attribute [local irreducible] blockIndex

theorem heights_append : ∀ (a b : List Ex), heights (a ++ b) = max (heights a) (heights b)
  | [], b => by simp [heights]
  | e :: a, b => by simp only [List.cons_append, heights, heights_append a b]; omega

theorem height_pos : ∀ (e : Ex), 1 ≤ height e
  | .const _ => by simp [height]
  | .ref _ => by simp [height]
  | .loc _ => by simp [height]
  | .index _ => by simp [height]
  | .app _ _ => by simp [height]
  | .compr .. => by simp [height]

/-! ## Never much taller -/

/-- Slicing makes nothing taller. -/
def NoTaller (init : List Ex) (e : Ex) (r : List Ex × Ex) : Prop :=
  heights r.1 ≤ max (heights init) (height e) ∧ height r.2 ≤ height e

theorem cut_noTaller {h : Nat} {init : List Ex} {e : Ex} {r : List Ex × Ex} (hr : NoTaller init e r) :
    NoTaller init e (cut h e r) := by
  unfold cut
  split
  · have hp := height_pos e
    refine ⟨?_, by simpa [height] using hp⟩
    simp only [heights_append, heights]
    have := hr.1; have := hr.2
    omega
  · exact hr

mutual
theorem slice_noTaller (h : Nat) : ∀ (e : Ex) (init : List Ex), NoTaller init e (slice h init e)
  | .const _, init => by simp only [slice]; exact cut_noTaller ⟨by simp; omega, Nat.le_refl _⟩
  | .ref _, init => by simp only [slice]; exact cut_noTaller ⟨by simp; omega, Nat.le_refl _⟩
  | .loc _, init => by simp only [slice]; exact cut_noTaller ⟨by simp; omega, Nat.le_refl _⟩
  | .index _, init => by simp only [slice]; exact cut_noTaller ⟨by simp; omega, Nat.le_refl _⟩
  | .app op args, init => by
    simp only [slice]
    apply cut_noTaller
    have := sliceList_noTaller h args init
    simp only [NoTaller, height]
    omega
  | .compr iv av a b c d e, init => by
    simp only [slice]
    apply cut_noTaller
    have h1 := slice_noTaller h a init
    have h2 := slice_noTaller h b (slice h init a).1
    have h3 := slice_noTaller h c (slice h (slice h init a).1 b).1
    have h4 := slice_noTaller h d (slice h (slice h (slice h init a).1 b).1 c).1
    have h5 := slice_noTaller h e (slice h (slice h (slice h (slice h init a).1 b).1 c).1 d).1
    simp only [NoTaller, height] at h1 h2 h3 h4 h5 ⊢
    omega
theorem sliceList_noTaller (h : Nat) : ∀ (es : List Ex) (init : List Ex),
    heights (sliceList h init es).1 ≤ max (heights init) (heights es) ∧
      heights (sliceList h init es).2 ≤ heights es
  | [], init => by simp [sliceList, heights]
  | e :: es, init => by
    simp only [sliceList, heights]
    have h1 := slice_noTaller h e init
    have h2 := sliceList_noTaller h es (slice h init e).1
    simp only [NoTaller] at h1
    omega
end

theorem unnest_cases {h : Nat} {p q : Prog} (hu : unnest h p = .ok q) :
    q = p ∨ (blockedList h false p.inits = false ∧ blocked h false p.body = false ∧
      q = ⟨(slice h p.inits p.body).1, (slice h p.inits p.body).2⟩) := by
  unfold unnest at hu
  split at hu
  · simp only [Except.ok.injEq] at hu; exact .inl hu.symm
  · split at hu
    · exact absurd hu (by simp)
    · rename_i hb
      simp only [Except.ok.injEq] at hu
      simp only [Bool.or_eq_true, not_or, Bool.not_eq_true] at hb
      exact .inr ⟨hb.1, hb.2, hu.symm⟩

/-- **C57, growth.** Unnesting adds at most the block and its list to the height. -/
theorem C57_never_much_taller_partial {limit : Nat} {r : Rule} {p q : Prog}
    (hp : compilePolicy 0 r = .ok p) (hq : compilePolicy limit r = .ok q) : q.height ≤ p.height + 2 := by
  obtain ⟨p0, h0, hu⟩ := compile_compose hp
  obtain ⟨q0, h1, hv⟩ := compile_compose hq
  have : q0 = p0 := by rw [h0] at h1; exact (Except.ok.inj h1).symm
  subst this
  have hpe : p = q0 := by simp [unnest] at hu; exact hu.symm
  subst hpe
  rcases unnest_cases hv with rfl | ⟨_, _, rfl⟩
  · omega
  · have hn := slice_noTaller limit p.body p.inits
    simp only [NoTaller] at hn
    simp only [Prog.height]
    by_cases hi : p.inits = []
    · rw [hi] at hn ⊢
      simp only [heights, if_true] at hn ⊢
      split <;> omega
    · rw [if_neg hi]
      split <;> omega

/-! ## Chains -/

/-- The height of a node after slicing, at most, given its height before. -/
def bnd (h n : Nat) : Nat := if n < h then n else if n % h = 0 then 1 else n % h + h - 1

/-- The same, before the node itself is cut. -/
def pre (h n : Nat) : Nat := if n < h then n else if n % h = 0 then 2 * h - 1 else n % h + h - 1

/-- The largest `bnd` of a list. -/
def bnds (h : Nat) : List Ex → Nat
  | [] => 0
  | e :: es => max (bnd h (height e)) (bnds h es)

theorem succ_mod {h c : Nat} (hh : 2 ≤ h) : (c + 1) % h = if c % h = h - 1 then 0 else c % h + 1 := by
  have hlt : c % h < h := Nat.mod_lt _ (by omega)
  split
  · rename_i hc
    rw [Nat.add_mod, hc, Nat.mod_eq_of_lt (show 1 < h by omega), show h - 1 + 1 = h by omega, Nat.mod_self]
  · rw [Nat.add_mod, Nat.mod_eq_of_lt (show 1 < h by omega), Nat.mod_eq_of_lt (show c % h + 1 < h by omega)]

theorem pre_step {h c : Nat} (hh : 2 ≤ h) (hc : h ≤ c) : 1 + max (h - 1) (bnd h c) ≤ pre h (1 + c) := by
  have hlt : c % h < h := Nat.mod_lt _ (by omega)
  unfold bnd pre
  rw [if_neg (show ¬ c < h by omega), if_neg (show ¬ 1 + c < h by omega), Nat.add_comm 1 c, succ_mod hh]
  by_cases h0 : c % h = 0
  · rw [if_pos h0, if_neg (show ¬ c % h = h - 1 by omega), if_neg (by omega)]; omega
  · rw [if_neg h0]
    by_cases h1 : c % h = h - 1
    · rw [if_pos h1, if_pos rfl]; omega
    · rw [if_neg h1, if_neg (by omega)]; omega

theorem bnds_small {h : Nat} : ∀ (es : List Ex), (es.filter (fun a => decide (h ≤ height a))).length = 0 →
    (1 ≤ h) → bnds h es = heights es ∧ heights es ≤ h - 1
  | [], _, _ => by simp [bnds, heights]
  | e :: es, hl, hh => by
    by_cases he : h ≤ height e
    · simp [List.filter_cons, he] at hl
    · have hl' : (es.filter (fun a => decide (h ≤ height a))).length = 0 := by
        rw [List.filter_cons, if_neg (by simpa using he)] at hl; exact hl
      have ih := bnds_small es hl' hh
      simp only [bnds, heights, bnd, if_pos (show height e < h by omega)]
      omega

theorem bnds_one {h : Nat} (hh : 1 ≤ h) : ∀ (es : List Ex),
    (es.filter (fun a => decide (h ≤ height a))).length = 1 →
    h ≤ heights es ∧ bnds h es ≤ max (h - 1) (bnd h (heights es))
  | [], hl => by simp at hl
  | e :: es, hl => by
    by_cases he : h ≤ height e
    · have hl' : (es.filter (fun a => decide (h ≤ height a))).length = 0 := by
        rw [List.filter_cons, if_pos (by simpa using he)] at hl; simpa using hl
      have ih := bnds_small es hl' hh
      have hm : heights (e :: es) = height e := by simp only [heights]; omega
      rw [hm]
      simp only [bnds]
      omega
    · have hl' : (es.filter (fun a => decide (h ≤ height a))).length = 1 := by
        rw [List.filter_cons, if_neg (by simpa using he)] at hl; exact hl
      have ih := bnds_one hh es hl'
      have hm : heights (e :: es) = heights es := by simp only [heights]; omega
      rw [hm]
      simp only [bnds, bnd, if_pos (show height e < h by omega)] at ih ⊢
      omega

theorem bnds_pre {h : Nat} (hh : 2 ≤ h) (es : List Ex)
    (hl : (es.filter (fun a => decide (h ≤ height a))).length ≤ 1) : 1 + bnds h es ≤ pre h (1 + heights es) := by
  rcases Nat.lt_or_ge 0 (es.filter (fun a => decide (h ≤ height a))).length with h1 | h0
  · have := bnds_one (h := h) (show 1 ≤ h by omega) es (by omega)
    have := pre_step hh this.1
    omega
  · have ⟨h1, h2⟩ := bnds_small es (by omega) (show 1 ≤ h by omega)
    rw [h1]
    unfold pre
    by_cases hlt : 1 + heights es < h
    · rw [if_pos hlt]; exact Nat.le_refl _
    · rw [if_neg hlt]
      have : 1 + heights es = h := by omega
      rw [this, Nat.mod_self, if_pos (show (0 : Nat) = 0 from rfl)]; omega

mutual
/-- Inside a comprehension that is not refused, everything is shorter than the limit. -/
theorem short_inC {h : Nat} (hh : 2 ≤ h) : ∀ (e : Ex), blocked h true e = false → height e < h
  | .const _, _ => by simp only [height]; omega
  | .ref _, _ => by simp only [height]; omega
  | .loc _, _ => by simp only [height]; omega
  | .index _, _ => by simp only [height]; omega
  | .app op args, hb => by
    simp only [blocked, Bool.true_and, Bool.or_eq_false_iff] at hb
    have ih := shortList_inC hh args hb.2
    have hc := hb.1
    simp only [cutHere, beq_eq_false_iff_ne, ne_eq, height] at hc ⊢
    rcases Nat.lt_or_ge (1 + heights args) h with h1 | h1
    · exact h1
    · have : 1 + heights args = h := by omega
      rw [this, Nat.mod_self] at hc
      exact absurd rfl hc
  | .compr iv av a b c d e, hb => by
    simp only [blocked, Bool.or_eq_false_iff] at hb
    obtain ⟨h0, ⟨⟨⟨ha, hb⟩, hc⟩, hd⟩, he⟩ := hb
    have h1 := short_inC hh a ha
    have h2 := short_inC hh b hb
    have h3 := short_inC hh c hc
    have h4 := short_inC hh d hd
    have h5 := short_inC hh e he
    simp only [cutHere, beq_eq_false_iff_ne, ne_eq, height] at h0 ⊢
    rcases Nat.lt_or_ge (1 + max (height a) (max (height b) (max (height c) (max (height d) (height e))))) h with h6 | h6
    · exact h6
    · have : 1 + max (height a) (max (height b) (max (height c) (max (height d) (height e)))) = h := by omega
      rw [this, Nat.mod_self] at h0
      exact absurd rfl h0
theorem shortList_inC {h : Nat} (hh : 2 ≤ h) : ∀ (es : List Ex), blockedList h true es = false →
    heights es < h
  | [], _ => by simp only [heights]; omega
  | e :: es, hb => by
    simp only [blockedList, Bool.or_eq_false_iff] at hb
    have h1 := short_inC hh e hb.1
    have h2 := shortList_inC hh es hb.2
    simp only [heights]; omega
end

/-- What slicing does to the heights of a chain. -/
def Short (h : Nat) (init : List Ex) (e : Ex) (r : List Ex × Ex) : Prop :=
  heights r.1 ≤ max (heights init) (2 * h - 1) ∧ height r.2 ≤ bnd h (height e)

theorem cut_short {h : Nat} (hh : 2 ≤ h) {init : List Ex} {e : Ex} {r : List Ex × Ex}
    (h1 : heights r.1 ≤ max (heights init) (2 * h - 1)) (h2 : height r.2 ≤ pre h (height e)) :
    Short h init e (cut h e r) := by
  have hp := height_pos e
  have hlt : height e % h < h := Nat.mod_lt _ (by omega)
  unfold cut cutHere
  by_cases hc : height e % h = 0
  · have hge : ¬ height e < h := by
      intro hl
      rw [Nat.mod_eq_of_lt hl] at hc; omega
    rw [if_pos (by simpa using hc)]
    simp only [Short, heights_append, heights, height, bnd, if_neg hge, if_pos hc]
    simp only [pre, if_neg hge, if_pos hc] at h2
    omega
  · rw [if_neg (by simpa using hc)]
    refine ⟨h1, ?_⟩
    unfold pre at h2
    unfold bnd
    split
    · rename_i hl; rw [if_pos hl] at h2; exact h2
    · rename_i hl; rw [if_neg hl, if_neg hc] at h2; simpa [hc] using h2

mutual
theorem slice_short {h : Nat} (hh : 2 ≤ h) : ∀ (e : Ex) (init : List Ex), blocked h false e = false → Chain h e →
    Short h init e (slice h init e)
  | .const _, init, _, _ => by
    simp only [slice]
    exact cut_short hh (by simp only; omega) (by simp only [height]; unfold pre; rw [if_pos (show 1 < h by omega)]; exact Nat.le_refl _)
  | .ref _, init, _, _ => by
    simp only [slice]
    exact cut_short hh (by simp only; omega) (by simp only [height]; unfold pre; rw [if_pos (show 1 < h by omega)]; exact Nat.le_refl _)
  | .loc _, init, _, _ => by
    simp only [slice]
    exact cut_short hh (by simp only; omega) (by simp only [height]; unfold pre; rw [if_pos (show 1 < h by omega)]; exact Nat.le_refl _)
  | .index _, init, _, _ => by
    simp only [slice]
    exact cut_short hh (by simp only; omega) (by simp only [height]; unfold pre; rw [if_pos (show 1 < h by omega)]; exact Nat.le_refl _)
  | .app op args, init, hb, hc => by
    simp only [blocked, Bool.false_and, Bool.false_or] at hb
    simp only [Chain] at hc
    have hl := sliceList_short hh args init hb hc.2
    simp only [slice]
    refine cut_short hh hl.1 ?_
    simp only [height]
    exact Nat.le_trans (by have := hl.2; omega) (bnds_pre hh args hc.1)
  | .compr iv av a b c d e, init, hb, hc => by
    have hb' : blocked h true (.compr iv av a b c d e) = false := by simpa [blocked] using hb
    have hlt := short_inC hh _ hb'
    rw [slice_inC h _ init hb']
    refine ⟨by simp only; omega, ?_⟩
    simp only [bnd, if_pos hlt]
    exact Nat.le_refl _
theorem sliceList_short {h : Nat} (hh : 2 ≤ h) : ∀ (es : List Ex) (init : List Ex), blockedList h false es = false →
    ChainList h es →
    heights (sliceList h init es).1 ≤ max (heights init) (2 * h - 1) ∧ heights (sliceList h init es).2 ≤ bnds h es
  | [], init, _, _ => by simp only [sliceList, heights, bnds]; omega
  | e :: es, init, hb, hc => by
    simp only [blockedList, Bool.or_eq_false_iff] at hb
    simp only [ChainList] at hc
    have h1 := slice_short hh e init hb.1 hc.1
    have h2 := sliceList_short hh es (slice h init e).1 hb.2 hc.2
    simp only [Short] at h1
    simp only [sliceList, heights, bnds]
    omega
end

/-- **C57, height of chains.** When at every node of the composed expression at most one child is as tall as the
limit, and the variables are not taller than `2 * limit - 1`, the final height is at most `2 * limit + 1`. -/
theorem C57_height_of_chains_partial {limit : Nat} {r : Rule} {p q : Prog} (hl : 2 ≤ limit)
    (hp : compilePolicy 0 r = .ok p) (hq : compilePolicy limit r = .ok q)
    (hv : ∀ e ∈ p.inits, height e ≤ 2 * limit - 1) (hc : Chain limit p.body) :
    q.height ≤ 2 * limit + 1 := by
  obtain ⟨p0, h0, hu⟩ := compile_compose hp
  obtain ⟨q0, h1, hv'⟩ := compile_compose hq
  have : q0 = p0 := by rw [h0] at h1; exact (Except.ok.inj h1).symm
  subst this
  have hpe : p = q0 := by simp [unnest] at hu; exact hu.symm
  subst hpe
  have hin : ∀ (es : List Ex), (∀ e ∈ es, height e ≤ 2 * limit - 1) → heights es ≤ 2 * limit - 1 := by
    intro es
    induction es with
    | nil => intro _; simp [heights]
    | cons e es ih =>
      intro h
      have h1 := h e (List.mem_cons_self ..)
      have h2 := ih (fun x hx => h x (List.mem_cons_of_mem _ hx))
      simp only [heights]; omega
  have hin' := hin p.inits hv
  have key : blocked limit false p.body = false →
      (⟨(slice limit p.inits p.body).1, (slice limit p.inits p.body).2⟩ : Prog).height ≤ 2 * limit + 1 := by
    intro hb
    have hs := slice_short hl p.body p.inits hb hc
    simp only [Short] at hs
    have hbn : bnd limit (height p.body) ≤ 2 * limit - 1 := by
      have hlt : height p.body % limit < limit := Nat.mod_lt _ (by omega)
      unfold bnd
      split
      · omega
      · split <;> omega
    simp only [Prog.height]
    split <;> omega
  unfold unnest at hv'
  rw [if_neg (by omega)] at hv'
  split at hv'
  · exact absurd hv' (by simp)
  · rename_i hb
    simp only [Bool.or_eq_true, not_or, Bool.not_eq_true] at hb
    simp only [Except.ok.injEq] at hv'
    subst hv'
    exact key hb.2

/-! ## No margin is enough -/

/-- A chain of `n + 1` nodes. -/
def tower : Nat → Ex
  | 0 => .const (.data 0)
  | n + 1 => .app (.other "f") [tower n]

/-- A spine of height `n * h + 1` whose nodes have heights one above a multiple of `h`. -/
def spine (h : Nat) : Nat → Ex
  | 0 => .const (.data 0)
  | n + 1 => .app (.other "g") [spine h n, tower ((n + 1) * h - 1)]

theorem tower_height : ∀ (n : Nat), height (tower n) = n + 1
  | 0 => by simp [tower, height]
  | n + 1 => by simp [tower, height, heights, tower_height n]; omega

theorem spine_height {h : Nat} (hh : 2 ≤ h) : ∀ (n : Nat), height (spine h n) = n * h + 1
  | 0 => by simp [spine, height]
  | n + 1 => by
    have hp : 1 ≤ (n + 1) * h := Nat.le_trans (by omega : 1 ≤ h) (Nat.le_mul_of_pos_left h (by omega))
    simp only [spine, height, heights, spine_height hh n, tower_height]
    have : (n + 1) * h = n * h + h := by rw [Nat.add_mul]; omega
    omega

theorem tower_blocked (h : Nat) : ∀ (n : Nat), blocked h false (tower n) = false
  | 0 => by simp [tower, blocked]
  | n + 1 => by simp [tower, blocked, blockedList, tower_blocked h n]

theorem spine_blocked (h : Nat) : ∀ (n : Nat), blocked h false (spine h n) = false
  | 0 => by simp [spine, blocked]
  | n + 1 => by simp [spine, blocked, blockedList, spine_blocked h n, tower_blocked h]

theorem spine_cut {h : Nat} (hh : 2 ≤ h) (n : Nat) : cutHere h (spine h n) = false := by
  simp only [cutHere, spine_height hh, beq_eq_false_iff_ne, ne_eq]
  rw [Nat.add_comm, Nat.add_mul_mod_self_right, Nat.mod_eq_of_lt (by omega)]
  omega

theorem spine_slice {h : Nat} (hh : 2 ≤ h) : ∀ (n : Nat) (init : List Ex),
    n + 1 ≤ height (slice h init (spine h n)).2
  | 0, init => height_pos _
  | n + 1, init => by
    have hc := spine_cut hh (n + 1)
    simp only [spine] at hc ⊢
    simp only [slice, cut, hc, Bool.false_eq_true, if_false, sliceList, height, heights]
    have := spine_slice hh n init
    omega

theorem mapVars_tower (ss : List Scope) : ∀ (n : Nat), mapVars ss (tower n) = tower n
  | 0 => by simp [tower, mapVars]
  | n + 1 => by simp [tower, mapVars, mapVarsList, mapVars_tower ss n]

theorem mapVars_spine (ss : List Scope) (h : Nat) : ∀ (n : Nat), mapVars ss (spine h n) = spine h n
  | 0 => by simp [spine, mapVars]
  | n + 1 => by simp [spine, mapVars, mapVarsList, mapVars_tower, mapVars_spine ss h n]

theorem composeMatches_only (ss : List Scope) (nw : Bool) (init : List Ex) (p : Production) :
    composeMatches ss nw init (.cons none p .nil) =
      match composeProd ss init p with
      | .error e => .error e
      | .ok (init1, e1, w1) => .ok (init1, wrapIf nw w1 e1, nw) := composeMatches_last rfl

/-- A policy with a single output composes to that output. -/
theorem single_output (limit : Nat) (hl : limit = 0 ∨ 2 ≤ limit) (e : Ex) (he : mapVars [[]] e = e) :
    compilePolicy limit (.mk [] (.cons none (.output e) .nil)) = unnest limit ⟨[], e⟩ := by
  have : ¬ (limit ≠ 0 ∧ limit < 2) := by omega
  simp [compilePolicy, this, checkRule, varsDistinct, checkMatches, checkProd, compose, structureOk, structureFrom,
    structureProd, composeRule, composeVars, composeMatches_only, composeProd, trivial, exhaustive, exhaustiveFrom,
    exhaustiveProd, wrapIf, he]

/-- **C57, defect.** Whatever the limit and the margin, there is a policy, with no variables and no comprehension,
that the compiler accepts and unnests without an error, and whose final height exceeds the limit by more than
the margin. -/
theorem C57_limit_not_kept (limit margin : Nat) (hl : 2 ≤ limit) :
    ∃ r p, r.Source ∧ compilePolicy limit r = .ok p ∧ limit + margin < p.height := by
  refine ⟨.mk [] (.cons none (.output (spine limit (limit + margin))) .nil),
    ⟨(slice limit [] (spine limit (limit + margin))).1, (slice limit [] (spine limit (limit + margin))).2⟩, ?_, ?_, ?_⟩
  · have ht : ∀ n, Source (tower n) := by
      intro n
      induction n with
      | zero => simp [tower, Source]
      | succ n ih => simp [tower, Source, SourceList, ih]
    have hs : ∀ n, Source (spine limit n) := by
      intro n
      induction n with
      | zero => simp [spine, Source]
      | succ n ih => simp [spine, Source, SourceList, ih, ht]
    simp [Rule.Source, Matches.Source, Production.Source, hs]
  · rw [single_output limit (.inr hl) _ (mapVars_spine _ _ _)]
    have : ¬ limit = 0 := by omega
    simp [unnest, this, blockedList, spine_blocked]
  · have := spine_slice hl (limit + margin) []
    simp only [Prog.height]
    split <;> omega

/-- **C57, variables.** The expressions of variables are never cut: they are in the final AST as they are. -/
theorem C57_variables_not_cut (limit margin : Nat) (hl : 2 ≤ limit) :
    ∃ r p, r.Source ∧ compilePolicy limit r = .ok p ∧ limit + margin < p.height ∧
      r = .mk [("x", tower (limit + margin))] (.cons none (.output (.ref "variables.x")) .nil) := by
  refine ⟨_, ⟨[tower (limit + margin)], .index 0⟩, ?_, ?_, ?_, rfl⟩
  · have ht : ∀ n, Source (tower n) := by
      intro n
      induction n with
      | zero => simp [tower, Source]
      | succ n ih => simp [tower, Source, SourceList, ih]
    simp [Rule.Source, Matches.Source, Production.Source, Source, ht]
  · have h1 : ¬ (limit ≠ 0 ∧ limit < 2) := by omega
    have h2 : ¬ limit = 0 := by omega
    have h3 : blockIndex [[(ident "x", 0)]] "variables.x" = some 0 := by
      have := blockIndex_cons "x" 0 [] [] "variables.x"
      rw [this, if_pos (by rfl)]
    have h4 : ∀ ss, mapVars ss (tower (limit + margin)) = tower (limit + margin) := fun ss => mapVars_tower ss _
    have h5 : cutHere limit (.index 0) = false := by
      simp only [cutHere, height, beq_eq_false_iff_ne, ne_eq]
      rw [Nat.mod_eq_of_lt (by omega)]; omega
    unfold compilePolicy
    rw [if_neg h1]
    simp [checkRule, varsDistinct, checkMatches, checkProd, compose, structureOk, structureFrom,
      structureProd, composeRule, composeVars, composeMatches_only, composeProd, trivial, exhaustive, exhaustiveFrom,
      exhaustiveProd, wrapIf, mapVars, h3, h4, unnest, h2, blockedList, tower_blocked, blocked, slice, cut, h5]
  · simp only [Prog.height, heights, tower_height]
    split
    · rename_i h; exact absurd h (by simp)
    · omega

end Policy
