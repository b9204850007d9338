import Verif.Rewrite.Live

set_option linter.unusedSimpArgs false
set_option linter.unusedVariables false

/-! # C83 – `AstRewrite` -/

namespace Cel.Rewrite
open Cel Cel.Proto Cel.Walk

theorem loop_of_run {S : Type} {R : Rewriter S} {cb : Bool} {m m' : St S} (h : Run R cb m m')
    (hs : m'.stack = []) :
    ∃ N, ∀ fuel, N ≤ fuel → loop R cb fuel m = some (m'.tree, m'.st, m'.rewritten) := by
  induction h with
  | refl m => exact ⟨1, fun fuel hf => by
      obtain ⟨f, rfl⟩ : ∃ f, fuel = f + 1 := ⟨fuel - 1, by omega⟩
      simp [loop, hs]⟩
  | @step m m1 m2 ht _ ih =>
    obtain ⟨N, hN⟩ := ih hs
    refine ⟨N + 1, fun fuel hf => ?_⟩
    obtain ⟨f, rfl⟩ : ∃ f, fuel = f + 1 := ⟨fuel - 1, by omega⟩
    have : m.stack.isEmpty = false := by
      cases hst : m.stack with
      | nil => rw [turn, hst] at ht; cases ht
      | cons x xs => rfl
    simp [loop, this, ht, hN f (by omega)]

/-- What the specification allows, the machine computes, with any sufficient fuel. -/
theorem C83_rewrite_complete {S : Type} (R : Rewriter S) (hR : R.Sound) (cb : Bool) (t : NExpr)
    (hp : t.present = true) (hw : WFC t) (s : S) (t' : NExpr) (s' : S) (b : Bool)
    (h : Rw R cb [] t s t' s' b) :
    ∃ N, ∀ fuel, N ≤ fuel → astRewrite R cb t s fuel = some (t', s', b) := by
  have hn : nodeAt [] t = some t := by
    cases t with
    | absent => simp [Tree.present] at hp
    | node l ks => rfl
  have := (run_expr R hR cb h t [] false hw hn).2.2
  have := loop_of_run this rfl
  simpa [astRewrite, putAt, chain_nil] using this

/-- `AstRewrite` ends with an expression, a rewriter state and a result exactly when the recursive
description of rewriting gives them. -/
theorem C83_rewrite_iff {S : Type} (R : Rewriter S) (hR : R.Sound) (cb : Bool) (t : NExpr)
    (hp : t.present = true) (hw : WFC t) (s : S) (t' : NExpr) (s' : S) (b : Bool) :
    (∃ fuel, astRewrite R cb t s fuel = some (t', s', b)) ↔ Rw R cb [] t s t' s' b := by
  constructor
  · rintro ⟨fuel, h⟩
    have hn : nodeAt [] t = some t := by
      cases t with
      | absent => simp [Tree.present] at hp
      | node l ks => rfl
    obtain ⟨n', s1, b1, F', hrw, _, hl⟩ := back R hR cb fuel [] t t [] s false _ hw hn h
    cases F' with
    | zero => simp [loop] at hl
    | succ F' =>
      simp only [loop, List.isEmpty_nil, if_true, putAt, Bool.false_or, Option.some.injEq,
        Prod.mk.injEq] at hl
      obtain ⟨rfl, rfl, rfl⟩ := hl
      exact hrw
  · intro h
    obtain ⟨N, hN⟩ := C83_rewrite_complete R hR cb t hp hw s t' s' b h
    exact ⟨N, hN N (Nat.le_refl _)⟩

/-- Whatever the rewriter does and however long it runs, no pointer on the stack dangles: every
state reached is final or makes another turn. -/
theorem C83_no_dangling {S : Type} (R : Rewriter S) (hR : R.Sound) (cb : Bool) (t : NExpr)
    (hp : t.present = true) (hw : WFC t) (s : S) (m : St S)
    (h : Run R cb ⟨t, [⟨.expr [], false⟩], [], s, false⟩ m) :
    m.stack = [] ∨ ∃ m', turn R cb m = some m' := by
  by_cases hm : m.stack = []
  · exact .inl hm
  · obtain ⟨m', h', _⟩ := live_turn R hR cb m (live_run R hR cb h (live_start t s hp hw)) hm
    exact .inr ⟨m', h'⟩

/-- The rewriter makes progress: the children it leaves a node for the visit are smaller than the
node it was given. -/
def Rewriter.Shrinks {S : Type} (R : Rewriter S) (μ : NExpr → Nat) : Prop :=
  ∀ n s l ks, n.present = true → WFC n → (R.pre n s).2.1 = .node l ks →
    ∀ c ∈ touchKids l.kind ks, c.present = true → μ c < μ n

theorem kids_total {S : Type} (R : Rewriter S) (cb : Bool) (a : Addr) (l : NNode) :
    ∀ (cs done : List NExpr) (s : S),
    (∀ c ∈ cs, c.present = true → ∀ (a : Addr) (s : S), ∃ c' s' b, Rw R cb a c s c' s' b) →
    ∃ ks s' b, RwKids R cb a l done cs s ks s' b
  | [], done, s, h => ⟨done, s, false, .nil⟩
  | .absent :: cs, done, s, h => by
    obtain ⟨ks, s', b, hk⟩ := kids_total R cb a l cs (done ++ [.absent]) s fun c hc => h c (by simp [hc])
    exact ⟨ks, s', b, .unset hk⟩
  | .node lc kc :: cs, done, s, h => by
    obtain ⟨c', s1, b1, hc⟩ := h (.node lc kc) (by simp) rfl (a ++ [done.length])
      (visits R (.node l (done ++ .node lc kc :: cs)) (before cb (.loc a) (edge l.kind done.length)) s)
    obtain ⟨ks, s', b, hk⟩ := kids_total R cb a l cs (done ++ [c'])
      (visits R (.node l (done ++ c' :: cs)) (after cb (.loc a) (edge l.kind done.length)) s1)
      fun c hc => h c (by simp [hc])
    exact ⟨ks, s', b1 || b, .kid rfl hc hk⟩

theorem kids_wfc {S : Type} (R : Rewriter S) (hR : R.Sound) (cb : Bool) {a : Addr} {l : NNode}
    {cs ks : List NExpr} {s s' : S} {b : Bool} (h : RwKids R cb a l [] cs s ks s' b)
    (hs : CShape l.kind cs) (hw : WFCs cs) : CShape l.kind ks ∧ WFCs ks := by
  -- run the children in a tree that has the node at this address
  have key : ∀ (a : Addr), ∃ t, nodeAt a t = some (.node l cs) := by
    intro a
    induction a with
    | nil => exact ⟨.node l cs, rfl⟩
    | cons i a ih =>
      obtain ⟨t, ht⟩ := ih
      refine ⟨.node NNode.dflt (List.replicate i .absent ++ [t]), ?_⟩
      simp [nodeAt, ht]
  obtain ⟨t, ht⟩ := key a
  have := run_kids R hR cb h t [] false (by simpa using hs) hw (by simp [WFCs]) (by simpa using ht)
  exact ⟨this.1, this.2.1⟩

theorem rw_total {S : Type} (R : Rewriter S) (hR : R.Sound) (cb : Bool) (μ : NExpr → Nat)
    (hμ : R.Shrinks μ) : ∀ (k : Nat) (n : NExpr) (a : Addr) (s : S), μ n < k → n.present = true →
    WFC n → ∃ n' s' b, Rw R cb a n s n' s' b := by
  intro k
  induction k with
  | zero => intro n a s h; omega
  | succ k ih =>
    intro n a s hk hp hw
    have hs := hR.pre n (R.path (chain a) s) hp hw
    have hm := hμ n (R.path (chain a) s)
    cases hpre : R.pre n (R.path (chain a) s) with
    | mk s1 q =>
    obtain ⟨n1, b1⟩ := q
    rw [hpre] at hs hm
    cases n1 with
    | absent => simp [Tree.present] at hs
    | node l ks =>
    have hw1 := hs.2
    simp only [WFC] at hw1
    have hwk := touchKids_wfcs l.kind ks hw1.2
    obtain ⟨ks1, s2, b2, hkids⟩ := kids_total R cb a l (touchKids l.kind ks) []
      (visits R (.node l ks) (.preExpr (.loc a) :: preKind l.kind (.loc a)) s1)
      (fun c hc hcp a s => ih c a s (by have := hm l ks hp hw rfl c hc hcp; omega) hcp
        ((wfcs_iff _).mp hwk c hc))
    obtain ⟨hshk, hwk1⟩ := kids_wfc R hR cb hkids (touchKids_shape _ _ hw1.1) hwk
    have hs3 := hR.post (.node l ks1) (visits R (.node l ks1)
      (postKind l.kind (.loc a) ++ [.postExpr (.loc a)]) s2) rfl (by simp only [WFC]; exact ⟨hshk, hwk1⟩)
    cases hpost : R.post (.node l ks1) (visits R (.node l ks1)
      (postKind l.kind (.loc a) ++ [.postExpr (.loc a)]) s2) with
    | mk s3 q3 =>
    obtain ⟨n3, b3⟩ := q3
    rw [hpost] at hs3
    cases n3 with
    | absent => simp [Tree.present] at hs3
    | node l' ks' => exact ⟨_, _, _, .node hpre hkids hpost⟩

/-- `AstRewrite` ends for every rewriter that makes progress, with a well-formed expression. -/
theorem C83_terminates {S : Type} (R : Rewriter S) (hR : R.Sound) (cb : Bool) (μ : NExpr → Nat)
    (hμ : R.Shrinks μ) (t : NExpr) (hp : t.present = true) (hw : WFC t) (s : S) :
    ∃ t' s' b N, WFC t' ∧ t'.present = true ∧
      ∀ fuel, N ≤ fuel → astRewrite R cb t s fuel = some (t', s', b) := by
  obtain ⟨t', s', b, h⟩ := rw_total R hR cb μ hμ _ t [] s (Nat.lt_succ_self _) hp hw
  have hn : nodeAt [] t = some t := by
    cases t with
    | absent => simp [Tree.present] at hp
    | node l ks => rfl
  have hr := run_expr R hR cb h t [] false hw hn
  obtain ⟨N, hN⟩ := C83_rewrite_complete R hR cb t hp hw s t' s' b h
  exact ⟨t', s', b, N, hr.1, hr.2.1, hN⟩

/-! ## The result -/

theorem touches_eq (k : NKind) : ∀ ks, touches (readsUnset k) ks = (touchKids k ks).map touch := by
  intro ks
  cases h : readsUnset k with
  | false =>
    have e : touchKids k ks = ks := by cases k <;> first | rfl | simp [readsUnset] at h
    rw [e]
    induction ks with
    | nil => rfl
    | cons c cs ih =>
      have e' : touchKids k cs = cs := by cases k <;> first | rfl | simp [readsUnset] at h
      cases c <;> simp [touches, touch, ih e']
  | true =>
    have e : ∀ ks, touchKids k ks = ks.map created := by
      intro ks; cases k <;> first | rfl | simp [readsUnset] at h
    rw [e]
    induction ks with
    | nil => rfl
    | cons c cs ih => cases c <;> simp [touches, touch, ih, created]

/-- A rewriter that changes an expression only when it says so. -/
def Rewriter.Honest {S : Type} (R : Rewriter S) : Prop :=
  (∀ n s, (R.pre n s).2.2 = false → (R.pre n s).2.1 = n) ∧
  (∀ n s, (R.post n s).2.2 = false → (R.post n s).2.1 = n)

mutual
theorem rw_unchanged {S : Type} (R : Rewriter S) (hR : R.Honest) (cb : Bool) :
    ∀ {a : Addr} {n : NExpr} {s : S} {n' : NExpr} {s' : S} {b : Bool}, Rw R cb a n s n' s' b →
    b = false → n' = touch n
  | a, n, s, _, _, _, @Rw.node _ _ _ _ _ _ s1 s2 s3 l l' ks ks1 ks' b1 b2 b3 hpre hk hpost => by
    intro hb
    simp only [Bool.or_eq_false_iff] at hb
    have h1 := hR.1 n (R.path (chain a) s)
    rw [hpre] at h1
    have h2 := hR.2 (.node l ks1) (visits R (.node l ks1)
      (postKind l.kind (.loc a) ++ [.postExpr (.loc a)]) s2)
    rw [hpost] at h2
    simp only at h1 h2
    rw [h2 hb.2, ← h1 hb.1.1, kids_unchanged R hR cb hk hb.1.2, touch, touches_eq]
    simp
theorem kids_unchanged {S : Type} (R : Rewriter S) (hR : R.Honest) (cb : Bool) :
    ∀ {a : Addr} {l : NNode} {done cs : List NExpr} {s : S} {ks : List NExpr} {s' : S} {b : Bool},
    RwKids R cb a l done cs s ks s' b → b = false → ks = done ++ cs.map touch
  | a, l, done, _, s, _, _, _, .nil => by intro _; simp
  | a, l, done, _, s, ks, s', b, .unset h => by
    intro hb
    rw [kids_unchanged R hR cb h hb]
    simp [touch]
  | a, l, done, _, s, ks, s', _, .kid hp h1 h2 => by
    intro hb
    simp only [Bool.or_eq_false_iff] at hb
    rw [kids_unchanged R hR cb h2 hb.2, rw_unchanged R hR cb h1 hb.1]
    simp
end

/-- When `AstRewrite` returns false for a rewriter that reports its changes, the expression is as it
was, but for unset list elements and comprehension parts, which now are default expressions. -/
theorem C83_false_unchanged {S : Type} (R : Rewriter S) (hR : R.Sound) (hH : R.Honest) (cb : Bool)
    (t : NExpr) (hp : t.present = true) (hw : WFC t) (s : S) (fuel : Nat) (t' : NExpr) (s' : S)
    (h : astRewrite R cb t s fuel = some (t', s', false)) : t' = touch t :=
  rw_unchanged R hH cb ((C83_rewrite_iff R hR cb t hp hw s t' s' false).mp ⟨fuel, h⟩) rfl

/-- Any report of a change makes the result true. -/
theorem C83_true_reported {S : Type} (R : Rewriter S) (hR : R.Sound) (cb : Bool)
    (hF : (∀ n s, (R.pre n s).2.2 = false) ∧ (∀ n s, (R.post n s).2.2 = false))
    (t : NExpr) (hp : t.present = true) (hw : WFC t) (s : S) (fuel : Nat) (t' : NExpr) (s' : S)
    (b : Bool) (h : astRewrite R cb t s fuel = some (t', s', b)) : b = false := by
  have key := (C83_rewrite_iff R hR cb t hp hw s t' s' b).mp ⟨fuel, h⟩
  exact rw_false R hF cb key
where
  rw_false {S : Type} (R : Rewriter S)
    (hF : (∀ n s, (R.pre n s).2.2 = false) ∧ (∀ n s, (R.post n s).2.2 = false)) (cb : Bool)
    {a : Addr} {n : NExpr} {s : S} {n' : NExpr} {s' : S} {b : Bool} (h : Rw R cb a n s n' s' b) :
    b = false := by
    refine Rw.rec (motive_1 := fun _ _ _ _ _ b _ => b = false)
      (motive_2 := fun _ _ _ _ _ _ _ b _ => b = false) ?_ ?_ ?_ ?_ h
    · intro a n s s1 s2 s3 l l' ks ks1 ks' b1 b2 b3 hpre hk hpost ih
      have h1 := hF.1 n (R.path (chain a) s)
      rw [hpre] at h1
      have h2 := hF.2 (.node l ks1) (visits R (.node l ks1)
        (postKind l.kind (.loc a) ++ [.postExpr (.loc a)]) s2)
      rw [hpost] at h2
      simp only at h1 h2
      simp [h1, h2, ih]
    · intros; rfl
    · intros; assumption
    · intro a l done cs ks c c' s s1 s' b1 b2 hp h1 h2 i1 i2
      simp [i1, i2]

/-! ## The visits -/

/-- A rewriter that changes nothing and writes down the visitor calls. -/
def logger : Rewriter (List Ev) where
  pre n s := (s, n, false)
  post n s := (s, n, false)
  visit e _ s := s ++ [e]
  path _ s := s

theorem logger_visits (n : NExpr) : ∀ (es s : List Ev), visits logger n es s = s ++ es
  | [], s => by simp [visits]
  | e :: es, s => by rw [visits, logger_visits n es]; simp [logger]

theorem logger_sound : logger.Sound :=
  ⟨fun n s hp hw => ⟨hp, hw⟩, fun n s hp hw => ⟨hp, hw⟩⟩

mutual
theorem rw_log (cb : Bool) : ∀ {a : Addr} {n : NExpr} {s : List Ev} {n' : NExpr} {s' : List Ev}
    {b : Bool}, Rw logger cb a n s n' s' b → ∀ (e : Edge), s' = s ++ trace cb (view e a n')
  | a, n, s, _, _, _, @Rw.node _ _ _ _ _ _ s1 s2 s3 l l' ks ks1 ks' b1 b2 b3 hpre hk hpost => by
    intro e
    have hs1 : s = s1 := by
      have := congrArg Prod.fst hpre; exact this
    have hpost' : (visits logger (.node l ks1) (postKind l.kind (.loc a) ++ [.postExpr (.loc a)]) s2,
        Tree.node l ks1, false) = (s3, .node l' ks', b3) := hpost
    simp only [Prod.mk.injEq, logger_visits, Tree.node.injEq] at hpost'
    obtain ⟨hs3, ⟨hl, hks⟩, _⟩ := hpost'
    obtain ⟨rest, he, ih⟩ := kids_log cb hk (touchKids_present l.kind ks)
    simp only [List.nil_append] at he
    rw [logger_visits] at ih
    rw [show logger.path (chain a).dropLast s3 = s3 from rfl, ← hs3, ih, ← hs1, ← hl, ← hks, he]
    simp [view, trace]
theorem kids_log (cb : Bool) : ∀ {a : Addr} {l : NNode} {done cs : List NExpr} {s : List Ev}
    {ks : List NExpr} {s' : List Ev} {b : Bool}, RwKids logger cb a l done cs s ks s' b →
    (readsUnset l.kind = true → ∀ c ∈ cs, c.present = true) →
    ∃ rest, ks = done ++ rest ∧
      s' = s ++ traces cb (.loc a) (viewKids l.kind a done.length rest)
  | a, l, done, _, s, _, _, _, .nil => fun _ => ⟨[], by simp, by simp [viewKids, traces]⟩
  | a, l, done, _, s, ks, s', b, .unset (cs := cs) h => by
    intro hp
    have hr : readsUnset l.kind = false := by
      cases hr : readsUnset l.kind with
      | false => rfl
      | true => have := hp hr .absent (by simp); simp [Tree.present] at this
    obtain ⟨rest, he, ih⟩ := kids_log cb h (by simp [hr])
    refine ⟨.absent :: rest, by rw [he]; simp, ?_⟩
    rw [ih]
    simp [viewKids, hr]
  | a, l, done, _, s, ks, s', _, @RwKids.kid _ _ _ _ _ _ cs _ c c' _ s1 _ b1 b2 hpc h1 h2 => by
    intro hp
    have i1 := rw_log cb h1 (edge l.kind done.length)
    obtain ⟨rest, he, i2⟩ := kids_log cb h2 fun hr x hx => hp hr x (by simp [hx])
    refine ⟨c' :: rest, by rw [he]; simp, ?_⟩
    obtain ⟨l', ks', rfl⟩ : ∃ l' ks', c' = .node l' ks' := by
      cases h1 with
      | node _ _ _ => exact ⟨_, _, rfl⟩
    rw [i2, i1, logger_visits, logger_visits]
    simp [viewKids, traces, view]
end

theorem logger_honest : logger.Honest := ⟨fun _ _ _ => rfl, fun _ _ _ => rfl⟩

theorem size_mem : ∀ (ks : List NExpr) (c : NExpr), c ∈ ks → c.size ≤ Tree.sizes ks
  | k :: ks, c, h => by
    simp only [Tree.sizes]
    rcases List.mem_cons.mp h with rfl | h
    · omega
    · have := size_mem ks c h; omega

theorem size_touchKids (k : NKind) (ks : List NExpr) (c : NExpr) (h : c ∈ touchKids k ks) :
    c.size ≤ Tree.sizes ks := by
  have hm : c ∈ ks.map created → c.size ≤ Tree.sizes ks := by
    intro h
    obtain ⟨d, hd, rfl⟩ := List.mem_map.mp h
    have := size_mem ks d hd
    cases d with
    | absent => simpa [created, Tree.size, Tree.sizes] using this
    | node l ks => exact this
  cases k <;> first | exact size_mem ks c h | exact hm h

/-- A rewriter that, before the visit, leaves a node its children or takes them away, makes
progress. -/
theorem shrinks_of_kids {S : Type} (R : Rewriter S)
    (h : ∀ l ks s l' ks', (R.pre (.node l ks) s).2.1 = .node l' ks' → ks' = ks ∨ ks' = []) :
    R.Shrinks Tree.size := by
  intro n s l ks hp hw he c hc hcp
  cases n with
  | absent => simp [Tree.present] at hp
  | node l0 ks0 =>
    have h1 := size_touchKids _ _ c hc
    rcases h l0 ks0 s l ks he with rfl | rfl
    · simp only [Tree.size]; omega
    · have h2 : 1 ≤ c.size := by cases c <;> simp [Tree.size]
      simp only [Tree.sizes] at h1; omega

/-- With a rewriter that changes nothing, the visitor is called as by `AstTraverse` (C63), the
expression only has its unset list elements and comprehension parts created, and the result is
false. -/
theorem C83_visits (cb : Bool) (t : NExpr) (hp : t.present = true) (hw : WFC t) :
    ∃ evs N, ∀ fuel, N ≤ fuel → astRewrite logger cb t [] fuel = some (touch t, evs, false) ∧
      astTraverse cb (touch t) fuel = some evs := by
  obtain ⟨t', s', b, N, hw', hp', hN⟩ := C83_terminates logger logger_sound cb Tree.size
    (shrinks_of_kids logger fun l ks s l' ks' h => by
      have : Tree.node l ks = .node l' ks' := h
      simp only [Tree.node.injEq] at this
      exact .inl this.2.symm) t hp hw []
  have hb := C83_true_reported logger logger_sound cb ⟨fun _ _ => rfl, fun _ _ => rfl⟩ t hp hw [] N t' s' b
    (hN N (Nat.le_refl _))
  subst hb
  have hrw := (C83_rewrite_iff logger logger_sound cb t hp hw [] t' s' false).mp ⟨N, hN N (Nat.le_refl _)⟩
  have ht := rw_unchanged logger logger_honest cb hrw rfl
  have hs := rw_log cb hrw .root
  subst ht
  obtain ⟨N2, hN2⟩ := C63_traverse_calls cb (touch t) hp' hw'
  refine ⟨s', N + N2, fun fuel hf => ⟨hN fuel (by omega), ?_⟩⟩
  rw [hN2 fuel (by omega), hs]
  simp [seenTree]

/-! ## Boundaries and examples -/

/-- Without progress it need not end: a rewriter that wraps every expression in a list. -/
def wrapper : Rewriter Unit where
  pre n s := (s, .node ⟨0, .list [false]⟩ [n], true)
  post n s := (s, n, false)
  visit _ _ s := s
  path _ s := s

theorem wrapper_sound : wrapper.Sound :=
  ⟨fun n s hp hw => ⟨rfl, by simp [wrapper, WFC, CShape, WFCs, hw]⟩, fun n s hp hw => ⟨hp, hw⟩⟩

theorem wrapper_never (cb : Bool) (a : Addr) (n : NExpr) (s : Unit) (n' : NExpr) (s' : Unit) (b : Bool)
    (h : Rw wrapper cb a n s n' s' b) : False := by
  refine Rw.rec (motive_1 := fun _ _ _ _ _ _ _ => False)
      (motive_2 := fun _ _ _ cs _ _ _ _ _ => (∃ c ∈ cs, c.present = true) → False) ?_ ?_ ?_ ?_ h
  · intro a n s s1 s2 s3 l l' ks ks1 ks' b1 b2 b3 hpre hk hpost ih
    have hp : Tree.node ⟨0, .list [false]⟩ [n] = Tree.node l ks := by
      have := congrArg (fun q => q.2.1) hpre; exact this
    simp only [Tree.node.injEq] at hp
    obtain ⟨rfl, rfl⟩ := hp
    exact ih ⟨created n, by simp [touchKids], present_created n⟩
  · rintro a l done s ⟨c, hc, _⟩; simp at hc
  · rintro a l done cs ks s s' b h ih ⟨c, hc, hp⟩
    rcases List.mem_cons.mp hc with rfl | hc
    · simp [Tree.present] at hp
    · exact ih ⟨c, hc, hp⟩
  · intro a l done cs ks c c' s s1 s' b1 b2 hp h1 h2 i1 i2 _; exact i1

/-- … `AstRewrite` then runs for ever (and follows no dangling pointer, `C83_no_dangling`). -/
theorem C83_boundary_divergence (cb : Bool) (t : NExpr) (hp : t.present = true) (hw : WFC t)
    (fuel : Nat) : astRewrite wrapper cb t () fuel = none := by
  cases h : astRewrite wrapper cb t () fuel with
  | none => rfl
  | some r =>
    obtain ⟨t', s', b⟩ := r
    exact absurd ((C83_rewrite_iff wrapper wrapper_sound cb t hp hw () t' s' b).mp ⟨fuel, h⟩)
      (wrapper_never cb [] t () t' s' b)

/-- A list with an unset element, called on: `f([_, x])`. -/
def sample : NExpr :=
  .node ⟨1, .call "f"⟩ [.absent, .node ⟨2, .list [false, true]⟩ [.absent, .node ⟨3, .ident "x"⟩ []]]

theorem sample_wf : sample.present = true ∧ WFC sample := by
  refine ⟨rfl, ?_⟩
  simp [sample, WFC, WFCs, CShape, Tree.present]

/-- A rewriter that replaces the identifier `x` by `y` before the visit and renames the function
after it, counting what it sees. -/
def renamer : Rewriter Nat where
  pre n s := match n with
    | .node ⟨i, .ident "x"⟩ ks => (s + 1, .node ⟨i, .ident "y"⟩ ks, true)
    | n => (s, n, false)
  post n s := match n with
    | .node ⟨i, .call "f"⟩ ks => (s + 10, .node ⟨i, .call "g"⟩ ks, true)
    | n => (s, n, false)
  visit _ _ s := s + 100
  path p s := s + 1000 * p.length

/-- The unset element is created, the identifier and the function are renamed. -/
theorem C83_example : astRewrite renamer false sample 0 100 = some
    (.node ⟨1, .call "g"⟩ [.absent, .node ⟨2, .list [false, true]⟩ [.node NNode.dflt [],
      .node ⟨3, .ident "y"⟩ []]], 15311, true) := by rfl

end Cel.Rewrite
