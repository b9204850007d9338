import Verif.Mem.ByteStringOps

/-
C52: in every history of byte strings nothing is used after it is released,
nothing is released twice, nothing leaks, and every string reads as the plain
sequence of bytes it stands for.
-/

set_option linter.unusedVariables false
set_option linter.unusedSimpArgs false

namespace Cel.Mem

def VarRel (h : Heap) : Var → AVar → Prop
  | .dead, .dead => True
  | .live r, .val bs => RepOk h r ∧ bytesOf h r = bs
  | .moved _, .moved => True
  | _, _ => False

def RelAt (h : Heap) : Option Var → Option AVar → Prop
  | none, none => True
  | some v, some a => VarRel h v a
  | _, _ => False

structure SInv (s : St) (l : List AVar) : Prop where
  heap : HInv s.heap (total s.vars)
  rel : ∀ i : Nat, RelAt s.heap (s.vars[i]?) (l[i]?)

theorem VarRel.mono {h h' : Heap} (le : Le h h') {v : Var} {a : AVar} (r : VarRel h v a) :
    VarRel h' v a := by
  cases v <;> cases a <;> try exact r
  exact ⟨RepOk.mono le r.1, (bytesOf_mono le r.1).trans r.2⟩

theorem RelAt.mono {h h' : Heap} (le : Le h h') {v : Option Var} {a : Option AVar}
    (r : RelAt h v a) : RelAt h' v a := by
  cases v <;> cases a <;> try exact r
  exact VarRel.mono le r

/-! ### Counting handles -/

theorem total_set {l : List Var} : ∀ {i : Nat} {v : Var} (hv : l[i]? = some v) (u : Var)
    (k : Nat), total (l.set i u) k + hsVar v k = total l k + hsVar u k := by
  induction l with
  | nil => intro i v hv; simp at hv
  | cons x l ih =>
    intro i v hv u k
    cases i with
    | zero =>
      simp at hv; subst hv
      simp [total]; omega
    | succ i =>
      have := ih (i := i) (v := v) (by simpa using hv) u k
      simp [total] at this ⊢
      omega

theorem hs_le_total {l : List Var} {i : Nat} {v : Var} (hv : l[i]? = some v) (k : Nat) :
    hsVar v k ≤ total l k := by
  have := total_set hv .dead k
  have h0 : hsVar .dead k = 0 := rfl
  omega

theorem hs_two_le {l : List Var} {i j : Nat} {v w : Var} (hv : l[i]? = some v)
    (hw : l[j]? = some w) (ne : i ≠ j) (k : Nat) : hsVar v k + hsVar w k ≤ total l k := by
  have h1 := total_set hv .dead k
  have h2 : (l.set i .dead)[j]? = some w := by rw [List.getElem?_set_ne ne]; exact hw
  have h3 := hs_le_total h2 k
  have h0 : hsVar .dead k = 0 := rfl
  omega

theorem lt_of_some {α : Type} {l : List α} {i : Nat} {x : α} (h : l[i]? = some x) :
    i < l.length := (List.getElem?_eq_some_iff.1 h).1

/-! ### Storing results -/

theorem rel_set {h : Heap} {vs : List Var} {l : List AVar} {i : Nat} {v : Var} {a : AVar}
    (r : ∀ j : Nat, RelAt h (vs[j]?) (l[j]?)) (va : VarRel h v a) :
    ∀ j : Nat, RelAt h ((vs.set i v)[j]?) ((l.set i a)[j]?) := by
  intro j
  have := r j
  rw [List.getElem?_set, List.getElem?_set]
  by_cases e : i = j
  · subst e
    rw [if_pos rfl, if_pos rfl]
    cases h1 : vs[i]? <;> cases h2 : l[i]? <;> rw [h1, h2] at this
    · have a1 : ¬ i < vs.length := by
        intro hlt; rw [List.getElem?_eq_getElem hlt] at h1; cases h1
      have a2 : ¬ i < l.length := by
        intro hlt; rw [List.getElem?_eq_getElem hlt] at h2; cases h2
      rw [if_neg a1, if_neg a2]; trivial
    · exact this.elim
    · exact this.elim
    · rw [if_pos (lt_of_some h1), if_pos (lt_of_some h2)]; exact va
  · rw [if_neg e, if_neg e]; exact this

theorem into_ok {s : St} {l : List AVar} (i : SInv s l) {n : Nat} {v : Var}
    {res : Option (Heap × Rep)} {bs : Bytes} (hv : s.vars[n]? = some v)
    (m : Makes s.heap (fun k => total s.vars k - hsVar v k) res bs) :
    ∃ s', into s n res = some s' ∧ SInv s' (l.set n (.val bs)) := by
  obtain ⟨h', r, e, i', le, k, b⟩ := m
  subst e
  refine ⟨_, rfl, ⟨?_, ?_⟩⟩
  · refine i'.congr ?_
    intro k
    have h1 := total_set hv (.live r) k
    have h2 := hs_le_total hv k
    show total s.vars k - hsVar v k + hs r k = total (s.vars.set n (.live r)) k
    have h3 : hsVar (.live r) k = hs r k := rfl
    omega
  · exact rel_set (fun j => RelAt.mono le (i.rel j)) ⟨k, b⟩

theorem intoMove_ok {s : St} {l : List AVar} (i : SInv s l) {n m : Nat} {v w : Var}
    {res : Option (Heap × Rep × Rep)} {bs : Bytes} (hv : s.vars[n]? = some v)
    (hw : s.vars[m]? = some w) (ne : n ≠ m)
    (mk : Moves s.heap (fun k => total s.vars k - hsVar v k - hsVar w k) res bs) :
    ∃ s', intoMove s n m res = some s' ∧ SInv s' ((l.set n (.val bs)).set m .moved) := by
  obtain ⟨h', r, r', e, i', le, k, b⟩ := mk
  subst e
  refine ⟨_, rfl, ⟨?_, ?_⟩⟩
  · refine i'.congr ?_
    intro k
    have h1 := total_set hv (.live r) k
    have hw' : (s.vars.set n (.live r))[m]? = some w := by
      rw [List.getElem?_set_ne ne]; exact hw
    have h2 := total_set hw' (.moved r') k
    have h3 := hs_two_le hv hw ne k
    have h4 : hsVar (.live r) k = hs r k := rfl
    have h5 : hsVar (.moved r') k = hs r' k := rfl
    show total s.vars k - hsVar v k - hsVar w k + hs r k + hs r' k
      = total ((s.vars.set n (.live r)).set m (.moved r')) k
    omega
  · exact rel_set (rel_set (fun j => RelAt.mono le (i.rel j)) ⟨k, b⟩) trivial

/-! ### Reading the specification's side -/

theorem dead_at {s : St} {l : List AVar} (i : SInv s l) {n : Nat} (h : IsDead l n) :
    s.vars[n]? = some .dead := by
  have := i.rel n
  rw [h] at this
  cases hv : s.vars[n]? with
  | none => rw [hv] at this; exact this.elim
  | some v =>
    rw [hv] at this
    cases v with
    | dead => rfl
    | live r => exact (show False from this).elim
    | moved r => exact (show False from this).elim

theorem val_at {s : St} {l : List AVar} (i : SInv s l) {n : Nat} (h : IsVal l n) :
    ∃ r, s.vars[n]? = some (.live r) ∧ RepOk s.heap r ∧ bytesOf s.heap r = bytesAt l n := by
  obtain ⟨bs, h⟩ := h
  have := i.rel n
  rw [h] at this
  cases hv : s.vars[n]? with
  | none => rw [hv] at this; exact this.elim
  | some v =>
    rw [hv] at this
    cases v with
    | dead => exact (show False from this).elim
    | live r =>
      refine ⟨r, rfl, this.1, this.2.trans ?_⟩
      simp [bytesAt, List.getD_eq_getElem?_getD, h]
    | moved r => exact (show False from this).elim

theorem alive_at {s : St} {l : List AVar} (i : SInv s l) {n : Nat} (h : IsAlive l n) :
    ∃ v r, s.vars[n]? = some v ∧ v.rep? = some r ∧ (∀ k, hsVar v k = hs r k) := by
  rcases h with h | h
  · obtain ⟨r, h1, _, _⟩ := val_at i h
    exact ⟨_, r, h1, rfl, fun _ => rfl⟩
  · have := i.rel n
    rw [h] at this
    cases hv : s.vars[n]? with
    | none => rw [hv] at this; exact this.elim
    | some v =>
      rw [hv] at this
      cases v with
      | dead => exact (show False from this).elim
      | live r => exact (show False from this).elim
      | moved r => exact ⟨_, r, rfl, rfl, fun _ => rfl⟩

theorem var_of {s : St} {n : Nat} {v : Var} (h : s.vars[n]? = some v) : s.var n = v := by
  simp [St.var, List.getD_eq_getElem?_getD, h]

theorem ne_of_dead_live {s : St} {i j : Nat} {r : Rep} (hi : s.vars[i]? = some .dead)
    (hj : s.vars[j]? = some (.live r)) : i ≠ j := by
  intro e; subst e; rw [hi] at hj; cases hj

theorem le_hs {s : St} {j : Nat} {r : Rep} (hj : s.vars[j]? = some (.live r)) (k : Nat) :
    hs r k ≤ total s.vars k - hsVar .dead k := by
  have := hs_le_total hj k
  simpa [hsVar] using this

theorem heap_dead {s : St} {l : List AVar} (i : SInv s l) :
    HInv s.heap (fun k => total s.vars k - hsVar .dead k) :=
  i.heap.congr (by intro k; simp [hsVar])

theorem heap_split {s : St} {l : List AVar} (i : SInv s l) {n : Nat} {v : Var} {r : Rep}
    (hv : s.vars[n]? = some v) (e : ∀ k, hsVar v k = hs r k) :
    HInv s.heap (fun k => total s.vars k - hsVar v k + hs r k) :=
  i.heap.congr (by
    intro k
    have := hs_le_total hv k
    have := e k
    show total s.vars k = total s.vars k - hsVar v k + hs r k
    omega)

theorem heap_split_dead {s : St} {l : List AVar} (i : SInv s l) {n : Nat} {r : Rep}
    (hv : s.vars[n]? = some (.live r)) :
    HInv s.heap (fun k => total s.vars k - hsVar .dead k - hsVar (.live r) k + hs r k) :=
  (heap_split i hv (fun _ => rfl)).congr (by intro k; simp [hsVar])

/-! ### Every allowed operation works -/

theorem resetArena_ok {s : St} {l : List AVar} (i : SInv s l) {a : Nat}
    (no : ∀ r, Var.live r ∈ s.vars → r.getArena ≠ some a) :
    SInv { s with heap := s.heap.dropArena a } l := by
  refine ⟨⟨?_, ?_, ?_⟩, ?_⟩
  · intro k n hk
    simp only [Heap.dropArena] at hk
    split at hk
    · cases hk
    · exact i.heap.counted k n hk
  · intro k hk
    refine i.heap.other k ?_
    intro n hn
    refine hk n ?_
    simp only [Heap.dropArena]
    rw [if_neg]
    · exact hn
    · rw [hn]; intro e; cases e
  · intro k hk
    simp only [Heap.dropArena]
    rw [i.heap.fresh k hk]
    rw [if_neg]; intro e; cases e
  · intro n
    have := i.rel n
    cases hv : s.vars[n]? with
    | none =>
      cases ha : l[n]? with
      | none => simp [hv, ha, RelAt]
      | some x => rw [hv, ha] at this; exact this.elim
    | some v =>
      cases ha : l[n]? with
      | none => rw [hv, ha] at this; exact this.elim
      | some x =>
        rw [hv, ha] at this
        show VarRel _ v x
        cases v with
        | dead => cases x <;> exact this
        | moved r => cases x <;> exact this
        | live r =>
          cases x with
          | dead => exact this
          | moved => exact this
          | val bs =>
            refine ⟨?_, ?_⟩
            · have hr : RepOk s.heap r := this.1
              have hn := no r (List.mem_of_getElem? hv)
              cases r with
              | small a' d => exact hr
              | large c =>
                intro y hy
                have := hr y hy
                cases y with
                | own b => trivial
                | shared id p m => exact ⟨this.1, this.2⟩
              | medium p m o =>
                refine ⟨hr.1, ?_⟩
                rcases hr.2 with h1 | ⟨h1, a', h2, h3⟩ | ⟨h1, h2⟩
                · exact Or.inl h1
                · refine Or.inr (Or.inl ⟨h1, a', h2, ?_⟩)
                  have : a' ≠ a := by
                    intro e; subst e; exact hn h2
                  show (if s.heap.kind p.blk = .arena a then BlkKind.freed
                    else s.heap.kind p.blk) = .arena a'
                  rw [if_neg, h3]
                  rw [h3]; intro e; cases e; exact this rfl
                · refine Or.inr (Or.inr ⟨h1, ?_⟩)
                  show (if s.heap.kind p.blk = .arena a then BlkKind.freed
                    else s.heap.kind p.blk) = .ext
                  rw [if_neg, h2]
                  rw [h2]; intro e; cases e
            · have hb : bytesOf s.heap r = bs := this.2
              rw [← hb]
              cases r with
              | small a' d => rfl
              | medium p m o => rfl
              | large c =>
                show cordBytes (s.heap.dropArena a) c = cordBytes s.heap c
                clear hb this hv no
                induction c with
                | nil => rfl
                | cons y c ih => cases y <;> simp [cordBytes, ih] <;> rfl

theorem step_ok {s : St} {l : List AVar} (i : SInv s l) {op : Op} (ok : Allowed l op)
    (ok' : AllowedHere s op) : ∃ s', step s op = some s' ∧ SInv s' (spec l op) := by
  cases op with
  | ofString n a bs =>
    exact into_ok i (dead_at i ok) (ofString_ok (heap_dead i) a bs)
  | ofCord n a cs =>
    have hk : ∀ (g : Heap) (cs : List Bytes), CordOk g (cs.map .own)
        ∧ cordBytes g (cs.map .own) = cs.flatten ∧ ∀ k, hsCord (cs.map .own) k = 0 := by
      intro g cs
      induction cs with
      | nil => exact ⟨fun x hx => by simp at hx, rfl, fun _ => rfl⟩
      | cons b cs ih =>
        refine ⟨?_, by simp [cordBytes, ih.2.1], fun k => by simp [hsCord, ih.2.2]⟩
        intro x hx
        simp only [List.map_cons, List.mem_cons] at hx
        rcases hx with hx | hx
        · subst hx; trivial
        · exact ih.1 x hx
    have := hk s.heap cs
    have m := ofTempCord_ok a (H := fun k => total s.vars k - hsVar .dead k)
      ((heap_dead i).congr (by intro k; simp [this.2.2])) this.1
    rw [this.2.1] at m
    exact into_ok i (dead_at i ok) m
  | external n bs =>
    exact into_ok i (dead_at i ok) (fromExternal_ok (heap_dead i) bs)
  | copy n m al =>
    obtain ⟨r, hr, k, b⟩ := val_at i ok.2
    have := into_ok i (dead_at i ok.1) (construct_ok (heap_dead i) k (le_hs hr) al)
    rw [b] at this
    simpa only [step, var_of hr, Var.rep?, spec] using this
  | move n m al =>
    obtain ⟨r, hr, k, b⟩ := val_at i ok.2
    have hd := dead_at i ok.1
    have := intoMove_ok i hd hr (ne_of_dead_live hd hr)
      (constructMove_ok (heap_split_dead i hr) k al)
    rw [b] at this
    simpa only [step, var_of hr, Var.rep?, spec] using this
  | assign n m =>
    obtain ⟨r, hr, k, b⟩ := val_at i ok.2
    by_cases e : n = m
    · subst e
      refine ⟨s, by simp [step], ?_⟩
      have : l.set n (.val (bytesAt l n)) = l := by
        obtain ⟨bs, h⟩ := ok.2
        have hb : bytesAt l n = bs := by
          simp [bytesAt, List.getD_eq_getElem?_getD, h]
        rw [hb]
        apply List.ext_getElem?
        intro j
        rw [List.getElem?_set]
        by_cases e : n = j
        · subst e; rw [if_pos rfl, if_pos (lt_of_some h), h]
        · rw [if_neg e]
      simp only [spec, this]
      exact i
    · obtain ⟨v, r1, hv, hr1, hh⟩ := alive_at i ok.1
      have q : ∀ k, hs r k ≤ total s.vars k - hsVar v k := fun k => by
        have := hs_two_le hv hr e k
        have h3 : hsVar (.live r) k = hs r k := rfl
        omega
      have hlr : (Var.live r).rep? = some r := rfl
      have := into_ok i hv (copyFrom_ok (heap_split i hv hh) k q)
      rw [b] at this
      simpa only [step, if_neg e, var_of hv, var_of hr, hr1, hlr, spec] using this
  | assignMove n m =>
    obtain ⟨r, hr, k, b⟩ := val_at i ok.2
    by_cases e : n = m
    · exact ⟨s, by simp [step, e], by simpa [spec, e] using i⟩
    · obtain ⟨v, r1, hv, hr1, hh⟩ := alive_at i ok.1
      have hi : HInv s.heap (fun k => total s.vars k - hsVar v k - hsVar (.live r) k
          + hs r1 k + hs r k) := i.heap.congr (by
        intro k
        have := hs_two_le hv hr e k
        have := hh k
        have h3 : hsVar (.live r) k = hs r k := rfl
        show total s.vars k = total s.vars k - hsVar v k - hsVar (.live r) k + hs r1 k + hs r k
        omega)
      have hlr : (Var.live r).rep? = some r := rfl
      have := intoMove_ok i hv hr e (moveFrom_ok hi k)
      rw [b] at this
      simpa only [step, if_neg e, var_of hv, var_of hr, hr1, hlr, spec] using this
  | swap n m =>
    obtain ⟨v, r1, hv, hr1, hh⟩ := alive_at i ok.1
    obtain ⟨w, r2, hw, hr2, hh2⟩ := alive_at i ok.2
    have rv := i.rel n
    have rw' := i.rel m
    rw [hv] at rv
    rw [hw] at rw'
    have ev : v.withRep r1 = v := by cases v <;> cases hr1 <;> rfl
    have ew : w.withRep r2 = w := by cases w <;> cases hr2 <;> rfl
    by_cases e : n = m
    · subst e
      refine ⟨s, by simp [step], ?_⟩
      have hl : n < l.length := by
        cases h : l[n]? with
        | none => rw [h] at rv; exact rv.elim
        | some x => exact lt_of_some h
      have : spec l (.swap n n) = l := by
        simp only [spec]
        apply List.ext_getElem?
        intro j
        rw [List.getElem?_set, List.getElem?_set]
        by_cases e : n = j
        · subst e
          simp [List.getElem?_eq_getElem hl, hl]
        · rw [if_neg e, if_neg e]
      rw [this]; exact i
    · refine ⟨⟨s.heap, (s.vars.set n w).set m v⟩, ?_, ⟨?_, ?_⟩⟩
      · simp only [step, if_neg e, var_of hv, var_of hw, hr1, hr2, swapReps_eq, ev, ew]
      · refine i.heap.congr ?_
        intro k
        have h1 := total_set hv w k
        have hw' : (s.vars.set n w)[m]? = some w := by
          rw [List.getElem?_set_ne e]; exact hw
        have h2 := total_set hw' v k
        show total s.vars k = total ((s.vars.set n w).set m v) k
        omega
      · cases hl : l[n]? with
        | none => rw [hl] at rv; exact rv.elim
        | some x =>
          cases hl2 : l[m]? with
          | none => rw [hl2] at rw'; exact rw'.elim
          | some y =>
            rw [hl] at rv
            rw [hl2] at rw'
            have g1 : l.getD n .dead = x := by simp [List.getD_eq_getElem?_getD, hl]
            have g2 : l.getD m .dead = y := by simp [List.getD_eq_getElem?_getD, hl2]
            simp only [spec, g1, g2]
            exact rel_set (rel_set i.rel rw') rv
  | destroy n =>
    obtain ⟨v, r, hv, hr, hh⟩ := alive_at i ok
    obtain ⟨h', e, i', le⟩ := destroy_ok (heap_split i hv hh)
    refine ⟨⟨h', s.vars.set n .dead⟩, by simp [step, var_of hv, hr, e], ⟨?_, ?_⟩⟩
    · refine i'.congr ?_
      intro k
      have h1 := total_set hv .dead k
      have h2 : hsVar .dead k = 0 := rfl
      show total s.vars k - hsVar v k = total (s.vars.set n .dead) k
      omega
    · exact rel_set (fun j => RelAt.mono le (i.rel j)) trivial
  | substring n m pos npos =>
    obtain ⟨r, hr, k, b⟩ := val_at i ok.2.1
    have := into_ok i (dead_at i ok.1)
      (substring_ok (heap_dead i) k (le_hs hr) ok.2.2.1 (by rw [b]; exact ok.2.2.2))
    rw [b] at this
    simpa only [step, var_of hr, Var.rep?, spec] using this
  | removePrefix n m =>
    obtain ⟨r, hr, k, b⟩ := val_at i ok.1
    have := into_ok i hr
      (removePrefix_ok (heap_split i hr (fun _ => rfl)) k (by rw [b]; exact ok.2))
    rw [b] at this
    simpa only [step, var_of hr, Var.rep?, spec] using this
  | removeSuffix n m =>
    obtain ⟨r, hr, k, b⟩ := val_at i ok.1
    have := into_ok i hr
      (removeSuffix_ok (heap_split i hr (fun _ => rfl)) k (by rw [b]; exact ok.2))
    rw [b] at this
    simpa only [step, var_of hr, Var.rep?, spec] using this
  | concat n m m' a =>
    obtain ⟨r, hr, k, b⟩ := val_at i ok.2.1
    obtain ⟨r', hr', k', b'⟩ := val_at i ok.2.2
    have := into_ok i (dead_at i ok.1)
      (concat_ok (heap_dead i) k k' (le_hs hr) (le_hs hr') a)
    rw [b, b'] at this
    simpa only [step, var_of hr, var_of hr', Var.rep?, spec] using this
  | clone n m a =>
    obtain ⟨r, hr, k, b⟩ := val_at i ok.2
    have := into_ok i (dead_at i ok.1) (clone_ok (heap_dead i) k (le_hs hr) a)
    rw [b] at this
    simpa only [step, var_of hr, Var.rep?, spec] using this
  | viaCord n m a =>
    obtain ⟨r, hr, k, b⟩ := val_at i ok.2
    obtain ⟨g, c, e, i1, l1, k1, b1⟩ := toCord_ok (heap_dead i) k (le_hs hr)
    obtain ⟨g2, r2, e2, i2, l2, k2, b2⟩ := ofTempCord_ok a i1 k1
    have mk : Makes s.heap (fun k => total s.vars k - hsVar .dead k)
        (ofTempCord a (toCord s.heap r)) (bytesAt l m) :=
      ⟨g2, r2, by rw [e, e2], i2, l1.trans l2, k2, by rw [b2, b1, b]⟩
    have := into_ok i (dead_at i ok.1) mk
    simpa only [step, var_of hr, Var.rep?, spec] using this
  | viaCordMove n m a =>
    obtain ⟨r, hr, k, b⟩ := val_at i ok.2
    have hd := dead_at i ok.1
    obtain ⟨g, c, r', e, i1, l1, k1, b1⟩ := toCordMove_ok (heap_split_dead i hr) k
    obtain ⟨g2, r2, e2, i2, l2, k2, b2⟩ := ofTempCord_ok a i1 k1
    have mk : Moves s.heap (fun k => total s.vars k - hsVar .dead k - hsVar (.live r) k)
        ((ofTempCord a (some (g, c))).map fun x => (x.1, x.2, r')) (bytesAt l m) :=
      ⟨g2, r2, r', by rw [e2]; rfl, i2.congr (by intro k; dsimp only; omega), l1.trans l2, k2,
        by rw [b2, b1, b]⟩
    have := intoMove_ok i hd hr (ne_of_dead_live hd hr) mk
    simpa only [step, var_of hr, Var.rep?, spec, e] using this
  | borrow n m pos npos =>
    obtain ⟨r, hr, k, b⟩ := val_at i ok.2.1
    obtain ⟨p, c, o, hm⟩ := ok'
    rw [var_of hr] at hm
    cases hm
    have hl := ok.2.2.2
    rw [← b, bytesOf_length k] at hl
    have := into_ok i (dead_at i ok.1)
      (borrowed_ok (heap_dead i) k (le_hs hr) ok.2.2.1 hl)
    have b' : sliceOf s.heap p c = bytesAt l m := b
    rw [b'] at this
    simpa only [step, var_of hr, Var.rep?, spec] using this
  | resetArena a => exact ⟨_, rfl, resetArena_ok i ok'⟩

/-! ### The theorems -/

theorem sinv_init (n : Nat) : SInv (init n) (List.replicate n .dead) := by
  have ht : ∀ k, total (List.replicate n .dead) k = 0 := by
    intro k
    induction n with
    | zero => rfl
    | succ n ih => simp [total, List.replicate_succ, hsVar] at ih ⊢
  refine ⟨⟨?_, ?_, ?_⟩, ?_⟩
  · intro k m hk; cases hk
  · intro k _; exact ht k
  · intro k _; rfl
  · intro j
    simp only [init, List.getElem?_replicate]
    by_cases h : j < n
    · rw [if_pos h, if_pos h]; trivial
    · rw [if_neg h, if_neg h]; trivial

theorem sinv_hist {n : Nat} {ops : List Op} {s : St} {l : List AVar} (h : Hist n ops s l) :
    SInv s l := by
  induction h with
  | nil => exact sinv_init n
  | step h ok ok' st ih =>
    obtain ⟨s', e, i⟩ := step_ok ih ok ok'
    rw [st] at e
    cases e
    exact i

/-- **C52.** A program that keeps to the interface never runs into undefined
behaviour: the next operation it is allowed to do always works. -/
theorem C52_no_undefined_behaviour {n : Nat} {ops : List Op} {s : St} {l : List AVar}
    (h : Hist n ops s l) {op : Op} (ok : Allowed l op) (ok' : AllowedHere s op) :
    ∃ s', step s op = some s' := by
  obtain ⟨s', e, _⟩ := step_ok (sinv_hist h) ok ok'
  exact ⟨s', e⟩

/-- **C52.** Every byte string reads as the plain sequence of bytes it stands
for, whatever its representation and whatever it shares with others. -/
theorem C52_reads {n : Nat} {ops : List Op} {s : St} {l : List AVar}
    (h : Hist n ops s l) : Reads s l := by
  have i := sinv_hist h
  apply List.ext_getElem?
  intro j
  rw [List.getElem?_map, List.getElem?_map]
  have := i.rel j
  cases hv : s.vars[j]? with
  | none =>
    cases ha : l[j]? with
    | none => rfl
    | some x => rw [hv, ha] at this; exact this.elim
  | some v =>
    cases ha : l[j]? with
    | none => rw [hv, ha] at this; exact this.elim
    | some x =>
      rw [hv, ha] at this
      have hx : absVar s.heap v = some x := by
        cases v with
        | dead =>
          cases x with
          | dead => rfl
          | val bs => exact (show False from this).elim
          | moved => exact (show False from this).elim
        | moved r =>
          cases x with
          | dead => exact (show False from this).elim
          | val bs => exact (show False from this).elim
          | moved => rfl
        | live r =>
          cases x with
          | dead => exact (show False from this).elim
          | moved => exact (show False from this).elim
          | val bs =>
            have h1 := toBytes_ok i.heap this.1 (fun k => hs_le_total hv k)
            have h2 : bytesOf s.heap r = bs := this.2
            simp [absVar, h1, h2]
      simp [hx]

/-- **C52.** `size` is the number of bytes. -/
theorem C52_size {n : Nat} {ops : List Op} {s : St} {l : List AVar}
    (h : Hist n ops s l) {j : Nat} {r : Rep} (hv : s.var j = .live r) :
    r.size = (bytesAt l j).length := by
  have i := sinv_hist h
  have hr : s.vars[j]? = some (.live r) := by
    unfold St.var at hv
    rw [List.getD_eq_getElem?_getD] at hv
    cases h1 : s.vars[j]? with
    | none => rw [h1] at hv; cases hv
    | some v => rw [h1] at hv; simp at hv; rw [hv]
  have := i.rel j
  rw [hr] at this
  cases ha : l[j]? with
  | none => rw [ha] at this; exact this.elim
  | some x =>
    rw [ha] at this
    cases x with
    | dead => exact (show False from this).elim
    | moved => exact (show False from this).elim
    | val bs =>
      have hb : bytesAt l j = bs := by simp [bytesAt, List.getD_eq_getElem?_getD, ha]
      rw [hb, ← this.2, bytesOf_length this.1]

/-- **C52.** Nothing leaks: when no byte string is left, no counted block of
memory is left. -/
theorem C52_no_leak {n : Nat} {ops : List Op} {s : St} {l : List AVar}
    (h : Hist n ops s l) (dead : ∀ v ∈ s.vars, v = .dead) :
    ∀ k c, s.heap.kind k ≠ .counted c := by
  have i := sinv_hist h
  intro k c hk
  have h1 := i.heap.counted k c hk
  have h2 : ∀ vs : List Var, (∀ v ∈ vs, v = .dead) → total vs k = 0 := by
    intro vs hvs
    induction vs with
    | nil => rfl
    | cons v vs ih =>
      have a := hvs v (List.mem_cons_self ..)
      have b := ih (fun u hu => hvs u (List.mem_cons_of_mem _ hu))
      subst a
      simp [total, hsVar] at b ⊢
      exact b
  have h3 := h2 s.vars dead
  omega

/-- **C52.** The inline representation never holds more than its 15 bytes. -/
theorem C52_inline_fits {n : Nat} {ops : List Op} {s : St} {l : List AVar}
    (h : Hist n ops s l) {a : Option Nat} {d : Bytes}
    (m : Var.live (.small a d) ∈ s.vars) : d.length ≤ 15 := by
  have i := sinv_hist h
  obtain ⟨j, hj⟩ := List.getElem?_of_mem m
  have := i.rel j
  rw [hj] at this
  cases ha : l[j]? with
  | none => rw [ha] at this; exact this.elim
  | some x =>
    rw [ha] at this
    cases x with
    | dead => exact (show False from this).elim
    | moved => exact (show False from this).elim
    | val bs => exact this.1

/-- **C52.** `ByteString(allocator, other).GetArena()` is the allocator's arena,
and `Clone(arena).GetArena()` is the arena. -/
theorem C52_get_arena {h : Heap} {r : Rep} {al : Option Nat} {h' : Heap} {r' : Rep} :
    (construct h r (some al) = some (h', r') → r'.getArena = al)
    ∧ (∀ a, clone h r a = some (h', r') → r'.getArena = some a) := by
  have sm : ∀ (h : Heap) (al : Option Nat) (bs : Bytes),
      (setMedium h al bs).2.getArena = al := by
    intro h al bs
    cases al with
    | none => simp [setMedium, Rep.getArena, wordArena_ref]
    | some a => simp [setMedium, Rep.getArena, wordArena_arena]
  have os : ∀ (h : Heap) (al : Option Nat) (bs : Bytes),
      (ofString h al bs).2.getArena = al := by
    intro h al bs
    unfold ofString
    split
    · rfl
    · exact sm h al bs
  refine ⟨?_, ?_⟩
  · intro e
    cases r with
    | small a d => simp [construct] at e; rw [← e.2]; rfl
    | medium p n o =>
      simp only [construct] at e
      split at e
      · cases hr : h.read p n with
        | none => rw [hr] at e; cases e
        | some bs =>
          rw [hr] at e
          have := sm h al bs
          rw [show setMedium h al bs = (h', r') from Option.some.inj e] at this
          exact this
      · rename_i ha
        cases hr : strongRef? h (wordRefCount o) with
        | none => rw [hr] at e; cases e
        | some g =>
          rw [hr] at e
          cases e
          exact (Decidable.not_not.1 ha).symm
    | large c =>
      cases al with
      | none =>
        simp only [construct] at e
        cases hr : copyCord h c with
        | none => rw [hr] at e; cases e
        | some g => rw [hr] at e; cases e; rfl
      | some a =>
        simp only [construct] at e
        cases hr : readCord h c with
        | none => rw [hr] at e; cases e
        | some bs =>
          rw [hr] at e
          have := sm h (some a) bs
          rw [show setMedium h (some a) bs = (h', r') from Option.some.inj e] at this
          exact this
  · intro a e
    cases r with
    | small a' d =>
      have := os h (some a) d
      rw [show ofString h (some a) d = (h', r') from Option.some.inj e] at this
      exact this
    | medium p n o =>
      simp only [clone] at e
      split at e
      · rename_i ha
        simp only [construct] at e
        cases hr : strongRef? h (wordRefCount o) with
        | none => rw [hr] at e; cases e
        | some g => rw [hr] at e; cases e; exact ha.symm
      · cases hr : h.read p n with
        | none => rw [hr] at e; cases e
        | some bs =>
          rw [hr] at e
          have := os h (some a) bs
          rw [show ofString h (some a) bs = (h', r') from Option.some.inj e] at this
          exact this
    | large c =>
      simp only [clone, ofCord] at e
      split at e
      · cases hr : readCord h c with
        | none => rw [hr] at e; cases e
        | some bs => rw [hr] at e; cases e; rfl
      · cases hr : readCord h c with
        | none => rw [hr] at e; cases e
        | some bs =>
          rw [hr] at e
          have := sm h (some a) bs
          rw [show setMedium h (some a) bs = (h', r') from Option.some.inj e] at this
          exact this

end Cel.Mem
