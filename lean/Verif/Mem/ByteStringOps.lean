import Verif.Mem.ByteStringBase

/-
C52: every operation of a byte string, one at a time.
-/

set_option linter.unusedVariables false
set_option linter.unusedSimpArgs false

namespace Cel.Mem

/-- The operation succeeds with a representation of `bs`, which brings its own
handles; `H` are the handles of everything else. -/
def Makes (h : Heap) (H : Nat → Nat) (res : Option (Heap × Rep)) (bs : Bytes) : Prop :=
  ∃ h' r, res = some (h', r) ∧ HInv h' (fun k => H k + hs r k) ∧ Le h h' ∧ RepOk h' r
    ∧ bytesOf h' r = bs

theorem inBlk_new (h : Heap) (b : BlkKind) (bs : Bytes) :
    InBlk (h.alloc b bs) ⟨h.next, 0⟩ bs.length := by
  simp [InBlk, Heap.alloc]

theorem slice_new (h : Heap) (b : BlkKind) (bs : Bytes) :
    sliceOf (h.alloc b bs) ⟨h.next, 0⟩ bs.length = bs := by
  simp [sliceOf, Heap.alloc]

theorem setMedium_ok {h : Heap} {H : Nat → Nat} (i : HInv h H) (a : Option Nat) (bs : Bytes) :
    Makes h H (some (setMedium h a bs)) bs := by
  cases a with
  | none =>
    refine ⟨_, _, rfl, ?_, le_alloc, ⟨inBlk_new h _ bs, Or.inl (wordRefCount_ref _)⟩,
      slice_new h _ bs⟩
    refine (alloc_counted i bs).congr ?_
    intro k
    simp [hs, hsWord, wordRefCount_ref]
  | some a =>
    refine ⟨_, _, rfl, ?_, le_alloc, ⟨inBlk_new h _ bs, Or.inr (Or.inl
      ⟨wordRefCount_arena a, a, wordArena_arena a, by simp [Heap.alloc]⟩)⟩, slice_new h _ bs⟩
    refine (alloc_plain i bs (b := .arena a) (by intro n e; cases e)).congr ?_
    intro k
    simp [hs, hsWord, wordRefCount_arena]

theorem small_ok {h : Heap} {H : Nat → Nat} (i : HInv h H) (a : Option Nat) {bs : Bytes}
    (l : bs.length ≤ cap) : Makes h H (some (h, .small a bs)) bs :=
  ⟨h, .small a bs, rfl, i.congr (by simp [hs]), Le.refl h, l, rfl⟩

theorem ofString_ok {h : Heap} {H : Nat → Nat} (i : HInv h H) (a : Option Nat) (bs : Bytes) :
    Makes h H (some (ofString h a bs)) bs := by
  unfold ofString
  split
  · rename_i l; exact small_ok i a l
  · exact setMedium_ok i a bs

theorem fromExternal_ok {h : Heap} {H : Nat → Nat} (i : HInv h H) (bs : Bytes) :
    Makes h H (some (fromExternal h bs)) bs := by
  unfold fromExternal
  split
  · rename_i l; exact small_ok i none l
  · refine ⟨_, _, rfl, ?_, le_alloc, ⟨inBlk_new h _ bs, Or.inr (Or.inr
      ⟨rfl, by simp [Heap.alloc]⟩)⟩, slice_new h _ bs⟩
    refine (alloc_plain i bs (b := .ext) (by intro n e; cases e)).congr ?_
    intro k
    simp [hs, hsWord, wordRefCount_zero]

theorem ofCord_ok {h : Heap} {H : Nat → Nat} (i : HInv h H) (a : Option Nat) {c : Cord}
    (k : CordOk h c) (p : ∀ k, 0 < hsCord c k → 0 < H k) :
    Makes h H (ofCord h a c) (cordBytes h c) := by
  unfold ofCord
  split
  · rename_i l
    rw [readCord_ok i k p]
    exact small_ok i a (by rw [cordBytes_length k]; exact l)
  · cases a with
    | none =>
      obtain ⟨h', e, i', l⟩ := copyCord_ok i p
      simp only [e]
      exact ⟨h', .large c, rfl, i', l, CordOk.mono l k, cordBytes_mono l k⟩
    | some a =>
      simp only [readCord_ok i k p]
      exact setMedium_ok i (some a) _

theorem share_ok {h : Heap} {H : Nat → Nat} (i : HInv h H) {p : Ptr} {n o : Nat}
    (k : RepOk h (.medium p n o)) (q : ∀ k, hsWord o k ≤ H k) :
    Makes h H ((strongRef? h (wordRefCount o)).map fun h => (h, .medium p n o))
      (sliceOf h p n) := by
  obtain ⟨h', e, i', l⟩ := strongRef?_ok i q
  simp only [e]
  exact ⟨h', _, rfl, i', l, RepOk.mono l k, sliceOf_mono l k.1⟩

theorem copyLarge_ok {h : Heap} {H : Nat → Nat} (i : HInv h H) {c : Cord}
    (k : CordOk h c) (q : ∀ k, hsCord c k ≤ H k) :
    Makes h H ((copyCord h c).map fun h => (h, .large c)) (cordBytes h c) := by
  obtain ⟨h', e, i', l⟩ := copyCord_ok i (fun j hj => Nat.lt_of_lt_of_le hj (q j))
  simp only [e]
  exact ⟨h', _, rfl, i', l, CordOk.mono l k, cordBytes_mono l k⟩

theorem construct_ok {h : Heap} {H : Nat → Nat} (i : HInv h H) {r : Rep} (k : RepOk h r)
    (q : ∀ k, hs r k ≤ H k) (al : Option (Option Nat)) :
    Makes h H (construct h r al) (bytesOf h r) := by
  cases r with
  | small a d =>
    cases al with
    | none => exact small_ok i a k
    | some al => exact small_ok i al k
  | medium p n o =>
    have hr : h.read p n = some (sliceOf h p n) := read_ok k.1 (own_live i k.2 q)
    cases al with
    | none => exact share_ok i k q
    | some al =>
      simp only [construct]
      split
      · rw [hr]; exact setMedium_ok i al _
      · exact share_ok i k q
  | large c =>
    have hr : readCord h c = some (cordBytes h c) :=
      readCord_ok i k (fun j hj => Nat.lt_of_lt_of_le hj (q j))
    cases al with
    | none => exact copyLarge_ok i k q
    | some al =>
      cases al with
      | none => exact copyLarge_ok i k q
      | some a =>
        simp only [construct, hr]
        exact setMedium_ok i (some a) _

/-- A move: `H` are the handles of everything but the source `r`; the source
keeps what is left. -/
def Moves (h : Heap) (H : Nat → Nat) (res : Option (Heap × Rep × Rep)) (bs : Bytes) : Prop :=
  ∃ h' r r', res = some (h', r, r') ∧ HInv h' (fun k => H k + hs r k + hs r' k) ∧ Le h h'
    ∧ RepOk h' r ∧ bytesOf h' r = bs

theorem hs_owner_zero (p : Ptr) (n k : Nat) : hs (.medium p n 0) k = 0 := by
  simp [hs, hsWord, wordRefCount_zero]

theorem constructMove_ok {h : Heap} {H : Nat → Nat} {r : Rep}
    (i : HInv h (fun k => H k + hs r k)) (k : RepOk h r) (al : Option (Option Nat)) :
    Moves h H (constructMove h r al) (bytesOf h r) := by
  cases r with
  | small a d =>
    cases al with
    | none => exact ⟨h, _, _, rfl, i.congr (by simp [hs]), Le.refl h, k, rfl⟩
    | some al => exact ⟨h, _, _, rfl, i.congr (by simp [hs]), Le.refl h, k, rfl⟩
  | medium p n o =>
    have hr : h.read p n = some (sliceOf h p n) :=
      read_ok k.1 (own_live i k.2 (fun j => by simp [hs]))
    have mv : Moves h H (some (h, .medium p n o, .medium p n 0)) (sliceOf h p n) :=
      ⟨h, _, _, rfl, i.congr (by intro j; simp [hs_owner_zero]), Le.refl h, k, rfl⟩
    cases al with
    | none => exact mv
    | some al =>
      simp only [constructMove]
      split
      · obtain ⟨h', r', e, i', l, k', b⟩ := setMedium_ok i al (sliceOf h p n)
        have e' := Option.some.inj e
        rw [hr]
        simp only [Option.map_some, e']
        exact ⟨_, _, _, rfl, i'.congr (by intro j; dsimp only; omega), l, k', b⟩
      · exact mv
  | large c =>
    have hr : readCord h c = some (cordBytes h c) :=
      readCord_ok i k (fun j hj => by simp [hs]; omega)
    have mv : Moves h H (some (h, .large c, .large [])) (cordBytes h c) :=
      ⟨h, _, _, rfl, i.congr (by intro j; simp [hs, hsCord]), Le.refl h, k, rfl⟩
    cases al with
    | none => exact mv
    | some al =>
      cases al with
      | none => exact mv
      | some a =>
        obtain ⟨h', r', e, i', l, k', b⟩ := setMedium_ok i (some a) (cordBytes h c)
        have e' := Option.some.inj e
        simp only [constructMove, hr, Option.map_some, e']
        exact ⟨_, _, _, rfl, i'.congr (by intro j; dsimp only; omega), l, k', b⟩

/-- Assignment: `H` are the handles of everything but the target `this`; among
them is the source. -/
theorem copyFrom_ok {h : Heap} {H : Nat → Nat} {this r : Rep}
    (i : HInv h (fun k => H k + hs this k)) (k : RepOk h r) (q : ∀ k, hs r k ≤ H k) :
    Makes h H (copyFrom h this r) (bytesOf h r) := by
  cases r with
  | small a d =>
    cases this with
    | small a' d' => exact ⟨h, _, rfl, i.congr (by simp [hs]), Le.refl h, k, rfl⟩
    | medium p n o =>
      obtain ⟨h', e, i', l⟩ := strongUnref?_ok (o := o) i
      simp only [copyFrom, e]
      exact ⟨h', _, rfl, i'.congr (by simp [hs]), l, k, rfl⟩
    | large c =>
      obtain ⟨h', e, i', l⟩ := destroyCord_ok (c := c) i
      simp only [copyFrom, e]
      exact ⟨h', _, rfl, i'.congr (by simp [hs]), l, k, rfl⟩
  | medium p n o' =>
    cases this with
    | small a' d' => exact share_ok (i.congr (by simp [hs])) k q
    | medium p' n' o =>
      obtain ⟨h1, e1, i1, l1⟩ := strongRef?_ok (o := o') i
        (fun j => Nat.le_trans (q j) (by simp [hs]))
      obtain ⟨h2, e2, i2, l2⟩ := strongUnref?_ok (o := o) (h := h1)
        (H := fun j => H j + hsWord o' j) (i1.congr (by intro j; simp only [hs]; omega))
      simp only [copyFrom, e1, e2]
      exact ⟨h2, _, rfl, i2, l1.trans l2, RepOk.mono (l1.trans l2) k,
        sliceOf_mono (l1.trans l2) k.1⟩
    | large c =>
      obtain ⟨h1, e1, i1, l1⟩ := destroyCord_ok (c := c) i
      obtain ⟨h2, r2, e2, i2, l2, k2, b2⟩ := share_ok i1 (RepOk.mono l1 k) q
      simp only [copyFrom, e1, e2]
      exact ⟨h2, r2, rfl, i2, l1.trans l2, k2, b2.trans (sliceOf_mono l1 k.1)⟩
  | large c' =>
    cases this with
    | small a' d' => exact copyLarge_ok (i.congr (by simp [hs])) k q
    | medium p' n' o =>
      obtain ⟨h1, e1, i1, l1⟩ := strongUnref?_ok (o := o) i
      obtain ⟨h2, r2, e2, i2, l2, k2, b2⟩ := copyLarge_ok i1 (CordOk.mono l1 k) q
      simp only [copyFrom, e1, e2]
      exact ⟨h2, r2, rfl, i2, l1.trans l2, k2, b2.trans (cordBytes_mono l1 k)⟩
    | large c =>
      obtain ⟨h1, e1, i1, l1⟩ := copyCord_ok (c := c') i
        (fun j hj => Nat.lt_of_lt_of_le hj (Nat.le_trans (q j) (by simp [hs])))
      obtain ⟨h2, e2, i2, l2⟩ := destroyCord_ok (c := c) (h := h1)
        (H := fun j => H j + hsCord c' j) (i1.congr (by intro j; simp only [hs]; omega))
      simp only [copyFrom, e1, e2]
      exact ⟨h2, _, rfl, i2, l1.trans l2, CordOk.mono (l1.trans l2) k,
        cordBytes_mono (l1.trans l2) k⟩

/-- Move assignment: `H` are the handles of everything but target and source. -/
theorem moveFrom_ok {h : Heap} {H : Nat → Nat} {this r : Rep}
    (i : HInv h (fun k => H k + hs this k + hs r k)) (k : RepOk h r) :
    Moves h H (moveFrom h this r) (bytesOf h r) := by
  obtain ⟨h', e, i', l⟩ := destroy_ok (r := this) (h := h) (H := fun k => H k + hs r k)
    (i.congr (by intro j; omega))
  cases r with
  | small a d =>
    simp only [moveFrom, e]
    exact ⟨h', _, _, rfl, i'.congr (by simp [hs]), l, k, rfl⟩
  | medium p n o =>
    simp only [moveFrom, e]
    exact ⟨h', _, _, rfl, i'.congr (by intro j; simp [hs_owner_zero]), l, RepOk.mono l k,
      sliceOf_mono l k.1⟩
  | large c =>
    simp only [moveFrom, e]
    exact ⟨h', _, _, rfl, i'.congr (by intro j; simp [hs, hsCord]), l, RepOk.mono l k,
      cordBytes_mono l k⟩

theorem swapReps_eq (h : Heap) (a b : Rep) : swapReps h a b = some (h, b, a) := by
  cases a <;> cases b <;> rfl

/-! ### Substrings -/

theorem subcord_ok {h : Heap} {c : Cord} : ∀ (pos n : Nat), CordOk h c →
    CordOk h (subcord c pos n)
    ∧ cordBytes h (subcord c pos n) = ((cordBytes h c).drop pos).take n
    ∧ ∀ k, hsCord (subcord c pos n) k = hsCord c k := by
  induction c with
  | nil => intro pos n k; simp [subcord, cordBytes, CordOk]
  | cons x c ih =>
    intro pos n k
    cases x with
    | own bs =>
      obtain ⟨h1, h2, h3⟩ := ih (pos - bs.length) (n - (bs.length - pos)) k.tail
      refine ⟨?_, ?_, fun j => by simp [subcord, hsCord, h3]⟩
      · intro y hy
        simp only [subcord, List.mem_cons] at hy
        rcases hy with hy | hy
        · subst hy; trivial
        · exact h1 y hy
      · simp only [subcord, cordBytes, h2, List.drop_append, List.take_append,
          List.length_drop]
    | shared id p m =>
      have hk : p.blk = id ∧ InBlk h p m := CordOk.head k
      obtain ⟨h1, h2, h3⟩ := ih (pos - m) (n - (m - pos)) k.tail
      refine ⟨?_, ?_, fun j => by simp [subcord, hsCord, h3]⟩
      · intro y hy
        simp only [subcord, List.mem_cons] at hy
        rcases hy with hy | hy
        · subst hy
          refine ⟨hk.1, hk.2.1, ?_⟩
          have := hk.2.2
          simp only
          omega
        · exact h1 y hy
      · have hl := sliceOf_length hk.2
        simp only [subcord, cordBytes, h2, List.drop_append, List.take_append,
          List.length_drop, hl]
        congr 1
        simp only [sliceOf]
        rw [List.drop_take, List.drop_drop, List.take_take]
        by_cases hp : pos ≤ m
        · rw [Nat.min_eq_left hp]
        · rw [show m - pos = 0 by omega]; simp

theorem slice_sub {h : Heap} {p : Ptr} {n pos m : Nat} (i : InBlk h p n) (l : pos + m ≤ n) :
    InBlk h ⟨p.blk, p.off + pos⟩ m
    ∧ sliceOf h ⟨p.blk, p.off + pos⟩ m = ((sliceOf h p n).drop pos).take m := by
  refine ⟨⟨i.1, by have := i.2; simp only; omega⟩, ?_⟩
  simp only [sliceOf]
  rw [List.drop_take, List.drop_drop, List.take_take]
  congr 1; omega

/-- A temporary cord: its handles are extra. -/
theorem ofTempCord_ok {h : Heap} {H : Nat → Nat} {c : Cord} (a : Option Nat)
    (i : HInv h (fun k => H k + hsCord c k)) (k : CordOk h c) :
    Makes h H (ofTempCord a (some (h, c))) (cordBytes h c) := by
  obtain ⟨h1, r, e1, i1, l1, k1, b1⟩ := ofCord_ok i a k
    (fun j hj => by show 0 < H j + hsCord c j; omega)
  obtain ⟨h2, e2, i2, l2⟩ := destroyCord_ok (c := c) (h := h1) (H := fun j => H j + hs r j)
    (i1.congr (by intro j; dsimp only; omega))
  simp only [ofTempCord, e1, e2]
  exact ⟨h2, r, rfl, i2, l1.trans l2, RepOk.mono l2 k1, (bytesOf_mono l2 k1).trans b1⟩

theorem substring_ok {h : Heap} {H : Nat → Nat} (i : HInv h H) {r : Rep} (k : RepOk h r)
    (q : ∀ k, hs r k ≤ H k) {pos npos : Nat} (l1 : pos ≤ npos)
    (l2 : npos ≤ (bytesOf h r).length) :
    Makes h H (substring h r pos npos) (((bytesOf h r).drop pos).take (npos - pos)) := by
  rw [bytesOf_length k] at l2
  cases r with
  | small a d =>
    refine ⟨h, _, rfl, i.congr (by simp [hs]), Le.refl h, ?_, rfl⟩
    have : d.length ≤ cap := k
    simp [RepOk]; omega
  | medium p n o =>
    have l2' : npos ≤ n := l2
    obtain ⟨h', e, i', l⟩ := strongRef?_ok (o := o) i q
    have hsub := slice_sub (m := npos - pos) (pos := pos) k.1 (by omega)
    have k' : RepOk h (.medium ⟨p.blk, p.off + pos⟩ (npos - pos) o) := ⟨hsub.1, k.2⟩
    simp only [substring, e]
    exact ⟨h', _, rfl, i', l, RepOk.mono l k', (sliceOf_mono l hsub.1).trans hsub.2⟩
  | large c =>
    obtain ⟨s1, s2, s3⟩ := subcord_ok pos (npos - pos) (c := c) k
    obtain ⟨h1, e1, i1, l1⟩ := copyCord_ok (c := subcord c pos (npos - pos)) i
      (fun j hj => Nat.lt_of_lt_of_le hj (by rw [s3]; exact q j))
    obtain ⟨h2, r2, e2, i2, l2, k2, b2⟩ := ofTempCord_ok none i1 (CordOk.mono l1 s1)
    refine ⟨h2, r2, ?_, i2, l1.trans l2, k2, ?_⟩
    · simp only [substring, e1, Option.map_some, e2]
    · rw [b2, cordBytes_mono l1 s1, s2]; rfl

theorem shrinkMedium_ok {h : Heap} {H : Nat → Nat} {p : Ptr} {n o : Nat}
    (i : HInv h (fun k => H k + hsWord o k)) (k : RepOk h (.medium p n o)) :
    Makes h H (shrinkMedium h p n o) (sliceOf h p n) := by
  unfold shrinkMedium
  split
  · rename_i hn
    rw [read_ok k.1 (own_live i k.2 (fun j => by omega))]
    obtain ⟨h', e, i', l⟩ := strongUnref?_ok (o := o) i
    simp only [e]
    refine ⟨h', _, rfl, i'.congr (by simp [hs]), l, ?_, rfl⟩
    simp only [RepOk, sliceOf_length k.1]
    exact hn
  · exact ⟨h, _, rfl, i, Le.refl h, k, rfl⟩

theorem shrinkLarge_ok {h : Heap} {H : Nat → Nat} {c c' : Cord}
    (i : HInv h (fun k => H k + hsCord c k)) (k : CordOk h c')
    (e : ∀ k, hsCord c' k = hsCord c k) :
    Makes h H (shrinkLarge h c c') (cordBytes h c') := by
  obtain ⟨h1, e1, i1, l1⟩ := copyCord_ok (c := c') i (fun j hj => by
    rw [e] at hj
    show 0 < H j + hsCord c j
    omega)
  obtain ⟨h2, e2, i2, l2⟩ := destroyCord_ok (c := c) (h := h1)
    (H := fun j => H j + hsCord c' j) (i1.congr (by intro j; omega))
  have k2 := CordOk.mono (l1.trans l2) k
  have b2 := cordBytes_mono (l1.trans l2) k
  simp only [shrinkLarge, e1, e2]
  split
  · rename_i hn
    rw [readCord_ok i2 k2 (fun j hj => by omega)]
    obtain ⟨h3, e3, i3, l3⟩ := destroyCord_ok (c := c') i2
    simp only [e3]
    refine ⟨h3, _, rfl, i3.congr (by simp [hs]), (l1.trans l2).trans l3, ?_, b2⟩
    simp only [RepOk, cordBytes_length k2]
    exact hn
  · exact ⟨h2, _, rfl, i2, l1.trans l2, k2, b2⟩

theorem removePrefix_ok {h : Heap} {H : Nat → Nat} {r : Rep} {n : Nat}
    (i : HInv h (fun k => H k + hs r k)) (k : RepOk h r) (l : n ≤ (bytesOf h r).length) :
    Makes h H (removePrefix h r n) ((bytesOf h r).drop n) := by
  rw [bytesOf_length k] at l
  unfold removePrefix
  by_cases h0 : n = 0
  · rw [if_pos h0, h0]
    exact ⟨h, r, rfl, i, Le.refl h, k, by simp⟩
  · rw [if_neg h0]
    cases r with
    | small a d =>
      refine ⟨h, _, rfl, i.congr (by simp [hs]), Le.refl h, ?_, rfl⟩
      have : d.length ≤ cap := k
      simp [RepOk]; omega
    | medium p m o =>
      have l' : n ≤ m := l
      have hs1 := slice_sub (m := m - n) (pos := n) k.1 (by omega)
      have := shrinkMedium_ok (p := ⟨p.blk, p.off + n⟩) (n := m - n) (o := o) i
        ⟨hs1.1, k.2⟩
      rw [hs1.2] at this
      have hl := sliceOf_length k.1
      rw [List.take_of_length_le (by simp [hl])] at this
      exact this
    | large c =>
      obtain ⟨s1, s2, s3⟩ := subcord_ok n (cordSize c - n) (c := c) k
      have := shrinkLarge_ok (c := c) i s1 s3
      rw [s2] at this
      have hl : (cordBytes h c).length = cordSize c := cordBytes_length k
      rw [List.take_of_length_le (by simp [hl])] at this
      exact this

theorem removeSuffix_ok {h : Heap} {H : Nat → Nat} {r : Rep} {n : Nat}
    (i : HInv h (fun k => H k + hs r k)) (k : RepOk h r) (l : n ≤ (bytesOf h r).length) :
    Makes h H (removeSuffix h r n) ((bytesOf h r).take ((bytesOf h r).length - n)) := by
  rw [bytesOf_length k] at *
  unfold removeSuffix
  by_cases h0 : n = 0
  · rw [if_pos h0, h0]
    refine ⟨h, r, rfl, i, Le.refl h, k, ?_⟩
    rw [List.take_of_length_le (by rw [bytesOf_length k]; omega)]
  · rw [if_neg h0]
    cases r with
    | small a d =>
      refine ⟨h, _, rfl, i.congr (by simp [hs]), Le.refl h, ?_, rfl⟩
      have : d.length ≤ cap := k
      simp [RepOk]; omega
    | medium p m o =>
      have l' : n ≤ m := l
      have hs1 := slice_sub (m := m - n) (pos := 0) k.1 (by omega)
      have := shrinkMedium_ok (p := ⟨p.blk, p.off + 0⟩) (n := m - n) (o := o) i
        ⟨hs1.1, k.2⟩
      rw [hs1.2] at this
      exact this
    | large c =>
      obtain ⟨s1, s2, s3⟩ := subcord_ok 0 (cordSize c - n) (c := c) k
      have := shrinkLarge_ok (c := c) i s1 s3
      rw [s2] at this
      exact this

/-! ### Concatenation, cords, clones, borrowing -/

theorem toCord_ok {h : Heap} {H : Nat → Nat} (i : HInv h H) {r : Rep} (k : RepOk h r)
    (q : ∀ k, hs r k ≤ H k) :
    ∃ h' c, toCord h r = some (h', c) ∧ HInv h' (fun k => H k + hsCord c k) ∧ Le h h'
      ∧ CordOk h' c ∧ cordBytes h' c = bytesOf h r := by
  cases r with
  | small a d =>
    refine ⟨h, [.own d], rfl, i.congr (by simp [hsCord]), Le.refl h, ?_, by
      simp [cordBytes, bytesOf]⟩
    intro x hx
    simp at hx; subst hx; trivial
  | medium p n o =>
    cases hw : wordRefCount o with
    | some id =>
      have hb : id = p.blk := by
        rcases k.2 with h1 | ⟨h1, _⟩ | ⟨h1, _⟩
        · rw [hw] at h1; cases h1; rfl
        · rw [hw] at h1; cases h1
        · rw [h1, wordRefCount_zero] at hw; cases hw
      obtain ⟨h', e, i', l⟩ := strongRef_ok i (id := id) (by
        have := q id
        simp [hs, hsWord, hw, one] at this
        omega)
      refine ⟨h', [.shared id p n], by simp [toCord, hw, e], i'.congr (by simp [hsCord]), l,
        ?_, ?_⟩
      · intro x hx
        simp at hx; subst hx
        exact ⟨hb.symm, k.1.mono l⟩
      · simp [cordBytes, bytesOf, sliceOf_mono l k.1]
    | none =>
      have hr : h.read p n = some (sliceOf h p n) := read_ok k.1 (own_live i k.2 q)
      refine ⟨h, [.own (sliceOf h p n)], by simp [toCord, hw, hr],
        i.congr (by simp [hsCord]), Le.refl h, ?_, by simp [cordBytes, bytesOf]⟩
      intro x hx
      simp at hx; subst hx; trivial
  | large c =>
    obtain ⟨h', e, i', l⟩ := copyCord_ok i (c := c) (fun j hj => Nat.lt_of_lt_of_le hj (q j))
    exact ⟨h', c, by simp [toCord, e], i', l, CordOk.mono l k, cordBytes_mono l k⟩

theorem toCordMove_ok {h : Heap} {H : Nat → Nat} {r : Rep}
    (i : HInv h (fun k => H k + hs r k)) (k : RepOk h r) :
    ∃ h' c r', toCordMove h r = some (h', c, r')
      ∧ HInv h' (fun k => H k + hs r' k + hsCord c k) ∧ Le h h'
      ∧ CordOk h' c ∧ cordBytes h' c = bytesOf h r := by
  cases r with
  | small a d =>
    refine ⟨h, [.own d], _, rfl, i.congr (by simp [hsCord]), Le.refl h, ?_, by
      simp [cordBytes, bytesOf]⟩
    intro x hx
    simp at hx; subst hx; trivial
  | medium p n o =>
    cases hw : wordRefCount o with
    | some id =>
      have hb : id = p.blk := by
        rcases k.2 with h1 | ⟨h1, _⟩ | ⟨h1, _⟩
        · rw [hw] at h1; cases h1; rfl
        · rw [hw] at h1; cases h1
        · rw [h1, wordRefCount_zero] at hw; cases hw
      refine ⟨h, [.shared id p n], .small none [], by simp [toCordMove, hw],
        i.congr (by simp [hsCord, hs, hsWord, hw]), Le.refl h, ?_, by
          simp [cordBytes, bytesOf]⟩
      intro x hx
      simp at hx; subst hx
      exact ⟨hb.symm, k.1⟩
    | none =>
      have hr : h.read p n = some (sliceOf h p n) :=
        read_ok k.1 (own_live i k.2 (fun j => by simp [hs]))
      refine ⟨h, [.own (sliceOf h p n)], .medium p n o, by simp [toCordMove, hw, hr],
        i.congr (by simp [hsCord]), Le.refl h, ?_, by simp [cordBytes, bytesOf]⟩
      intro x hx
      simp at hx; subst hx; trivial
  | large c =>
    obtain ⟨h', e, i', l⟩ := copyCord_ok i (c := c) (fun j hj => by
      show 0 < H j + hsCord c j
      omega)
    exact ⟨h', c, .large c, by simp [toCordMove, e], i', l, CordOk.mono l k,
      cordBytes_mono l k⟩

theorem concat_ok {h : Heap} {H : Nat → Nat} (i : HInv h H) {r r' : Rep} (k : RepOk h r)
    (k' : RepOk h r') (q : ∀ k, hs r k ≤ H k) (q' : ∀ k, hs r' k ≤ H k) (a : Nat) :
    Makes h H (concat h r r' a) (bytesOf h r ++ bytesOf h r') := by
  unfold concat
  by_cases h0 : r.size = 0
  · rw [if_pos h0]
    have : bytesOf h r = [] := List.eq_nil_of_length_eq_zero (by rw [bytesOf_length k, h0])
    rw [this]
    exact construct_ok i k' q' none
  rw [if_neg h0]
  by_cases h1 : r'.size = 0
  · rw [if_pos h1]
    have : bytesOf h r' = [] :=
      List.eq_nil_of_length_eq_zero (by rw [bytesOf_length k', h1])
    rw [this, List.append_nil]
    exact construct_ok i k q none
  rw [if_neg h1]
  split
  · obtain ⟨g1, c1, e1, i1, l1, k1, b1⟩ := toCord_ok i k q
    obtain ⟨g2, c2, e2, i2, l2, k2, b2⟩ := toCord_ok i1 (RepOk.mono l1 k')
      (fun j => Nat.le_trans (q' j) (by omega))
    have i2' : HInv g2 (fun j => H j + hsCord (c1 ++ c2) j) :=
      i2.congr (by intro j; simp only [hsCord_append]; omega)
    obtain ⟨g3, r3, e3, i3, l3, k3, b3⟩ := ofTempCord_ok none i2'
      ((CordOk.mono l2 k1).append k2)
    refine ⟨g3, r3, ?_, i3, (l1.trans l2).trans l3, k3, ?_⟩
    · simp only [e1, e2, e3]
    · rw [b3, cordBytes_append, cordBytes_mono l2 k1, b1, b2, bytesOf_mono l1 k']
  · rw [toBytes_ok i k q, toBytes_ok i k' q']
    have hl : (bytesOf h r ++ bytesOf h r').length = r.size + r'.size := by
      rw [List.length_append, bytesOf_length k, bytesOf_length k']
    simp only
    split
    · rename_i hn
      exact small_ok i (some a) (by rw [hl]; exact hn)
    · rw [← hl]
      exact setMedium_ok i (some a) (bytesOf h r ++ bytesOf h r')

theorem clone_ok {h : Heap} {H : Nat → Nat} (i : HInv h H) {r : Rep} (k : RepOk h r)
    (q : ∀ k, hs r k ≤ H k) (a : Nat) : Makes h H (clone h r a) (bytesOf h r) := by
  cases r with
  | small a' d => exact ofString_ok i (some a) d
  | medium p n o =>
    have hr : h.read p n = some (sliceOf h p n) := read_ok k.1 (own_live i k.2 q)
    simp only [clone]
    split
    · exact construct_ok i k q none
    · rw [hr]; exact ofString_ok i (some a) _
  | large c => exact ofCord_ok i (some a) k (fun j hj => Nat.lt_of_lt_of_le hj (q j))

theorem borrowed_ok {h : Heap} {H : Nat → Nat} (i : HInv h H) {p : Ptr} {n o pos npos : Nat}
    (k : RepOk h (.medium p n o)) (q : ∀ k, hsWord o k ≤ H k) (l1 : pos ≤ npos)
    (l2 : npos ≤ n) :
    Makes h H (borrowed h o ⟨p.blk, p.off + pos⟩ (npos - pos))
      (((sliceOf h p n).drop pos).take (npos - pos)) := by
  have hsub := slice_sub (m := npos - pos) (pos := pos) k.1 (by omega)
  have hr := read_ok hsub.1 (own_live i k.2 q)
  rw [← hsub.2]
  unfold borrowed
  cases ha : wordArena o with
  | some a => simp only [hr]; exact ofString_ok i (some a) _
  | none =>
    simp only
    split
    · rw [hr]; exact ofString_ok i none _
    · cases hw : wordRefCount o with
      | none =>
        simp only [hr]
        exact setMedium_ok i none _
      | some id =>
        have hb : id = p.blk := by
          rcases k.2 with h1 | ⟨h1, _⟩ | ⟨h1, _⟩
          · rw [hw] at h1; cases h1; rfl
          · rw [hw] at h1; cases h1
          · rw [h1, wordRefCount_zero] at hw; cases hw
        obtain ⟨h', e, i', l⟩ := strongRef_ok i (id := id) (by
          have := q id
          simp [hsWord, hw, one] at this
          omega)
        simp only [e]
        refine ⟨h', _, rfl, i'.congr (by simp [hs, hsWord, wordRefCount_ref]), l,
          ⟨hsub.1.mono l, Or.inl ?_⟩, sliceOf_mono l hsub.1⟩
        rw [wordRefCount_ref, hb]

end Cel.Mem
