import Verif.Mem.ByteStringSpec

/-
C52: lemmas about memory, cords and representations.
-/

set_option linter.unusedVariables false
set_option linter.unusedSimpArgs false

namespace Cel.Mem

/-! ### The owner word -/

theorem or_small (k b : Nat) (hb : b < 8) : (8 * k) ||| b = 8 * k + b := by
  have := Nat.two_pow_add_eq_or_of_lt (i := 3) (b := b) (by omega) k
  exact this.symm

theorem and_seven (w : Nat) : w &&& 7 = w % 8 := by
  have := Nat.and_two_pow_sub_one_eq_mod w 3
  simpa using this

theorem wordRefCount_ref (id : Nat) : wordRefCount (refCountWord id) = some id := by
  simp only [wordRefCount, refCountWord, addr, kRefCountBit, kOwnerBits, pointerPart,
    objectAt, and_seven, or_small _ 1 (by omega)]
  rw [if_pos (by omega)]
  congr 1; omega

theorem wordArena_ref (id : Nat) : wordArena (refCountWord id) = none := by
  simp only [wordArena, refCountWord, addr, kRefCountBit, kArenaBit, kOwnerBits,
    pointerPart, objectAt, and_seven, or_small _ 1 (by omega)]
  rw [if_neg (by omega)]

theorem wordArena_arena (a : Nat) : wordArena (arenaWord a) = some a := by
  simp only [wordArena, arenaWord, addr, kArenaBit, kOwnerBits, pointerPart,
    objectAt, and_seven, or_small _ 2 (by omega)]
  rw [if_pos (by omega)]
  congr 1; omega

theorem wordRefCount_arena (a : Nat) : wordRefCount (arenaWord a) = none := by
  simp only [wordRefCount, arenaWord, addr, kRefCountBit, kArenaBit, kOwnerBits,
    pointerPart, objectAt, and_seven, or_small _ 2 (by omega)]
  rw [if_neg (by omega)]

theorem wordRefCount_zero : wordRefCount 0 = none := by decide
theorem wordArena_zero : wordArena 0 = none := by decide

theorem word_exclusive {w id : Nat} (h : wordRefCount w = some id) : wordArena w = none := by
  unfold wordRefCount at h
  unfold wordArena
  split at h
  · rename_i h1
    rw [if_neg]
    rw [h1]; decide
  · cases h

/-! ### Handles -/

def one (id k : Nat) : Nat := if k = id then 1 else 0

def hsCord : Cord → Nat → Nat
  | [], _ => 0
  | .own _ :: c, k => hsCord c k
  | .shared id _ _ :: c, k => one id k + hsCord c k

def hsWord (o k : Nat) : Nat :=
  match wordRefCount o with
  | some id => one id k
  | none => 0

def hs : Rep → Nat → Nat
  | .small _ _, _ => 0
  | .medium _ _ o, k => hsWord o k
  | .large c, k => hsCord c k

def hsVar : Var → Nat → Nat
  | .dead, _ => 0
  | .live r, k => hs r k
  | .moved r, k => hs r k

def total (l : List Var) (k : Nat) : Nat := (l.map (hsVar · k)).sum

theorem hsCord_append (a b : Cord) (k : Nat) :
    hsCord (a ++ b) k = hsCord a k + hsCord b k := by
  induction a with
  | nil => simp [hsCord]
  | cons c a ih =>
    cases c <;> simp [hsCord, ih] <;> omega

/-! ### The heap invariant -/

/-- Every counted block is counted right (`H` gives the handles), what is not
counted has no handles, and what is not allocated is not in use. -/
structure HInv (h : Heap) (H : Nat → Nat) : Prop where
  counted : ∀ k n, h.kind k = .counted n → n = H k ∧ 0 < n
  other : ∀ k, (∀ n, h.kind k ≠ .counted n) → H k = 0
  fresh : ∀ k, h.next ≤ k → h.kind k = .freed

theorem HInv.congr {h : Heap} {H H' : Nat → Nat} (i : HInv h H) (e : ∀ k, H k = H' k) :
    HInv h H' := by
  have : H = H' := funext e
  exact this ▸ i

theorem HInv.counted_of_pos {h : Heap} {H : Nat → Nat} (i : HInv h H) {k : Nat}
    (p : 0 < H k) : h.kind k = .counted (H k) := by
  cases hk : h.kind k with
  | counted n => rw [(i.counted k n hk).1]
  | _ =>
    have := i.other k (by intro n hn; rw [hk] at hn; cases hn)
    omega

theorem HInv.lt_of_pos {h : Heap} {H : Nat → Nat} (i : HInv h H) {k : Nat}
    (p : 0 < H k) : k < h.next := by
  have h1 := i.counted_of_pos p
  by_cases hk : k < h.next
  · exact hk
  · have := i.fresh k (by omega)
    rw [this] at h1
    cases h1

/-- What later memory keeps of earlier memory. -/
structure Le (h h' : Heap) : Prop where
  next : h.next ≤ h'.next
  data : ∀ k, k < h.next → h'.data k = h.data k
  arena : ∀ k a, k < h.next → h.kind k = .arena a → h'.kind k = .arena a
  ext : ∀ k, k < h.next → h.kind k = .ext → h'.kind k = .ext

theorem Le.refl (h : Heap) : Le h h :=
  ⟨Nat.le_refl _, fun _ _ => rfl, fun _ _ _ e => e, fun _ _ e => e⟩

theorem Le.trans {a b c : Heap} (x : Le a b) (y : Le b c) : Le a c where
  next := Nat.le_trans x.next y.next
  data := fun k hk => by rw [y.data k (Nat.lt_of_lt_of_le hk x.next), x.data k hk]
  arena := fun k i hk e => y.arena k i (Nat.lt_of_lt_of_le hk x.next) (x.arena k i hk e)
  ext := fun k hk e => y.ext k (Nat.lt_of_lt_of_le hk x.next) (x.ext k hk e)

theorem le_setKind {h : Heap} {id : Nat} {k : BlkKind} {n : Nat}
    (hc : h.kind id = .counted n) : Le h (h.setKind id k) where
  next := Nat.le_refl _
  data := fun _ _ => rfl
  arena := fun j a hj e => by
    simp only [Heap.setKind]
    rw [if_neg]
    · exact e
    · intro hj'; subst hj'; rw [hc] at e; cases e
  ext := fun j hj e => by
    simp only [Heap.setKind]
    rw [if_neg]
    · exact e
    · intro hj'; subst hj'; rw [hc] at e; cases e

theorem strongRef_ok {h : Heap} {H : Nat → Nat} (i : HInv h H) {id : Nat}
    (p : 0 < H id) :
    ∃ h', strongRef h id = some h' ∧ HInv h' (fun k => H k + one id k) ∧ Le h h' := by
  have hc := i.counted_of_pos p
  refine ⟨h.setKind id (.counted (H id + 1)), by simp [strongRef, hc], ?_, le_setKind hc⟩
  refine ⟨?_, ?_, ?_⟩
  · intro k n hk
    by_cases e : k = id
    · subst e
      simp [Heap.setKind] at hk
      simp [one]; omega
    · simp only [Heap.setKind, if_neg e] at hk
      have := i.counted k n hk
      simp [one, e]; omega
  · intro k hk
    by_cases e : k = id
    · subst e
      exact absurd (by simp [Heap.setKind]) (hk (H k + 1))
    · simp only [Heap.setKind, if_neg e] at hk
      simp [one, e, i.other k hk]
  · intro k hk
    have hlt := i.lt_of_pos p
    have e : k ≠ id := by simp [Heap.setKind] at hk; omega
    simp only [Heap.setKind, if_neg e]
    exact i.fresh k hk

theorem strongUnref_ok {h : Heap} {H : Nat → Nat} {id : Nat}
    (i : HInv h (fun k => H k + one id k)) :
    ∃ h', strongUnref h id = some h' ∧ HInv h' H ∧ Le h h' := by
  have p : 0 < (fun k => H k + one id k) id := by simp [one]
  have hc := i.counted_of_pos p
  have hlt := i.lt_of_pos p
  simp only [one, if_pos rfl] at hc
  refine ⟨h.setKind id (if H id + 1 = 1 then .freed else .counted (H id + 1 - 1)),
    by simp [strongUnref, hc], ?_, le_setKind hc⟩
  refine ⟨?_, ?_, ?_⟩
  · intro k n hk
    by_cases e : k = id
    · subst e
      by_cases h0 : H k = 0
      · simp [Heap.setKind, h0] at hk
      · simp [Heap.setKind, h0] at hk
        omega
    · simp only [Heap.setKind, if_neg e] at hk
      have := i.counted k n hk
      simp only [one, if_neg e] at this; omega
  · intro k hk
    by_cases e : k = id
    · subst e
      simp only [Heap.setKind, if_pos rfl] at hk
      by_cases h0 : H k + 1 = 1
      · omega
      · rw [if_neg h0] at hk
        exact absurd rfl (hk _)
    · simp only [Heap.setKind, if_neg e] at hk
      have := i.other k hk
      omega
  · intro k hk
    have e : k ≠ id := by simp [Heap.setKind] at hk; omega
    simp only [Heap.setKind, if_neg e]
    exact i.fresh k hk

theorem strongRef?_ok {h : Heap} {H : Nat → Nat} (i : HInv h H) {o : Nat}
    (p : ∀ k, hsWord o k ≤ H k) :
    ∃ h', strongRef? h (wordRefCount o) = some h'
      ∧ HInv h' (fun k => H k + hsWord o k) ∧ Le h h' := by
  unfold hsWord at *
  cases hw : wordRefCount o with
  | none => exact ⟨h, rfl, i.congr (by simp), Le.refl h⟩
  | some id =>
    simp only [hw] at p
    exact strongRef_ok i (by have := p id; simp [one] at this; omega)

theorem strongUnref?_ok {h : Heap} {H : Nat → Nat} {o : Nat}
    (i : HInv h (fun k => H k + hsWord o k)) :
    ∃ h', strongUnref? h (wordRefCount o) = some h' ∧ HInv h' H ∧ Le h h' := by
  unfold hsWord at *
  cases hw : wordRefCount o with
  | none =>
    simp only [hw] at i
    exact ⟨h, rfl, i.congr (by simp), Le.refl h⟩
  | some id =>
    simp only [hw] at i
    exact strongUnref_ok i

theorem copyCord_ok {c : Cord} : ∀ {h : Heap} {H : Nat → Nat} (i : HInv h H)
    (p : ∀ k, 0 < hsCord c k → 0 < H k),
    ∃ h', copyCord h c = some h' ∧ HInv h' (fun k => H k + hsCord c k) ∧ Le h h' := by
  induction c with
  | nil => intro h H i p; exact ⟨h, rfl, i.congr (by simp [hsCord]), Le.refl h⟩
  | cons x c ih =>
    intro h H i p
    cases x with
    | own bs =>
      obtain ⟨h', e, i', l⟩ := ih i (fun k hk => p k (by simpa [hsCord] using hk))
      exact ⟨h', e, i'.congr (by simp [hsCord]), l⟩
    | shared id q n =>
      obtain ⟨h1, e1, i1, l1⟩ := strongRef_ok i (id := id) (p id (by simp [hsCord, one]; omega))
      obtain ⟨h2, e2, i2, l2⟩ := ih i1 (fun k hk => by
        have := p k (by simp [hsCord]; omega)
        show 0 < H k + _
        omega)
      refine ⟨h2, by simp [copyCord, e1, e2], i2.congr ?_, l1.trans l2⟩
      intro k; simp [hsCord]; omega

theorem destroyCord_ok {c : Cord} : ∀ {h : Heap} {H : Nat → Nat}
    (i : HInv h (fun k => H k + hsCord c k)),
    ∃ h', destroyCord h c = some h' ∧ HInv h' H ∧ Le h h' := by
  induction c with
  | nil => intro h H i; exact ⟨h, rfl, i.congr (by simp [hsCord]), Le.refl h⟩
  | cons x c ih =>
    intro h H i
    cases x with
    | own bs =>
      obtain ⟨h', e, i', l⟩ := ih (H := H) (i.congr (by simp [hsCord]))
      exact ⟨h', e, i', l⟩
    | shared id q n =>
      obtain ⟨h1, e1, i1, l1⟩ := strongUnref_ok (id := id) (H := fun k => H k + hsCord c k)
        (i.congr (by intro k; simp [hsCord]; omega))
      obtain ⟨h2, e2, i2, l2⟩ := ih i1
      exact ⟨h2, by simp [destroyCord, e1, e2], i2, l1.trans l2⟩

theorem destroy_ok {r : Rep} {h : Heap} {H : Nat → Nat}
    (i : HInv h (fun k => H k + hs r k)) :
    ∃ h', destroy h r = some h' ∧ HInv h' H ∧ Le h h' := by
  cases r with
  | small a d => exact ⟨h, rfl, i.congr (by simp [hs]), Le.refl h⟩
  | medium p n o => exact strongUnref?_ok i
  | large c => exact destroyCord_ok i

theorem le_alloc {h : Heap} {k : BlkKind} {bs : Bytes} : Le h (h.alloc k bs) where
  next := Nat.le_succ _
  data := fun j hj => by simp only [Heap.alloc]; rw [if_neg (by omega)]
  arena := fun j a hj e => by simp only [Heap.alloc]; rw [if_neg (by omega)]; exact e
  ext := fun j hj e => by simp only [Heap.alloc]; rw [if_neg (by omega)]; exact e

theorem HInv.at_next {h : Heap} {H : Nat → Nat} (i : HInv h H) : H h.next = 0 :=
  i.other _ (by intro n hn; rw [i.fresh _ (Nat.le_refl _)] at hn; cases hn)

theorem alloc_counted {h : Heap} {H : Nat → Nat} (i : HInv h H) (bs : Bytes) :
    HInv (h.alloc (.counted 1) bs) (fun k => H k + one h.next k) := by
  have h0 := i.at_next
  refine ⟨?_, ?_, ?_⟩
  · intro k n hk
    by_cases e : k = h.next
    · subst e
      simp [Heap.alloc] at hk
      simp [one, h0]; omega
    · simp only [Heap.alloc, if_neg e] at hk
      have := i.counted k n hk
      simp [one, e]; omega
  · intro k hk
    by_cases e : k = h.next
    · subst e
      exact absurd (by simp [Heap.alloc]) (hk 1)
    · simp only [Heap.alloc, if_neg e] at hk
      simp [one, e, i.other k hk]
  · intro k hk
    simp only [Heap.alloc] at hk ⊢
    rw [if_neg (by omega)]
    exact i.fresh k (by omega)

theorem alloc_plain {h : Heap} {H : Nat → Nat} (i : HInv h H) (bs : Bytes) {b : BlkKind}
    (hb : ∀ n, b ≠ .counted n) : HInv (h.alloc b bs) H := by
  have h0 := i.at_next
  refine ⟨?_, ?_, ?_⟩
  · intro k n hk
    by_cases e : k = h.next
    · subst e
      simp [Heap.alloc] at hk
      exact absurd hk (hb n)
    · simp only [Heap.alloc, if_neg e] at hk
      exact i.counted k n hk
  · intro k hk
    by_cases e : k = h.next
    · subst e; exact h0
    · simp only [Heap.alloc, if_neg e] at hk
      exact i.other k hk
  · intro k hk
    simp only [Heap.alloc] at hk ⊢
    rw [if_neg (by omega)]
    exact i.fresh k (by omega)

/-! ### Representations -/

/-- A pointer and length within a block. -/
def InBlk (h : Heap) (p : Ptr) (n : Nat) : Prop :=
  p.blk < h.next ∧ p.off + n ≤ (h.data p.blk).length

/-- The bytes there. -/
def sliceOf (h : Heap) (p : Ptr) (n : Nat) : Bytes := ((h.data p.blk).drop p.off).take n

/-- Who keeps the bytes alive. -/
def OwnOk (h : Heap) (blk o : Nat) : Prop :=
  wordRefCount o = some blk
  ∨ (wordRefCount o = none ∧ ∃ a, wordArena o = some a ∧ h.kind blk = .arena a)
  ∨ (o = 0 ∧ h.kind blk = .ext)

def ChunkOk (h : Heap) : Chunk → Prop
  | .own _ => True
  | .shared id p n => p.blk = id ∧ InBlk h p n

def CordOk (h : Heap) (c : Cord) : Prop := ∀ x ∈ c, ChunkOk h x

def RepOk (h : Heap) : Rep → Prop
  | .small _ d => d.length ≤ cap
  | .medium p n o => InBlk h p n ∧ OwnOk h p.blk o
  | .large c => CordOk h c

def cordBytes (h : Heap) : Cord → Bytes
  | [] => []
  | .own bs :: c => bs ++ cordBytes h c
  | .shared _ p n :: c => sliceOf h p n ++ cordBytes h c

def bytesOf (h : Heap) : Rep → Bytes
  | .small _ d => d
  | .medium p n _ => sliceOf h p n
  | .large c => cordBytes h c

theorem InBlk.mono {h h' : Heap} (l : Le h h') {p : Ptr} {n : Nat} (i : InBlk h p n) :
    InBlk h' p n :=
  ⟨Nat.lt_of_lt_of_le i.1 l.next, by rw [l.data _ i.1]; exact i.2⟩

theorem sliceOf_mono {h h' : Heap} (l : Le h h') {p : Ptr} {n : Nat} (i : InBlk h p n) :
    sliceOf h' p n = sliceOf h p n := by
  unfold sliceOf; rw [l.data _ i.1]

theorem sliceOf_length {h : Heap} {p : Ptr} {n : Nat} (i : InBlk h p n) :
    (sliceOf h p n).length = n := by
  have := i.2
  simp [sliceOf]; omega

theorem CordOk.tail {h : Heap} {x : Chunk} {c : Cord} (i : CordOk h (x :: c)) : CordOk h c :=
  fun y hy => i y (List.mem_cons_of_mem _ hy)

theorem CordOk.head {h : Heap} {x : Chunk} {c : Cord} (i : CordOk h (x :: c)) : ChunkOk h x :=
  i x (List.mem_cons_self ..)

theorem CordOk.mono {h h' : Heap} (l : Le h h') {c : Cord} (i : CordOk h c) : CordOk h' c := by
  intro x hx
  have := i x hx
  cases x with
  | own bs => trivial
  | shared id p n => exact ⟨this.1, this.2.mono l⟩

theorem CordOk.append {h : Heap} {a b : Cord} (i : CordOk h a) (j : CordOk h b) :
    CordOk h (a ++ b) := by
  intro x hx
  rcases List.mem_append.1 hx with hx | hx
  · exact i x hx
  · exact j x hx

theorem cordBytes_append (h : Heap) (a b : Cord) :
    cordBytes h (a ++ b) = cordBytes h a ++ cordBytes h b := by
  induction a with
  | nil => rfl
  | cons x a ih => cases x <;> simp [cordBytes, ih]

theorem cordBytes_mono {h h' : Heap} (l : Le h h') {c : Cord} (i : CordOk h c) :
    cordBytes h' c = cordBytes h c := by
  induction c with
  | nil => rfl
  | cons x c ih =>
    cases x with
    | own bs => simp [cordBytes, ih i.tail]
    | shared id p n =>
      have h1 : InBlk h p n := (CordOk.head i).2
      simp [cordBytes, ih i.tail, sliceOf_mono l h1]

theorem cordBytes_length {h : Heap} {c : Cord} (i : CordOk h c) :
    (cordBytes h c).length = cordSize c := by
  induction c with
  | nil => rfl
  | cons x c ih =>
    cases x with
    | own bs => simp [cordBytes, cordSize, ih i.tail]
    | shared id p n =>
      have h1 : InBlk h p n := (CordOk.head i).2
      simp [cordBytes, cordSize, ih i.tail, sliceOf_length h1]

theorem RepOk.mono {h h' : Heap} (l : Le h h') {r : Rep} (i : RepOk h r) : RepOk h' r := by
  cases r with
  | small a d => exact i
  | medium p n o =>
    refine ⟨i.1.mono l, ?_⟩
    rcases i.2 with h1 | ⟨h1, a, h2, h3⟩ | ⟨h1, h2⟩
    · exact Or.inl h1
    · exact Or.inr (Or.inl ⟨h1, a, h2, l.arena _ _ i.1.1 h3⟩)
    · exact Or.inr (Or.inr ⟨h1, l.ext _ i.1.1 h2⟩)
  | large c => exact CordOk.mono l i

theorem bytesOf_mono {h h' : Heap} (l : Le h h') {r : Rep} (i : RepOk h r) :
    bytesOf h' r = bytesOf h r := by
  cases r with
  | small a d => rfl
  | medium p n o => exact sliceOf_mono l i.1
  | large c => exact cordBytes_mono l i

theorem bytesOf_length {h : Heap} {r : Rep} (i : RepOk h r) :
    (bytesOf h r).length = r.size := by
  cases r with
  | small a d => rfl
  | medium p n o => exact sliceOf_length i.1
  | large c => exact cordBytes_length i

theorem read_ok {h : Heap} {p : Ptr} {n : Nat} (i : InBlk h p n)
    (l : h.kind p.blk ≠ .freed) : h.read p n = some (sliceOf h p n) := by
  simp only [Heap.read]
  rw [if_neg l, if_pos i.2]; rfl

theorem readCord_ok {h : Heap} {H : Nat → Nat} (i : HInv h H) {c : Cord} (k : CordOk h c)
    (p : ∀ k, 0 < hsCord c k → 0 < H k) : readCord h c = some (cordBytes h c) := by
  induction c with
  | nil => rfl
  | cons x c ih =>
    cases x with
    | own bs =>
      have := ih k.tail (fun j hj => p j (by simpa [hsCord] using hj))
      simp [readCord, cordBytes, this]
    | shared id q n =>
      have h1 : q.blk = id ∧ InBlk h q n := CordOk.head k
      have h2 := ih k.tail (fun j hj => p j (by simp [hsCord]; omega))
      have h3 := i.counted_of_pos (p id (by simp [hsCord, one]; omega))
      have h4 : h.read q n = some (sliceOf h q n) :=
        read_ok h1.2 (by rw [h1.1, h3]; intro e; cases e)
      simp [readCord, cordBytes, h2, h4]

theorem own_live {h : Heap} {H : Nat → Nat} (i : HInv h H) {blk o : Nat} (k : OwnOk h blk o)
    (p : ∀ k, hsWord o k ≤ H k) : h.kind blk ≠ .freed := by
  rcases k with h1 | ⟨h1, a, h2, h3⟩ | ⟨h1, h2⟩
  · have := p blk
    have h4 : 0 < H blk := by simp [hsWord, h1, one] at this; omega
    rw [i.counted_of_pos h4]
    intro e; cases e
  · rw [h3]; intro e; cases e
  · rw [h2]; intro e; cases e

theorem toBytes_ok {h : Heap} {H : Nat → Nat} (i : HInv h H) {r : Rep} (k : RepOk h r)
    (p : ∀ k, hs r k ≤ H k) : r.toBytes h = some (bytesOf h r) := by
  cases r with
  | small a d => rfl
  | medium q n o => exact read_ok k.1 (own_live i k.2 p)
  | large c => exact readCord_ok i k (fun j hj => Nat.lt_of_lt_of_le hj (p j))

end Cel.Mem
