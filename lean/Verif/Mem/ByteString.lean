/-
`ByteString` (common/internal/byte_string.{h,cc}): the representation of CEL
strings and bytes – inline, shared through a reference count, allocated on an
arena, borrowed from outside, or an `absl::Cord`.

What is modelled: the three representations, the tagged owner word, every
constructor, assignment, move, swap, destructor, and the operations that
produce new byte strings.  A block of memory that is released is marked so;
touching it afterwards, or releasing it again, is undefined behaviour (`none`).

Simplifications: `absl::Cord` is a list of chunks, each a copy of some bytes or
a reference to bytes kept alive by a reference count (absl's own sharing of
chunks between cords is flattened: each cord holds its own reference);
reference counts are the sequential view of `Mem/RefCount.lean`, as integers
without a bound; `ABSL_DCHECK` does nothing, as in a release build.
-/

set_option linter.unusedVariables false

namespace Cel.Mem

abbrev Bytes := List UInt8

/-! ### The owner word (common/internal/metadata.h) -/

/-- `kMetadataOwnerReferenceCountBit` (metadata.h:26). -/
def kRefCountBit : Nat := 1
/-- `kMetadataOwnerArenaBit` (metadata.h:27). -/
def kArenaBit : Nat := 2
/-- `kMetadataOwnerBits` for `alignof(Arena) = 8` (metadata.h:28). -/
def kOwnerBits : Nat := 7

/-- The address of an object: non-null and a multiple of 8
(`alignas(8)`, reference_count.h:118; metadata.h:23-24). -/
def addr (id : Nat) : Nat := 8 * (id + 1)

/-- The object at an address. -/
def objectAt (a : Nat) : Nat := a / 8 - 1

/-- `ptr & kMetadataOwnerPointerMask` (metadata.h:29). -/
def pointerPart (w : Nat) : Nat := w - (w &&& kOwnerBits)

/-- `reinterpret_cast<uintptr_t>(arena) | kMetadataOwnerArenaBit`
(byte_string.cc:96-97, memory.h:138). -/
def arenaWord (a : Nat) : Nat := addr a ||| kArenaBit

/-- `reinterpret_cast<uintptr_t>(refcount) | kMetadataOwnerReferenceCountBit`
(byte_string.cc:173-174, memory.h:146-147). -/
def refCountWord (id : Nat) : Nat := addr id ||| kRefCountBit

/-- `GetMediumArena` (byte_string.cc:655-662), also `Owner::arena`
(memory.h:205-209). -/
def wordArena (w : Nat) : Option Nat :=
  if w &&& kOwnerBits = kArenaBit then some (objectAt (pointerPart w)) else none

/-- `GetMediumReferenceCount` (byte_string.cc:664-671). -/
def wordRefCount (w : Nat) : Option Nat :=
  if w &&& kOwnerBits = kRefCountBit then some (objectAt (pointerPart w)) else none

/-! ### Memory -/

/-- What a block of memory is: released, counted, on an arena, or outside the
library's control. -/
inductive BlkKind where
  | freed
  | counted (n : Nat)
  | arena (a : Nat)
  | ext
  deriving DecidableEq, Repr

/-- Memory: the blocks allocated so far are those below `next`. -/
structure Heap where
  kind : Nat → BlkKind
  data : Nat → Bytes
  next : Nat

/-- A `const char*` into a block. -/
structure Ptr where
  blk : Nat
  off : Nat
  deriving DecidableEq, Repr

/-- Allocate a block. -/
def Heap.alloc (h : Heap) (k : BlkKind) (bs : Bytes) : Heap where
  kind := fun i => if i = h.next then k else h.kind i
  data := fun i => if i = h.next then bs else h.data i
  next := h.next + 1

/-- Change what a block is. -/
def Heap.setKind (h : Heap) (i : Nat) (k : BlkKind) : Heap :=
  { h with kind := fun j => if j = i then k else h.kind j }

/-- Read `n` bytes at a pointer; undefined behaviour if the block is released
or the range leaves it. -/
def Heap.read (h : Heap) (p : Ptr) (n : Nat) : Option Bytes :=
  if h.kind p.blk = .freed then none
  else if p.off + n ≤ (h.data p.blk).length then
    some (((h.data p.blk).drop p.off).take n)
  else none

/-- `StrongRef(const ReferenceCount&)` (reference_count.h:291-295). -/
def strongRef (h : Heap) (id : Nat) : Option Heap :=
  match h.kind id with
  | .counted n => some (h.setKind id (.counted (n + 1)))
  | _ => none

/-- `StrongUnref(const ReferenceCount&)` (reference_count.h:303-312): the last
one releases the block (`Finalize`, `Delete`). -/
def strongUnref (h : Heap) (id : Nat) : Option Heap :=
  match h.kind id with
  | .counted n => some (h.setKind id (if n = 1 then .freed else .counted (n - 1)))
  | _ => none

/-- `StrongRef(const ReferenceCount*)` (reference_count.h:297-301). -/
def strongRef? (h : Heap) : Option Nat → Option Heap
  | none => some h
  | some id => strongRef h id

/-- `StrongUnref(const ReferenceCount*)` (reference_count.h:314-318). -/
def strongUnref? (h : Heap) : Option Nat → Option Heap
  | none => some h
  | some id => strongUnref h id

/-! ### Cords -/

/-- A chunk of an `absl::Cord`: its own copy of some bytes, or external bytes
with a `ReferenceCountReleaser` (byte_string.cc:532-536). -/
inductive Chunk where
  | own (bs : Bytes)
  | shared (id : Nat) (p : Ptr) (n : Nat)
  deriving DecidableEq, Repr

abbrev Cord := List Chunk

/-- The contents of a cord. -/
def readCord (h : Heap) : Cord → Option Bytes
  | [] => some []
  | .own bs :: c => (readCord h c).map (bs ++ ·)
  | .shared _ p n :: c =>
    match h.read p n with
    | none => none
    | some bs => (readCord h c).map (bs ++ ·)

/-- `cord.size()`. -/
def cordSize : Cord → Nat
  | [] => 0
  | .own bs :: c => bs.length + cordSize c
  | .shared _ _ n :: c => n + cordSize c

/-- Copying a cord. -/
def copyCord (h : Heap) : Cord → Option Heap
  | [] => some h
  | .own _ :: c => copyCord h c
  | .shared id _ _ :: c =>
    match strongRef h id with
    | none => none
    | some h => copyCord h c

/-- `~Cord`. -/
def destroyCord (h : Heap) : Cord → Option Heap
  | [] => some h
  | .own _ :: c => destroyCord h c
  | .shared id _ _ :: c =>
    match strongUnref h id with
    | none => none
    | some h => destroyCord h c

/-- `cord.Subcord(pos, n)` without the references: the chunks of the result. -/
def subcord : Cord → Nat → Nat → Cord
  | [], _, _ => []
  | .own bs :: c, pos, n =>
    .own ((bs.drop pos).take n) :: subcord c (pos - bs.length) (n - (bs.length - pos))
  | .shared id p m :: c, pos, n =>
    .shared id ⟨p.blk, p.off + min pos m⟩ (min n (m - pos)) ::
      subcord c (pos - m) (n - (m - pos))

/-! ### The representation -/

/-- `ByteStringRep` (byte_string.h:82-155). -/
inductive Rep where
  | small (arena : Option Nat) (data : Bytes)
  | medium (data : Ptr) (size : Nat) (owner : Nat)
  | large (cord : Cord)
  deriving DecidableEq, Repr

/-- `kSmallByteStringCapacity` (byte_string.h:94-95): 23 - sizeof(Arena*). -/
def cap : Nat := 15

/-- `ByteString::size` (byte_string.cc:212-221). -/
def Rep.size : Rep → Nat
  | .small _ d => d.length
  | .medium _ n _ => n
  | .large c => cordSize c

/-- `ByteString::GetArena` (byte_string.cc:190-199). -/
def Rep.getArena : Rep → Option Nat
  | .small a _ => a
  | .medium _ _ o => wordArena o
  | .large _ => none

/-- `ByteString::ToString` (byte_string.cc:487-496); `CopyToArray`,
`CopyToString`, `Flatten`, `ToStringView` read the same bytes. -/
def Rep.toBytes (h : Heap) : Rep → Option Bytes
  | .small _ d => some d
  | .medium p n _ => h.read p n
  | .large c => readCord h c

/-- `SetMedium(arena, string)` (byte_string.cc:961-979, 989-1018). -/
def setMedium (h : Heap) (arena : Option Nat) (bs : Bytes) : Heap × Rep :=
  match arena with
  | some a => (h.alloc (.arena a) bs, .medium ⟨h.next, 0⟩ bs.length (arenaWord a))
  | none =>
    (h.alloc (.counted 1) bs, .medium ⟨h.next, 0⟩ bs.length (refCountWord h.next))

/-- `ByteString(Allocator, string_view)` and the `std::string` forms
(byte_string.cc:104-133). -/
def ofString (h : Heap) (arena : Option Nat) (bs : Bytes) : Heap × Rep :=
  if bs.length ≤ cap then (h, .small arena bs) else setMedium h arena bs

/-- `ByteString(Allocator, const Cord&)` (byte_string.cc:135-145). -/
def ofCord (h : Heap) (arena : Option Nat) (c : Cord) : Option (Heap × Rep) :=
  if cordSize c ≤ cap then (readCord h c).map fun bs => (h, .small arena bs)
  else match arena with
    | some a => (readCord h c).map fun bs => setMedium h (some a) bs
    | none => (copyCord h c).map fun h => (h, .large c)

/-- `FromExternal` (byte_string.cc:177-188): the bytes live outside. -/
def fromExternal (h : Heap) (bs : Bytes) : Heap × Rep :=
  if bs.length ≤ cap then (h, .small none bs)
  else (h.alloc .ext bs, .medium ⟨h.next, 0⟩ bs.length 0)

/-- `Destroy` (byte_string.cc:930-941). -/
def destroy (h : Heap) : Rep → Option Heap
  | .small _ _ => some h
  | .medium _ _ o => strongUnref? h (wordRefCount o)
  | .large c => destroyCord h c

/-- `Construct(const ByteString&, allocator)` (byte_string.cc:673-699);
`alloc = none` is `absl::nullopt`. -/
def construct (h : Heap) (other : Rep) (alloc : Option (Option Nat)) :
    Option (Heap × Rep) :=
  match other with
  | .small a d =>
    match alloc with
    | none => some (h, .small a d)
    | some al => some (h, .small al d)
  | .medium p n o =>
    match alloc with
    | some al =>
      if al ≠ wordArena o then (h.read p n).map fun bs => setMedium h al bs
      else (strongRef? h (wordRefCount o)).map fun h => (h, .medium p n o)
    | none => (strongRef? h (wordRefCount o)).map fun h => (h, .medium p n o)
  | .large c =>
    match alloc with
    | some (some a) => (readCord h c).map fun bs => setMedium h (some a) bs
    | _ => (copyCord h c).map fun h => (h, .large c)

/-- `Construct(ByteString&, allocator)`, the move constructor
(byte_string.cc:701-727); also returns what is left of the source. -/
def constructMove (h : Heap) (other : Rep) (alloc : Option (Option Nat)) :
    Option (Heap × Rep × Rep) :=
  match other with
  | .small a d =>
    match alloc with
    | none => some (h, .small a d, .small a d)
    | some al => some (h, .small al d, .small a d)
  | .medium p n o =>
    match alloc with
    | some al =>
      if al ≠ wordArena o then
        (h.read p n).map fun bs =>
          ((setMedium h al bs).1, (setMedium h al bs).2, .medium p n o)
      else some (h, .medium p n o, .medium p n 0)
    | none => some (h, .medium p n o, .medium p n 0)
  | .large c =>
    match alloc with
    | some (some a) =>
      (readCord h c).map fun bs =>
        ((setMedium h (some a) bs).1, (setMedium h (some a) bs).2, .large c)
    | _ => some (h, .large c, .large [])

/-- `CopyFrom` (byte_string.cc:729-779). -/
def copyFrom (h : Heap) (this other : Rep) : Option (Heap × Rep) :=
  match other with
  | .small a d =>
    match this with
    | .small _ _ => some (h, .small a d)
    | .medium _ _ o => (strongUnref? h (wordRefCount o)).map fun h => (h, .small a d)
    | .large c => (destroyCord h c).map fun h => (h, .small a d)
  | .medium p n o' =>
    match this with
    | .small _ _ => (strongRef? h (wordRefCount o')).map fun h => (h, .medium p n o')
    | .medium _ _ o =>
      match strongRef? h (wordRefCount o') with
      | none => none
      | some h => (strongUnref? h (wordRefCount o)).map fun h => (h, .medium p n o')
    | .large c =>
      match destroyCord h c with
      | none => none
      | some h => (strongRef? h (wordRefCount o')).map fun h => (h, .medium p n o')
  | .large c' =>
    match this with
    | .small _ _ => (copyCord h c').map fun h => (h, .large c')
    | .medium _ _ o =>
      match strongUnref? h (wordRefCount o) with
      | none => none
      | some h => (copyCord h c').map fun h => (h, .large c')
    | .large c =>
      match copyCord h c' with
      | none => none
      | some h => (destroyCord h c).map fun h => (h, .large c')

/-- `MoveFrom` (byte_string.cc:781-829); also returns what is left of the
source. -/
def moveFrom (h : Heap) (this other : Rep) : Option (Heap × Rep × Rep) :=
  match other with
  | .small a d => (destroy h this).map fun h => (h, .small a d, .small a d)
  | .medium p n o' => (destroy h this).map fun h => (h, .medium p n o', .medium p n 0)
  | .large c' => (destroy h this).map fun h => (h, .large c', .large [])

/-- `ByteString(allocator, cord)` on a temporary cord, which is then destroyed
(byte_string.cc:399, 76-79). -/
def ofTempCord (arena : Option Nat) : Option (Heap × Cord) → Option (Heap × Rep)
  | none => none
  | some (h, c) =>
    match ofCord h arena c with
    | none => none
    | some (h, r) => (destroyCord h c).map fun h => (h, r)

/-- `Swap` (byte_string.cc:869-928): a cord is moved out, destroyed empty, and
moved in on the other side. -/
def swapReps (h : Heap) (this other : Rep) : Option (Heap × Rep × Rep) :=
  match other with
  | .small a d =>
    match this with
    | .small a' d' => some (h, .small a d, .small a' d')
    | .medium p n o => some (h, .small a d, .medium p n o)
    | .large c => (destroyCord h []).map fun h => (h, .small a d, .large c)
  | .medium p n o =>
    match this with
    | .small a' d' => some (h, .medium p n o, .small a' d')
    | .medium p' n' o' => some (h, .medium p n o, .medium p' n' o')
    | .large c => (destroyCord h []).map fun h => (h, .medium p n o, .large c)
  | .large c =>
    match this with
    | .small a' d' => (destroyCord h []).map fun h => (h, .large c, .small a' d')
    | .medium p' n' o' => (destroyCord h []).map fun h => (h, .large c, .medium p' n' o')
    | .large c' => some (h, .large c, .large c')

/-- `Substring(pos, npos)` (byte_string.cc:377-400). -/
def substring (h : Heap) (r : Rep) (pos npos : Nat) : Option (Heap × Rep) :=
  match r with
  | .small a d => some (h, .small a ((d.drop pos).take (npos - pos)))
  | .medium p n o =>
    (strongRef? h (wordRefCount o)).map fun h =>
      (h, .medium ⟨p.blk, p.off + pos⟩ (npos - pos) o)
  | .large c =>
    ofTempCord none ((copyCord h (subcord c pos (npos - pos))).map fun h =>
      (h, subcord c pos (npos - pos)))

/-- The end of `RemovePrefix`/`RemoveSuffix` for a medium string
(byte_string.cc:415-419): a string that fits is stored inline. -/
def shrinkMedium (h : Heap) (p : Ptr) (n o : Nat) : Option (Heap × Rep) :=
  if n ≤ cap then
    match h.read p n with
    | none => none
    | some bs => (strongUnref? h (wordRefCount o)).map fun h => (h, .small (wordArena o) bs)
  else some (h, .medium p n o)

/-- The same for a cord (byte_string.cc:421-432): `c` is replaced by `c'`. -/
def shrinkLarge (h : Heap) (c c' : Cord) : Option (Heap × Rep) :=
  match copyCord h c' with
  | none => none
  | some h1 =>
    match destroyCord h1 c with
    | none => none
    | some h2 =>
      if cordSize c' ≤ cap then
        match readCord h2 c' with
        | none => none
        | some bs => (destroyCord h2 c').map fun h => (h, .small none bs)
      else some (h2, .large c')

/-- `RemovePrefix` (byte_string.cc:402-434). -/
def removePrefix (h : Heap) (r : Rep) (n : Nat) : Option (Heap × Rep) :=
  if n = 0 then some (h, r)
  else match r with
    | .small a d => some (h, .small a (d.drop n))
    | .medium p m o => shrinkMedium h ⟨p.blk, p.off + n⟩ (m - n) o
    | .large c => shrinkLarge h c (subcord c n (cordSize c - n))

/-- `RemoveSuffix` (byte_string.cc:436-466). -/
def removeSuffix (h : Heap) (r : Rep) (n : Nat) : Option (Heap × Rep) :=
  if n = 0 then some (h, r)
  else match r with
    | .small a d => some (h, .small a (d.take (d.length - n)))
    | .medium p m o => shrinkMedium h p (m - n) o
    | .large c => shrinkLarge h c (subcord c 0 (cordSize c - n))

/-- `ToCord() const&` (byte_string.cc:540-556). -/
def toCord (h : Heap) : Rep → Option (Heap × Cord)
  | .small _ d => some (h, [.own d])
  | .medium p n o =>
    match wordRefCount o with
    | some id => (strongRef h id).map fun h => (h, [.shared id p n])
    | none => (h.read p n).map fun bs => (h, [.own bs])
  | .large c => (copyCord h c).map fun h => (h, c)

/-- `ToCord() &&` (byte_string.cc:558-575); also returns what is left of the
source. -/
def toCordMove (h : Heap) : Rep → Option (Heap × Cord × Rep)
  | .small a d => some (h, [.own d], .small a d)
  | .medium p n o =>
    match wordRefCount o with
    | some id => some (h, [.shared id p n], .small none [])
    | none => (h.read p n).map fun bs => (h, [.own bs], .medium p n o)
  | .large c => (copyCord h c).map fun h => (h, c, .large c)

/-- Whether the string is an `absl::Cord`. -/
def Rep.isLarge : Rep → Bool
  | .large _ => true
  | _ => false

/-- `Concat` (byte_string.cc:60-102). -/
def concat (h : Heap) (l r : Rep) (arena : Nat) : Option (Heap × Rep) :=
  if l.size = 0 then construct h r none
  else if r.size = 0 then construct h l none
  else if l.isLarge || r.isLarge then
    match toCord h l with
    | none => none
    | some (h1, c1) =>
      match toCord h1 r with
      | none => none
      | some (h2, c2) => ofTempCord none (some (h2, c1 ++ c2))
  else
    match l.toBytes h, r.toBytes h with
    | some a, some b =>
      if l.size + r.size ≤ cap then some (h, .small (some arena) (a ++ b))
      else some (h.alloc (.arena arena) (a ++ b),
        .medium ⟨h.next, 0⟩ (l.size + r.size) (arenaWord arena))
    | _, _ => none

/-- `Clone(arena)` for a non-null arena (byte_string.cc:831-853). -/
def clone (h : Heap) (r : Rep) (arena : Nat) : Option (Heap × Rep) :=
  match r with
  | .small _ d => some (ofString h (some arena) d)
  | .medium p n o =>
    if some arena = wordArena o then construct h r none
    else (h.read p n).map fun bs => ofString h (some arena) bs
  | .large c => ofCord h (some arena) c

/-- `Borrowed(Borrower, string_view)` (byte_string.cc:147-163) where the
borrower is the owner of `src` and the view is `n` bytes of it from `pos`. -/
def borrowed (h : Heap) (o : Nat) (p : Ptr) (n : Nat) : Option (Heap × Rep) :=
  match wordArena o with
  | some a => (h.read p n).map fun bs => ofString h (some a) bs
  | none =>
    if n ≤ cap then (h.read p n).map fun bs => ofString h none bs
    else match wordRefCount o with
      | some id => (strongRef h id).map fun h => (h, .medium p n (refCountWord id))
      | none =>
        (h.read p n).map fun bs =>
          (h.alloc (.counted 1) bs, .medium ⟨h.next, 0⟩ bs.length (refCountWord h.next))

end Cel.Mem
