import Verif.Mem.ByteString

/-
C52: histories of byte strings, and what they should do: byte strings behave as
plain sequences of bytes.
-/

set_option linter.unusedVariables false

namespace Cel.Mem

/-! ### The program: variables of type `ByteString` -/

/-- A variable: outside its lifetime, holding a byte string, or moved from. -/
inductive Var where
  | dead
  | live (r : Rep)
  | moved (r : Rep)
  deriving DecidableEq, Repr

/-- The state of a program. -/
structure St where
  heap : Heap
  vars : List Var

/-- One operation of a program on its variables. -/
inductive Op where
  /-- `ByteString v_i(allocator, string)` -/
  | ofString (i : Nat) (arena : Option Nat) (bs : Bytes)
  /-- `ByteString v_i(allocator, cord)`, the cord made of these chunks -/
  | ofCord (i : Nat) (arena : Option Nat) (chunks : List Bytes)
  /-- `v_i = ByteString::FromExternal(string)`, at construction -/
  | external (i : Nat) (bs : Bytes)
  /-- `ByteString v_i(v_j)` or `ByteString v_i(allocator, v_j)` -/
  | copy (i j : Nat) (alloc : Option (Option Nat))
  /-- `ByteString v_i(std::move(v_j))` or with an allocator -/
  | move (i j : Nat) (alloc : Option (Option Nat))
  /-- `v_i = v_j` -/
  | assign (i j : Nat)
  /-- `v_i = std::move(v_j)` -/
  | assignMove (i j : Nat)
  /-- `swap(v_i, v_j)` -/
  | swap (i j : Nat)
  /-- the end of `v_i`'s lifetime -/
  | destroy (i : Nat)
  /-- `ByteString v_i = v_j.Substring(pos, npos)` -/
  | substring (i j pos npos : Nat)
  /-- `v_i.RemovePrefix(n)` -/
  | removePrefix (i n : Nat)
  /-- `v_i.RemoveSuffix(n)` -/
  | removeSuffix (i n : Nat)
  /-- `ByteString v_i = ByteString::Concat(v_j, v_k, arena)` -/
  | concat (i j k arena : Nat)
  /-- `ByteString v_i = v_j.Clone(arena)` -/
  | clone (i j arena : Nat)
  /-- `ByteString v_i(allocator, v_j.ToCord())` -/
  | viaCord (i j : Nat) (arena : Option Nat)
  /-- `ByteString v_i(allocator, std::move(v_j).ToCord())` -/
  | viaCordMove (i j : Nat) (arena : Option Nat)
  /-- `ByteString v_i(borrower, view)`: the borrower is the owner of `v_j`, the
  view is `npos - pos` bytes of `v_j` from `pos` -/
  | borrow (i j pos npos : Nat)
  /-- the arena is destroyed -/
  | resetArena (a : Nat)

/-- The variable with a number. -/
def St.var (s : St) (i : Nat) : Var := s.vars.getD i .dead

/-- Its representation (of a variable in its lifetime). -/
def Var.rep? : Var → Option Rep
  | .dead => none
  | .live r => some r
  | .moved r => some r

/-- The result of a constructor goes to variable `i`. -/
def into (s : St) (i : Nat) : Option (Heap × Rep) → Option St
  | none => none
  | some (h, r) => some ⟨h, s.vars.set i (.live r)⟩

/-- The result of a move from `j` goes to `i`. -/
def intoMove (s : St) (i j : Nat) : Option (Heap × Rep × Rep) → Option St
  | none => none
  | some (h, r, r') => some ⟨h, (s.vars.set i (.live r)).set j (.moved r')⟩

/-- A variable in its lifetime with another representation. -/
def Var.withRep : Var → Rep → Var
  | .dead, _ => .dead
  | .live _, r => .live r
  | .moved _, r => .moved r

/-- `Destroy` the blocks of an arena. -/
def Heap.dropArena (h : Heap) (a : Nat) : Heap :=
  { h with kind := fun k => if h.kind k = .arena a then .freed else h.kind k }

/-- One operation.  `none` is undefined behaviour (or an operation on a
variable outside its lifetime). -/
def step (s : St) : Op → Option St
  | .ofString i a bs => into s i (some (ofString s.heap a bs))
  | .ofCord i a cs => into s i (ofTempCord a (some (s.heap, cs.map .own)))
  | .external i bs => into s i (some (fromExternal s.heap bs))
  | .copy i j al =>
    match (s.var j).rep? with
    | none => none
    | some r => into s i (construct s.heap r al)
  | .move i j al =>
    match (s.var j).rep? with
    | none => none
    | some r => intoMove s i j (constructMove s.heap r al)
  | .assign i j =>
    if i = j then some s
    else match (s.var i).rep?, (s.var j).rep? with
      | some r, some r' => into s i (copyFrom s.heap r r')
      | _, _ => none
  | .assignMove i j =>
    if i = j then some s
    else match (s.var i).rep?, (s.var j).rep? with
      | some r, some r' => intoMove s i j (moveFrom s.heap r r')
      | _, _ => none
  | .swap i j =>
    if i = j then some s
    else match (s.var i).rep?, (s.var j).rep? with
      | some r, some r' =>
        match swapReps s.heap r r' with
        | none => none
        | some (h, r1, r2) =>
          some ⟨h, (s.vars.set i ((s.var j).withRep r1)).set j ((s.var i).withRep r2)⟩
      | _, _ => none
  | .destroy i =>
    match (s.var i).rep? with
    | none => none
    | some r => (destroy s.heap r).map fun h => ⟨h, s.vars.set i .dead⟩
  | .substring i j pos npos =>
    match (s.var j).rep? with
    | none => none
    | some r => into s i (substring s.heap r pos npos)
  | .removePrefix i n =>
    match (s.var i).rep? with
    | none => none
    | some r => into s i (removePrefix s.heap r n)
  | .removeSuffix i n =>
    match (s.var i).rep? with
    | none => none
    | some r => into s i (removeSuffix s.heap r n)
  | .concat i j k a =>
    match (s.var j).rep?, (s.var k).rep? with
    | some r, some r' => into s i (concat s.heap r r' a)
    | _, _ => none
  | .clone i j a =>
    match (s.var j).rep? with
    | none => none
    | some r => into s i (clone s.heap r a)
  | .viaCord i j a =>
    match (s.var j).rep? with
    | none => none
    | some r => into s i (ofTempCord a (toCord s.heap r))
  | .viaCordMove i j a =>
    match (s.var j).rep? with
    | none => none
    | some r =>
      match toCordMove s.heap r with
      | none => none
      | some (h, c, r') =>
        intoMove s i j ((ofTempCord a (some (h, c))).map fun x => (x.1, x.2, r'))
  | .borrow i j pos npos =>
    match (s.var j).rep? with
    | some (.medium p _ o) => into s i (borrowed s.heap o ⟨p.blk, p.off + pos⟩ (npos - pos))
    | _ => none
  | .resetArena a => some { s with heap := s.heap.dropArena a }

/-! ### The specification: plain sequences of bytes -/

/-- A variable holding a plain sequence of bytes. -/
inductive AVar where
  | dead
  | val (bs : Bytes)
  | moved
  deriving DecidableEq, Repr

/-- The bytes of a variable. -/
def bytesAt (l : List AVar) (i : Nat) : Bytes :=
  match l.getD i .dead with
  | .val bs => bs
  | _ => []

/-- What each operation does to plain sequences of bytes. -/
def spec (l : List AVar) : Op → List AVar
  | .ofString i _ bs => l.set i (.val bs)
  | .ofCord i _ cs => l.set i (.val cs.flatten)
  | .external i bs => l.set i (.val bs)
  | .copy i j _ => l.set i (.val (bytesAt l j))
  | .move i j _ => (l.set i (.val (bytesAt l j))).set j .moved
  | .assign i j => l.set i (.val (bytesAt l j))
  | .assignMove i j =>
    if i = j then l else (l.set i (.val (bytesAt l j))).set j .moved
  | .swap i j => (l.set i (l.getD j .dead)).set j (l.getD i .dead)
  | .destroy i => l.set i .dead
  | .substring i j pos npos =>
    l.set i (.val (((bytesAt l j).drop pos).take (npos - pos)))
  | .removePrefix i n => l.set i (.val ((bytesAt l i).drop n))
  | .removeSuffix i n =>
    l.set i (.val ((bytesAt l i).take ((bytesAt l i).length - n)))
  | .concat i j k _ => l.set i (.val (bytesAt l j ++ bytesAt l k))
  | .clone i j _ => l.set i (.val (bytesAt l j))
  | .viaCord i j _ => l.set i (.val (bytesAt l j))
  | .viaCordMove i j _ => (l.set i (.val (bytesAt l j))).set j .moved
  | .borrow i j pos npos =>
    l.set i (.val (((bytesAt l j).drop pos).take (npos - pos)))
  | .resetArena _ => l

/-- Variable `i` exists and is outside its lifetime. -/
def IsDead (l : List AVar) (i : Nat) : Prop := l[i]? = some .dead

/-- Variable `i` holds a byte string that has not been moved from. -/
def IsVal (l : List AVar) (i : Nat) : Prop := ∃ bs, l[i]? = some (.val bs)

/-- Variable `i` is within its lifetime. -/
def IsAlive (l : List AVar) (i : Nat) : Prop := IsVal l i ∨ l[i]? = some .moved

/-- What the interface asks of its caller. -/
def Allowed (l : List AVar) : Op → Prop
  | .ofString i _ _ | .ofCord i _ _ | .external i _ => IsDead l i
  | .copy i j _ | .move i j _ => IsDead l i ∧ IsVal l j
  | .assign i j | .assignMove i j => IsAlive l i ∧ IsVal l j
  | .swap i j => IsAlive l i ∧ IsAlive l j
  | .destroy i => IsAlive l i
  | .substring i j pos npos | .borrow i j pos npos =>
    IsDead l i ∧ IsVal l j ∧ pos ≤ npos ∧ npos ≤ (bytesAt l j).length
  | .removePrefix i n | .removeSuffix i n => IsVal l i ∧ n ≤ (bytesAt l i).length
  | .concat i j k _ => IsDead l i ∧ IsVal l j ∧ IsVal l k
  | .clone i j _ | .viaCord i j _ | .viaCordMove i j _ => IsDead l i ∧ IsVal l j
  | .resetArena _ => True

/-- What the interface asks of its caller besides: an arena is destroyed only
when no byte string says it is on it (`GetArena`); only a string with memory of
its own can be borrowed from. -/
def AllowedHere (s : St) : Op → Prop
  | .resetArena a => ∀ r, Var.live r ∈ s.vars → r.getArena ≠ some a
  | .borrow _ j _ _ => ∃ p n o, s.var j = .live (.medium p n o)
  | _ => True

/-- What a variable reads as; `none` is undefined behaviour. -/
def absVar (h : Heap) : Var → Option AVar
  | .dead => some .dead
  | .live r => (r.toBytes h).map .val
  | .moved _ => some .moved

/-- The program's variables, read one after the other, are `l`. -/
def Reads (s : St) (l : List AVar) : Prop :=
  s.vars.map (absVar s.heap) = l.map some

/-- The program before it has done anything: `n` variables. -/
def init (n : Nat) : St :=
  ⟨⟨fun _ => .freed, fun _ => [], 0⟩, List.replicate n .dead⟩

/-- Executions of a program on `n` variables that keep to the interface: the
program's state and what plain sequences of bytes would be. -/
inductive Hist (n : Nat) : List Op → St → List AVar → Prop where
  | nil : Hist n [] (init n) (List.replicate n .dead)
  | step {ops : List Op} {s s' : St} {l : List AVar} {op : Op} (h : Hist n ops s l)
      (ok : Allowed l op) (ok' : AllowedHere s op) (st : step s op = some s') :
      Hist n (ops ++ [op]) s' (spec l op)

end Cel.Mem
