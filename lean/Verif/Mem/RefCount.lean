/-
The control block of `common/internal/reference_count.h`: two 32-bit atomic
counters shared by any number of threads.

What is modelled: every function of the header that touches a counter
(`StrongRef`, `StrongUnref`, `StrengthenRef`, `WeakRef`, `WeakUnref`,
`IsUniqueRef`, `IsExpiredRef`), one atomic access per step, interleaved in
any order by any number of threads.  `int32_t` arithmetic wraps.

Simplifications: the interleaving is sequentially consistent (the memory
orders of the header are not modelled); one control block at a time;
`Finalize` and `Delete` are single events (what they run is `noexcept` and
does not touch this block's counters).
-/

set_option linter.unusedVariables false

namespace Cel.Mem

/-- `int32_t` arithmetic of `std::atomic<int32_t>`: two's complement, no
undefined behaviour (reference_count.h:148-149). -/
def wrap32 (x : Int) : Int := (x + 2147483648) % 4294967296 - 2147483648

/-- The two counters: `strong_refcount_`, `weak_refcount_`
(reference_count.h:148-149). -/
structure Block where
  strong : Int
  weak : Int
  deriving DecidableEq, Repr

/-- Both start at 1 (reference_count.h:148-149). -/
def Block.fresh : Block := { strong := 1, weak := 1 }

/-- Where a thread is inside one of the functions:
`atFinalize` – in `StrongUnref`, before `Finalize()` (line 309);
`atWeakUnref` – in `StrongUnref`, before `WeakUnref` (line 310);
`atDelete` – in `WeakUnref`, before `Delete()` (line 361);
`strengthening c` – in `StrengthenRef`'s loop with local `count = c`
(lines 323-334). -/
inductive PC where
  | idle
  | atFinalize
  | atWeakUnref
  | atDelete
  | strengthening (c : Int)
  deriving DecidableEq, Repr

/-- A thread: how many strong and weak handles it owns, and where it is. -/
structure Th where
  strong : Nat
  weak : Nat
  pc : PC
  deriving DecidableEq, Repr

/-- Something observable that a step does.  The events carrying a number are
the accesses to the counters, with the value the atomic operation returned. -/
inductive Ev where
  | strongAdd (old : Int)
  | strongSub (old : Int)
  | weakAdd (old : Int)
  | weakSub (old : Int)
  | strongLoad (v : Int)
  | strengthened (ok : Bool)
  | unique (v : Int) (res : Bool)
  | expired (v : Int) (res : Bool)
  | finalize
  | delete
  | deref
  | drop | pass
  deriving DecidableEq, Repr

/-- One atomic step of one thread, on the block. -/
inductive TStep : Block → Th → Ev → Block → Th → Prop where
  /-- `StrongRef` on an owned handle (reference_count.h:291-295). -/
  | strongRef (b : Block) (s w : Nat) :
      TStep b ⟨s + 1, w, .idle⟩ (.strongAdd b.strong)
        { b with strong := wrap32 (b.strong + 1) } ⟨s + 2, w, .idle⟩
  /-- `StrongUnref` giving up an owned handle, when the old count is 1
  (reference_count.h:303-308). -/
  | strongUnrefLast (b : Block) (s w : Nat) (h : b.strong = 1) :
      TStep b ⟨s + 1, w, .idle⟩ (.strongSub b.strong)
        { b with strong := wrap32 (b.strong - 1) } ⟨s, w, .atFinalize⟩
  /-- `StrongUnref` otherwise. -/
  | strongUnref (b : Block) (s w : Nat) (h : b.strong ≠ 1) :
      TStep b ⟨s + 1, w, .idle⟩ (.strongSub b.strong)
        { b with strong := wrap32 (b.strong - 1) } ⟨s, w, .idle⟩
  /-- `Finalize()` (reference_count.h:309). -/
  | finalize (b : Block) (s w : Nat) :
      TStep b ⟨s, w, .atFinalize⟩ .finalize b ⟨s, w, .atWeakUnref⟩
  /-- the `WeakUnref` of `StrongUnref` (reference_count.h:310, 355-363). -/
  | weakUnrefInnerLast (b : Block) (s w : Nat) (h : b.weak = 1) :
      TStep b ⟨s, w, .atWeakUnref⟩ (.weakSub b.weak)
        { b with weak := wrap32 (b.weak - 1) } ⟨s, w, .atDelete⟩
  | weakUnrefInner (b : Block) (s w : Nat) (h : b.weak ≠ 1) :
      TStep b ⟨s, w, .atWeakUnref⟩ (.weakSub b.weak)
        { b with weak := wrap32 (b.weak - 1) } ⟨s, w, .idle⟩
  /-- `Delete()` (reference_count.h:361). -/
  | delete (b : Block) (s w : Nat) :
      TStep b ⟨s, w, .atDelete⟩ .delete b ⟨s, w, .idle⟩
  /-- `WeakRef` through an owned weak handle (reference_count.h:343-347). -/
  | weakRefOfWeak (b : Block) (s w : Nat) :
      TStep b ⟨s, w + 1, .idle⟩ (.weakAdd b.weak)
        { b with weak := wrap32 (b.weak + 1) } ⟨s, w + 2, .idle⟩
  /-- `WeakRef` through an owned strong handle. -/
  | weakRefOfStrong (b : Block) (s w : Nat) :
      TStep b ⟨s + 1, w, .idle⟩ (.weakAdd b.weak)
        { b with weak := wrap32 (b.weak + 1) } ⟨s + 1, w + 1, .idle⟩
  /-- `WeakUnref` giving up an owned weak handle
  (reference_count.h:355-363). -/
  | weakUnrefLast (b : Block) (s w : Nat) (h : b.weak = 1) :
      TStep b ⟨s, w + 1, .idle⟩ (.weakSub b.weak)
        { b with weak := wrap32 (b.weak - 1) } ⟨s, w, .atDelete⟩
  | weakUnref (b : Block) (s w : Nat) (h : b.weak ≠ 1) :
      TStep b ⟨s, w + 1, .idle⟩ (.weakSub b.weak)
        { b with weak := wrap32 (b.weak - 1) } ⟨s, w, .idle⟩
  /-- `StrengthenRef` on an owned weak handle: the initial load
  (reference_count.h:321-322). -/
  | strengthenLoad (b : Block) (s w : Nat) :
      TStep b ⟨s, w + 1, .idle⟩ (.strongLoad b.strong) b
        ⟨s, w + 1, .strengthening b.strong⟩
  /-- `if (count == 0) return false` (reference_count.h:326-328). -/
  | strengthenFail (b : Block) (s w : Nat) :
      TStep b ⟨s, w, .strengthening 0⟩ (.strengthened false) b ⟨s, w, .idle⟩
  /-- `compare_exchange_weak` succeeds (reference_count.h:329-333). -/
  | strengthenCas (b : Block) (s w : Nat) (h : b.strong ≠ 0) :
      TStep b ⟨s, w, .strengthening b.strong⟩ (.strengthened true)
        { b with strong := wrap32 (b.strong + 1) } ⟨s + 1, w, .idle⟩
  /-- `compare_exchange_weak` fails, perhaps spuriously, and reloads
  (reference_count.h:329-334). -/
  | strengthenRetry (b : Block) (s w : Nat) (c : Int) (h : c ≠ 0) :
      TStep b ⟨s, w, .strengthening c⟩ (.strongLoad b.strong) b
        ⟨s, w, .strengthening b.strong⟩
  /-- `IsUniqueRef` through an owned strong handle
  (reference_count.h:372-377). -/
  | isUnique (b : Block) (s w : Nat) :
      TStep b ⟨s + 1, w, .idle⟩ (.unique b.strong (decide (b.strong = 1))) b
        ⟨s + 1, w, .idle⟩
  /-- `IsExpiredRef` through an owned weak handle
  (reference_count.h:385-390). -/
  | isExpired (b : Block) (s w : Nat) :
      TStep b ⟨s, w + 1, .idle⟩ (.expired b.strong (decide (b.strong = 0))) b
        ⟨s, w + 1, .idle⟩
  /-- the owner of a strong handle looks at the object. -/
  | deref (b : Block) (s w : Nat) :
      TStep b ⟨s + 1, w, .idle⟩ .deref b ⟨s + 1, w, .idle⟩

/-- The whole system: the block, the threads, and handles in transit between
threads (in queues or globals). -/
structure Sys where
  b : Block
  th : List Th
  transitStrong : Nat
  transitWeak : Nat
  deriving Repr

/-- One step of the system: a thread moves, or a handle is handed over, or a
thread starts. -/
inductive Step : Sys → Ev → Sys → Prop where
  | run (pre post : List Th) (t t' : Th) (b b' : Block) (ts tw : Nat) (e : Ev)
      (h : TStep b t e b' t') :
      Step ⟨b, pre ++ t :: post, ts, tw⟩ e ⟨b', pre ++ t' :: post, ts, tw⟩
  | giveStrong (pre post : List Th) (b : Block) (s w ts tw : Nat) :
      Step ⟨b, pre ++ ⟨s + 1, w, .idle⟩ :: post, ts, tw⟩ .pass
        ⟨b, pre ++ ⟨s, w, .idle⟩ :: post, ts + 1, tw⟩
  | takeStrong (pre post : List Th) (b : Block) (s w ts tw : Nat) :
      Step ⟨b, pre ++ ⟨s, w, .idle⟩ :: post, ts + 1, tw⟩ .pass
        ⟨b, pre ++ ⟨s + 1, w, .idle⟩ :: post, ts, tw⟩
  | giveWeak (pre post : List Th) (b : Block) (s w ts tw : Nat) :
      Step ⟨b, pre ++ ⟨s, w + 1, .idle⟩ :: post, ts, tw⟩ .pass
        ⟨b, pre ++ ⟨s, w, .idle⟩ :: post, ts, tw + 1⟩
  | takeWeak (pre post : List Th) (b : Block) (s w ts tw : Nat) :
      Step ⟨b, pre ++ ⟨s, w, .idle⟩ :: post, ts, tw + 1⟩ .pass
        ⟨b, pre ++ ⟨s, w + 1, .idle⟩ :: post, ts, tw⟩
  | spawn (th : List Th) (b : Block) (ts tw : Nat) :
      Step ⟨b, th, ts, tw⟩ .pass ⟨b, ⟨0, 0, .idle⟩ :: th, ts, tw⟩

/-- All strong handles in existence. -/
def strongHandles (s : Sys) : Nat := (s.th.map (·.strong)).sum + s.transitStrong

/-- All weak handles in existence. -/
def weakHandles (s : Sys) : Nat := (s.th.map (·.weak)).sum + s.transitWeak

/-- The counters can hold the number of handles (one weak reference more is
held by the strong handles together). -/
def Fits (s : Sys) : Prop :=
  strongHandles s ≤ 2147483647 ∧ weakHandles s + 1 ≤ 2147483647

/-- The state just after the creation of the block: one thread with the only
handle (`new InlinedReferenceCount`, reference_count.h:277-289). -/
def start : Sys := ⟨Block.fresh, [⟨1, 0, .idle⟩], 0, 0⟩

/-- Executions, with the events so far, oldest first, when the number of
handles always fits the counters. -/
inductive Exec : List Ev → Sys → Prop where
  | nil : Exec [] start
  | step {tr : List Ev} {s s' : Sys} {e : Ev} (h : Exec tr s) (st : Step s e s')
      (fit : Fits s') : Exec (tr ++ [e]) s'

/-- Executions without the assumption on the number of handles. -/
inductive ExecAny : List Ev → Sys → Prop where
  | nil : ExecAny [] start
  | step {tr : List Ev} {s s' : Sys} {e : Ev} (h : ExecAny tr s)
      (st : Step s e s') : ExecAny (tr ++ [e]) s'

end Cel.Mem
