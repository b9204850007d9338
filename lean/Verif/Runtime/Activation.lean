import Verif.Base

/-!
# Model of an activation's variables

`runtime/activation.cc` and `runtime/activation.h`: variables bound to values or to providers, and lookups by any number
of threads.  The class is thread-compatible: lookups (`const`) may run concurrently with each other, insertions may not run
concurrently with anything.  A lookup of a variable bound to a provider takes `mutex_` (`absl::Mutex`, not recursive).
A provider is arbitrary code: its answer is not constrained, and it may itself look variables up in the same activation.
The model is a transition system; a state carries the history of what the API was asked and what it answered.
-/

namespace Cel.Runtime
open Cel

/-- What a provider or a lookup answers: an error status, nothing, or a value. -/
abbrev Out (V : Type) := Except Status (Option V)

/-- `Activation::ValueEntry` (`runtime/activation.h` lines 121-126). -/
structure VEntry (V P : Type) where
  value : Option V
  provider : Option P

/-- Where a thread is in a lookup of the variable `n`. -/
inductive Frame (V : Type) where
  /-- in `ProvideValue`, before the mutex is taken (line 69) -/
  | waiting (n : String)
  /-- the mutex is held, the entry's value is not examined yet (line 70) -/
  | locked (n : String)
  /-- the mutex is held and the provider runs (line 79) -/
  | calling (n : String)
  /-- the mutex is held and the provider has answered (lines 80-88) -/
  | got (n : String) (o : Out V)

/-- What happened at the interface: bindings, with the result of the insertion; calls of providers and their answers; results of lookups. -/
inductive Event (V P : Type) where
  | bindValue (n : String) (v : V) (fresh : Bool)
  | bindProvider (n : String) (p : P) (fresh : Bool)
  | invoked (t : Nat) (n : String) (p : P)
  | returned (t : Nat) (n : String) (o : Out V)
  | looked (t : Nat) (n : String) (o : Out V)

/-- The state: `values_`, the holder of `mutex_`, what each thread is doing (innermost lookup first), and the history,
latest event first. -/
structure AState (V P : Type) where
  entries : String → Option (VEntry V P)
  lock : Option Nat
  th : Nat → List (Frame V)
  trace : List (Event V P)

/-- A new activation. -/
def AState.init (V P : Type) : AState V P := ⟨fun _ => none, none, fun _ => [], []⟩

/-- Replacing one entry (`insert_or_assign`, or an assignment through a reference to the entry). -/
def AState.put {V P : Type} (s : AState V P) (n : String) (e : VEntry V P) : AState V P :=
  { s with entries := fun m => if m = n then some e else s.entries m }

/-- Replacing one thread's stack. -/
def AState.goto {V P : Type} (s : AState V P) (t : Nat) (l : List (Frame V)) : AState V P :=
  { s with th := fun u => if u = t then l else s.th u }

/-- Recording an event. -/
def AState.emit {V P : Type} (s : AState V P) (e : Event V P) : AState V P := { s with trace := e :: s.trace }

/-- The thread runs the embedder's code: outside every lookup, or inside a provider. -/
def CanCall {V : Type} (l : List (Frame V)) : Prop := l = [] ∨ ∃ n rest, l = .calling n :: rest

/-- The steps. -/
inductive AStep {V P : Type} (s : AState V P) : AState V P → Prop where
  /-- `InsertOrAssignValue` (`runtime/activation.cc` lines 103-107), with no lookup in progress. -/
  | insertValue (n : String) (v : V) (h : ∀ t, s.th t = []) :
      AStep s ((s.put n ⟨some v, none⟩).emit (.bindValue n v (s.entries n).isNone))
  /-- `InsertOrAssignValueProvider` (lines 109-114), with no lookup in progress. -/
  | insertProvider (n : String) (p : P) (h : ∀ t, s.th t = []) :
      AStep s ((s.put n ⟨none, some p⟩).emit (.bindProvider n p (s.entries n).isNone))
  /-- `FindVariable` of an unbound name (lines 47-50). -/
  | findMissing (t : Nat) (n : String) (h : CanCall (s.th t)) (he : s.entries n = none) :
      AStep s (s.emit (.looked t n (.ok none)))
  /-- `FindVariable` of a name bound without a provider (lines 56-60). -/
  | findValue (t : Nat) (n : String) (e : VEntry V P) (h : CanCall (s.th t)) (he : s.entries n = some e)
      (hp : e.provider = none) : AStep s (s.emit (.looked t n (.ok e.value)))
  /-- `FindVariable` of a name bound to a provider calls `ProvideValue` (lines 53-55). -/
  | findProvided (t : Nat) (n : String) (e : VEntry V P) (h : CanCall (s.th t)) (he : s.entries n = some e)
      (hp : e.provider ≠ none) : AStep s (s.goto t (.waiting n :: s.th t))
  /-- `MutexLock` (line 69). -/
  | lock (t : Nat) (n : String) (rest : List (Frame V)) (h : s.th t = .waiting n :: rest) (hl : s.lock = none) :
      AStep s { s.goto t (.locked n :: rest) with lock := some t }
  /-- The value is there (lines 70-76); the mutex is released on return. -/
  | memoised (t : Nat) (n : String) (rest : List (Frame V)) (e : VEntry V P) (v : V) (h : s.th t = .locked n :: rest)
      (he : s.entries n = some e) (hv : e.value = some v) :
      AStep s { (s.goto t rest).emit (.looked t n (.ok (some v))) with lock := none }
  /-- The value is not there: the provider is called (lines 78-80). -/
  | invoke (t : Nat) (n : String) (rest : List (Frame V)) (e : VEntry V P) (p : P) (h : s.th t = .locked n :: rest)
      (he : s.entries n = some e) (hv : e.value = none) (hp : e.provider = some p) :
      AStep s ((s.goto t (.calling n :: rest)).emit (.invoked t n p))
  /-- The provider answers. -/
  | answer (t : Nat) (n : String) (rest : List (Frame V)) (o : Out V) (h : s.th t = .calling n :: rest) :
      AStep s ((s.goto t (.got n o :: rest)).emit (.returned t n o))
  /-- An error is returned (`CEL_ASSIGN_OR_RETURN`, lines 78-80). -/
  | fail (t : Nat) (n : String) (rest : List (Frame V)) (e : Status) (h : s.th t = .got n (.error e) :: rest) :
      AStep s { (s.goto t rest).emit (.looked t n (.error e)) with lock := none }
  /-- No value (line 86). -/
  | absent (t : Nat) (n : String) (rest : List (Frame V)) (h : s.th t = .got n (.ok none) :: rest) :
      AStep s { (s.goto t rest).emit (.looked t n (.ok none)) with lock := none }
  /-- A value: it is stored in the entry and returned (lines 81-85). -/
  | store (t : Nat) (n : String) (rest : List (Frame V)) (e : VEntry V P) (v : V) (h : s.th t = .got n (.ok (some v)) :: rest)
      (he : s.entries n = some e) :
      AStep s { ((s.put n { e with value := some v }).goto t rest).emit (.looked t n (.ok (some v))) with lock := none }

/-- States that some history of any length leads to. -/
inductive AReach {V P : Type} : AState V P → AState V P → Prop where
  | refl (s : AState V P) : AReach s s
  | step {s s' s'' : AState V P} : AReach s s' → AStep s' s'' → AReach s s''

/-- States reachable from a new activation. -/
def AState.Reachable {V P : Type} (s : AState V P) : Prop := AReach (AState.init V P) s

/-! ## Moving an activation -/

/-- The members of `Activation` (`runtime/activation.h` lines 172-184), without the mutex. `M` stands for attribute matchers. -/
structure Members (V P F A M : Type) where
  values : String → Option (VEntry V P)
  unknown : List A
  missing : List A
  matcher : Option M
  owned : Option M
  functions : String → List F

/-- A new activation's members. -/
def Members.new (V P F A M : Type) : Members V P F A M := ⟨fun _ => none, [], [], none, none, fun _ => []⟩

/-- `swap` (`runtime/activation.h` lines 153-159): the new values of `a` and `b`. -/
def Members.swap {V P F A M : Type} (a b : Members V P F A M) : Members V P F A M × Members V P F A M :=
  ({ a with values := b.values, functions := b.functions, unknown := b.unknown, missing := b.missing },
   { b with values := a.values, functions := a.functions, unknown := a.unknown, missing := a.missing })

/-- The move constructor (`runtime/activation.cc` lines 129-132): the new activation and what is left in `other`. -/
def Members.moveConstruct {V P F A M : Type} (other : Members V P F A M) : Members V P F A M × Members V P F A M :=
  (Members.new V P F A M).swap other

/-- Move assignment (`runtime/activation.cc` lines 134-139): the new value of `a`, and what is left in `other`. -/
def Members.moveAssign {V P F A M : Type} (a other : Members V P F A M) : Members V P F A M × Members V P F A M :=
  let t := other.moveConstruct
  ((a.swap t.1).1, t.2)

end Cel.Runtime
