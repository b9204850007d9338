/-!
# Common vocabulary: statuses, outcomes, C++ integer ranges

Outcomes of modelled C++ functions.  `ub` is a *distinct* outcome standing for C++ undefined
behaviour (or an abort of the process); a theorem that says `r = .ok v` therefore also says that
no undefined behaviour is reached.
-/

namespace Cel

/-- `absl::StatusCode` (only the codes the modelled code produces). -/
inductive StatusCode where
  | outOfRange | invalidArgument | internal | unknown | notFound | alreadyExists
  | failedPrecondition | unimplemented | resourceExhausted
  /-- `kUnavailable` carrying the "unknown function result" payload
  (`runtime/internal/errors.cc` lines 62-67). -/
  | unknownFunctionResult
  deriving DecidableEq, Repr

/-- `absl::Status` other than OK. -/
structure Status where
  code : StatusCode
  msg  : String
  deriving DecidableEq, Repr

/-- Result of a C++ function returning `absl::StatusOr<α>`, plus undefined behaviour. -/
inductive Res (α : Type) where
  | ok  : α → Res α
  | err : Status → Res α
  | ub  : Res α
  deriving DecidableEq, Repr

namespace Res

/-- Sequencing: `CEL_ASSIGN_OR_RETURN` (`internal/status_macros.h`). -/
def bind {α β : Type} (r : Res α) (f : α → Res β) : Res β :=
  match r with
  | ok a  => f a
  | err s => err s
  | ub    => ub

instance : Monad Res where
  pure := ok
  bind := bind

@[simp] theorem bind_ok {α β : Type} (a : α) (f : α → Res β) : bind (ok a) f = f a := rfl
@[simp] theorem bind_err {α β : Type} (s : Status) (f : α → Res β) : bind (err s) f = err s := rfl
@[simp] theorem bind_ub {α β : Type} (f : α → Res β) : bind ub f = ub := rfl
@[simp] theorem mbind_ok {α β : Type} (a : α) (f : α → Res β) : (ok a >>= f) = f a := rfl
@[simp] theorem mbind_err {α β : Type} (s : Status) (f : α → Res β) : (err s >>= f) = err s := rfl
@[simp] theorem mbind_ub {α β : Type} (f : α → Res β) : ((ub : Res α) >>= f) = ub := rfl
@[simp] theorem pure_eq {α : Type} (a : α) : (pure a : Res α) = ok a := rfl

end Res

/-- Smallest and largest values of the C++ fixed-width types. -/
def i64Min : Int := -9223372036854775808
def i64Max : Int := 9223372036854775807
def u64Max : Int := 18446744073709551615
def i32Min : Int := -2147483648
def i32Max : Int := 2147483647
def u32Max : Int := 4294967295

/-- `x` is a value of `int64_t`. -/
def InI64 (x : Int) : Prop := i64Min ≤ x ∧ x ≤ i64Max
/-- `x` is a value of `uint64_t`. -/
def InU64 (x : Int) : Prop := 0 ≤ x ∧ x ≤ u64Max

instance (x : Int) : Decidable (InI64 x) := inferInstanceAs (Decidable (_ ∧ _))
instance (x : Int) : Decidable (InU64 x) := inferInstanceAs (Decidable (_ ∧ _))

end Cel
