import Verif.Base

/-!
# Model of the integer part of `internal/overflow.cc`

C++ `int64_t`/`uint64_t` values are `Int`s in range (`InI64`/`InU64`).
Signed C++ operators give `ub` when the exact result is not an `int64_t`; unsigned operators wrap.
-/

namespace Cel.Num
open Cel

/-! ## C++ operators -/

/-- Conversion of an integer to `int64_t` modulo 2^64 (two's complement). -/
def wrapI64 (x : Int) : Int := x.bmod 18446744073709551616
/-- Conversion of an integer to `uint64_t` modulo 2^64. -/
def wrapU64 (x : Int) : Int := x % 18446744073709551616

/-- C++ signed `+ - *` on `int64_t`: overflow is undefined behaviour. -/
def cppAddI (x y : Int) : Res Int := if InI64 (x + y) then .ok (x + y) else .ub
def cppSubI (x y : Int) : Res Int := if InI64 (x - y) then .ok (x - y) else .ub
def cppMulI (x y : Int) : Res Int := if InI64 (x * y) then .ok (x * y) else .ub
def cppNegI (x : Int) : Res Int := if InI64 (-x) then .ok (-x) else .ub
/-- C++ signed `/`, `%`: truncating; division by zero and `INT64_MIN / -1` are undefined. -/
def cppDivI (x y : Int) : Res Int :=
  if y = 0 then .ub else if InI64 (x.tdiv y) then .ok (x.tdiv y) else .ub
def cppModI (x y : Int) : Res Int :=
  if y = 0 then .ub else if InI64 (x.tdiv y) then .ok (x.tmod y) else .ub
/-- C++ unsigned `/`, `%`: division by zero is undefined. -/
def cppDivU (x y : Int) : Res Int := if y = 0 then .ub else .ok (x / y)
def cppModU (x y : Int) : Res Int := if y = 0 then .ub else .ok (x % y)

/-- `__builtin_*_overflow` (GCC/Clang manual): the exact result is cast to the result type; the
builtin returns true when the cast value differs from the exact result. The pair is
(value stored, overflow flag). -/
def builtinI (exact : Int) : Int × Bool := (wrapI64 exact, decide (wrapI64 exact ≠ exact))
def builtinU (exact : Int) : Int × Bool := (wrapU64 exact, decide (wrapU64 exact ≠ exact))

def intOverflow : Status := ⟨.outOfRange, "integer overflow"⟩
def uintOverflow : Status := ⟨.outOfRange, "unsigned integer overflow"⟩

/-- `CheckRange`, overflow.cc:52-56. -/
def checkRange (valid : Bool) (msg : String) : Res Unit :=
  if valid then .ok () else .err ⟨.outOfRange, msg⟩
/-- `CheckArgument`, overflow.cc:58-62. -/
def checkArgument (valid : Bool) (msg : String) : Res Unit :=
  if valid then .ok () else .err ⟨.invalidArgument, msg⟩

/-! ## Builtin paths -/

/-- `CheckedAdd(int64_t, int64_t)`, overflow.cc:76-82. -/
def checkedAddI (x y : Int) : Res Int :=
  let b := builtinI (x + y)
  if !b.2 then .ok b.1 else .err intOverflow
/-- `CheckedSub(int64_t, int64_t)`, overflow.cc:90-96. -/
def checkedSubI (x y : Int) : Res Int :=
  let b := builtinI (x - y)
  if !b.2 then .ok b.1 else .err intOverflow
/-- `CheckedNegation(int64_t)`, overflow.cc:104-110. -/
def checkedNegI (v : Int) : Res Int :=
  let b := builtinI (v * (-1))
  if !b.2 then .ok b.1 else .err intOverflow
/-- `CheckedMul(int64_t, int64_t)`, overflow.cc:117-123. -/
def checkedMulI (x y : Int) : Res Int :=
  let b := builtinI (x * y)
  if !b.2 then .ok b.1 else .err intOverflow
/-- `CheckedDiv(int64_t, int64_t)`, overflow.cc:138-143. -/
def checkedDivI (x y : Int) : Res Int := do
  checkRange (decide (x ≠ i64Min ∨ y ≠ -1)) "integer overflow"
  checkArgument (decide (y ≠ 0)) "divide by zero"
  cppDivI x y
/-- `CheckedMod(int64_t, int64_t)`, overflow.cc:145-150. -/
def checkedModI (x y : Int) : Res Int := do
  checkRange (decide (x ≠ i64Min ∨ y ≠ -1)) "integer overflow"
  checkArgument (decide (y ≠ 0)) "modulus by zero"
  cppModI x y
/-- `CheckedAdd(uint64_t, uint64_t)`, overflow.cc:152-158. -/
def checkedAddU (x y : Int) : Res Int :=
  let b := builtinU (x + y)
  if !b.2 then .ok b.1 else .err uintOverflow
/-- `CheckedSub(uint64_t, uint64_t)`, overflow.cc:166-172. -/
def checkedSubU (x y : Int) : Res Int :=
  let b := builtinU (x - y)
  if !b.2 then .ok b.1 else .err uintOverflow
/-- `CheckedMul(uint64_t, uint64_t)`, overflow.cc:179-185. -/
def checkedMulU (x y : Int) : Res Int :=
  let b := builtinU (x * y)
  if !b.2 then .ok b.1 else .err uintOverflow
/-- `CheckedDiv(uint64_t, uint64_t)`, overflow.cc:193-196. -/
def checkedDivU (x y : Int) : Res Int := do
  checkArgument (decide (y ≠ 0)) "divide by zero"
  cppDivU x y
/-- `CheckedMod(uint64_t, uint64_t)`, overflow.cc:198-201. -/
def checkedModU (x y : Int) : Res Int := do
  checkArgument (decide (y ≠ 0)) "modulus by zero"
  cppModU x y

/-! ## Portable (`#else`) paths.  Every intermediate C++ operation is evaluated with `cpp*`, so an
overflowing guard would show up as `ub`. -/

/-- overflow.cc:83-87. -/
def portableAddI (x y : Int) : Res Int := do
  let valid ← (if y > 0 then do let b ← cppSubI i64Max y; .ok (decide (x ≤ b))
               else do let b ← cppSubI i64Min y; .ok (decide (x ≥ b)))
  checkRange valid "integer overflow"
  cppAddI x y
/-- overflow.cc:97-101. -/
def portableSubI (x y : Int) : Res Int := do
  let valid ← (if y < 0 then do let b ← cppAddI i64Max y; .ok (decide (x ≤ b))
               else do let b ← cppAddI i64Min y; .ok (decide (x ≥ b)))
  checkRange valid "integer overflow"
  cppSubI x y
/-- overflow.cc:111-114. -/
def portableNegI (v : Int) : Res Int := do
  checkRange (decide (v ≠ i64Min)) "integer overflow"
  cppNegI v

/-- C++ `a && b` where `b` may be undefined: `b` is evaluated only when `a` holds. -/
def andThen (a : Bool) (b : Res Bool) : Res Bool := if a then b else .ok false
/-- C++ `a || b`: `b` is evaluated only when `a` is false. -/
def orElse (a : Res Bool) (b : Res Bool) : Res Bool := a >>= fun v => if v then .ok true else b

/-- overflow.cc:124-135. -/
def portableMulI (x y : Int) : Res Int := do
  let bad ←
    orElse (.ok (decide (x = -1 ∧ y = i64Min))) <|
    orElse (.ok (decide (y = -1 ∧ x = i64Min))) <|
    orElse (andThen (decide (x > 0 ∧ y > 0)) (do let q ← cppDivI i64Max y; .ok (decide (x > q)))) <|
    orElse (andThen (decide (x < 0 ∧ y < 0)) (do let q ← cppDivI i64Max y; .ok (decide (x < q)))) <|
    orElse (andThen (decide (x > 0 ∧ y < 0)) (do let q ← cppDivI i64Min x; .ok (decide (y < q)))) <|
    andThen (decide (x < 0 ∧ y > 0)) (do let q ← cppDivI i64Min y; .ok (decide (x < q)))
  checkRange (!bad) "integer overflow"
  cppMulI x y

/-- overflow.cc:159-163 (unsigned `-` and `+` wrap). -/
def portableAddU (x y : Int) : Res Int := do
  checkRange (decide (x ≤ wrapU64 (u64Max - y))) "unsigned integer overflow"
  .ok (wrapU64 (x + y))
/-- overflow.cc:173-176. -/
def portableSubU (x y : Int) : Res Int := do
  checkRange (decide (y ≤ x)) "unsigned integer overflow"
  .ok (wrapU64 (x - y))
/-- overflow.cc:186-190. -/
def portableMulU (x y : Int) : Res Int := do
  let valid ← orElse (.ok (decide (y = 0))) (do let q ← cppDivU u64Max y; .ok (decide (x ≤ q)))
  checkRange valid "unsigned integer overflow"
  .ok (wrapU64 (x * y))

/-! ## Conversions between integer types -/

/-- `CheckedInt64ToUint64`, overflow.cc:316-319. The cast is modulo 2^64. -/
def checkedI64ToU64 (v : Int) : Res Int := do
  checkRange (decide (v ≥ 0)) "int64 out of uint64 range"
  .ok (wrapU64 v)
/-- `CheckedInt64ToInt32`, overflow.cc:321-325; cast modulo 2^32. -/
def checkedI64ToI32 (v : Int) : Res Int := do
  checkRange (decide (v ≥ i32Min ∧ v ≤ i32Max)) "int64 out of int32 range"
  .ok (v.bmod 4294967296)
/-- `CheckedUint64ToInt64`, overflow.cc:327-331. -/
def checkedU64ToI64 (v : Int) : Res Int := do
  checkRange (decide (v ≤ i64Max)) "uint64 out of int64 range"
  .ok (wrapI64 v)
/-- `CheckedUint64ToUint32`, overflow.cc:333-337. -/
def checkedU64ToU32 (v : Int) : Res Int := do
  checkRange (decide (v ≤ u32Max)) "uint64 out of uint32 range"
  .ok (v % 4294967296)

end Cel.Num
