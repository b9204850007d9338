/-!
# Specification of UTF-8 (Unicode 15, definition D92), independent of the code's tables

A scalar value is a code point that is not a surrogate. Its encoding is given by arithmetic
on the 6-bit digits of the code point (RFC 3629 §3). A byte string is well formed when it is a concatenation
of encodings of scalar values.
-/

namespace Cel.Text.Spec

/-- Unicode scalar values: 0 … U+D7FF and U+E000 … U+10FFFF. -/
def IsScalar (c : Nat) : Prop := c ≤ 0xD7FF ∨ (0xE000 ≤ c ∧ c ≤ 0x10FFFF)

instance (c : Nat) : Decidable (IsScalar c) := inferInstanceAs (Decidable (_ ∨ _))

/-- UTF-8 encoding of a code point. -/
def enc (c : Nat) : List Nat :=
  if c < 0x80 then [c]
  else if c < 0x800 then [0xC0 + c / 64, 0x80 + c % 64]
  else if c < 0x10000 then [0xE0 + c / 4096, 0x80 + c / 64 % 64, 0x80 + c % 64]
  else [0xF0 + c / 262144, 0x80 + c / 4096 % 64, 0x80 + c / 64 % 64, 0x80 + c % 64]

/-- The encoding of a sequence of code points. -/
def encAll (cs : List Nat) : List Nat := cs.flatMap enc

/-- Every element is a scalar value. -/
def Scalars (cs : List Nat) : Prop := ∀ c ∈ cs, IsScalar c

/-- Well-formed UTF-8. -/
def WellFormed (bs : List Nat) : Prop := ∃ cs, Scalars cs ∧ bs = encAll cs

/-- Every element is a byte. -/
def Bytes (bs : List Nat) : Prop := ∀ b ∈ bs, b < 256

end Cel.Text.Spec

namespace Cel.Text.Spec

/-- No scalar value's encoding starts `bs`. -/
def NoScalarAt (bs : List Nat) : Prop := ∀ c, IsScalar c → ¬ enc c <+: bs

/-- `Segments bs n`: reading `bs` from the left, taking a whole encoded scalar value wherever one
starts and otherwise a single undecodable byte, takes `n` steps. -/
inductive Segments : List Nat → Nat → Prop
  | nil : Segments [] 0
  | scalar {c r n} : IsScalar c → Segments r n → Segments (enc c ++ r) (n + 1)
  | bad {b r n} : NoScalarAt (b :: r) → Segments r n → Segments (b :: r) (n + 1)

end Cel.Text.Spec
