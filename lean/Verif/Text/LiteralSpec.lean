import Verif.Text.Utf8Spec

/-!
# What a CEL string or bytes literal denotes (CEL specification, "String and Bytes Values")

Independent of the code: relations between the text between the quotes and the value.
-/

namespace Cel.Text.Spec

/-- Value of an octal digit character. -/
def octVal (d : Nat) : Option Nat := if 48 ≤ d ∧ d ≤ 55 then some (d - 48) else none
/-- Value of a hexadecimal digit character. -/
def hexVal (d : Nat) : Option Nat :=
  if 48 ≤ d ∧ d ≤ 57 then some (d - 48)
  else if 65 ≤ d ∧ d ≤ 70 then some (d - 55)
  else if 97 ≤ d ∧ d ≤ 102 then some (d - 87)
  else none
/-- `ds` is a string of hexadecimal digits with value `v`. -/
inductive HexNum : List Nat → Nat → Prop
  | nil : HexNum [] 0
  | snoc {ds v d k} : HexNum ds v → hexVal d = some k → HexNum (ds ++ [d]) (16 * v + k)

/-- Single-character escapes: `\a \b \f \n \r \t \v \\ \? \' \" \``. -/
def simpleEscape : List (Nat × Nat) :=
  [(97, 7), (98, 8), (102, 12), (110, 10), (114, 13), (116, 9), (118, 11), (92, 92), (63, 63),
   (39, 39), (34, 34), (96, 96)]

/-- A code from an octal or hex escape: a byte in bytes literals, a code point in strings. -/
def code (isBytes : Bool) (n : Nat) : List Nat := if isBytes then [n] else enc n

/-- `Denotes isBytes text value`: what non-raw literal text stands for. -/
inductive Denotes (isBytes : Bool) : List Nat → List Nat → Prop
  | nil : Denotes isBytes [] []
  | char {b t v} : b ≠ 92 → b ≠ 13 → Denotes isBytes t v → Denotes isBytes (b :: t) (b :: v)
  | crlf {t v} : Denotes isBytes t v → Denotes isBytes (13 :: 10 :: t) (10 :: v)
  | cr {t v} : (∀ t', t ≠ 10 :: t') → Denotes isBytes t v → Denotes isBytes (13 :: t) (10 :: v)
  | simple {e c t v} : (e, c) ∈ simpleEscape → Denotes isBytes t v →
      Denotes isBytes (92 :: e :: t) (c :: v)
  | octal {d1 d2 d3 x y z t v} : octVal d1 = some x → x ≤ 3 → octVal d2 = some y →
      octVal d3 = some z → Denotes isBytes t v →
      Denotes isBytes (92 :: d1 :: d2 :: d3 :: t) (code isBytes (64 * x + 8 * y + z) ++ v)
  | hex {e ds n t v} : e = 120 ∨ e = 88 → ds.length = 2 → HexNum ds n → Denotes isBytes t v →
      Denotes isBytes (92 :: e :: (ds ++ t)) (code isBytes n ++ v)
  | u4 {ds n t v} : isBytes = false → ds.length = 4 → HexNum ds n → IsScalar n → Denotes isBytes t v →
      Denotes isBytes (92 :: 117 :: (ds ++ t)) (enc n ++ v)
  | u8 {ds n t v} : isBytes = false → ds.length = 8 → HexNum ds n → IsScalar n → Denotes isBytes t v →
      Denotes isBytes (92 :: 85 :: (ds ++ t)) (enc n ++ v)

/-- What raw literal text stands for: itself, with newlines outside backslash pairs normalised. -/
inductive RawDenotes : List Nat → List Nat → Prop
  | nil : RawDenotes [] []
  | char {b t v} : b ≠ 92 → b ≠ 13 → RawDenotes t v → RawDenotes (b :: t) (b :: v)
  | crlf {t v} : RawDenotes t v → RawDenotes (13 :: 10 :: t) (10 :: v)
  | cr {t v} : (∀ t', t ≠ 10 :: t') → RawDenotes t v → RawDenotes (13 :: t) (10 :: v)
  | esc {e t v} : RawDenotes t v → RawDenotes (92 :: e :: t) (92 :: e :: v)

/-- The closing quotes do not occur before the end, except after a backslash. -/
inductive NoClose (closing : List Nat) : List Nat → Prop
  | nil : NoClose closing []
  | char {b t} : b ≠ 92 → ¬ closing <+: (b :: t) ++ closing → NoClose closing t → NoClose closing (b :: t)
  | esc {e t} : NoClose closing t → NoClose closing (92 :: e :: t)

/-- `'`, `"`, `'''` or `"""`. -/
def IsQuotes (qs : List Nat) : Prop := qs = [39] ∨ qs = [34] ∨ qs = [39, 39, 39] ∨ qs = [34, 34, 34]

/-- `s` is a CEL string literal with value `v`. -/
def StringLiteral (s v : List Nat) : Prop :=
  ∃ pre qs body, s = pre ++ (qs ++ (body ++ qs)) ∧ IsQuotes qs ∧ NoClose qs body ∧ WellFormed body ∧
    ((pre = [] ∧ Denotes false body v) ∨ ((pre = [114] ∨ pre = [82]) ∧ RawDenotes body v))

/-- `s` is a CEL bytes literal with value `v`. -/
def BytesLiteral (s v : List Nat) : Prop :=
  ∃ pre qs body, s = pre ++ (qs ++ (body ++ qs)) ∧ IsQuotes qs ∧ NoClose qs body ∧
    (((pre = [98] ∨ pre = [66]) ∧ Denotes true body v) ∨
     ((pre ∈ [[98, 114], [98, 82], [66, 114], [66, 82], [114, 98], [114, 66], [82, 98], [82, 66]]) ∧
        RawDenotes body v))

end Cel.Text.Spec
