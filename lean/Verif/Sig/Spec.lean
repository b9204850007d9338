import Verif.Sig.Model

/-!
# What a signature should preserve: the specification

Stated without the scanner, the escaper or the parser.
-/

namespace Cel.Sig

/-- The strings the signature language uses as names of its own types. -/
def reservedNames : List String :=
  ["null", "dyn", "bool", "int", "uint", "double", "string", "bytes", "any", "timestamp",
   "duration", "bool_wrapper", "int_wrapper", "uint_wrapper", "double_wrapper", "string_wrapper",
   "bytes_wrapper", "list", "map", "function", "type", "google.protobuf.Any",
   "google.protobuf.Timestamp", "google.protobuf.Duration", "google.protobuf.Value",
   "google.protobuf.BoolValue", "google.protobuf.Int64Value", "google.protobuf.Int32Value",
   "google.protobuf.UInt64Value", "google.protobuf.UInt32Value", "google.protobuf.DoubleValue",
   "google.protobuf.FloatValue", "google.protobuf.StringValue", "google.protobuf.BytesValue",
   "google.protobuf.ListValue", "google.protobuf.Struct"]

/-- A non-empty name without blanks, tabs or line breaks.  It may contain any other character:
brackets, commas, quotes, backslashes, dots. -/
def PlainName (n : Text) : Prop :=
  n ≠ [] ∧ ∀ c ∈ n, c ≠ ' ' ∧ c ≠ '\t' ∧ c ≠ '\n' ∧ c ≠ '\r'

/-- A name that can be given to a message or an abstract type: plain, not reserved, and without
two dots in a row. -/
def TypeName (n : Text) : Prop :=
  PlainName n ∧ (∀ r ∈ reservedNames, n ≠ r.toList) ∧ ¬ ∃ a b, n = a ++ '.' :: '.' :: b

mutual
/-- Types the writer is meant for: every part is a type of the language (an inner list, map or
function result type may be missing) and every name is an ordinary one. -/
def Ordinary : TypeSpec → Prop
  | .unspec => False
  | .error => False
  | .null => True
  | .dyn => True
  | .prim p => p ≠ .other
  | .wk w => w ≠ .other
  | .wrap p => p ≠ .other
  | .list t => t = .unspec ∨ Ordinary t
  | .map k v => (k = .unspec ∨ Ordinary k) ∧ (v = .unspec ∨ Ordinary v)
  | .func r args => (r = .unspec ∨ Ordinary r) ∧ Ordinaries args
  | .type t => Ordinary t
  | .param n => PlainName n
  | .abstract n ps => TypeName n ∧ Ordinaries ps
  | .message n => TypeName n
/-- Every type of the list is ordinary. -/
def Ordinaries : List TypeSpec → Prop
  | [] => True
  | t :: r => Ordinary t ∧ Ordinaries r
end

mutual
/-- The type a signature stands for: a missing inner type is `dyn`, and a message type is an
abstract type without parameters (the signature language has one kind of named type). -/
def norm : TypeSpec → TypeSpec
  | .unspec => .dyn
  | .list t => .list (norm t)
  | .map k v => .map (norm k) (norm v)
  | .func r args => .func (norm r) (norms args)
  | .type t => .type (norm t)
  | .abstract n ps => .abstract n (norms ps)
  | .message n => .abstract n []
  | .error => .error
  | .null => .null
  | .dyn => .dyn
  | .prim p => .prim p
  | .wk w => .wk w
  | .wrap p => .wrap p
  | .param n => .param n
/-- `norm` on each type of a list. -/
def norms : List TypeSpec → List TypeSpec
  | [] => []
  | t :: r => norm t :: norms r
end

mutual
/-- No name anywhere in the type contains a blank, tab or line break. -/
def NoBlank : TypeSpec → Prop
  | .list t => NoBlank t
  | .map k v => NoBlank k ∧ NoBlank v
  | .func r args => NoBlank r ∧ NoBlanks args
  | .type t => NoBlank t
  | .param n => ∀ c ∈ n, c ≠ ' ' ∧ c ≠ '\t' ∧ c ≠ '\n' ∧ c ≠ '\r'
  | .abstract n ps => (∀ c ∈ n, c ≠ ' ' ∧ c ≠ '\t' ∧ c ≠ '\n' ∧ c ≠ '\r') ∧ NoBlanks ps
  | .message n => ∀ c ∈ n, c ≠ ' ' ∧ c ≠ '\t' ∧ c ≠ '\n' ∧ c ≠ '\r'
  | _ => True
/-- `NoBlank` for each type of a list. -/
def NoBlanks : List TypeSpec → Prop
  | [] => True
  | t :: r => NoBlank t ∧ NoBlanks r
end

mutual
/-- Types built only from the kinds the signature language has (names are not looked at). -/
def Supported : TypeSpec → Prop
  | .unspec => False
  | .error => False
  | .null => True
  | .dyn => True
  | .prim p => p ≠ .other
  | .wk w => w ≠ .other
  | .wrap p => p ≠ .other
  | .list t => t = .unspec ∨ Supported t
  | .map k v => (k = .unspec ∨ Supported k) ∧ (v = .unspec ∨ Supported v)
  | .func r args => (r = .unspec ∨ Supported r) ∧ AllSupported args
  | .type t => Supported t
  | .param _ => True
  | .abstract _ ps => AllSupported ps
  | .message _ => True
/-- Every type of the list is supported. -/
def AllSupported : List TypeSpec → Prop
  | [] => True
  | t :: r => Supported t ∧ AllSupported r
end

/-- A string that does not end in the middle of an escape: reading it, every backslash has the
character it escapes after it. -/
inductive Whole : Text → Prop
  | nil : Whole []
  | plain {c s} : c ≠ '\\' → Whole s → Whole (c :: s)
  | esc {c s} : Whole s → Whole ('\\' :: c :: s)

end Cel.Sig
