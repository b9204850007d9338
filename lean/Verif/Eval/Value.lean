import Verif.Eval.Attribute
import Verif.Num.Double
import Verif.Num.TimeModel

/-!
# Runtime values

`common/value.h` and the `common/values/*` classes, as immutable data.
-/

namespace Cel.Eval
open Cel Cel.Num

/-- `cel::Value` (`common/value.h`).  Lists and maps are their contents in iteration order;
structs/messages and opaque values are represented by a type name and an identity token (protobuf
messages are not modelled); `opt` is `OptionalValue`; `unknown` holds the attribute and
function-result sets. -/
inductive Value where
  | null
  | bool (b : Bool)
  | int (i : Int)
  | uint (u : Int)
  | dbl (d : Dbl)
  | str (s : String)
  | bytes (b : List Nat)
  | dur (d : Dur)
  | ts (t : Tm)
  | typ (name : String)
  | list (l : List Value)
  | map (m : List (Value × Value))
  | opt (o : Option Value)
  | opaq (typeName : String) (id : Nat)
  | struct (typeName : String) (id : Nat)
  | error (s : Status)
  | unknown (u : UnknownSet)

/-- `cel::Kind` codes (`common/kind.h` lines 25-57) used for run-time dispatch. -/
def kNull : Nat := 0
def kBool : Nat := 1
def kInt : Nat := 2
def kUint : Nat := 3
def kDouble : Nat := 4
def kString : Nat := 5
def kBytes : Nat := 6
def kStruct : Nat := 7
def kDuration : Nat := 8
def kTimestamp : Nat := 9
def kList : Nat := 10
def kMap : Nat := 11
def kUnknown : Nat := 12
def kType : Nat := 13
def kError : Nat := 14
def kAny : Nat := 15
def kOpaque : Nat := 17

namespace Value

/-- `Value::kind()` (`common/value.h`, `common/value_kind.h`). -/
def kind : Value → Nat
  | null => kNull
  | bool _ => kBool
  | int _ => kInt
  | uint _ => kUint
  | dbl _ => kDouble
  | str _ => kString
  | bytes _ => kBytes
  | dur _ => kDuration
  | ts _ => kTimestamp
  | typ _ => kType
  | list _ => kList
  | map _ => kMap
  | opt _ => kOpaque
  | opaq _ _ => kOpaque
  | struct _ _ => kStruct
  | error _ => kError
  | unknown _ => kUnknown

def isError : Value → Bool
  | error _ => true
  | _ => false

def isUnknown : Value → Bool
  | unknown _ => true
  | _ => false

end Value

/-- `KindToString` (`common/kind.cc` lines 21-78), for the kinds of values. -/
def kindName (k : Nat) : String :=
  if k = kNull then "null_type" else if k = kBool then "bool" else if k = kInt then "int"
  else if k = kUint then "uint" else if k = kDouble then "double" else if k = kString then "string"
  else if k = kBytes then "bytes" else if k = kStruct then "struct" else if k = kDuration then "duration"
  else if k = kTimestamp then "timestamp" else if k = kList then "list" else if k = kMap then "map"
  else if k = kUnknown then "*unknown*" else if k = kType then "type" else if k = kAny then "any"
  else if k = kOpaque then "*opaque*" else "*error*"

/-- `CreateNoMatchingOverloadError` (`runtime/internal/errors.cc` lines 33-36). -/
def noOverload (fn : String) : Status :=
  ⟨.unknown, "No matching overloads found" ++ (if fn = "" then "" else " : ") ++ fn⟩

/-- `CreateNoSuchKeyError` (`runtime/internal/errors.cc` lines 29-31). -/
def noSuchKey (key : String) : Status := ⟨.notFound, "Key not found in map" ++ " : " ++ key⟩

/-- `CreateMissingAttributeError` (`runtime/internal/errors.cc` lines 44-51). -/
def missingAttribute (path : String) : Status := ⟨.invalidArgument, "MissingAttributeError: " ++ path⟩

/-- Accumulation loop of `AttributeUtility::MergeUnknowns`
(`eval/eval/attribute_utility.cc` lines 111-123). -/
def mergeLoop : List Value → Option UnknownSet → Option UnknownSet
  | [], r => r
  | .unknown u :: vs, r =>
    let cur := r.getD ⟨[], []⟩
    mergeLoop vs (some ⟨attrUnion cur.attrs u.attrs, fnUnion cur.fns u.fns⟩)
  | _ :: vs, r => mergeLoop vs r

/-- `AttributeUtility::MergeUnknowns` (`eval/eval/attribute_utility.cc` lines 107-131). -/
def mergeUnknowns (vs : List Value) : Option UnknownSet := mergeLoop vs none

end Cel.Eval
