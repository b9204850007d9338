import Verif.Num.Double
import Mathlib.Data.List.Lex
import Mathlib.Data.List.Sort

set_option linter.unusedVariables false

/-!
# The order on legacy values

`CelValueCompare`, `CelValueLessThan`, `CelValueEqual`, `CelValueGreaterThan` –
`eval/public/set_util.cc:1-147`, meant as comparators for sets (`eval/public/set_util.h:11-40`).
-/

namespace Cel.LegacyOrder
open Cel Cel.Num

/-- Keys of maps; other kinds of keys are not valid CEL. -/
inductive Key where
  | bool (b : Bool)
  | int (i : Int)
  | uint (u : Int)
  | string (s : List Nat)
  deriving DecidableEq

/-- `CelValue` – `eval/public/cel_value.h:133-136`.  Strings, bytes and type names are lists of
bytes; messages, unknown sets and errors are compared by address (a number here), errors also by
their status (a number here). The entries of a map are two lists, keys and values, in the order of
`ListKeys`. -/
inductive V where
  | null
  | bool (b : Bool)
  | int (i : Int)
  | uint (u : Int)
  | double (d : Dbl)
  | string (s : List Nat)
  | bytes (s : List Nat)
  | message (addr : Nat)
  | duration (n : Int)
  | timestamp (n : Int)
  | list (es : List V)
  | map (ks : List Key) (vs : List V)
  | unknown (addr : Nat)
  | type (name : List Nat)
  | error (addr status : Nat)

/-- `CelValue::Type`, the position in the variant – `common/kind.h:25-41`. -/
def ty : V → Nat
  | .null => 0
  | .bool _ => 1
  | .int _ => 2
  | .uint _ => 3
  | .double _ => 4
  | .string _ => 5
  | .bytes _ => 6
  | .message _ => 7
  | .duration _ => 8
  | .timestamp _ => 9
  | .list _ => 10
  | .map _ _ => 11
  | .unknown _ => 12
  | .type _ => 13
  | .error _ _ => 14

/-- `ComparisonImpl` with `operator<` – `set_util.cc:11-20`. -/
def lcmp {α : Type} [LinearOrder α] (a b : α) : Int := if a < b then -1 else if b < a then 1 else 0

/-- The same for doubles. -/
def dcmp (a b : Dbl) : Int := if Dbl.lt a b then -1 else if Dbl.gt a b then 1 else 0

/-- Errors – `set_util.cc:22-28`. -/
def ecmp (a s a' s' : Nat) : Int := if s = s' then 0 else if a < a' then -1 else 1

/-- Two keys: what `CelValueCompare` does with them (`keyCmp_eq`). -/
def keyCmp : Key → Key → Int
  | .bool a, .bool b => lcmp a b
  | .int a, .int b => lcmp a b
  | .uint a, .uint b => lcmp a b
  | .string a, .string b => lcmp a b
  | .bool _, _ => -1
  | _, .bool _ => 1
  | .int _, _ => -1
  | _, .int _ => 1
  | .uint _, _ => -1
  | _, .uint _ => 1

/-- `std::sort(keys, CelValueLessThan)` – `set_util.cc:86-87`, on the entries; any correct sort, as
keys are different. -/
def sortEntries (es : List (Key × V)) : List (Key × V) :=
  es.insertionSort fun a b => keyCmp a.1 b.1 ≤ 0

mutual
/-- The maps inside sorted: the code sorts while it compares. -/
def norm : V → V
  | .list es => .list (normAll es)
  | .map ks vs =>
    let es := sortEntries (ks.zip (normAll vs))
    .map (es.map (·.1)) (es.map (·.2))
  | v => v
def normAll : List V → List V
  | [] => []
  | v :: vs => norm v :: normAll vs
end

mutual
/-- `ComparisonVisitor` on values of the same type – `set_util.cc:111-123`. -/
def same : V → V → Int
  | .null, .null => 0
  | .bool a, .bool b => lcmp a b
  | .int a, .int b => lcmp a b
  | .uint a, .uint b => lcmp a b
  | .double a, .double b => dcmp a b
  | .string a, .string b => lcmp a b
  | .bytes a, .bytes b => lcmp a b
  | .message a, .message b => lcmp a b
  | .duration a, .duration b => lcmp a b
  | .timestamp a, .timestamp b => lcmp a b
  | .list es, .list fs =>
    if lcmp es.length fs.length ≠ 0 then lcmp es.length fs.length else cmpAll es fs
  | .map ks vs, .map ls ws =>
    if lcmp ks.length ls.length ≠ 0 then lcmp ks.length ls.length else cmpEntries ks vs ls ws
  | .unknown a, .unknown b => lcmp a b
  | .type a, .type b => lcmp a b
  | .error a s, .error b t => ecmp a s b t
  | _, _ => 0
/-- `set_util.cc:53-61`: the first elements that differ; with the comparison of the types of two
elements (`:114-117`) written out. -/
def cmpAll : List V → List V → Int
  | v :: vs, w :: ws =>
    let c := if ty v = ty w then same v w else lcmp (ty v) (ty w)
    if c ≠ 0 then c else cmpAll vs ws
  | _, _ => 0
/-- `set_util.cc:89-105`: key, value, key, value, … -/
def cmpEntries : List Key → List V → List Key → List V → Int
  | k :: ks, v :: vs, l :: ls, w :: ws =>
    if keyCmp k l ≠ 0 then keyCmp k l
    else
      let c := if ty v = ty w then same v w else lcmp (ty v) (ty w)
      if c ≠ 0 then c else cmpEntries ks vs ls ws
  | _, _, _, _ => 0
end

/-- On values whose maps are sorted. -/
def cmpN (v w : V) : Int := if ty v = ty w then same v w else lcmp (ty v) (ty w)

/-- `CelValueCompare` – `set_util.cc:129-131`. -/
def compare (v w : V) : Int := cmpN (norm v) (norm w)

/-- `CelValueLessThan`, `CelValueEqual`, `CelValueGreaterThan` – `set_util.cc:133-143`. -/
def lessThan (v w : V) : Bool := decide (compare v w < 0)
def equal (v w : V) : Bool := decide (compare v w = 0)
def greaterThan (v w : V) : Bool := decide (compare v w > 0)

end Cel.LegacyOrder
