import Verif.Sig.Model
import Verif.Checker.Model

/-!
# Function declarations: the model

`FunctionDecl::AddOverload` and `FindOverloadById` (common/decl.cc, common/decl.h).  Types are the
`cel::Type`s of the checker model.  The hash maps are functions from keys.
-/

namespace Cel.Sig

open Cel.Checker

/-- The text of a type parameter's name: fresh type variables are called `T%<id>`
(checker/internal/type_inference_context.h:160-166). -/
def nameText : Name → Text
  | .var id => 'T' :: '%' :: (toString id).toList
  | .other s => s.toList

/-- `ConvertTypeToTypeSpec` on types without name and parameters
(common/type_spec_resolver.cc:203-236, 290-291, 295-297). -/
def baseSpec : Base → Option TypeSpec
  | .null => some .null
  | .dyn => some .dyn
  | .bool => some (.prim .bool)
  | .int => some (.prim .int)
  | .uint => some (.prim .uint)
  | .double => some (.prim .double)
  | .string => some (.prim .string)
  | .bytes => some (.prim .bytes)
  | .any => some (.wk .any)
  | .timestamp => some (.wk .timestamp)
  | .duration => some (.wk .duration)
  | .boolWrapper => some (.wrap .bool)
  | .intWrapper => some (.wrap .int)
  | .uintWrapper => some (.wrap .uint)
  | .doubleWrapper => some (.wrap .double)
  | .stringWrapper => some (.wrap .string)
  | .bytesWrapper => some (.wrap .bytes)
  | .error => some .error
  | .unknown => none

mutual
/-- `ConvertTypeToTypeSpec` (common/type_spec_resolver.cc:201-299).  Struct types are messages
(the struct types of the interpreter's own tests are refused, 268-273).  A list, map, function or
`type` without its parameter reads as `dyn` (common/types/type_type.cc, common/type.h). -/
def convert : Ty → Option TypeSpec
  | .param x => some (.param (nameText x))
  | .con (.base b) _ => baseSpec b
  | .con (.struct n) _ => some (.message n.toList)
  | .con (.enum n) _ => some (.abstract n.toList [])
  | .con .type [] => some (.type .dyn)
  | .con .type (t :: _) => (convert t).map .type
  | .con .list [] => some (.list .dyn)
  | .con .list (t :: _) => (convert t).map .list
  | .con .map (k :: v :: _) => (convert k).bind fun a => (convert v).map (.map a)
  | .con .map _ => some (.map .dyn .dyn)
  | .con .function [] => some (.func .dyn [])
  | .con .function (r :: args) => (convert r).bind fun a => (converts args).map (.func a)
  | .con (.opaque n) ps => (converts ps).map (.abstract n.toList)
/-- `convert` on each type of a list. -/
def converts : List Ty → Option (List TypeSpec)
  | [] => some []
  | t :: r => (convert t).bind fun a => (converts r).map (a :: ·)
end

/-- `MakeOverloadSignature` on types (common/signature.cc:222-232). -/
def signature (fn : Text) (args : List Ty) (member : Bool) : Option Text :=
  (converts args).bind fun l => makeOverload fn l member

/-- The primitive type behind a wrapper type (common/decl.cc:45-64). -/
def wrapped : Head → Option Base
  | .base .boolWrapper => some .bool
  | .base .intWrapper => some .int
  | .base .uintWrapper => some .uint
  | .base .doubleWrapper => some .double
  | .base .bytesWrapper => some .bytes
  | .base .stringWrapper => some .string
  | _ => none

mutual
/-- `TypeIsAssignable` (common/decl.cc:36-83).  In the wrapper cases the recursive calls are on
types without parameters, for which they are equality. -/
def assignable : Ty → Ty → Bool
  | .param x, from_ =>
    match from_ with
    | .param y => decide (x = y)
    | .con _ _ => false
  | .con h ps, from_ =>
    if Ty.eq (.con h ps) from_ then true
    else if h = .base .dyn then true
    else
      match wrapped h with
      | some b => Ty.eq (.b .null) from_ || Ty.eq (.b b) from_
      | none =>
        match from_ with
        | .param _ => false
        | .con k qs => decide (h = k) && assignableAll ps qs
/-- The loop over the parameters (common/decl.cc:70-81): same number, each assignable. -/
def assignableAll : List Ty → List Ty → Bool
  | [], [] => true
  | p :: ps, q :: qs => assignable p q && assignableAll ps qs
  | _, _ => false
end

/-- `OverloadDecl` (common/decl.h); the result type plays no part in adding overloads. -/
structure Overload where
  id : Text
  args : List Ty
  member : Bool

/-- The loop of `SignaturesOverlap` (common/decl.cc:99-106), on lists of the same length. -/
def argsOverlap : List Ty → List Ty → Bool
  | a :: as, b :: bs => (assignable a b || assignable b a) && argsOverlap as bs
  | _, _ => true

/-- `SignaturesOverlap` (common/decl.cc:89-108). -/
def overlap (l r : Overload) : Bool :=
  if l.member ≠ r.member then false
  else if l.args.length ≠ r.args.length then false
  else argsOverlap l.args r.args

/-- `FunctionDecl` (common/decl.h:271-347). -/
structure Decl where
  name : Text
  overloads : List Overload
  byId : Text → Option Nat
  bySig : Text → Option Nat

/-- A `FunctionDecl` with a name and no overloads. -/
def Decl.empty (name : Text) : Decl := ⟨name, [], fun _ => none, fun _ => none⟩

/-- `map[key] = value`. -/
def put (m : Text → Option Nat) (k : Text) (v : Nat) : Text → Option Nat :=
  fun x => if x = k then some v else m x

/-- "If the overload has no id, its signature is its id" (common/decl.cc:128-130). -/
def withId (o : Overload) (sig : Text) : Overload := if o.id.isEmpty then { o with id := sig } else o

/-- `AddOverload` (common/decl.h:297-309) with `AddOverloadInternal` (common/decl.cc:110-151):
`none` if the returned status is an error; `addTo` below says what then becomes of the
declaration. -/
def add (d : Decl) (o : Overload) : Option Decl :=
  match signature d.name o.args o.member with
  | none => none
  | some sig =>
    let o' := withId o sig
    if (d.byId o'.id).isSome then none
    else if d.overloads.any (fun e => overlap o' e) then none
    else
      some { d with
        overloads := d.overloads ++ [o']
        byId := put d.byId o'.id d.overloads.length
        bySig := put d.bySig sig d.overloads.length }

/-- The declaration after a call of `AddOverload`: every early return is before the first change
(common/decl.cc:116-146). -/
def addTo (d : Decl) (o : Overload) : Decl := (add d o).getD d

/-- `FindOverloadById` (common/decl.cc:210-219). -/
def findById (d : Decl) (id : Text) : Option Overload :=
  match d.byId id with
  | some i => d.overloads[i]?
  | none =>
    match d.bySig id with
    | some i => d.overloads[i]?
    | none => none

/-- `MakeFunctionDecl` (common/decl.h:357-368): the overloads are added one after another; the first
error is returned. -/
def makeDecl : Decl → List Overload → Option Decl
  | d, [] => some d
  | d, o :: r => (add d o).bind fun d' => makeDecl d' r

end Cel.Sig
