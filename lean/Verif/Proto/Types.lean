import Verif.Proto.Expr

set_option linter.unusedSimpArgs false
set_option linter.unusedVariables false

/-!
# `TypeSpec` ↔ `cel.expr.Type` – `common/ast_proto.cc:108-454`
-/

namespace Cel.Proto
open Cel

/-- `PrimitiveType` – `common/ast/metadata.h:279-303`. -/
inductive Prim where
  | unspecified | bool | int64 | uint64 | double | string | bytes
  deriving DecidableEq

/-- `WellKnownTypeSpec` – `common/ast/metadata.h:306-319`. -/
inductive WellKnown where
  | unspecified | any | timestamp | duration
  deriving DecidableEq

/-- `TypeSpec` – `common/ast/metadata.h`.  The parameter types of a list, map or function that are
null pointers read as the default (unset) type everywhere, including `operator==`, so they are not
told apart from it; for `type(T)` the pointer is compared, so `typeNull` is separate. -/
inductive TypeSpec where
  | unset
  | dyn
  | error
  | null
  | primitive (p : Prim)
  | wrapper (p : Prim)
  | wellKnown (w : WellKnown)
  | list (elem : TypeSpec)
  | map (key value : TypeSpec)
  | function (result : TypeSpec) (args : List TypeSpec)
  | message (name : String)
  | typeParam (name : String)
  | typeNull
  | typeOf (t : TypeSpec)
  | «abstract» (name : String) (params : List TypeSpec)

/-- `cel.expr.Type`; the enums are open, so a primitive or well-known type is any number.  An unset
sub-message reads as the default one. -/
inductive PType where
  | notSet
  | dyn
  | null
  | error
  | primitive (n : Int)
  | wrapper (n : Int)
  | wellKnown (n : Int)
  | list (elem : PType)
  | map (key value : PType)
  | function (result : PType) (args : List PType)
  | message (name : String)
  | typeParam (name : String)
  | type (t : PType)
  | «abstract» (name : String) (params : List PType)

/-- `ToNative(Type::PrimitiveType)` – `ast_proto.cc:112-134`. -/
def primFromProto (n : Int) : Except Status Prim :=
  if n = 0 then .ok .unspecified
  else if n = 1 then .ok .bool
  else if n = 2 then .ok .int64
  else if n = 3 then .ok .uint64
  else if n = 4 then .ok .double
  else if n = 5 then .ok .string
  else if n = 6 then .ok .bytes
  else .error (invalid "Illegal type specified for cel::expr::Type::PrimitiveType.")

/-- `ToNative(Type::WellKnownType)` – `ast_proto.cc:136-152`. -/
def wellKnownFromProto (n : Int) : Except Status WellKnown :=
  if n = 0 then .ok .unspecified
  else if n = 1 then .ok .any
  else if n = 2 then .ok .timestamp
  else if n = 3 then .ok .duration
  else .error (invalid "Illegal type specified for cel::expr::Type::WellKnownType.")

/-- The numbers of the enumerators – `ast_proto.cc:333-360`, `:410-428`. -/
def primToProto : Prim → Int
  | .unspecified => 0
  | .bool => 1
  | .int64 => 2
  | .uint64 => 3
  | .double => 4
  | .string => 5
  | .bytes => 6
def wellKnownToProto : WellKnown → Int
  | .unspecified => 0
  | .any => 1
  | .duration => 3
  | .timestamp => 2

mutual
/-- `ConvertProtoTypeToNative` – `ast_proto.cc:154-291`. -/
def typeFromProto : PType → Except Status TypeSpec
  | .dyn => .ok .dyn
  | .null => .ok .null
  | .primitive n =>
    match primFromProto n with
    | .error e => .error e
    | .ok p => .ok (.primitive p)
  | .wrapper n =>
    match primFromProto n with
    | .error e => .error e
    | .ok p => .ok (.wrapper p)
  | .wellKnown n =>
    match wellKnownFromProto n with
    | .error e => .error e
    | .ok w => .ok (.wellKnown w)
  | .list e =>
    match typeFromProto e with
    | .error x => .error x
    | .ok t => .ok (.list t)
  | .map k v =>
    match typeFromProto k with
    | .error x => .error x
    | .ok tk =>
      match typeFromProto v with
      | .error x => .error x
      | .ok tv => .ok (.map tk tv)
  | .function r args =>
    match typesFromProto args with
    | .error x => .error x
    | .ok as =>
      match typeFromProto r with
      | .error x => .error x
      | .ok tr => .ok (.function tr as)
  | .message n => .ok (.message n)
  | .typeParam n => .ok (.typeParam n)
  | .type .notSet => .ok .typeNull
  | .type t =>
    match typeFromProto t with
    | .error x => .error x
    | .ok t' => .ok (.typeOf t')
  | .error => .ok .error
  | .abstract n ps =>
    match typesFromProto ps with
    | .error x => .error x
    | .ok ts => .ok (.abstract n ts)
  | .notSet => .ok .unset
def typesFromProto : List PType → Except Status (List TypeSpec)
  | [] => .ok []
  | p :: ps =>
    match typeFromProto p with
    | .error x => .error x
    | .ok t =>
      match typesFromProto ps with
      | .error x => .error x
      | .ok ts => .ok (t :: ts)
end

mutual
/-- `TypeToProto` – `ast_proto.cc:330-454`; `cur` is what `*result` holds before.  Nothing clears
`*result`: a sub-message of the same kind is continued (`mutable_…`), repeated fields are appended
to.  (The two `default:` errors are for enumerators that do not exist.) -/
def typeToProto : TypeSpec → PType → PType
  | .unset, _ => .notSet
  | .dyn, _ => .dyn
  | .error, _ => .error
  | .null, _ => .null
  | .primitive p, _ => .primitive (primToProto p)
  | .wrapper p, _ => .wrapper (primToProto p)
  | .wellKnown w, _ => .wellKnown (wellKnownToProto w)
  | .list e, cur => .list (typeToProto e (match cur with | .list c => c | _ => .notSet))
  | .map k v, cur =>
    .map (typeToProto k (match cur with | .map c _ => c | _ => .notSet))
      (typeToProto v (match cur with | .map _ c => c | _ => .notSet))
  | .function r args, cur =>
    .function (typeToProto r (match cur with | .function c _ => c | _ => .notSet))
      ((match cur with | .function _ cs => cs | _ => []) ++ typesToProto args)
  | .message n, _ => .message n
  | .typeParam n, _ => .typeParam n
  | .typeNull, cur => .type .notSet
  | .typeOf t, cur => .type (typeToProto t (match cur with | .type c => c | _ => .notSet))
  | .abstract n ps, cur =>
    .abstract n ((match cur with | .abstract _ cs => cs | _ => []) ++ typesToProto ps)
def typesToProto : List TypeSpec → List PType
  | [] => []
  | t :: ts => typeToProto t .notSet :: typesToProto ts
end

mutual
/-- A type in which no `type(…)` points at an unset type. -/
def TypeSpec.Plain : TypeSpec → Prop
  | .list e => e.Plain
  | .map k v => k.Plain ∧ v.Plain
  | .function r args => r.Plain ∧ TypeSpec.Plains args
  | .typeOf t => t ≠ .unset ∧ t.Plain
  | .abstract _ ps => TypeSpec.Plains ps
  | _ => True
def TypeSpec.Plains : List TypeSpec → Prop
  | [] => True
  | t :: ts => t.Plain ∧ TypeSpec.Plains ts
end

mutual
/-- `type(…)` pointing at an unset type replaced by the null pointer. -/
def TypeSpec.norm : TypeSpec → TypeSpec
  | .list e => .list e.norm
  | .map k v => .map k.norm v.norm
  | .function r args => .function r.norm (TypeSpec.norms args)
  | .typeOf t =>
    match t with
    | .unset => .typeNull
    | t => .typeOf t.norm
  | .abstract n ps => .abstract n (TypeSpec.norms ps)
  | t => t
def TypeSpec.norms : List TypeSpec → List TypeSpec
  | [] => []
  | t :: ts => t.norm :: TypeSpec.norms ts
end

mutual
/-- Every enum value is one of the declared enumerators. -/
def PType.Known : PType → Prop
  | .primitive n => 0 ≤ n ∧ n ≤ 6
  | .wrapper n => 0 ≤ n ∧ n ≤ 6
  | .wellKnown n => 0 ≤ n ∧ n ≤ 3
  | .list e => e.Known
  | .map k v => k.Known ∧ v.Known
  | .function r args => r.Known ∧ PType.Knowns args
  | .type t => t.Known
  | .abstract _ ps => PType.Knowns ps
  | _ => True
def PType.Knowns : List PType → Prop
  | [] => True
  | t :: ts => t.Known ∧ PType.Knowns ts
end

theorem prim_round (p : Prim) : primFromProto (primToProto p) = .ok p := by
  cases p <;> simp [primFromProto, primToProto]

theorem wellKnown_round (p : WellKnown) :
    wellKnownFromProto (wellKnownToProto p) = .ok p := by
  cases p <;> simp [wellKnownFromProto, wellKnownToProto]

theorem typeToProto_notSet (t : TypeSpec) (h : typeToProto t .notSet = .notSet) : t = .unset := by
  cases t <;> simp [typeToProto] at h <;> rfl

theorem typeFromProto_type (p : PType) (h : p ≠ .notSet) : typeFromProto (.type p) =
    match typeFromProto p with
    | .error x => .error x
    | .ok t' => .ok (.typeOf t') := by
  cases p <;> first | exact absurd rfl h | simp only [typeFromProto]

mutual
/-- Native → proto → native. -/
theorem type_round : ∀ t : TypeSpec, typeFromProto (typeToProto t .notSet) = .ok t.norm
  | .unset => rfl
  | .dyn => rfl
  | .error => rfl
  | .null => rfl
  | .primitive p => by simp [typeToProto, typeFromProto, prim_round, TypeSpec.norm]
  | .wrapper p => by simp [typeToProto, typeFromProto, prim_round, TypeSpec.norm]
  | .wellKnown p => by simp [typeToProto, typeFromProto, wellKnown_round, TypeSpec.norm]
  | .list e => by simp [typeToProto, typeFromProto, type_round e, TypeSpec.norm]
  | .map k v => by simp [typeToProto, typeFromProto, type_round k, type_round v, TypeSpec.norm]
  | .function r args => by
    simp [typeToProto, typeFromProto, type_round r, types_round args, TypeSpec.norm]
  | .message n => rfl
  | .typeParam n => rfl
  | .typeNull => rfl
  | .typeOf t => by
    by_cases h : typeToProto t .notSet = .notSet
    · have ht := typeToProto_notSet t h
      simp only [typeToProto, h, typeFromProto]
      rw [ht]
      simp [TypeSpec.norm]
    · have hu : t ≠ .unset := by rintro rfl; simp [typeToProto] at h
      simp only [typeToProto]
      rw [typeFromProto_type _ h, type_round t]
      simp only
      cases t <;> first | exact absurd rfl hu | simp only [TypeSpec.norm]
  | .abstract n ps => by
    simp [typeToProto, typeFromProto, types_round ps, TypeSpec.norm]
theorem types_round : ∀ ts : List TypeSpec,
    typesFromProto (typesToProto ts) = .ok (TypeSpec.norms ts)
  | [] => rfl
  | t :: ts => by
    simp [typesToProto, typesFromProto, type_round t, types_round ts, TypeSpec.norms]
end

mutual
theorem norm_plain : ∀ t : TypeSpec, t.Plain → t.norm = t
  | .unset, _ => rfl
  | .dyn, _ => rfl
  | .error, _ => rfl
  | .null, _ => rfl
  | .primitive p, _ => rfl
  | .wrapper p, _ => rfl
  | .wellKnown p, _ => rfl
  | .list e, h => by simp only [TypeSpec.Plain] at h; simp [TypeSpec.norm, norm_plain e h]
  | .map k v, h => by
    simp only [TypeSpec.Plain] at h; simp [TypeSpec.norm, norm_plain k h.1, norm_plain v h.2]
  | .function r args, h => by
    simp only [TypeSpec.Plain] at h; simp [TypeSpec.norm, norm_plain r h.1, norms_plain args h.2]
  | .message n, _ => rfl
  | .typeParam n, _ => rfl
  | .typeNull, _ => rfl
  | .typeOf t, h => by
    simp only [TypeSpec.Plain] at h
    have := norm_plain t h.2
    cases t <;> first | exact absurd rfl h.1 | (simp only [TypeSpec.norm]; done) | (simp only [TypeSpec.norm] at this ⊢; rw [this])
  | .abstract n ps, h => by
    simp only [TypeSpec.Plain] at h; simp [TypeSpec.norm, norms_plain ps h]
theorem norms_plain : ∀ ts : List TypeSpec, TypeSpec.Plains ts → TypeSpec.norms ts = ts
  | [], _ => rfl
  | t :: ts, h => by
    simp only [TypeSpec.Plains] at h
    simp [TypeSpec.norms, norm_plain t h.1, norms_plain ts h.2]
end

theorem prim_known (n : Int) : (0 ≤ n ∧ n ≤ 6 ∧ ∃ p, primFromProto n = .ok p ∧ primToProto p = n) ∨
    (¬ (0 ≤ n ∧ n ≤ 6) ∧ ∃ e, primFromProto n = .error e) := by
  by_cases h : 0 ≤ n ∧ n ≤ 6
  · obtain ⟨h1, h2⟩ := h
    refine .inl ⟨h1, h2, ?_⟩
    have : n = 0 ∨ n = 1 ∨ n = 2 ∨ n = 3 ∨ n = 4 ∨ n = 5 ∨ n = 6 := by omega
    rcases this with rfl | rfl | rfl | rfl | rfl | rfl | rfl
    · exact ⟨.unspecified, rfl, rfl⟩
    · exact ⟨.bool, rfl, rfl⟩
    · exact ⟨.int64, rfl, rfl⟩
    · exact ⟨.uint64, rfl, rfl⟩
    · exact ⟨.double, rfl, rfl⟩
    · exact ⟨.string, rfl, rfl⟩
    · exact ⟨.bytes, rfl, rfl⟩
  · refine .inr ⟨h, invalid "Illegal type specified for cel::expr::Type::PrimitiveType.", ?_⟩
    simp only [primFromProto]
    rw [if_neg (by omega), if_neg (by omega), if_neg (by omega), if_neg (by omega),
      if_neg (by omega), if_neg (by omega), if_neg (by omega)]

theorem wellKnown_known (n : Int) :
    (0 ≤ n ∧ n ≤ 3 ∧ ∃ p, wellKnownFromProto n = .ok p ∧ wellKnownToProto p = n) ∨
    (¬ (0 ≤ n ∧ n ≤ 3) ∧ ∃ e, wellKnownFromProto n = .error e) := by
  by_cases h : 0 ≤ n ∧ n ≤ 3
  · obtain ⟨h1, h2⟩ := h
    refine .inl ⟨h1, h2, ?_⟩
    have : n = 0 ∨ n = 1 ∨ n = 2 ∨ n = 3 := by omega
    rcases this with rfl | rfl | rfl | rfl
    · exact ⟨.unspecified, rfl, rfl⟩
    · exact ⟨.any, rfl, rfl⟩
    · exact ⟨.timestamp, rfl, rfl⟩
    · exact ⟨.duration, rfl, rfl⟩
  · refine .inr ⟨h, invalid "Illegal type specified for cel::expr::Type::WellKnownType.", ?_⟩
    simp only [wellKnownFromProto]
    rw [if_neg (by omega), if_neg (by omega), if_neg (by omega), if_neg (by omega)]

mutual
/-- Proto → native → proto: accepted exactly when every enum value is known, and then nothing is
lost. -/
theorem ptype_round : ∀ p : PType,
    (p.Known ∧ ∃ t, typeFromProto p = .ok t ∧ typeToProto t .notSet = p) ∨
    (¬ p.Known ∧ ∃ e, typeFromProto p = .error e)
  | .notSet => .inl ⟨trivial, _, rfl, rfl⟩
  | .dyn => .inl ⟨trivial, _, rfl, rfl⟩
  | .null => .inl ⟨trivial, _, rfl, rfl⟩
  | .error => .inl ⟨trivial, _, rfl, rfl⟩
  | .primitive n => by
    simp only [PType.Known, typeFromProto]
    rcases prim_known n with ⟨h1, h2, p, e1, e2⟩ | ⟨h, e, he⟩
    · exact .inl ⟨⟨h1, h2⟩, _, by rw [e1], by simp [typeToProto, e2]⟩
    · exact .inr ⟨h, e, by rw [he]⟩
  | .wrapper n => by
    simp only [PType.Known, typeFromProto]
    rcases prim_known n with ⟨h1, h2, p, e1, e2⟩ | ⟨h, e, he⟩
    · exact .inl ⟨⟨h1, h2⟩, _, by rw [e1], by simp [typeToProto, e2]⟩
    · exact .inr ⟨h, e, by rw [he]⟩
  | .wellKnown n => by
    simp only [PType.Known, typeFromProto]
    rcases wellKnown_known n with ⟨h1, h2, p, e1, e2⟩ | ⟨h, e, he⟩
    · exact .inl ⟨⟨h1, h2⟩, _, by rw [e1], by simp [typeToProto, e2]⟩
    · exact .inr ⟨h, e, by rw [he]⟩
  | .list x => by
    simp only [PType.Known, typeFromProto]
    rcases ptype_round x with ⟨h, t, e1, e2⟩ | ⟨h, e, he⟩
    · exact .inl ⟨h, _, by rw [e1], by simp [typeToProto, e2]⟩
    · exact .inr ⟨h, e, by rw [he]⟩
  | .map k v => by
    simp only [PType.Known, typeFromProto]
    rcases ptype_round k with ⟨h, t, e1, e2⟩ | ⟨h, e, he⟩
    · rcases ptype_round v with ⟨g, u, f1, f2⟩ | ⟨g, e, he⟩
      · exact .inl ⟨⟨h, g⟩, _, by rw [e1, f1], by simp [typeToProto, e2, f2]⟩
      · exact .inr ⟨fun hh => g hh.2, e, by rw [e1, he]⟩
    · exact .inr ⟨fun hh => h hh.1, e, by rw [he]⟩
  | .function r args => by
    simp only [PType.Known, typeFromProto]
    rcases ptypes_round args with ⟨g, us, f1, f2⟩ | ⟨g, e, he⟩
    · rcases ptype_round r with ⟨h, t, e1, e2⟩ | ⟨h, e, he⟩
      · exact .inl ⟨⟨h, g⟩, _, by rw [f1, e1], by simp [typeToProto, e2, f2]⟩
      · exact .inr ⟨fun hh => h hh.1, e, by rw [f1, he]⟩
    · exact .inr ⟨fun hh => g hh.2, e, by rw [he]⟩
  | .message n => .inl ⟨trivial, _, rfl, rfl⟩
  | .typeParam n => .inl ⟨trivial, _, rfl, rfl⟩
  | .type t => by
    by_cases ht : t = .notSet
    · rw [ht]; exact .inl ⟨trivial, _, rfl, rfl⟩
    · rw [typeFromProto_type t ht]
      simp only [PType.Known]
      rcases ptype_round t with ⟨h, u, e1, e2⟩ | ⟨h, e, he⟩
      · exact .inl ⟨h, _, by rw [e1], by simp [typeToProto, e2]⟩
      · exact .inr ⟨h, e, by rw [he]⟩
  | .abstract n ps => by
    simp only [PType.Known, typeFromProto]
    rcases ptypes_round ps with ⟨g, us, f1, f2⟩ | ⟨g, e, he⟩
    · exact .inl ⟨g, _, by rw [f1], by simp [typeToProto, f2]⟩
    · exact .inr ⟨g, e, by rw [he]⟩
theorem ptypes_round : ∀ ps : List PType,
    (PType.Knowns ps ∧ ∃ ts, typesFromProto ps = .ok ts ∧ typesToProto ts = ps) ∨
    (¬ PType.Knowns ps ∧ ∃ e, typesFromProto ps = .error e)
  | [] => .inl ⟨trivial, _, rfl, rfl⟩
  | p :: ps => by
    simp only [PType.Knowns, typesFromProto]
    rcases ptype_round p with ⟨h, t, e1, e2⟩ | ⟨h, e, he⟩
    · rcases ptypes_round ps with ⟨g, us, f1, f2⟩ | ⟨g, e, he⟩
      · exact .inl ⟨⟨h, g⟩, _, by rw [e1, f1], by simp [typesToProto, e2, f2]⟩
      · exact .inr ⟨fun hh => g hh.2, e, by rw [e1, he]⟩
    · exact .inr ⟨fun hh => h hh.1, e, by rw [he]⟩
end

end Cel.Proto
