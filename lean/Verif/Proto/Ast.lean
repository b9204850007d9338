import Verif.Proto.Back
import Verif.Proto.Types

set_option linter.unusedSimpArgs false
set_option linter.unusedVariables false

/-!
# Whole ASTs: `ParsedExpr` and `CheckedExpr` – `common/ast_proto.cc`, `common/ast/source_info_proto.cc`

Hash maps and proto maps are lists of (key, value) pairs with distinct keys, in iteration order;
every statement about them is about look-ups.
-/

namespace Cel.Proto
open Cel

/-- `ExtensionSpec::Component` – `common/ast/metadata.h:78-92`. -/
inductive Component where
  | unspecified | parser | typeChecker | runtime
  deriving DecidableEq

/-- `ExtensionSpec` – `common/ast/metadata.h:94-160` (a null version reads as 0.0). -/
structure Extension where
  id : String
  major : Int
  minor : Int
  components : List Component
  deriving DecidableEq

/-- `SourceInfo.Extension` (the component enum is open). -/
structure PExtension where
  id : String
  major : Int
  minor : Int
  components : List Int
  deriving DecidableEq

/-- `SourceInfo` – `common/ast/metadata.h:155-270`. -/
structure SourceInfo where
  syntaxVersion : String
  location : String
  lineOffsets : List Int
  positions : List (Int × Int)
  macroCalls : List (Int × NExpr)
  extensions : List Extension

structure PSourceInfo where
  syntaxVersion : String
  location : String
  lineOffsets : List Int
  positions : List (Int × Int)
  macroCalls : List (Int × PExpr)
  extensions : List PExtension

/-- `Reference` – `common/ast/metadata.h:748-812`, and its proto. -/
structure Reference where
  name : String
  overloads : List String
  value : Option Const
  deriving DecidableEq
structure PReference where
  name : String
  overloads : List String
  value : Option PConst
  deriving DecidableEq

/-- `Ast` – `common/ast.h:42-153`. -/
structure Ast where
  root : NExpr
  info : SourceInfo
  references : List (Int × Reference)
  types : List (Int × TypeSpec)
  version : String
  checked : Bool

/-- `cel.expr.ParsedExpr`. -/
structure ParsedExpr where
  expr : PExpr
  info : PSourceInfo

/-- `cel.expr.CheckedExpr`. -/
structure CheckedExpr where
  expr : PExpr
  info : PSourceInfo
  references : List (Int × PReference)
  types : List (Int × PType)
  version : String

def PSourceInfo.empty : PSourceInfo := ⟨"", "", [], [], [], []⟩
def ParsedExpr.empty : ParsedExpr := ⟨.absent, .empty⟩
def CheckedExpr.empty : CheckedExpr := ⟨.absent, .empty, [], [], ""⟩

/-! ## Maps -/

/-- Look a key up. -/
def get {V : Type} (m : List (Int × V)) (k : Int) : Option V := (m.find? fun p => p.1 == k).map (·.2)

/-- `m[k] = v`: replace or insert. -/
def set {V : Type} : List (Int × V) → Int → V → List (Int × V)
  | [], k, v => [(k, v)]
  | (k', v') :: m, k, v => if k' = k then (k, v) :: m else (k', v') :: set m k v

/-- `m.emplace(k, v)`: insert unless the key is there. -/
def emplace {V : Type} (m : List (Int × V)) (k : Int) (v : V) : List (Int × V) :=
  match get m k with
  | some _ => m
  | none => m ++ [(k, v)]

/-- `for (k, v) in from: CEL_RETURN_IF_ERROR(convert v into out[k])`. -/
def fillMap {A B : Type} (conv : A → Option B → Res B) :
    List (Int × A) → List (Int × B) → Res (List (Int × B))
  | [], out => .ok out
  | (k, a) :: rest, out =>
    match conv a (get out k) with
    | .ok b => fillMap conv rest (set out k b)
    | .err e => .err e
    | .ub => .ub

/-- `for (k, v) in from: out.emplace(k, convert v)`. -/
def emplaceMap {A B : Type} (conv : A → Res B) :
    List (Int × A) → List (Int × B) → Res (List (Int × B))
  | [], out => .ok out
  | (k, a) :: rest, out =>
    match conv a with
    | .ok b => emplaceMap conv rest (emplace out k b)
    | .err e => .err e
    | .ub => .ub

/-! ## Expressions -/

mutual
/-- The tree as it lies in memory. -/
def place {L : Type} : Tree L → Cell L
  | .absent => .absent
  | .node l ks => .node (0, l) (places ks)
def places {L : Type} : List (Tree L) → List (Cell L)
  | [] => []
  | t :: ts => place t :: places ts
end

/-- `ExprToProto(expr, proto)` where `proto` is a sub-message that may hold something already
(`mutable_expr()`, `(*map)[k]`: created when unset). -/
def putExpr (e : NExpr) (old : Option PExpr) : Res PExpr :=
  let target : Cell PNode := match old with
    | some (.node l ks) => place (.node l ks)
    | _ => .node (0, PNode.dflt) []
  match exprToProto e target with
  | some (.ok c) => .ok (forget c)
  | some (.err s) => .err s
  | _ => .ub

/-- `ExprValueFromProto` – `common/ast_proto.cc:56-62`: into a default-constructed `Expr`; an unset
sub-message reads as the default one. -/
def getExpr (p : PExpr) : Res NExpr :=
  match exprFromProto p (.node (0, NNode.dflt) []) with
  | some (.ok c) => .ok (forget c)
  | some (.err s) => .err s
  | _ => .ub

/-! ## Source info -/

/-- `common/ast/source_info_proto.cc:69-84`. -/
def compToProto : Component → Int
  | .parser => 1
  | .typeChecker => 2
  | .runtime => 3
  | .unspecified => 0

/-- `common/ast_proto.cc:81-96`. -/
def compFromProto (n : Int) : Component :=
  if n = 1 then .parser
  else if n = 2 then .typeChecker
  else if n = 3 then .runtime
  else .unspecified

/-- `SourceInfoToProto` – `common/ast/source_info_proto.cc:39-90`; `out` is not cleared. -/
def infoToProto (i : SourceInfo) (out : PSourceInfo) : Res PSourceInfo :=
  match fillMap (fun v _ => .ok v) i.positions out.positions with
  | .err e => .err e
  | .ub => .ub
  | .ok positions =>
    match fillMap putExpr i.macroCalls out.macroCalls with
    | .err e => .err e
    | .ub => .ub
    | .ok macros =>
      .ok ⟨i.syntaxVersion, i.location, out.lineOffsets ++ i.lineOffsets, positions, macros,
        out.extensions ++ i.extensions.map fun x =>
          ⟨x.id, x.major, x.minor, x.components.map compToProto⟩⟩

/-- `ConvertProtoSourceInfoToNative` – `common/ast_proto.cc:64-107`. -/
def infoFromProto (p : PSourceInfo) : Res SourceInfo :=
  match emplaceMap getExpr p.macroCalls [] with
  | .err e => .err e
  | .ub => .ub
  | .ok macros =>
    .ok ⟨p.syntaxVersion, p.location, p.lineOffsets, p.positions, macros,
      p.extensions.map fun x => ⟨x.id, x.major, x.minor, x.components.map compFromProto⟩⟩

/-! ## References -/

/-- `ReferenceToProto` – `common/ast_proto.cc:309-325`. -/
def refToProto (r : Reference) : Res PReference :=
  match r.value with
  | none => .ok ⟨r.name, r.overloads, none⟩
  | some c =>
    match constToProto c with
    | .error e => .err e
    | .ok p => .ok ⟨r.name, r.overloads, some p⟩

/-- `ConvertProtoReferenceToNative` – `common/ast_proto.cc:293-307`. -/
def refFromProto (r : PReference) : Reference :=
  ⟨r.name, r.overloads, r.value.map constFromProto⟩

def liftE {α : Type} : Except Status α → Res α
  | .ok a => .ok a
  | .error e => .err e

/-! ## The four entry points -/

/-- `AstToParsedExpr` – `common/ast_proto.cc:479-487`. -/
def astToParsed (a : Ast) (out : ParsedExpr) : Res ParsedExpr :=
  match putExpr a.root (some out.expr) with
  | .err e => .err e
  | .ub => .ub
  | .ok expr =>
    match infoToProto a.info out.info with
    | .err e => .err e
    | .ub => .ub
    | .ok info => .ok ⟨expr, info⟩

/-- `CreateAstFromParsedExpr` – `common/ast_proto.cc:457-477`. -/
def astFromParsed (p : ParsedExpr) : Res Ast :=
  match getExpr p.expr with
  | .err e => .err e
  | .ub => .ub
  | .ok root =>
    match infoFromProto p.info with
    | .err e => .err e
    | .ub => .ub
    | .ok info => .ok ⟨root, info, [], [], "", false⟩

/-- `AstToCheckedExpr` – `common/ast_proto.cc:518-545`. -/
def astToChecked (a : Ast) (out : CheckedExpr) : Res CheckedExpr :=
  if a.checked then
    match putExpr a.root (some out.expr) with
    | .err e => .err e
    | .ub => .ub
    | .ok expr =>
      match infoToProto a.info out.info with
      | .err e => .err e
      | .ub => .ub
      | .ok info =>
        match fillMap (fun r _ => refToProto r) a.references out.references with
        | .err e => .err e
        | .ub => .ub
        | .ok refs =>
          match fillMap (fun t old => .ok (typeToProto t (old.getD .notSet))) a.types out.types with
          | .err e => .err e
          | .ub => .ub
          | .ok types => .ok ⟨expr, info, refs, types, a.version⟩
  else .err (invalid "AST is not type-checked")

/-- `CreateAstFromCheckedExpr` – `common/ast_proto.cc:489-516`. -/
def astFromChecked (p : CheckedExpr) : Res Ast :=
  match getExpr p.expr with
  | .err e => .err e
  | .ub => .ub
  | .ok root =>
    match infoFromProto p.info with
    | .err e => .err e
    | .ub => .ub
    | .ok info =>
      match emplaceMap (fun r => .ok (refFromProto r)) p.references [] with
      | .err e => .err e
      | .ub => .ub
      | .ok refs =>
        match emplaceMap (fun t => liftE (typeFromProto t)) p.types [] with
        | .err e => .err e
        | .ub => .ub
        | .ok types => .ok ⟨root, info, refs, types, p.version, true⟩

/-! ## Expressions through the loops -/

mutual
theorem forget_place {L : Type} : ∀ t : Tree L, forget (place t) = t
  | .absent => by simp [place, forget]
  | .node l ks => by simp [place, forget, forgets_places ks]
theorem forgets_places {L : Type} : ∀ ts : List (Tree L), forgets (places ts) = ts
  | [] => by simp [places, forgets]
  | t :: ts => by simp [places, forgets, forget_place t, forgets_places ts]
end

/-- Whatever the target held: the loop ends, reads no dangling pointer and leaves exactly the
converted expression. -/
theorem putExpr_eq (e : NExpr) (old : Option PExpr) : putExpr e old = liftE (toP e) := by
  simp only [putExpr]
  have key : ∀ (a : Nat) (l : PNode) (ks : List (Cell PNode)),
      (match exprToProto e (.node (a, l) ks) with
        | some (.ok c) => Res.ok (forget c)
        | some (.err s) => .err s
        | _ => .ub) = liftE (toP e) := by
    intro a l ks
    have := run_done (toP_done e.size e (Nat.le_refl _)) a l ks trivial e.size (Nat.le_refl _)
    simp only [exprToProto]
    cases h : toP e with
    | ok t =>
      rw [h] at this
      obtain ⟨c, h1, h2⟩ := this
      rw [h1]
      simp [h2, liftE]
    | error x =>
      rw [h] at this
      simp only at this
      rw [this]
      rfl
  cases old with
  | none => exact key 0 PNode.dflt []
  | some p =>
    cases p with
    | absent => exact key 0 PNode.dflt []
    | node l ks => exact key 0 l (places ks)

theorem getExpr_eq (p : PExpr) : getExpr p = liftE (fromP p) := by
  simp only [getExpr]
  have := run_done (fromP_done p.size p (Nat.le_refl _)) 0 NNode.dflt [] trivial p.size
    (Nat.le_refl _)
  simp only [exprFromProto]
  cases h : fromP p with
  | ok t =>
    rw [h] at this
    obtain ⟨c, h1, h2⟩ := this
    rw [h1]
    simp [h2, liftE]
  | error x =>
    rw [h] at this
    simp only at this
    rw [this]
    rfl

/-! ## Maps -/

theorem get_nil {V : Type} (k : Int) : get ([] : List (Int × V)) k = none := rfl

theorem get_cons {V : Type} (k' : Int) (v : V) (m : List (Int × V)) (k : Int) :
    get ((k', v) :: m) k = if k' = k then some v else get m k := by
  simp only [get, List.find?_cons]
  by_cases h : k' = k
  · simp [h]
  · have : (k' == k) = false := by simpa using h
    simp [h, this]

theorem get_set {V : Type} : ∀ (m : List (Int × V)) (k : Int) (v : V) (j : Int),
    get (set m k v) j = if k = j then some v else get m j
  | [], k, v, j => by simp [set, get_cons, get_nil]
  | (k', v') :: m, k, v, j => by
    simp only [set]
    by_cases h : k' = k
    · rw [if_pos h, get_cons, get_cons]
      by_cases hj : k = j
      · simp [hj]
      · rw [if_neg hj, if_neg hj, if_neg (by omega)]
    · rw [if_neg h, get_cons, get_cons, get_set m k v j]
      by_cases hj : k = j
      · rw [if_pos hj, if_neg (by omega), if_pos hj]
      · rw [if_neg hj, if_neg hj]

theorem get_append {V : Type} (m : List (Int × V)) (k : Int) (v : V) (j : Int) :
    get (m ++ [(k, v)]) j =
      match get m j with
      | some x => some x
      | none => if k = j then some v else none := by
  induction m with
  | nil => simp [get_cons, get_nil]
  | cons p m ih =>
    obtain ⟨k', v'⟩ := p
    simp only [List.cons_append, get_cons, ih]
    by_cases h : k' = j <;> simp [h]

theorem get_emplace {V : Type} (m : List (Int × V)) (k : Int) (v : V) (j : Int) :
    get (emplace m k v) j =
      match get m j with
      | some x => some x
      | none => if k = j then some v else none := by
  simp only [emplace]
  cases h : get m k with
  | none => simp only; exact get_append m k v j
  | some x =>
    simp only
    cases hj : get m j with
    | some y => rfl
    | none =>
      simp only
      by_cases hk : k = j
      · subst hk; rw [h] at hj; cases hj
      · rw [if_neg hk]

/-- The keys of a map are distinct. -/
def Keys {V : Type} (m : List (Int × V)) : Prop := (m.map (·.1)).Nodup

theorem get_none_of_not_mem {V : Type} : ∀ (m : List (Int × V)) (k : Int),
    k ∉ m.map (·.1) → get m k = none
  | [], k, _ => rfl
  | (k', v) :: m, k, h => by
    simp only [List.map_cons, List.mem_cons, not_or] at h
    rw [get_cons, if_neg (fun e => h.1 e.symm)]
    exact get_none_of_not_mem m k h.2

/-- Filling: every key of the source holds the converted value, every other key keeps what it
held. -/
theorem fillMap_ok {A B : Type} (conv : A → Option B → Res B) (f : A → Option B → B) :
    ∀ (m : List (Int × A)) (out : List (Int × B)), Keys m →
    (∀ k a, get m k = some a → ∀ o, conv a o = .ok (f a o)) →
    ∃ r, fillMap conv m out = .ok r ∧
      ∀ k, get r k = match get m k with | some a => some (f a (get out k)) | none => get out k
  | [], out, _, _ => ⟨out, rfl, fun k => by simp [get_nil]⟩
  | (k0, a0) :: m, out, hk, hc => by
    simp only [Keys, List.map_cons, List.nodup_cons] at hk
    have h0 := hc k0 a0 (by rw [get_cons, if_pos rfl]) (get out k0)
    obtain ⟨r, h1, h2⟩ := fillMap_ok conv f m (set out k0 (f a0 (get out k0))) hk.2 (by
      intro k a h o
      refine hc k a ?_ o
      rw [get_cons, if_neg]
      · exact h
      · rintro rfl
        rw [get_none_of_not_mem m k0 hk.1] at h
        cases h)
    refine ⟨r, by simp only [fillMap, h0, h1], ?_⟩
    intro k
    rw [h2 k, get_set, get_cons]
    by_cases hkk : k0 = k
    · subst hkk
      rw [get_none_of_not_mem m k0 hk.1]
      simp
    · simp [hkk]

theorem emplaceMap_ok {A B : Type} (conv : A → Res B) (f : A → B) :
    ∀ (m : List (Int × A)) (out : List (Int × B)),
    (∀ p ∈ m, conv p.2 = .ok (f p.2)) →
    ∃ r, emplaceMap conv m out = .ok r ∧
      ∀ k, get r k = match get out k with | some b => some b | none => (get m k).map f
  | [], out, _ => ⟨out, rfl, fun k => by cases h : get out k <;> simp [get_nil, h]⟩
  | (k0, a0) :: m, out, hc => by
    have h0 := hc (k0, a0) (by simp)
    obtain ⟨r, h1, h2⟩ := emplaceMap_ok conv f m (emplace out k0 (f a0))
      (fun p hp => hc p (by simp [hp]))
    refine ⟨r, by simp only [emplaceMap, h0, h1], ?_⟩
    intro k
    rw [h2 k, get_emplace, get_cons]
    cases h : get out k with
    | some b => rfl
    | none =>
      by_cases hkk : k0 = k <;> simp [hkk]

theorem mem_get {V : Type} : ∀ (m : List (Int × V)), Keys m → ∀ p ∈ m, get m p.1 = some p.2
  | [], _, p, h => by simp at h
  | (k, v) :: m, hk, p, h => by
    simp only [Keys, List.map_cons, List.nodup_cons] at hk
    rcases List.mem_cons.mp h with rfl | h
    · rw [get_cons, if_pos rfl]
    · rw [get_cons, if_neg, mem_get m hk.2 p h]
      intro e
      exact hk.1 (e ▸ List.mem_map.mpr ⟨p, h, rfl⟩)

theorem get_mem {V : Type} : ∀ (m : List (Int × V)) (k : Int) (v : V), get m k = some v →
    (k, v) ∈ m
  | [], k, v, h => by simp [get_nil] at h
  | (k', v') :: m, k, v, h => by
    rw [get_cons] at h
    by_cases hk : k' = k
    · rw [if_pos hk] at h
      simp only [Option.some.injEq] at h
      simp [hk, h]
    · rw [if_neg hk] at h
      simp [get_mem m k v h]

theorem set_keys {V : Type} : ∀ (m : List (Int × V)) (k : Int) (v : V), Keys m → Keys (set m k v)
  | [], k, v, _ => by simp [set, Keys]
  | (k', v') :: m, k, v, h => by
    simp only [Keys, List.map_cons, List.nodup_cons] at h
    simp only [set]
    by_cases hk : k' = k
    · rw [if_pos hk]; simp only [Keys, List.map_cons, List.nodup_cons]; exact hk ▸ h
    · rw [if_neg hk]
      simp only [Keys, List.map_cons, List.nodup_cons]
      refine ⟨?_, set_keys m k v h.2⟩
      intro hm
      have : ∀ (m : List (Int × V)), k' ∈ (set m k v).map (·.1) → k' ∈ m.map (·.1) := by
        intro m
        induction m with
        | nil => simp only [set, List.map_cons, List.map_nil, List.mem_singleton]; intro e; omega
        | cons p m ih =>
          obtain ⟨k2, v2⟩ := p
          simp only [set]
          by_cases h2 : k2 = k
          · rw [if_pos h2]; simp only [List.map_cons, List.mem_cons]
            rintro (e | e)
            · omega
            · exact .inr e
          · rw [if_neg h2]; simp only [List.map_cons, List.mem_cons]
            rintro (e | e)
            · exact .inl e
            · exact .inr (ih e)
      exact h.1 (this m hm)

theorem fillMap_keys {A B : Type} (conv : A → Option B → Res B) :
    ∀ (m : List (Int × A)) (out r : List (Int × B)), Keys out → fillMap conv m out = .ok r → Keys r
  | [], out, r, h, e => by
    simp only [fillMap, Res.ok.injEq] at e; exact e ▸ h
  | (k, a) :: m, out, r, h, e => by
    simp only [fillMap] at e
    split at e
    · exact fillMap_keys conv m _ r (set_keys out k _ h) e
    · cases e
    · cases e

end Cel.Proto
