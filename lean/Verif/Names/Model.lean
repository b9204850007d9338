import Verif.Base

/-!
# Model of container name resolution

`common/container.cc` (the namespace configuration), `checker/internal/namespace_generator.cc` (candidates at check time),
the identifier and function lookups of `checker/internal/type_checker_impl.cc` that use them, and
`eval/compiler/resolver.cc` (candidates at plan time).  Names are lists of characters.  A `FunctionRef` callback is a
function from its argument and a state to whether to continue and the next state.
-/

namespace Cel.Names
open Cel

abbrev Name := List Char

/-- The reserved words (`internal/lexis.cc` lines 32-54). -/
def reserved : List Name :=
  ["false", "true", "null", "in", "as", "break", "const", "continue", "else", "for", "function", "if", "import", "let",
   "loop", "package", "namespace", "return", "var", "void", "while"].map String.toList

/-- `absl::ascii_isalpha`. -/
def isAlpha (c : Char) : Bool := ('a' ≤ c && c ≤ 'z') || ('A' ≤ c && c ≤ 'Z')
/-- `absl::ascii_isalnum`. -/
def isAlnum (c : Char) : Bool := isAlpha c || ('0' ≤ c && c ≤ '9')

/-- `LexisIsIdentifier` (`internal/lexis.cc` lines 63-77). -/
def isIdentifier (text : Name) : Bool :=
  match text with
  | [] => false
  | first :: rest =>
    if !(isAlpha first) && first != '_' then false
    else if rest.any (fun c => !(isAlnum c) && c != '_') then false
    else !(reserved.contains text)

/-- `IsValidQualifiedName` (`common/container.cc` lines 30-40): the text up to each `'.'`, and what remains. -/
def isValidQualifiedName (name : Name) : Bool := go name []
where
  /-- the loop: `cur` is the part of the name read since the last `'.'` -/
  go : Name → Name → Bool
    | [], cur => isIdentifier cur
    | c :: cs, cur => if c = '.' then (if !(isIdentifier cur) then false else go cs []) else go cs (cur ++ [c])

/-- `string_view::rfind('.')`: position of the last dot. -/
def rfindDot (name : Name) : Option Nat :=
  (List.range name.length).reverse.find? (fun i => name[i]? == some '.')

/-- `absl::StripAsciiWhitespace`. -/
def isSpace (c : Char) : Bool := c = ' ' || ('\t' ≤ c && c ≤ '\r')
def stripWhitespace (s : Name) : Name := ((s.dropWhile isSpace).reverse.dropWhile isSpace).reverse

/-- `ExpressionContainer` (`common/container.h` lines 36-109). -/
structure Container where
  container : Name := []
  aliases : List (Name × Name) := []

/-- `name == prefix || name starts with prefix + '.'`, the collision test of lines 82-86 and 131-135. -/
def collides (name alias : Name) : Bool :=
  name == alias || (decide (name.length > alias.length) && name.take alias.length == alias && name[alias.length]? == some '.')

/-- `ExpressionContainer::FindAlias` (`common/container.cc` lines 143-150). -/
def Container.findAlias (c : Container) (alias : Name) : Name :=
  match c.aliases.find? (fun e => e.1 == alias) with
  | some e => e.2
  | none => []

/-- `ExpressionContainer::SetContainer` (`common/container.cc` lines 69-93); `none` is an error status. -/
def Container.setContainer (c : Container) (name : Name) : Option Container :=
  if name = [] then some { c with container := [] }
  else if !(isValidQualifiedName name) then none
  else if c.aliases.any (fun e => collides name e.1) then none
  else some { c with container := name }

/-- `ExpressionContainer::AddAlias` (`common/container.cc` lines 114-141). -/
def Container.addAlias (c : Container) (alias name : Name) : Option Container :=
  if !(isIdentifier alias) then none
  else if !(isValidQualifiedName name) then none
  else if (c.aliases.find? (fun e => e.1 == alias)).isSome then none
  else if collides c.container alias then none
  else some { c with aliases := c.aliases ++ [(alias, name)] }

/-- `ExpressionContainer::AddAbbreviation` (`common/container.cc` lines 95-112). -/
def Container.addAbbreviation (c : Container) (abrev : Name) : Option Container :=
  let abrev := stripWhitespace abrev
  if !(isValidQualifiedName abrev) then none
  else match rfindDot abrev with
    | none => none
    | some pos =>
      if pos = 0 ∨ pos = abrev.length - 1 then none
      else c.addAlias (abrev.drop (pos + 1)) abrev

/-! ## Candidates at check time -/

/-- `absl::StrSplit(s, '.')`. -/
def splitDot : Name → List Name
  | [] => [[]]
  | c :: cs =>
    if c = '.' then [] :: splitDot cs
    else match splitDot cs with
      | [] => [[c]]
      | s :: ss => (c :: s) :: ss

/-- `absl::StrJoin(parts, ".")`. -/
def joinDot : List Name → Name
  | [] => []
  | [s] => s
  | s :: ss => s ++ '.' :: joinDot ss

/-- `NamespaceGenerator::Create` (`checker/internal/namespace_generator.cc` lines 82-105): the prefixes, innermost first. -/
def namespacePrefixes (container : Name) : List Name :=
  if container = [] then []
  else ((splitDot container).foldl (fun (st : Name × List Name) segment =>
      let pre := if st.1 = [] then segment else st.1 ++ '.' :: segment
      (pre, st.2 ++ [pre])) ([], [])).2.reverse

/-- A callback: whether to continue, and the next state. -/
abbrev Callback (α σ : Type) := α → σ → Bool × σ

/-- A loop calling `body` until it returns false. -/
def forUntil {α σ : Type} (body : Callback α σ) : List α → σ → Bool × σ
  | [], s => (true, s)
  | a :: as, s =>
    match body a s with
    | (false, s) => (false, s)
    | (true, s) => forUntil body as s

/-- `StartsWith(name, ".")`. -/
def startsDot : Name → Bool
  | '.' :: _ => true
  | _ => false

/-- `name.substr(1)` if the name starts with a dot. -/
def stripDot : Name → Name
  | '.' :: r => r
  | x => x

/-- `FieldSelectInterpretationCandidatesImpl` (`checker/internal/namespace_generator.cc` lines 37-61). -/
def fieldSelectCandidates {σ : Type} (pre : Name) (names : List Name) (isAlias : Bool) (cb : Callback (Name × Nat) σ) (s : σ) :
    Bool × σ :=
  let body : Callback Nat σ := fun i s =>
    let count := names.length - i
    let endIdx := count - (if isAlias then 0 else 1)
    let ident := joinDot (names.take count)
    let candidate := stripDot ident
    let candidate := if pre ≠ [] then pre ++ '.' :: candidate else candidate
    cb (candidate, endIdx) s
  match forUntil body (List.range names.length) s with
  | (false, s) => (false, s)
  | (true, s) => if isAlias then cb (pre, 0) s else (true, s)

/-- `NamespaceGenerator::GenerateCandidates` for a simple name (`checker/internal/namespace_generator.cc` lines 107-147). -/
def Container.simpleCandidates {σ : Type} (c : Container) (name : Name) (cb : Callback Name σ) (s : σ) : σ :=
  let rootRelative : Bool := startsDot name
  let simple := stripDot name
  let first := simple.takeWhile (· ≠ '.')
  let afterFirst := simple.dropWhile (· ≠ '.')
  let container (s : σ) : σ :=
    if rootRelative then (cb simple s).2
    else match forUntil (fun pre s => cb (pre ++ '.' :: simple) s) (namespacePrefixes c.container) s with
      | (false, s) => s
      | (true, s) => (cb simple s).2
  match afterFirst with
  | _ :: rest =>
    if c.findAlias first ≠ [] then (cb (c.findAlias first ++ '.' :: rest) s).2 else container s
  | [] =>
    if c.findAlias simple ≠ [] then (cb (c.findAlias simple) s).2 else container s

/-- `NamespaceGenerator::GenerateCandidates` for a qualified name
(`checker/internal/namespace_generator.cc` lines 149-184). -/
def Container.qualifiedCandidates {σ : Type} (c : Container) (names : List Name) (cb : Callback (Name × Nat) σ) (s : σ) : σ :=
  match names with
  | [] => s
  | n0 :: rest =>
    let rootRelative : Bool := startsDot n0
    let first := stripDot n0
    if c.findAlias first ≠ [] then (fieldSelectCandidates (c.findAlias first) rest true cb s).2
    else if rootRelative then (fieldSelectCandidates [] names false cb s).2
    else match forUntil (fun pre s => fieldSelectCandidates pre names false cb s) (namespacePrefixes c.container) s with
      | (false, s) => s
      | (true, s) => (fieldSelectCandidates [] names false cb s).2

/-! ## Lookups at check time -/

/-- The result of resolving an identifier: the declaration, whether it is local, and how many selections remain. -/
structure Resolved (D : Type) where
  decl : D
  isLocal : Bool
  selects : Nat

/-- `ResolveVisitor::LookupLocalIdentifier` (`checker/internal/type_checker_impl.cc` lines 961-969). -/
def lookupLocal {D : Type} (locals : Name → Option D) (name : Name) : Option D :=
  if startsDot name then none else locals name

/-- `ResolveVisitor::ResolveSimpleIdentifier` (`checker/internal/type_checker_impl.cc` lines 997-1033): the local scope,
then the first candidate with a global declaration. `globals` is `LookupGlobalIdentifier`. -/
def resolveSimple {D : Type} (c : Container) (locals globals : Name → Option D) (name : Name) : Option (Resolved D) :=
  let viaGlobal : Option (Resolved D) :=
    (c.simpleCandidates name (fun cand (_ : Option D) => let d := globals cand; (d.isNone, d)) none).map (⟨·, false, 0⟩)
  if !(startsDot name) then
    match lookupLocal locals name with
    | some d => some ⟨d, true, 0⟩
    | none => viaGlobal
  else viaGlobal

/-- The callback of `ResolveQualifiedIdentifier` (`checker/internal/type_checker_impl.cc` lines 1058-1067). -/
def lookupIndexed {D : Type} (globals : Name → Option D) : Callback (Name × Nat) (Option D × Nat) := fun p st =>
  match globals p.1 with
  | some d => (false, (some d, p.2))
  | none => (true, (none, st.2))

/-- `ResolveVisitor::ResolveQualifiedIdentifier` (`checker/internal/type_checker_impl.cc` lines 1035-1103). -/
def resolveQualified {D : Type} (c : Container) (locals globals : Name → Option D) (names : List Name) : Option (Resolved D) :=
  match names with
  | [] => none
  | [n] => resolveSimple c locals globals n
  | n0 :: _ =>
    let viaGlobal : Option (Resolved D) :=
      let st := c.qualifiedCandidates names
        (lookupIndexed globals) (none, 0)
      st.1.map (fun d => ⟨d, false, names.length - st.2 - 1⟩)
    if !(startsDot n0) then
      match lookupLocal locals n0 with
      | some d => some ⟨d, true, names.length - 0 - 1⟩
      | none => viaGlobal
    else viaGlobal

/-! ## Candidates at plan time -/

/-- `MakeNamespaceCandidates` (`eval/compiler/resolver.cc` lines 49-64). -/
def planPrefixes (container : Name) : List Name :=
  ((splitDot container).foldl (fun (st : Name × List Name) elem =>
    if elem = [] then st
    else (st.1 ++ elem ++ ['.'], (st.1 ++ elem ++ ['.']) :: st.2)) ([], [[]])).2

/-- `Resolver::GetPrefixesFor` (`eval/compiler/resolver.cc` lines 95-103): the prefixes and the name without its dot. -/
def prefixesFor (container name : Name) : List Name × Name :=
  match name with
  | '.' :: r => ([[]], r)
  | x => (planPrefixes container, x)

/-- `Resolver::FullyQualifiedNames` (`eval/compiler/resolver.cc` lines 79-93). -/
def fullyQualifiedNames (container name : Name) : List Name :=
  (prefixesFor container name).1.map (· ++ (prefixesFor container name).2)

/-- The loop of `Resolver::FindOverloads` by arity (`eval/compiler/resolver.cc` lines 155-174): the first candidate with
any overload.  `registry` is `FindStaticOverloadsByArity` for the call's style and arity. -/
def findOverloads {F : Type} (container name : Name) (registry : Name → List F) : List F :=
  go (prefixesFor container name).1
where
  go : List Name → List F
    | [] => []
    | p :: ps =>
      let funcs := registry (p ++ (prefixesFor container name).2)
      if funcs ≠ [] then funcs else go ps

/-- `Resolver::FindLazyOverloads` by arity (`eval/compiler/resolver.cc` lines 192-206): the candidate is built but the
registry is asked for the unqualified `name`. -/
def findLazyOverloads {F : Type} (container name : Name) (registry : Name → List F) : List F :=
  go (prefixesFor container name).1
where
  go : List Name → List F
    | [] => []
    | _ :: ps =>
      let funcs := registry (prefixesFor container name).2
      if funcs ≠ [] then funcs else go ps

end Cel.Names
