import Mathlib.Data.List.Basic

/-!
# Type and overload signatures: the model

`common/signature.cc` writes types and function overloads as strings (they are the default
overload ids, common/decl.cc:119-129, and the text written to and read from YAML environment
files, env/env_yaml.cc) and reads them back.

Strings are lists of characters; the C++ works on bytes, but it only ever looks for ASCII
characters, and bytes of a multi-byte UTF-8 character are copied unchanged, so nothing depends
on the difference.  A failed `absl::Status` is `none`; messages are not modelled.
-/

namespace Cel.Sig

/-- A string. -/
abbrev Text := List Char

/-- `PrimitiveType` (common/ast/metadata.h): the six named kinds and every other enum value
(`kPrimitiveTypeUnspecified`). -/
inductive Prim | bool | int | uint | double | string | bytes | other
  deriving DecidableEq, Repr

/-- `WellKnownTypeSpec` (common/ast/metadata.h). -/
inductive WK | any | timestamp | duration | other
  deriving DecidableEq, Repr

/-- `TypeSpec` (common/ast/metadata.h:546-602), the alternatives of `TypeSpecKind`.  A missing
inner pointer (`elem_type_ == nullptr`) reads as a default `TypeSpec`, i.e. `unspec`. -/
inductive TypeSpec
  | unspec
  | error
  | null
  | dyn
  | prim (p : Prim)
  | wk (w : WK)
  | wrap (p : Prim)
  | list (elem : TypeSpec)
  | map (key value : TypeSpec)
  | func (result : TypeSpec) (args : List TypeSpec)
  | type (t : TypeSpec)
  | param (name : Text)
  | abstract (name : Text) (params : List TypeSpec)
  | message (name : Text)

/-- The characters `AppendEscaped` always puts a backslash before (signature.cc:44-52). -/
def special (c : Char) : Bool :=
  c == '\\' || c == '(' || c == ')' || c == '<' || c == '>' || c == '"' || c == ',' || c == '~'

/-- `AppendEscaped` (signature.cc:42-63). -/
def escape (dot : Bool) : Text → Text
  | [] => []
  | c :: r =>
    if special c || (c == '.' && dot) then '\\' :: c :: escape dot r else c :: escape dot r

/-- The strings joined by commas, as the loops of `AppendTypeSpecList` (signature.cc:71-76), the
function branch (180-183) and `MakeOverloadSignature` (248-253) write them. -/
def joinComma : List Text → Text
  | [] => []
  | [s] => s
  | s :: t :: r => s ++ ',' :: joinComma (t :: r)

/-- `AppendTypeSpecList` (signature.cc:67-80), given the already written parameters. -/
def bracket : List Text → Text
  | [] => []
  | s :: r => '<' :: (joinComma (s :: r) ++ ['>'])

/-- The names of the primitive types (signature.cc:87-109). -/
def primName : Prim → Option Text
  | .bool => some ['b','o','o','l']
  | .int => some ['i','n','t']
  | .uint => some ['u','i','n','t']
  | .double => some ['d','o','u','b','l','e']
  | .string => some ['s','t','r','i','n','g']
  | .bytes => some ['b','y','t','e','s']
  | .other => none

/-- The names of the well-known types (signature.cc:110-123). -/
def wkName : WK → Option Text
  | .any => some ['a','n','y']
  | .timestamp => some ['t','i','m','e','s','t','a','m','p']
  | .duration => some ['d','u','r','a','t','i','o','n']
  | .other => none

/-- The names of the wrapper types (signature.cc:124-146). -/
def wrapName : Prim → Option Text
  | .bool => some ['b','o','o','l','_','w','r','a','p','p','e','r']
  | .int => some ['i','n','t','_','w','r','a','p','p','e','r']
  | .uint => some ['u','i','n','t','_','w','r','a','p','p','e','r']
  | .double => some ['d','o','u','b','l','e','_','w','r','a','p','p','e','r']
  | .string => some ['s','t','r','i','n','g','_','w','r','a','p','p','e','r']
  | .bytes => some ['b','y','t','e','s','_','w','r','a','p','p','e','r']
  | .other => none

/-- The keyword `null`. -/
def kwNull : Text := ['n','u','l','l']
/-- The keyword `dyn`. -/
def kwDyn : Text := ['d','y','n']
/-- The keyword `list`. -/
def kwList : Text := ['l','i','s','t']
/-- The keyword `map`. -/
def kwMap : Text := ['m','a','p']
/-- The keyword `function`. -/
def kwFunction : Text := ['f','u','n','c','t','i','o','n']
/-- The keyword `type`. -/
def kwType : Text := ['t','y','p','e']

/-- "If the inner type is not specified, write `dyn`" (signature.cc:149-154, 158-170, 174-179).
The written inner type is passed in. -/
def orDyn (t : TypeSpec) (written : Option Text) : Option Text :=
  match t with
  | .unspec => some kwDyn
  | _ => written

mutual
/-- `AppendTypeDesc` (signature.cc:82-206). -/
def showT : TypeSpec → Option Text
  | .unspec => none
  | .error => none
  | .null => some kwNull
  | .dyn => some kwDyn
  | .prim p => primName p
  | .wk w => wkName w
  | .wrap p => wrapName p
  | .list t => (orDyn t (showT t)).map fun s => kwList ++ bracket [s]
  | .map k v =>
    (orDyn k (showT k)).bind fun a => (orDyn v (showT v)).map fun b => kwMap ++ bracket [a, b]
  | .func r args =>
    (orDyn r (showT r)).bind fun a => (showTs args).map fun l => kwFunction ++ bracket (a :: l)
  | .type t => (showT t).map fun s => kwType ++ bracket [s]
  | .param n => some ('~' :: escape true n)
  | .abstract n ps => (showTs ps).map fun l => escape false n ++ bracket l
  | .message n => some (escape false n)
/-- `AppendTypeDesc` on each type of a list; fails if one fails. -/
def showTs : List TypeSpec → Option (List Text)
  | [] => some []
  | t :: r => (showT t).bind fun s => (showTs r).map fun l => s :: l
end

/-- `MakeTypeSpecSignature` (signature.cc:216-220). -/
def makeType (t : TypeSpec) : Option Text := showT t

/-- `MakeOverloadSignature` (signature.cc:234-256), on type specs. -/
def makeOverload (fn : Text) (args : List TypeSpec) (member : Bool) : Option Text :=
  if member then
    match args with
    | [] => none
    | recv :: rest =>
      (showT recv).bind fun r => (showTs rest).map fun l =>
        r ++ '.' :: (escape true fn ++ '(' :: (joinComma l ++ [')']))
  else
    (showTs args).map fun l => escape true fn ++ '(' :: (joinComma l ++ [')'])

/-- The characters `StripUnescapedWhitespace` drops (signature.cc:277). -/
def isWs (c : Char) : Bool := c == ' ' || c == '\t' || c == '\n' || c == '\r'

/-- `StripUnescapedWhitespace` (signature.cc:262-283), with its `escaped` flag. -/
def stripWs : Bool → Text → Text
  | _, [] => []
  | true, c :: r => c :: stripWs false r
  | false, c :: r =>
    if c = '\\' then c :: stripWs true r
    else if isWs c then stripWs false r
    else c :: stripWs false r

/-- `Unescape` (signature.cc:333-357), with its `escaped` flag.  The C++ copies everything up to
the first backslash before starting the loop, which gives the same string. -/
def unescape : Bool → Text → Text
  | true, [] => ['\\']
  | false, [] => []
  | true, c :: r => c :: unescape false r
  | false, c :: r => if c = '\\' then unescape true r else c :: unescape false r

/-- The names `ParseBuiltinOrWrapper` knows (signature.cc:285-331), in the order it tries them. -/
def builtins : List (Text × TypeSpec) :=
  [(['n','u','l','l'], .null),
   (['b','o','o','l'], .prim .bool),
   (['i','n','t'], .prim .int),
   (['u','i','n','t'], .prim .uint),
   (['d','o','u','b','l','e'], .prim .double),
   (['s','t','r','i','n','g'], .prim .string),
   (['b','y','t','e','s'], .prim .bytes),
   (['a','n','y'], .wk .any),
   (['g','o','o','g','l','e','.','p','r','o','t','o','b','u','f','.','A','n','y'], .wk .any),
   (['t','i','m','e','s','t','a','m','p'], .wk .timestamp),
   (['g','o','o','g','l','e','.','p','r','o','t','o','b','u','f','.','T','i','m','e','s','t','a','m','p'], .wk .timestamp),
   (['d','u','r','a','t','i','o','n'], .wk .duration),
   (['g','o','o','g','l','e','.','p','r','o','t','o','b','u','f','.','D','u','r','a','t','i','o','n'], .wk .duration),
   (['d','y','n'], .dyn),
   (['g','o','o','g','l','e','.','p','r','o','t','o','b','u','f','.','V','a','l','u','e'], .dyn),
   (['b','o','o','l','_','w','r','a','p','p','e','r'], .wrap .bool),
   (['g','o','o','g','l','e','.','p','r','o','t','o','b','u','f','.','B','o','o','l','V','a','l','u','e'], .wrap .bool),
   (['i','n','t','_','w','r','a','p','p','e','r'], .wrap .int),
   (['g','o','o','g','l','e','.','p','r','o','t','o','b','u','f','.','I','n','t','6','4','V','a','l','u','e'], .wrap .int),
   (['g','o','o','g','l','e','.','p','r','o','t','o','b','u','f','.','I','n','t','3','2','V','a','l','u','e'], .wrap .int),
   (['u','i','n','t','_','w','r','a','p','p','e','r'], .wrap .uint),
   (['g','o','o','g','l','e','.','p','r','o','t','o','b','u','f','.','U','I','n','t','6','4','V','a','l','u','e'], .wrap .uint),
   (['g','o','o','g','l','e','.','p','r','o','t','o','b','u','f','.','U','I','n','t','3','2','V','a','l','u','e'], .wrap .uint),
   (['d','o','u','b','l','e','_','w','r','a','p','p','e','r'], .wrap .double),
   (['g','o','o','g','l','e','.','p','r','o','t','o','b','u','f','.','D','o','u','b','l','e','V','a','l','u','e'], .wrap .double),
   (['g','o','o','g','l','e','.','p','r','o','t','o','b','u','f','.','F','l','o','a','t','V','a','l','u','e'], .wrap .double),
   (['s','t','r','i','n','g','_','w','r','a','p','p','e','r'], .wrap .string),
   (['g','o','o','g','l','e','.','p','r','o','t','o','b','u','f','.','S','t','r','i','n','g','V','a','l','u','e'], .wrap .string),
   (['b','y','t','e','s','_','w','r','a','p','p','e','r'], .wrap .bytes),
   (['g','o','o','g','l','e','.','p','r','o','t','o','b','u','f','.','B','y','t','e','s','V','a','l','u','e'], .wrap .bytes),
   (['g','o','o','g','l','e','.','p','r','o','t','o','b','u','f','.','L','i','s','t','V','a','l','u','e'], .list .dyn),
   (['g','o','o','g','l','e','.','p','r','o','t','o','b','u','f','.','S','t','r','u','c','t'], .map (.prim .string) .dyn)]

/-- `ParseBuiltinOrWrapper` (signature.cc:285-331). -/
def parseBuiltin (name : Text) : Option TypeSpec :=
  (builtins.find? fun p => p.1 == name).map (·.2)

/-- `SignatureScanner::FindTopLevelChar` (signature.cc:365-401).  `none` is "mismatched
brackets"; `some none` is `npos`.  The nesting counter is a natural number because the C++
returns as soon as it would become negative; its overflow is not modelled. -/
def findTop (target : Char) (last : Bool) : Nat → Nat → Bool → Option Nat → Text →
    Option (Option Nat)
  | _, nest, _, found, [] => if nest = 0 then some found else none
  | i, nest, true, found, _ :: r => findTop target last (i + 1) nest false found r
  | i, nest, false, found, c :: r =>
    if c = '\\' then findTop target last (i + 1) nest true found r
    else
      let found' :=
        if c = target ∧ nest = 0 then (if last || found.isNone then some i else found) else found
      if c = '<' then findTop target last (i + 1) (nest + 1) false found' r
      else if c = '>' then
        if nest = 0 then none else findTop target last (i + 1) (nest - 1) false found' r
      else findTop target last (i + 1) nest false found' r

/-- `FindTopLevelChar(target, find_last)` on a whole string. -/
def findTopLevel (s : Text) (target : Char) (last : Bool) : Option (Option Nat) :=
  findTop target last 0 0 false none s

/-- `SignatureScanner::SplitTopLevel` (signature.cc:403-440); `cur` is
`input_.substr(start, i - start)`.  The delimiter is not a bracket (the only caller passes a
comma), so its test and the bracket tests can be made in any order. -/
def splitTop (delim : Char) : Nat → Bool → Text → Text → Option (List Text)
  | nest, _, cur, [] => if nest = 0 then some [cur] else none
  | nest, true, cur, c :: r => splitTop delim nest false (cur ++ [c]) r
  | nest, false, cur, c :: r =>
    if c = '\\' then splitTop delim nest true (cur ++ [c]) r
    else if c = '<' then splitTop delim (nest + 1) false (cur ++ [c]) r
    else if c = '>' then
      if nest = 0 then none else splitTop delim (nest - 1) false (cur ++ [c]) r
    else if c = delim ∧ nest = 0 then (splitTop delim nest false [] r).map (cur :: ·)
    else splitTop delim nest false (cur ++ [c]) r

/-- `SplitTypeList` (signature.cc:447-450). -/
def splitTypeList (s : Text) : Option (List Text) := splitTop ',' 0 false [] s

/-- `absl::StrContains(name_str, "..")`. -/
def hasDotDot : Text → Bool
  | '.' :: '.' :: _ => true
  | _ :: r => hasDotDot r
  | [] => false

/-- `read_param_or_dyn` (signature.cc:502-508). -/
def readParamOrDyn (params : List TypeSpec) (i : Nat) : TypeSpec := (params[i]?).getD .dyn

/-- The part of `ParseTypeSignature` after the name and the parameters have been read
(signature.cc:502-563). -/
def classify (name : Text) (params : List TypeSpec) : Option TypeSpec :=
  match parseBuiltin name with
  | some b => if params.isEmpty then some b else none
  | none =>
    if name = kwType then
      if params.length > 1 then none else some (.type (readParamOrDyn params 0))
    else if name = kwList then
      if params.length > 1 then none else some (.list (readParamOrDyn params 0))
    else if name = kwMap then
      if !params.isEmpty && params.length != 2 then none
      else some (.map (readParamOrDyn params 0) (readParamOrDyn params 1))
    else if name = kwFunction then
      some (.func (readParamOrDyn params 0) (params.drop 1))
    else if name.isEmpty || hasDotDot name then none
    else some (.abstract name params)

/-- The branch of `ParseTypeSignature` for type parameters (signature.cc:457-475), on the text
after the tilde. -/
def parseParam (name : Text) : Option TypeSpec :=
  if name.isEmpty then none
  else
    match findTopLevel name '<' false, findTopLevel name ',' false with
    | some none, some none => some (.param (unescape false name))
    | _, _ => none

/-- Parse each string of a list with `f`; fails if one fails. -/
def parseAll (f : Text → Option TypeSpec) : List Text → Option (List TypeSpec)
  | [] => some []
  | s :: r => (f s).bind fun t => (parseAll f r).map fun l => t :: l

/-- The branch of `ParseTypeSignature` for everything else (signature.cc:477-500); `f` parses a
parameter. -/
def parseNamed (f : Text → Option TypeSpec) (s : Text) : Option TypeSpec :=
  match findTopLevel s '<' false with
  | none => none
  | some none => classify (unescape false s) []
  | some (some less) =>
    if s.getLast? ≠ some '>' then none
    else
      (splitTypeList ((s.drop (less + 1)).take (s.length - less - 2))).bind fun l =>
        (parseAll f l).bind fun params => classify (unescape false (s.take less)) params

/-- `ParseTypeSignature` (signature.cc:452-564) with a bound on the recursion depth. -/
def parseFuel : Nat → Text → Option TypeSpec
  | 0, _ => none
  | _ + 1, [] => none
  | n + 1, c :: r => if c = '~' then parseParam r else parseNamed (parseFuel n) (c :: r)

/-- `ParseTypeSignature` (signature.cc:452-564).  Each recursive call is on a strictly shorter
string, so the length bounds the depth (`parseFuel_enough`). -/
def parseType (s : Text) : Option TypeSpec := parseFuel (s.length + 1) s

/-- `ParseTypeSpec` (signature.cc:629-632). -/
def parseTypeSpec (s : Text) : Option TypeSpec := parseType (stripWs false s)

/-- `ParsedFunctionOverload` (common/signature.h:88-93).  The function type in
`signature_type` always has result `dyn` (signature.cc:622); its arguments are kept. -/
structure Parsed where
  fn : Text
  member : Bool
  args : List TypeSpec

/-- The part of `ParseFunctionSignature` that reads the arguments (signature.cc:613-620). -/
def parseArgs (s : Text) : Option (List TypeSpec) :=
  if s.isEmpty then some [] else (splitTypeList s).bind (parseAll parseType)

/-- `ParseFunctionSignature` (signature.cc:568-627). -/
def parseFunction (sig : Text) : Option Parsed :=
  let s := stripWs false sig
  if s.isEmpty then none
  else
    match findTopLevel s '(' false with
    | some (some paren) =>
      if s.getLast? ≠ some ')' then none
      else
        let pre := s.take paren
        let argsStr := (s.drop (paren + 1)).take (s.length - paren - 2)
        match findTopLevel pre '.' true with
        | none => none
        | some (some dot) =>
          (parseType (pre.take dot)).bind fun recv =>
            let fn := unescape false (pre.drop (dot + 1))
            if fn.isEmpty then none
            else (parseArgs argsStr).map fun args => ⟨fn, true, recv :: args⟩
        | some none =>
          let fn := unescape false pre
          if fn.isEmpty then none
          else (parseArgs argsStr).map fun args => ⟨fn, false, args⟩
    | _ => none

end Cel.Sig
