set_option linter.unusedVariables false

/-!
# The registries of extensions

`env/internal/ext_registry.cc` and `env/internal/runtime_ext_registry.cc`: libraries by name or alias and version.
The two have the same search; what is registered (a factory, a callback) is a number here.
-/

namespace Cel.Registry

/-- `LibraryRegistration` – `ext_registry.h:47-67`; `Registration` – `runtime_ext_registry.h:53-77`. -/
structure Entry where
  name : String
  alias : String
  version : Int
  lib : Nat
  deriving DecidableEq, Repr

/-- `kLatest` – `ext_registry.h:38`. -/
def latest : Int := 2147483647

/-- `RegisterCompilerLibrary` – `ext_registry.cc:31-36`, with the constructor, `.h:49-56`. -/
def register (regs : List Entry) (name alias : String) (version : Int) (lib : Nat) : List Entry :=
  regs ++ [⟨name, if alias = "" then name else alias, version, lib⟩]

/-- `registration.name_ == name || registration.alias_ == name`. -/
def called (name : String) (e : Entry) : Bool := e.name == name || e.alias == name

/-- The loop of `ext_registry.cc:41-47`. -/
def maxVersion (name : String) : Int → List Entry → Int
  | m, [] => m
  | m, e :: es => maxVersion name (if called name e && decide (e.version > m) then e.version else m) es

/-- The loop of `:54-59`. -/
def search (name : String) (version : Int) : List Entry → Option Nat
  | [] => none
  | e :: es => if called name e && e.version == version then some e.lib else search name version es

/-- `GetCompilerLibrary` – `:38-63`; `RegisterExtensionFunctions` – `runtime_ext_registry.cc:35-62`. -/
def get (regs : List Entry) (name : String) (version : Int) : Option Nat :=
  if version = latest then
    let m := maxVersion name (-1) regs
    if m = -1 then none else search name m regs
  else search name version regs

end Cel.Registry
