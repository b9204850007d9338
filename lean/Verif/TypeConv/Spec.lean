import Verif.TypeConv.Model

/-!
# Which types and configurations the conversions keep
-/

namespace Cel.TypeConv

/-- A pool finds descriptors under their own names, and a name is not both a message and an enum. -/
structure Pool.Ok (pool : Pool) : Prop where
  message : ∀ n d, pool.message n = some d → d.name = n
  enum : ∀ n d, pool.enum n = some d → d.name = n
  apart : ∀ n d, pool.enum n = some d → pool.message n = none

/-- The type and every type in it means the same by name in this pool: its messages and enums are
the pool's (and have no CEL type of their own), the names of its opaque types are not taken. -/
inductive Settled (pool : Pool) : Ty → Prop
  | dyn : Settled pool .dyn
  | any : Settled pool .any
  | timestamp : Settled pool .timestamp
  | duration : Settled pool .duration
  | null : Settled pool .null
  | error : Settled pool .error
  | prim {p : Prim} (h : p ≠ .unspecified) : Settled pool (.prim p)
  | wrap {p : Prim} (h : p ≠ .unspecified) : Settled pool (.wrap p)
  | message {d : Desc} (h : pool.message d.name = some d) (hw : d.wkt = .none) : Settled pool (.message d)
  | enum {d : Desc} (h : pool.enum d.name = some d) (hm : pool.message d.name = none)
      (hn : d.name ≠ "google.protobuf.NullValue") : Settled pool (.enum d)
  | list {e : Ty} (h : Settled pool e) : Settled pool (.list e)
  | map {k v : Ty} (hk : Settled pool k) (hv : Settled pool v) : Settled pool (.map k v)
  | function {r : Ty} {args : List Ty} (hr : Settled pool r) (h : ∀ t ∈ args, Settled pool t) :
      Settled pool (.function r args)
  | opaque {n : String} {ps : List Ty} (hm : pool.message n = none) (he : pool.enum n = none)
      (h : ∀ t ∈ ps, Settled pool t) : Settled pool (.opaque n ps)
  | param {n : String} : Settled pool (.param n)
  | type {t : Ty} (h : Settled pool t) : Settled pool (.type t)

/-- Nothing is left unset in the specification, and no name in it stands for something else. -/
inductive Plain (pool : Pool) : Spec → Prop
  | dyn : Plain pool .dyn
  | null : Plain pool .null
  | prim {p : Prim} (h : p ≠ .unspecified) : Plain pool (.prim p)
  | wrap {p : Prim} (h : p ≠ .unspecified) : Plain pool (.wrap p)
  | known {k : Known} (h : k ≠ .unspecified) : Plain pool (.known k)
  | list {e : Spec} (h : Plain pool e) : Plain pool (.list e)
  | map {k v : Spec} (hk : Plain pool k) (hv : Plain pool v) : Plain pool (.map k v)
  | function {r : Spec} {args : List Spec} (hr : Plain pool r) (h : ∀ t ∈ args, Plain pool t) :
      Plain pool (.function r args)
  | message {n : String} {d : Desc} (h : pool.message n = some d) (hw : d.wkt = .none) : Plain pool (.message n)
  | param {n : String} : Plain pool (.param n)
  | type {t : Spec} (h : Plain pool t) : Plain pool (.type t)
  | error : Plain pool .error
  | enum {n : String} {d : Desc} (hm : pool.message n = none) (h : pool.enum n = some d)
      (hn : n ≠ "google.protobuf.NullValue") : Plain pool (.abstract n [])
  | opaque {n : String} {ps : List Spec} (hm : pool.message n = none) (he : pool.enum n = none)
      (h : ∀ t ∈ ps, Plain pool t) : Plain pool (.abstract n ps)

/-- Every name the configuration uses that is no CEL name is a message of the pool if it has no
parameters, and none of its messages and enums if it has – at every place that is read. -/
inductive Declared (pool : Pool) : Info → Prop
  | param {n : String} {ps : List Info} : Declared pool (.mk n ps true)
  | simple {n : String} {ps : List Info} {k : Kind} (hk : kindOf n = some k)
      (h : k ≠ .list ∧ k ≠ .map ∧ k ≠ .type) : Declared pool (.mk n ps false)
  | bare {n : String} {k : Kind} (hk : kindOf n = some k) : Declared pool (.mk n [] false)
  | list {n : String} {i : Info} {is : List Info} (hk : kindOf n = some .list) (h : Declared pool i) :
      Declared pool (.mk n (i :: is) false)
  | type {n : String} {i : Info} {is : List Info} (hk : kindOf n = some .type) (h : Declared pool i) :
      Declared pool (.mk n (i :: is) false)
  | map1 {n : String} {i : Info} (hk : kindOf n = some .map) (h : Declared pool i) :
      Declared pool (.mk n [i] false)
  | map2 {n : String} {i j : Info} {is : List Info} (hk : kindOf n = some .map) (h : Declared pool i)
      (h' : Declared pool j) : Declared pool (.mk n (i :: j :: is) false)
  | message {n : String} {d : Desc} (hk : kindOf n = none) (h : pool.message n = some d) :
      Declared pool (.mk n [] false)
  | opaque {n : String} {i : Info} {is : List Info} (hk : kindOf n = none) (hm : pool.message n = none)
      (he : pool.enum n = none) (h : ∀ j ∈ i :: is, Declared pool j) : Declared pool (.mk n (i :: is) false)

/-- A configuration can say the specification: no function, no error, no CEL name of something else,
no opaque type without parameters. -/
inductive Sayable : Spec → Prop
  | dyn : Sayable .dyn
  | null : Sayable .null
  | prim {p : Prim} (h : p ≠ .unspecified) : Sayable (.prim p)
  | wrap {p : Prim} (h : p ≠ .unspecified) : Sayable (.wrap p)
  | known {k : Known} (h : k ≠ .unspecified) : Sayable (.known k)
  | list {e : Spec} (h : e ≠ .unset → Sayable e) : Sayable (.list e)
  | map {k v : Spec} (hk : k ≠ .unset → Sayable k) (hv : v ≠ .unset → Sayable v) : Sayable (.map k v)
  | message {n : String} (h : kindOf n = none) : Sayable (.message n)
  | param {n : String} : Sayable (.param n)
  | type {t : Spec} (h : Sayable t) : Sayable (.type t)
  | opaque {n : String} {s : Spec} {ss : List Spec} (hk : kindOf n = none) (h : ∀ t ∈ s :: ss, Sayable t) :
      Sayable (.abstract n (s :: ss))

end Cel.TypeConv
