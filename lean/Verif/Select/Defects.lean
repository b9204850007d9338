import Verif.Select.Theorem

/-! # An example, and where the optimization is observable -/

set_option linter.unusedSimpArgs false
set_option linter.unusedVariables false

namespace Cel.Select
open Cel

namespace Ex

/-- `message M { repeated M l = 1; Int64Value w = 2; map<int64, int64> im = 3; int64 n = 4; M c = 5;
map<string, M> sm = 6; Value j = 7; repeated int64 s = 8; }`. -/
def fieldsM : List FDesc :=
  [⟨1, "l", .rep (.msg "M")⟩, ⟨2, "w", .one (.msg "W")⟩, ⟨3, "im", .map .i64 (.scalar 0)⟩,
   ⟨4, "n", .one (.scalar 0)⟩, ⟨5, "c", .one (.msg "M")⟩, ⟨6, "sm", .map .str (.msg "M")⟩,
   ⟨7, "j", .one (.msg "J")⟩, ⟨8, "s", .rep (.scalar 0)⟩]

/-- A `Value` is the list of one number here, a wrapper is the number 0. -/
def lib : Lib where
  known t := t == "M"
  fields t := if t = "M" then fieldsM else []
  wk t := if t = "W" then .wrapper else if t = "J" then .json else .none
  conv m := if m.type = "J" then .list [.scal 3] else .scal 0

theorem libOK : LibOK lib := by
  intro m h
  left
  refine ⟨0, ?_⟩
  simp only [lib] at h ⊢
  split
  · rename_i hj; simp [hj] at h
  · rfl

def leafMsg : Msg := .mk "M" [(4, .one (.scal 42))]
def inner : Msg := .mk "M" [(6, .map [(.str "k", .msg leafMsg)])]
/-- `{c: {sm: {"k": {n: 42}}}, l: [{n: 42}]}` -/
def top : Msg := .mk "M" [(5, .one (.msg inner)), (1, .rep [.msg leafMsg])]

/-- `x`: leaf 0 is the message, leaf 1 is null; node 0 is `_ || true`. -/
def env (het unsetNull force : Bool) : Env where
  leaf n := if n = 0 then .ok (.msg top) else .ok .null
  node _ l :=
    match l with
    | [.ok (.error _)] => .ok (.bool true)
    | [.ok v] => .ok v
    | [.err s] => .err s
    | _ => .ub
  het := het
  unsetNull := unsetNull
  force := force

theorem respects (a b c : Bool) : Respects (env a b c) := by
  intro n l m h
  cases h with
  | nil => trivial
  | cons x y l m hxy h =>
    cases h with
    | nil =>
      cases x <;> cases y <;> simp only [Agree] at hxy
      · rename_i v w
        rcases hxy with rfl | ⟨h1, h2⟩
        · exact Agree.refl _
        · cases v <;> simp [isError] at h1
          cases w <;> simp [isError] at h2
          exact .inl rfl
      · trivial
      · trivial
    | cons x' y' l m _ _ =>
      cases x <;> cases y <;> simp only [Agree] at hxy
      · rename_i v w
        rcases hxy with rfl | ⟨h1, h2⟩
        · cases v <;> trivial
        · cases v <;> simp [isError] at h1
          cases w <;> simp [isError] at h2
          trivial
      · trivial
      · trivial

def sel (e : Expr) (f : String) : Expr := .select none (.message "M") e f false
def x : Expr := .leaf 0

/-- `x.c.sm["k"].n`, `x.c.sm.k.n`, `has(x.c.sm.z)`, `x.l[0].n` and `x.l[7].n || true`. -/
def e1 : Expr := sel (.index none (sel (sel x "c") "sm") (.str "k")) "n"
def e2 : Expr := sel (.select none .map (sel (sel x "c") "sm") "k" false) "n"
def e3 : Expr := .select none .map (sel (sel x "c") "sm") "z" true
def e4 : Expr := sel (.index none (sel x "l") (.int 0)) "n"
def e5 : Expr := .node 0 [sel (.index none (sel x "l") (.int 7)) "n"]

example : rewrite lib e1 =
    .attr x [.field 5 "c", .field 6 "sm", .attr (.str "k"), .field 4 "n"] false := by rfl
example : eval lib (env true true false) e1 = .ok (.scal 42) := by rfl
example : eval lib (env true true false) (rewrite lib e1) = .ok (.scal 42) := by rfl
example : rewrite lib e3 = .attr x [.field 5 "c", .field 6 "sm", .attr (.str "z")] true := by rfl
example : eval lib (env true true false) (rewrite lib e3) = .ok (.bool false) := by rfl
example : rewrite lib e5 = .node 0 [.attr x [.field 1 "l", .attr (.int 7), .field 4 "n"] false] := by rfl

theorem ok_of (m : Msg) (hm : m.type = "M")
    (h1 : ∀ d ∈ fieldsM, ∀ t, d.shape = .rep t → ∀ e ∈ repElems m d, elemOK t e)
    (h2 : ∀ d ∈ fieldsM, ∀ k t, d.shape = .map k t → ∀ e ∈ mapEntries m d, elemOK t e.2)
    (h3 : ∀ d ∈ fieldsM, ∀ t c, d.shape = .one t → cont m d = some c → ∃ e, c = .one e ∧ elemOK t e) :
    MsgOK lib m := by
  have hf : lib.fields m.type = fieldsM := by simp [lib, hm]
  refine ⟨by rw [hm]; rfl, ?_, by rw [hf]; exact h1, by rw [hf]; exact h2, by rw [hf]; exact h3⟩
  rw [hf]; decide

theorem leafOK : MsgOK lib leafMsg := by
  refine ok_of _ rfl ?_ ?_ ?_ <;>
    simp +decide [fieldsM, leafMsg, repElems, mapEntries, cont, lookupCont, Msg.set, elemOK]

theorem innerOK : MsgOK lib inner := by
  refine ok_of _ rfl ?_ ?_ ?_ <;>
    simp +decide [fieldsM, inner, leafMsg, repElems, mapEntries, cont, lookupCont, Msg.set, elemOK, Msg.type]

theorem topOK : MsgOK lib top := by
  refine ok_of _ rfl ?_ ?_ ?_ <;>
    simp +decide [fieldsM, top, inner, leafMsg, repElems, mapEntries, cont, lookupCont, Msg.set, elemOK,
      Msg.type]

/-- The conditions hold for the first expression, and the theorem applies. -/
theorem fine1 (f : Bool) : Fine lib (env true true f) e1 := by
  have h0 : eval lib (env true true f) x = .ok (.msg top) := rfl
  have h1 : eval lib (env true true f) (sel x "c") = .ok (.msg inner) := rfl
  have h2 : eval lib (env true true f) (sel (sel x "c") "sm") = .ok (.map .str [(.str "k", .msg leafMsg)]) := rfl
  have h3 : eval lib (env true true f) (.index none (sel (sel x "c") "sm") (.str "k")) =
      .ok (.msg leafMsg) := rfl
  refine ⟨⟨⟨⟨trivial, fun _ => ⟨(fun h => nomatch h), ?_⟩⟩, fun _ => ⟨fun _ => rfl, ?_⟩⟩,
    fun _ => ⟨rfl, trivial, ?_⟩⟩, fun _ => ⟨fun _ => rfl, ?_⟩⟩
  · intro v hv; cases hv.symm.trans h0; exact .inr ⟨_, rfl, rfl, topOK, .inr (.inl rfl)⟩
  · intro v hv; cases hv.symm.trans h1; exact .inr ⟨_, rfl, rfl, innerOK, .inr (.inl rfl)⟩
  · intro v hv; cases hv.symm.trans h2; trivial
  · intro v hv; cases hv.symm.trans h3; exact .inr ⟨_, rfl, rfl, leafOK, .inr (.inl rfl)⟩

example (f : Bool) : Agree (eval lib (env true true f) (rewrite lib e1)) (eval lib (env true true f) e1) :=
  optimized_selects_agree_partial lib libOK _ (respects true true f) e1 (fine1 f)

end Ex

open Ex

/-- **C80, the code is wrong here.**  `x.l[4294967296]` of a list with one element is an error, and the
first element when optimized: the index is truncated to 32 bits. -/
theorem index_truncated : ∃ (L : Lib) (N : Env) (e : Expr), LibOK L ∧ Respects N ∧
    eval L N e = .ok (.error indexRange) ∧ ∃ m, eval L N (rewrite L e) = .ok (.msg m) :=
  ⟨lib, env true true false, .index none (sel x "l") (.int 4294967296), libOK, respects _ _ _, rfl,
    leafMsg, rfl⟩

/-- **C80, the code is wrong here.**  The field of a null message is an error value, that `|| true`
absorbs; optimized, evaluation is aborted with a status. -/
theorem null_operand_aborts : ∃ (L : Lib) (N : Env) (e : Expr), LibOK L ∧ Respects N ∧
    eval L N e = .ok (.bool true) ∧ ∃ s, eval L N (rewrite L e) = .err s :=
  ⟨lib, env true true false, .node 0 [sel (.leaf 1) "n"], libOK, respects _ _ _, rfl, _, rfl⟩

/-- **C80, the code is wrong here.**  `has(x.im.foo)` is false for a map with integer keys, and an
error when optimized. -/
theorem has_key_type_error : ∃ (L : Lib) (N : Env) (e : Expr), LibOK L ∧ Respects N ∧
    eval L N e = .ok (.bool false) ∧ ∃ s, eval L N (rewrite L e) = .ok (.error s) :=
  ⟨lib, env true true false, .select none .map (sel x "im") "foo" true, libOK, respects _ _ _, rfl, _, rfl⟩

/-- **C80, the code is wrong here.**  `x.j[0u]` is the first element of a list in a
`google.protobuf.Value`, and an error when optimized. -/
theorem uint_index_error : ∃ (L : Lib) (N : Env) (e : Expr), LibOK L ∧ Respects N ∧ N.het = true ∧
    eval L N e = .ok (.scal 3) ∧ ∃ s, eval L N (rewrite L e) = .ok (.error s) :=
  ⟨lib, env true true false, .index none (sel x "j") (.uint 0), libOK, respects _ _ _, rfl, rfl, _, rfl⟩

/-- The other way around without heterogeneous equality: `x.j[0.0]` is an error, and the element when
optimized. -/
theorem double_index_found : ∃ (L : Lib) (N : Env) (e : Expr), LibOK L ∧ Respects N ∧ N.het = false ∧
    eval L N e = .ok (.error indexType) ∧ eval L N (rewrite L e) = .ok (.scal 3) :=
  ⟨lib, env false true false, .index none (sel x "j") (.dbl (some 0) (some 0)), libOK, respects _ _ _,
    rfl, rfl, rfl⟩

/-- An unset wrapper is null when optimized whatever the option says. -/
theorem unset_wrapper_null : ∃ (L : Lib) (N : Env) (e : Expr), LibOK L ∧ Respects N ∧
    N.unsetNull = false ∧ eval L N e = .ok (.scal 0) ∧ eval L N (rewrite L e) = .ok .null :=
  ⟨lib, env true false false, sel x "w", libOK, respects _ _ _, rfl, rfl, rfl⟩

/-- What makes the conditions about types necessary: the checker rejects `x.s[0][0]`; evaluated without
it, it is an error, and optimized it aborts evaluation with an internal error. -/
theorem scalar_element_aborts : ∃ (L : Lib) (N : Env) (e : Expr), LibOK L ∧ Respects N ∧
    (∃ s, eval L N e = .ok (.error s)) ∧ ∃ s, eval L N (rewrite L e) = .err s ∧ s.code = .internal :=
  ⟨lib, env true true false, .index none (.index none (sel x "s") (.int 0)) (.int 0), libOK,
    respects _ _ _, ⟨_, rfl⟩, _, rfl, rfl⟩

end Cel.Select
