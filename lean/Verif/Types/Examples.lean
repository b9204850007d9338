import Verif.Types.Decide
import Verif.Num.IntModel

/-!
# C60: a program that meets the hypotheses, and what happens without them
-/

set_option linter.unusedSimpArgs false
set_option linter.unusedVariables false

namespace Cel.Types.Examples
open Cel Cel.Eval Cel.Data Cel.Direct Cel.Checker Cel.Num

/-! ## An environment -/

def tInt : Ty := .b .int
def tBool : Ty := .b .bool
def tStr : Ty := .b .string
def tPoint : Ty := .con (.struct "Point") []

def plus : FunctionDecl := ⟨"_+_", [⟨"add_int", false, [tInt, tInt], tInt⟩, ⟨"add_string", false, [tStr, tStr], tStr⟩]⟩

def stdOverloads (fn : String) : List Checker.Overload := (standard fn).map fun p => ⟨fn, false, p.1, p.2⟩

def decls : Decls where
  vars := fun x => if x = "x" then some tInt else if x = "xs" then some (listOf tInt) else if x = "m" then some (mapOf tStr tInt)
    else if x = "p" then some tPoint else none
  funcs := fun fn => if fn ∈ builtins then some ⟨fn, stdOverloads fn⟩ else if fn = "_+_" then some plus else none
  types := fun n => if n = "Point" then some tPoint else none
  fields := fun s f => if s = "Point" ∧ f = "x" then some tInt else if s = "Point" ∧ f = "name" then some tStr else none
  wellKnown := fun _ => false

def call1 (fn : String) (a : Ast Unit) : Ast Unit := .call () fn false (.cons a .nil)
def call2 (fn : String) (a b : Ast Unit) : Ast Unit := .call () fn false (.cons a (.cons b .nil))
def call3 (fn : String) (a b c : Ast Unit) : Ast Unit := .call () fn false (.cons a (.cons b (.cons c .nil)))
def var (x : String) : Ast Unit := .ident () x false

/-- `xs.exists(i, i == p.x)` -/
def anyX : Ast Unit :=
  .comp () "i" none "@result" (var "xs") (.const () (.bool false)) (call1 "@not_strictly_false" (call1 "!_" (var "@result")))
    (call2 "_||_" (var "@result") (call2 "_==_" (var "i") (.select () (var "p") "x" false))) (var "@result")

/-- `xs.exists(i, i == p.x) ? xs[0] + m["k"] : Point{x: 1, name: "a" + "b"}.x` -/
def prog : Ast Unit :=
  call3 "_?_:_" anyX (call2 "_+_" (call2 "_[_]" (var "xs") (.const () (.int 0))) (call2 "_[_]" (var "m") (.const () (.str "k"))))
    (.select () (.struct () "Point" ["x", "name"] (.cons (.const () (.int 1)) (.cons (call2 "_+_" (.const () (.str "a")) (.const () (.str "b"))) .nil))) "x" false)


theorem decls_ok : decls.Ok where
  vars := by
    intro x t h
    have key : ∀ t, cleanB false t = true → (∀ x, ¬ Occurs x t) → Shaped t ∧ Ground t := fun t a b => ⟨(cleanB_ok t a).shaped, b⟩
    have leaf : ∀ hd, ∀ x, ¬ Occurs x (.con hd []) := by intro hd x h; cases h; contradiction
    simp only [decls] at h
    split at h
    · injection h with h; rw [← h]; exact key _ rfl (leaf _)
    split at h
    · injection h with h; rw [← h]
      refine key _ rfl ?_
      intro x hx
      cases hx with
      | inside hm ho => rw [List.mem_singleton.mp hm] at ho; exact leaf _ x ho
    split at h
    · injection h with h; rw [← h]
      refine key _ rfl ?_
      intro x hx
      cases hx with
      | inside hm ho =>
        rcases List.mem_cons.mp hm with e | hm
        · rw [e] at ho; exact leaf _ x ho
        · rw [List.mem_singleton.mp hm] at ho; exact leaf _ x ho
    split at h
    · injection h with h; rw [← h]; exact key _ rfl (leaf _)
    · exact nomatch h
  fields := by
    intro a f t h
    have leaf : ∀ hd, ∀ x, ¬ Occurs x (.con hd []) := by intro hd x h; cases h; contradiction
    simp only [decls] at h
    split at h
    · injection h with h; rw [← h]; exact ⟨.leaf _, leaf _⟩
    split at h
    · injection h with h; rw [← h]; exact ⟨.leaf _, leaf _⟩
    · exact nomatch h
  types := by
    intro n t h
    have leaf : ∀ hd, ∀ x, ¬ Occurs x (.con hd []) := by intro hd x h; cases h; contradiction
    simp only [decls] at h
    split at h
    · injection h with h; rw [← h]; exact ⟨.leaf _, leaf _⟩
    · exact nomatch h
  names := by
    intro fn fd h
    simp only [decls] at h
    split at h
    · injection h with h; rw [← h]
    split at h
    · rename_i e; injection h with h; rw [← h, e]; rfl
    · exact nomatch h
  ops := by
    intro fn fd o hb h ho
    simp only [decls] at h
    rw [if_pos hb] at h
    injection h with h
    rw [← h] at ho
    obtain ⟨q, hq, rfl⟩ := List.mem_map.mp ho
    exact ⟨rfl, hq⟩

/-! ## A runtime for it -/

/-- Addition of integers and concatenation of strings. -/
def addInt : Eval.Overload Unit := ⟨⟨"_+_", false, [kInt, kInt], true⟩, fun args h =>
  match args with
  | [.int a, .int b] =>
    match checkedAddI a b with
    | .ok c => (.ok (.int c), h)
    | .err e => (.ok (.error e), h)
    | .ub => (.ub, h)
  | _ => (.err ⟨.internal, "kind mismatch"⟩, h)⟩
def addString : Eval.Overload Unit := ⟨⟨"_+_", false, [kString, kString], true⟩, fun args h =>
  match args with
  | [.str a, .str b] => (.ok (.str (a ++ b)), h)
  | _ => (.err ⟨.internal, "kind mismatch"⟩, h)⟩

def impls (fn : String) (recv : Bool) : List (Eval.Overload Unit) := if fn = "_+_" ∧ recv = false then [addInt, addString] else []

/-- Variables `x = 1`, `xs = [7, 2]`, `m = {"k": 5}` and a message `p` with `x = 2`. -/
def rt : RCfg Unit where
  c := { unknowns := false, missing := false, optionals := true, pats := [], missingPats := [], debugString := fun _ => "", typeName := fun _ => "",
         structGet := fun _ _ f => if f = "x" then .ok (.int 2) else if f = "name" then .ok (.str "n") else .err ⟨.notFound, "no_such_field"⟩
         structHas := fun _ _ _ => .ok true }
  fnResults := false
  shortCircuit := true
  maxIter := 0
  global := fun x h => (if x = "x" then .ok ⟨.int 1, none⟩ else if x = "xs" then .ok ⟨.list [.int 7, .int 2], none⟩
    else if x = "m" then .ok ⟨.map [(.str "k", .int 5)], none⟩ else if x = "p" then .ok ⟨.struct "Point" 0, none⟩
    else .err ⟨.notFound, "undeclared"⟩, h)

def site (fn : String) (recv : Bool) : CallSite Unit := ⟨fn, recv, 1, .eager (impls fn recv)⟩

def mImpl : Impl Unit := link rt site fun name _ _ h => (.ok ⟨.struct name 1, none⟩, h)

theorem addInt_fine (a b : Int) : FineVal false tInt (addInt.impl [.int a, .int b] ()).1 := by
  show FineVal false tInt (match checkedAddI a b with | .ok c => (.ok (.int c), ()) | .err e => (.ok (.error e), ()) | .ub => (.ub, ()) : Res Value × Unit).1
  unfold checkedAddI
  dsimp only
  split
  · rename_i e; exact Fine.value (.int _)
  · rename_i e
    split at e
    · exact nomatch e
    · injection e with e; rw [← e]
      refine Fine.error (not_typeError "integer".toList ?_ ?_)
      · exact ⟨" overflow".toList, by decide⟩
      · decide
  · rename_i e; split at e <;> exact nomatch e

theorem plus_implements : Implements false false false plus.overloads (impls "_+_" false) where
  all := by
    intro o ho _
    simp only [plus, List.mem_cons, List.not_mem_nil, or_false] at ho
    rcases ho with rfl | rfl
    · exact ⟨addInt, by simp [impls], rfl⟩
    · exact ⟨addString, by simp [impls], rfl⟩
  strict := by
    intro w hw
    simp only [impls, and_self, if_true, List.mem_cons, List.not_mem_nil, or_false] at hw
    rcases hw with rfl | rfl <;> rfl
  result := by
    intro w hw o ho _ θ args h hst hb hm
    simp only [plus, List.mem_cons, List.not_mem_nil, or_false] at ho
    simp only [impls, and_self, if_true, List.mem_cons, List.not_mem_nil, or_false] at hw
    rcases ho with rfl | rfl
    · obtain ⟨a, b, rfl⟩ : ∃ a b, args = [.int a, .int b] := by
        cases hb with
        | cons h1 h2 =>
          cases h2 with
          | cons h2 h3 =>
            cases h3
            obtain ⟨a, rfl⟩ := HasType.int_inv h1
            obtain ⟨b, rfl⟩ := HasType.int_inv h2
            exact ⟨a, b, rfl⟩
      rcases hw with rfl | rfl
      · exact addInt_fine a b
      · exact absurd (show false = true from hm) (by decide)
    · obtain ⟨a, b, rfl⟩ : ∃ a b, args = [.str a, .str b] := by
        cases hb with
        | cons h1 h2 =>
          cases h2 with
          | cons h2 h3 =>
            cases h3
            obtain ⟨a, rfl⟩ := HasType.string_inv h1
            obtain ⟨b, rfl⟩ := HasType.string_inv h2
            exact ⟨a, b, rfl⟩
      rcases hw with rfl | rfl
      · exact absurd (show false = true from hm) (by decide)
      · exact Fine.value (.string _)

theorem rt_conforms : Conforms decls false rt mImpl where
  vars := by
    intro x t h hx
    simp only [decls] at hx
    simp only [rt]
    split at hx
    · rename_i e; injection hx with hx; rw [← hx, if_pos e]; exact Fine.value (.int _)
    rename_i n1; rw [if_neg n1]
    split at hx
    · rename_i e; injection hx with hx; rw [← hx, if_pos e]
      refine Fine.value (.list ?_)
      intro v hv
      simp only [List.mem_cons, List.not_mem_nil, or_false] at hv
      rcases hv with rfl | rfl <;> exact .int _
    rename_i n2; rw [if_neg n2]
    split at hx
    · rename_i e; injection hx with hx; rw [← hx, if_pos e]
      refine Fine.value (.map ?_ ?_)
      · intro v hv; rw [List.mem_singleton.mp hv]; exact .string _
      · intro v hv; rw [List.mem_singleton.mp hv]; exact .int _
    rename_i n3; rw [if_neg n3]
    split at hx
    · rename_i e; injection hx with hx; rw [← hx, if_pos e]; exact Fine.value (.struct _ _)
    · exact nomatch hx
  funcs := by
    refine link_funcs (os := impls) (fun h => Bool.noConfusion h) (fun fn recv => rfl) ?_
    intro fn fd hf hb recv
    simp only [decls] at hf
    rw [if_neg hb] at hf
    split at hf
    · rename_i e; injection hf with hf; rw [← hf, e]
      cases recv
      · exact plus_implements
      · refine ⟨?_, ?_, ?_⟩
        · intro o ho hm
          simp only [plus, List.mem_cons, List.not_mem_nil, or_false] at ho
          rcases ho with rfl | rfl <;> exact nomatch hm
        · intro w hw; simp [impls] at hw
        · intro w hw; simp [impls] at hw
    · exact nomatch hf
  create := by
    intro name t fs ts args h ht _ _
    simp only [decls] at ht
    split at ht
    · rename_i e; injection ht with ht; rw [← ht, e]; exact Fine.value (.struct _ _)
    · exact nomatch ht
  get := by
    intro a i f t h _
    simp only [decls] at h
    simp only [rt]
    split at h
    · rename_i e; injection h with h; rw [← h, if_pos e.2]; exact .int _
    · rename_i n1
      split at h
      · rename_i e
        injection h with h; rw [← h]
        rw [if_neg (by rw [e.2]; decide), if_pos e.2]; exact .string _
      · exact nomatch h
  has := fun _ _ _ => trivial

/-- The hypotheses are met by a program with a comprehension, indexing, a message literal and both overloads of `+`: it has type `int` and
evaluates to an integer or to an error that is no type error. -/
theorem prog_good : goodB decls false 20 prog = true := by decide +kernel

example : ∃ te, check decls false none 20 prog = some te ∧ FineFinal false te.ann (meaning rt.cfg (plan rt mImpl te) ()) :=
  sound_of_goodB decls_ok prog_good rt_conforms ()

example : ((check decls false none 20 prog).any fun te => te.ann.eq tInt) = true := by decide +kernel

/-- Its value is `12`. -/
example : (match meaning rt.cfg (plan rt mImpl prog) () with | .value (.int 12) _ => true | _ => false) = true := by decide +kernel

/-- A call of `+`, dispatched: there is an overload, and the result is an integer. -/
example : FineVal false tInt (evalCall rt.callOpts (site "_+_" false) [⟨.int 2, none⟩, ⟨.int 3, none⟩] ()).1 :=
  C60_dispatch (opts := rt.callOpts) (fun h => nomatch h) plus_implements rfl (o := ⟨"add_int", false, [tInt, tInt], tInt⟩) (by simp [plus]) rfl (fun x => .param x)
    (by intro p hp; simp only [List.mem_cons, List.not_mem_nil, or_false, or_self] at hp; rw [hp]; exact strictB_ok _ rfl) _ ()
    (.cons (.value (.int _)) (.cons (.value (.int _)) .nil))

/-! ## What happens without the hypotheses -/

/-- The evaluation ends in a type error. -/
def typeErrorB : Final Unit → Bool
  | .value (.error e) _ => typeErrorTexts.any fun p => p.isPrefixOf e.msg.toList
  | .status e _ => typeErrorTexts.any fun p => p.isPrefixOf e.msg.toList
  | _ => false

theorem typeErrorB_ok {t : Ty} {f : Final Unit} (h : typeErrorB f = true) : ¬ FineFinal false t f := by
  intro hf
  unfold typeErrorB at h
  split at h
  · obtain ⟨p, hp, he⟩ := List.any_eq_true.mp h
    cases hf with
    | value hv => exact hv.ne_error
    | error hn => exact hn ⟨p, hp, List.isPrefixOf_iff_prefix.mp he⟩
  · obtain ⟨p, hp, he⟩ := List.any_eq_true.mp h
    exact hf ⟨p, hp, List.isPrefixOf_iff_prefix.mp he⟩
  · exact Bool.noConfusion h

/-- Accepted with the type `t`, every type in the type map strict, every function used declared strictly: all that `C60_sound_partial` asks but
`Regular`. -/
def strictButB (d : Decls) (t : Ty) (e : Ast Unit) : Bool :=
  match check d false none 20 e with
  | some te => same te.ann t && te.everyB (strictB false) && e.usesB d false && !te.regularB same
  | none => false

/-- The checker asks nothing of the loop step: an accumulator of type `int` is given a string, and the sum fails at run time. The macros
never produce this; an expression built by hand or read from a serialized tree may. -/
def badStep : Ast Unit :=
  .comp () "i" none "a" (var "xs") (.const () (.int 0)) (.const () (.bool true)) (.const () (.str "s")) (call2 "_+_" (var "a") (.const () (.int 1)))

theorem badStep_accepted : strictButB decls tInt badStep = true := by decide +kernel
theorem badStep_fails : ¬ FineFinal false tInt (meaning rt.cfg (plan rt mImpl badStep) ()) := typeErrorB_ok (by decide +kernel)

/-- Nor does it ask the loop condition to be a boolean. A condition that is none stops nothing but errors at run time. -/
def badCond : Ast Unit :=
  .comp () "i" none "a" (var "xs") (.const () (.int 0)) (.const () (.str "s")) (.const () (.int 2)) (var "a")

theorem badCond_accepted : strictButB decls tInt badCond = true := by decide +kernel
theorem badCond_fails : ¬ FineFinal false tInt (meaning rt.cfg (plan rt mImpl badCond) ()) := typeErrorB_ok (by decide +kernel)

/-- The loop condition is checked outside the scope of the iteration variable and run inside it: `x` is the variable of type `int` to the
checker and a string at run time. -/
def capture : Ast Unit :=
  .comp () "x" none "a" (.list () (.cons (.const () (.str "s")) .nil)) (.const () (.int 0)) (call2 "_==_" (call2 "_+_" (var "x") (.const () (.int 1))) (.const () (.int 2)))
    (.const () (.int 2)) (var "a")

theorem capture_accepted : strictButB decls tInt capture = true := by decide +kernel
theorem capture_fails : ¬ FineFinal false tInt (meaning rt.cfg (plan rt mImpl capture) ()) := typeErrorB_ok (by decide +kernel)

/-- `[1] in {}`: a map whose keys would be lists is accepted; the only program here that the parser produces as it stands. -/
def listKey : Ast Unit := call2 "@in" (.list () (.cons (.const () (.int 1)) .nil)) (.map () .nil)

theorem listKey_accepted : ((check decls false none 20 listKey).any fun te => same te.ann tBool && te.regularB same && !te.everyB (strictB false)) = true := by
  decide +kernel
theorem listKey_fails : ¬ FineFinal false tBool (meaning rt.cfg (plan rt mImpl listKey) ()) := typeErrorB_ok (by decide +kernel)

/-- An optional list of messages. -/
def declsOpt : Decls := { decls with vars := fun x => if x = "ol" then some (optionalTy (listOf tPoint)) else decls.vars x }
def rtOpt : RCfg Unit := { rt with global := fun x h => if x = "ol" then (.ok ⟨.opt (some (.list [.struct "Point" 0])), none⟩, h) else rt.global x h }

/-- `ol[5].x`, of type `optional_type(int)`: the index is out of range, which puts an error into the optional value, and selecting from
that one is a type error. `ol[0].x` works. -/
def optIndex (i : Int) : Ast Unit := .select () (call2 "_[_]" (var "ol") (.const () (.int i))) "x" false

theorem optIndex_accepted : strictButB declsOpt (optionalTy tInt) (optIndex 5) = true := by decide +kernel
theorem optIndex_fails : ¬ FineFinal false (optionalTy tInt) (meaning rtOpt.cfg (plan rtOpt mImpl (optIndex 5)) ()) := typeErrorB_ok (by decide +kernel)
example : (match meaning rtOpt.cfg (plan rtOpt mImpl (optIndex 0)) () with | .value (.opt (some (.int 2))) _ => true | _ => false) = true := by decide +kernel

/-- A dynamic type takes anything: `dynamic + 1` with a string in it. -/
def declsDyn : Decls := { decls with vars := fun x => if x = "dynamic" then some Checker.dyn else decls.vars x }
def rtDyn : RCfg Unit := { rt with global := fun x h => if x = "dynamic" then (.ok ⟨.str "s", none⟩, h) else rt.global x h }
def dynSum : Ast Unit := call2 "_+_" (var "dynamic") (.const () (.int 1))

theorem dynSum_accepted : ((check declsDyn false none 20 dynSum).any fun te => same te.ann tInt && te.regularB same && !te.everyB (strictB false)) = true := by
  decide +kernel
theorem dynSum_fails : ¬ FineFinal false tInt (meaning rtDyn.cfg (plan rtDyn mImpl dynSum) ()) := typeErrorB_ok (by decide +kernel)

/-- A wrapper type is taken for the wrapped one, and is null when unset: `wrapped + 1`. -/
def declsWrap : Decls := { decls with vars := fun x => if x = "wrapped" then some (.b .intWrapper) else decls.vars x }
def rtWrap : RCfg Unit := { rt with global := fun x h => if x = "wrapped" then (.ok ⟨.null, none⟩, h) else rt.global x h }
def wrapSum : Ast Unit := call2 "_+_" (var "wrapped") (.const () (.int 1))

theorem wrapSum_accepted : ((check declsWrap false none 20 wrapSum).any fun te => same te.ann tInt && te.regularB same && !te.everyB (strictB false)) = true := by
  decide +kernel
theorem wrapSum_fails : ¬ FineFinal false tInt (meaning rtWrap.cfg (plan rtWrap mImpl wrapSum) ()) := typeErrorB_ok (by decide +kernel)

end Cel.Types.Examples
