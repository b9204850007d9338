import Verif.Growth.Props
import Verif.Data.EqualLemmas

/-!
# The check on CEL values, and what it misses
-/

set_option linter.unusedSimpArgs false
set_option linter.unusedVariables false

namespace Cel.Growth
open Cel Cel.Eval Cel.Data

mutual
/-- How much a value prints: one for every atom, byte and container. -/
def vsize : Value → Nat
  | .str s => 1 + s.length
  | .bytes b => 1 + b.length
  | .list l => 1 + lsize l
  | .map m => 1 + msize m
  | .opt (some v) => 1 + vsize v
  | _ => 1
def lsize : List Value → Nat
  | [] => 0
  | v :: l => vsize v + lsize l
def msize : List (Value × Value) → Nat
  | [] => 0
  | e :: m => psize e + msize m
def psize : Value × Value → Nat
  | (k, v) => vsize k + vsize v
end

theorem vsize_pos (v : Value) : 1 ≤ vsize v := by
  cases v <;> (try simp [vsize])
  rename_i o; cases o <;> simp [vsize]

theorem lsize_eq (l : List Value) : lsize l = (l.map vsize).sum := by
  induction l with
  | nil => rfl
  | cons v l ih => simp [lsize, ih]

theorem lsize_append (a b : List Value) : lsize (a ++ b) = lsize a + lsize b := by
  simp [lsize_eq]

theorem lsize_mem {l : List Value} {v : Value} (h : v ∈ l) : vsize v ≤ lsize l := by
  induction l with
  | nil => cases h
  | cons w l ih =>
    rw [lsize]
    rcases List.mem_cons.1 h with rfl | h
    · omega
    · have := ih h; omega

theorem lsize_length (l : List Value) : l.length ≤ lsize l := by
  induction l with
  | nil => simp
  | cons v l ih => rw [lsize]; have := vsize_pos v; simp; omega

theorem msize_mem {m : List (Value × Value)} {e : Value × Value} (h : e ∈ m) :
    vsize e.1 ≤ msize m ∧ vsize e.2 ≤ msize m := by
  induction m with
  | nil => cases h
  | cons w m ih =>
    rw [msize]
    rcases List.mem_cons.1 h with rfl | h
    · have : psize e = vsize e.1 + vsize e.2 := by cases e; rw [psize]
      omega
    · have := ih h; omega

theorem msize_length (m : List (Value × Value)) : m.length ≤ msize m := by
  induction m with
  | nil => simp
  | cons e m ih =>
    rw [msize]
    have : psize e = vsize e.1 + vsize e.2 := by cases e; rw [psize]
    have := vsize_pos e.1
    simp; omega

theorem msize_zip : ∀ (ks vs : List Value), msize (ks.zip vs) ≤ lsize ks + lsize vs
  | [], vs => by simp [msize]
  | k :: ks, [] => by simp [msize]
  | k :: ks, v :: vs => by
      have := msize_zip ks vs
      simp only [List.zip_cons_cons, msize, psize, lsize]; omega

def oops : Value := .error ⟨.invalidArgument, ""⟩

/-- `+` on lists, strings and ints (`runtime/standard/container_functions.cc` lines 45-82,
`runtime/standard/string_functions.cc`, `runtime/standard/arithmetic_functions.cc`). -/
def vAdd : List Value → Value
  | [.list a, .list b] => .list (a ++ b)
  | [.str a, .str b] => .str (a ++ b)
  | [.int a, .int b] => .int (a + b)
  | _ => oops

def vIndex : Value → Value → Value
  | .list l, .int i => (l[i.toNat]?).getD oops
  | .map m, k => (mapFind m k).getD oops
  | _, _ => oops

def vSelect : Value → String → Value
  | .map m, f => (mapFind m (.str f)).getD oops
  | _, _ => oops

/-- Index and element of a list, or only the element; key and value of a map, or only the key. -/
def vItems (two : Bool) : Value → Option (List (Value × Value))
  | .list l => some (l.zipIdx.map fun e => if two then (.int e.2, e.1) else (e.1, .null))
  | .map m => some (m.map fun e => if two then e else (e.1, .null))
  | _ => none

/-- Functions other than the operators: `string` of a string is the string; comparisons and the like are one atom. -/
def vFn (f : String) (_ : List Value) : List Value → Value
  | [.str s] => if f = "string" then .str s else oops
  | _ => .bool true

/-- CEL values.  The constant numbered `0` is `true`, the others are `0`, `1`, … -/
def cel : Dom Value where
  size := vsize
  c := 1
  const n := if n = 0 then .bool true else .int (n - 1)
  undef := .null
  add := vAdd
  index := vIndex
  dyn v := v
  select := vSelect
  has _ _ := .bool true
  list := .list
  struct t _ := .struct t 0
  map ks vs := .map (ks.zip vs)
  fn := vFn
  truth v := match v with | .bool b => some b | _ => none
  items := vItems
  noRange _ := oops
  noCond _ := oops
  flat f := f ≠ "string"
  undef_size := by simp [vsize]
  has_size := by simp [vsize]
  add_size := by
    intro vs
    unfold vAdd
    split
    · simp only [vsize, lsize_append, List.map_cons, List.map_nil, List.sum_cons, List.sum_nil]; omega
    · simp only [vsize, String.length_append, List.map_cons, List.map_nil, List.sum_cons, List.sum_nil]; omega
    · simp [vsize]
    · simp [oops, vsize]
  index_size := by
    intro v k
    unfold vIndex
    split
    · rename_i l i
      cases h : l[i.toNat]? with
      | none => simp [oops, vsize]
      | some w =>
        have := lsize_mem (List.mem_of_getElem? h)
        simp only [Option.getD_some, vsize]; omega
    · rename_i m
      cases h : mapFind m k with
      | none => simp [oops, vsize]
      | some w =>
        obtain ⟨e, he, rfl⟩ := mapFind_mem_snd h
        have := msize_mem he
        simp only [Option.getD_some, vsize]; omega
    · simp [oops, vsize]
  dyn_size := by intro v; omega
  select_size := by
    intro v f
    unfold vSelect
    split
    · rename_i m
      cases h : mapFind m (.str f) with
      | none => simp [oops, vsize]
      | some w =>
        obtain ⟨e, he, rfl⟩ := mapFind_mem_snd h
        have := msize_mem he
        simp only [Option.getD_some, vsize]; omega
    · simp [oops, vsize]
  list_size := by intro vs; simp only [vsize, lsize_eq]; omega
  struct_size := by intro t vs; simp [vsize]
  map_size := by
    intro ks vs
    have := msize_zip ks vs
    rw [lsize_eq, lsize_eq] at this
    simp only [vsize]; omega
  flat_size := by
    intro f hf t vs
    unfold vFn
    split
    · simp [hf, oops, vsize]
    · simp [vsize]
  fn_size := by
    intro f m b
    refine ⟨b + 1, ?_⟩
    intro t vs _ _ hv
    unfold vFn
    split
    · have := hv _ (List.mem_singleton.2 rfl)
      split
      · omega
      · simp [oops, vsize]
    · simp [vsize]
  items_size := by
    intro two v its h
    unfold vItems at h
    split at h
    · rename_i l
      cases h
      refine ⟨by simp only [vsize, List.length_map, List.length_zipIdx]; have := lsize_length l; omega, ?_⟩
      intro it hit
      obtain ⟨e, he, rfl⟩ := List.mem_map.1 hit
      have hm : e.1 ∈ l := by
        have := List.mem_zipIdx he
        rw [this.2.2]
        exact List.getElem_mem _
      have := lsize_mem hm
      have := vsize_pos e.1
      cases two <;> simp [vsize] <;> omega
    · rename_i m
      cases h
      refine ⟨by simp only [vsize, List.length_map]; have := msize_length m; omega, ?_⟩
      intro it hit
      obtain ⟨e, he, rfl⟩ := List.mem_map.1 hit
      have := msize_mem he
      have := vsize_pos e.1
      cases two <;> simp [vsize] <;> omega
    · cases h
  noRange_size := by intro v; simp [oops, vsize]
  noCond_size := by intro v; simp [oops, vsize]

/-- The documented examples are rejected: `accu + accu`, `[accu, accu]`, `{1: accu, 2: accu}`. -/
example : vulnerable "a" (.call kAdd .nil (two (.ident "a") (.ident "a"))) = true := rfl
example : vulnerable "a" (.list (two (.ident "a") (.ident "a"))) = true := rfl
example : vulnerable "a" (.map (two (.const 1) (.const 2)) (two (.ident "a") (.ident "a"))) = true := rfl

/-- `accu + [x, size(accu)]` meets the hypotheses of `C73_linear_growth_partial`. -/
def okStep : X := .call kAdd .nil (two (.ident "a")
  (.list (two (.ident "x") (.call "size" .nil (one (.ident "a"))))))
example : Counted cel "a" okStep ∧ vulnerable "a" okStep = false := by
  refine ⟨?_, rfl⟩
  simp [okStep, Counted, CountedCall, CountedAll, two, one, cel, kAdd, kIndex, kDyn, kTernary]

/-- The loop step `[1, 2].map(y, accu)`. -/
def nested : X :=
  .comp "y" "" "b" (.list (two (.const 1) (.const 2))) (.list .nil) (.const 0)
    (.call kAdd .nil (two (.ident "b") (.list (one (.ident "a"))))) (.ident "b")

theorem nested_value (ρ : String → Value) : eval cel nested ρ = .list [ρ "a", ρ "a"] := by
  simp [nested, eval, evals, evalCall, loop, cel, vItems, vAdd, two, one, bind, kAdd, kTernary]

/-- **C73 is false in general (1).** `[1, 2].map(y, accu)` passes the check, and doubles the accumulator in every
iteration: the check takes the maximum over a nested loop's parts where the loop repeats them. -/
theorem C73_nested_loop_escapes : passes nested = true ∧ vulnerable "a" nested = false ∧
    ∀ (ρ : String → Value) (its : List (Value × Value)) (v : Value),
      2 ^ its.length ≤ vsize (its.foldl (stepOf cel ρ "x" "" "a" nested) v) := by
  refine ⟨by decide, by decide, ?_⟩
  intro ρ its
  have hstep : ∀ v it, stepOf cel ρ "x" "" "a" nested v it = .list [v, v] := by
    intro v it
    unfold stepOf
    rw [nested_value]
    simp [bind]
  have key : ∀ (its : List (Value × Value)) (v : Value),
      2 ^ its.length * vsize v ≤ vsize (its.foldl (stepOf cel ρ "x" "" "a" nested) v) := by
    intro its
    induction its with
    | nil => intro v; simp
    | cons it its ih =>
      intro v
      rw [List.foldl_cons, hstep]
      refine le_trans ?_ (ih _)
      simp only [List.length_cons, vsize, lsize, Nat.pow_succ]
      rw [Nat.mul_assoc]
      exact Nat.mul_le_mul_left _ (by omega)
  intro v
  exact le_trans (Nat.le_mul_of_pos_right _ (vsize_pos v)) (key its v)

/-- The loop step `accu + string(accu)`. -/
def viaFunction : X := .call kAdd .nil (two (.ident "a") (.call "string" .nil (one (.ident "a"))))

/-- **C73 is false in general (2).** `accu + string(accu)` passes the check and doubles a string in every iteration:
arguments of functions are not counted. -/
theorem C73_function_escapes : passes viaFunction = true ∧ vulnerable "a" viaFunction = false ∧
    ∀ (ρ : String → Value) (its : List (Value × Value)) (s : String), ∃ s' : String,
      its.foldl (stepOf cel ρ "x" "" "a" viaFunction) (.str s) = .str s' ∧ s'.length = 2 ^ its.length * s.length := by
  refine ⟨by decide, by decide, ?_⟩
  intro ρ its
  induction its with
  | nil => intro s; exact ⟨s, rfl, by simp⟩
  | cons it its ih =>
    intro s
    have hstep : stepOf cel ρ "x" "" "a" viaFunction (.str s) it = .str (s ++ s) := by
      simp [stepOf, viaFunction, eval, evals, evalCall, two, one, bind, cel, vAdd, vFn, kAdd, kTernary, kIndex, kDyn]
    obtain ⟨s', h1, h2⟩ := ih (s ++ s)
    refine ⟨s', by rw [List.foldl_cons, hstep, h1], ?_⟩
    rw [h2, String.length_append, List.length_cons, Nat.pow_succ]
    ring

/-- The loop step `{accu: 0}.map(k, k)[0] + accu`. -/
def viaKey : X :=
  .call kAdd .nil (two
    (.call kIndex .nil (two
      (.comp "k" "" "b" (.map (one (.ident "a")) (one (.const 0))) (.list .nil) (.const 0)
        (.call kAdd .nil (two (.ident "b") (.list (one (.ident "k"))))) (.ident "b"))
      (.const 1)))
    (.ident "a"))

/-- **C73 is false in general (3).** Keys of a map are not counted. -/
theorem C73_key_escapes : passes viaKey = true ∧ vulnerable "a" viaKey = false ∧
    ∀ (ρ : String → Value) (its : List (Value × Value)) (s : String), ∃ s' : String,
      its.foldl (stepOf cel ρ "x" "" "a" viaKey) (.str s) = .str s' ∧ s'.length = 2 ^ its.length * s.length := by
  refine ⟨by decide, by decide, ?_⟩
  intro ρ its
  induction its with
  | nil => intro s; exact ⟨s, rfl, by simp⟩
  | cons it its ih =>
    intro s
    have hstep : stepOf cel ρ "x" "" "a" viaKey (.str s) it = .str (s ++ s) := by
      simp [stepOf, viaKey, eval, evals, evalCall, loop, two, one, bind, cel, vAdd, vIndex, vItems, kAdd, kTernary, kIndex, kDyn]
    obtain ⟨s', h1, h2⟩ := ih (s ++ s)
    refine ⟨s', by rw [List.foldl_cons, hstep, h1], ?_⟩
    rw [h2, String.length_append, List.length_cons, Nat.pow_succ]
    ring

/-- A harmless loop step: a nested loop whose second variable has the accumulator's name. -/
def shadowed : X :=
  .comp "i" "a" "b" (.list (one (.const 1))) (.const 0) (.const 0) (.list (two (.ident "a") (.ident "a"))) (.ident "b")

/-- **C73 is false in general (4).** The check looks only at the first loop variable for shadowing, so a step whose
value does not depend on the accumulator at all is rejected. -/
theorem C73_second_variable_ignored : vulnerable "a" shadowed = true ∧ ¬ free "a" shadowed := by
  refine ⟨by decide, ?_⟩
  simp [shadowed, free, frees, two, one]

end Cel.Growth
