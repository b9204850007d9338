import Verif.Macro.InPlaceProps
import Verif.Macro.MacroProps

/-!
# C72: where the optimisation is observable, and examples for C71 and C72
-/

set_option linter.unusedSimpArgs false
set_option linter.unusedVariables false

namespace Cel.Macro
open Cel Cel.Num Cel.Eval Cel.Data

variable {σ : Type} {cfg : Cfg σ} {h : σ}

/-- A runtime value stands for at most one ordinary value. -/
theorem Denotes.unique {H : Heap} {x : HV} {v : Value} (hv : Denotes H x v) : ∀ {w}, Denotes H x w → v = w := by
  induction hv with
  | val => intro w hw; cases hw; rfl
  | @list n xs vs hn hl _ ih =>
    intro w hw
    cases hw with
    | @list _ xs' ws hn' hl' hw' =>
      have hxs : xs' = xs := by rw [hn] at hn'; cases hn'; rfl
      subst hxs
      congr 1
      apply List.ext_getElem?
      intro i
      by_cases hi : i < vs.length
      · have h1 : vs[i]? = some vs[i] := List.getElem?_eq_getElem hi
        have h2 : ws[i]? = some (ws[i]'(by omega)) := List.getElem?_eq_getElem (by omega)
        have h3 : xs'[i]? = some (xs'[i]'(by omega)) := List.getElem?_eq_getElem (by omega)
        rw [h1, h2, ih i _ _ h3 h1 (hw' i _ _ h3 h2)]
      · rw [List.getElem?_eq_none (by omega), List.getElem?_eq_none (by omega)]
    | map hn' => rw [hn] at hn'; cases hn'
  | @map n es m hn hl hk _ ih =>
    intro w hw
    cases hw with
    | list hn' => rw [hn] at hn'; cases hn'
    | @map _ es' m' hn' hl' hk' hw' =>
      have hes : es' = es := by rw [hn] at hn'; cases hn'; rfl
      subst hes
      congr 1
      apply List.ext_getElem?
      intro i
      by_cases hi : i < m.length
      · have h1 : m[i]? = some m[i] := List.getElem?_eq_getElem hi
        have h2 : m'[i]? = some (m'[i]'(by omega)) := List.getElem?_eq_getElem (by omega)
        have h3 : es'[i]? = some (es'[i]'(by omega)) := List.getElem?_eq_getElem (by omega)
        rw [h1, h2]
        congr 1
        refine Prod.ext ?_ ?_
        · rw [← hk i _ _ h3 h1, hk' i _ _ h3 h2]
        · exact ih i _ _ h3 h1 (hw' i _ _ h3 h2)
      · rw [List.getElem?_eq_none (by omega), List.getElem?_eq_none (by omega)]

theorem Yields.unique {r : Res (HVA × Heap)} {v w : Value} (hv : Yields r v) (hw : Yields r w) : v = w := by
  obtain ⟨a, H, h1, h2⟩ := hv
  obtain ⟨a', H', h1', h2'⟩ := hw
  rw [h1] at h1'
  cases h1'
  exact h2.unique h2'

/-! ## Without short-circuiting the predicate is ignored -/

/-- **C72 (negative result).** With `short_circuiting` off, `filter` and `map(x, p, e)` append for every
element, whatever the predicate says. -/
theorem C72_exhaustive_ignores_predicate (c : StepCfg) (P G : Item → VA) (l : List Item)
    (hP : ∀ it ∈ l, ∃ b, (P it).v = .bool b) (hG : ∀ it ∈ l, PlainOperand c (G it)) :
    Yields (map3InPlace c false P (fun it _ => lift (G it)) l) (.list (l.map fun it => (G it).v)) := by
  obtain ⟨a, H, h1, h2⟩ := loop_sim (R := fun a H b => LRel c a H b ∧ b.v.isError = false)
    (step := fun it a H => condInPlace false c.unknowns (P it) (fun a H => listAppend c H a (lift (G it))) a H)
    (pstep := fun b it => ⟨(appendVA c false () b (G it)).v, none⟩) l
    (fun it hit a H b hab => by
      obtain ⟨hab, hne⟩ := hab
      obtain ⟨bv, hbv⟩ := hP it hit
      rcases hab with ⟨vs, rfl, rfl, rfl⟩ | ⟨e, t, rfl, rfl, -⟩
      · obtain ⟨a', H', h3, h4⟩ := append_sim (h := ()) c false (Or.inl ⟨vs, rfl, rfl, rfl⟩ : LRel c _ _ _)
          (plainOperand_quiet (hG it hit))
        rw [append_list c false vs _ (hG it hit)] at h4 ⊢
        rcases h4 with ⟨ws, rfl, rfl, hw⟩ | ⟨e, t, _, hw, _⟩
        · cases hw
          refine ⟨⟨.ref 0, none⟩, _, ?_, Or.inl ⟨_, rfl, rfl, rfl⟩, rfl⟩
          unfold condInPlace
          simp only [Bool.false_eq_true, if_false, h3, hbv]
          cases bv <;> rfl
        · cases hw
      · simp [Value.isError] at hne) _ _ _ ⟨lrel_init c, rfl⟩
  have key : ∀ (l : List Item), (∀ it ∈ l, PlainOperand c (G it)) → ∀ vs, 
      l.foldl (fun b it => (⟨(appendVA c false () b (G it)).v, none⟩ : VA)) ⟨.list vs, none⟩ =
        ⟨.list (vs ++ l.map fun it => (G it).v), none⟩ := by
    intro l
    induction l with
    | nil => intro _ vs; simp
    | cons it l ih =>
      intro hG vs
      rw [List.foldl_cons, append_list c false vs _ (hG it List.mem_cons_self),
        ih (fun i hi => hG i (List.mem_cons_of_mem _ hi))]
      simp
  rw [key l hG []] at h2
  exact ⟨a, H, h1, by simpa using lrel_denotes h2.1⟩

/-- The elements of `[1, 2, 1]` and the predicate `x == 1`, evaluated exhaustively. -/
def lazyCfg : Cfg Unit := { demoCfg with shortCircuit := false }
def demoItems : List Item := listItems 0 [.int 1, .int 2, .int 1]
def demoP (it : Item) : VA := valueAt lazyCfg () "x" none none [] demoPred it
def demoX (it : Item) : VA := valueAt lazyCfg () "x" none none [] (.ident "x" false) it

/-- **C72 (negative result, instance).** `[1, 2, 1].filter(x, x == 1)` is `[1, 1]`, but `[1, 2, 1]` when the list
is built in place and short-circuiting is off. -/
theorem C72_exhaustive_filter_wrong :
    pden lazyCfg () (filterMacro sampleCfg false "@result" "x" (.const (.list [.int 1, .int 2, .int 1])) demoPred) [] =
      ⟨.list [.int 1, .int 1], none⟩ ∧
    Yields (map3InPlace sampleCfg false demoP (fun it _ => lift (demoX it)) demoItems) (.list [.int 1, .int 2, .int 1]) ∧
    ¬ Yields (map3InPlace sampleCfg false demoP (fun it _ => lift (demoX it)) demoItems) (.list [.int 1, .int 1]) := by
  have h2 : Yields (map3InPlace sampleCfg false demoP (fun it _ => lift (demoX it)) demoItems)
      (.list [.int 1, .int 2, .int 1]) := by
    refine C72_exhaustive_ignores_predicate sampleCfg demoP demoX demoItems ?_ ?_
    · intro it hi
      simp only [demoItems, listItems, List.mem_cons, List.not_mem_nil, or_false] at hi
      rcases hi with rfl | rfl | rfl
      · exact ⟨true, by rfl⟩
      · exact ⟨false, by rfl⟩
      · exact ⟨true, by rfl⟩
    · intro it hi
      simp only [demoItems, listItems, List.mem_cons, List.not_mem_nil, or_false] at hi
      rcases hi with rfl | rfl | rfl <;> exact ⟨⟨rfl, rfl⟩, fun hu => by cases hu⟩
  refine ⟨by rfl, h2, fun h3 => ?_⟩
  have := h2.unique h3
  simp at this

/-! ## An error under a partially unknown attribute -/

/-- `vars[0].f.g` is unknown. -/
def hazyCfg : StepCfg := { sampleCfg with
  unknowns := true, pats := [⟨"vars", [some (.int 0), some (.str "f"), some (.str "g")]⟩] }

/-- `x.f` where `x` is `vars[0]`, an empty map. -/
def hazyValue : Res VA := selectStep hazyCfg "f" false [⟨.map [], some ⟨"vars", [.int 0]⟩⟩]

/-- **C72 (negative result).** When the transform is an error and its attribute is partially unknown, the
literal `[e]` is that error, but the in-place append reports the attribute as unknown. -/
theorem C72_partial_unknown_differs : ∃ x s, hazyValue = .ok x ∧ x.v = .error s ∧
    appendVA hazyCfg false () ⟨.list [], none⟩ x = ⟨.error s, none⟩ ∧
    ∃ u, listAppend hazyCfg [.list []] ⟨.ref 0, none⟩ (lift x) = .ok (⟨.val (.unknown u), none⟩, [.list []]) := by
  refine ⟨_, _, rfl, rfl, ?_, _, rfl⟩
  exact append_list_error hazyCfg false [] _ _ rfl

/-! ## Referring to the accumulator -/

/-- **C72 (negative result).** With hidden accumulator names off a user can write the accumulator's name,
as in `[1, 2].map(x, __result__)`.  The unoptimised program computes `[[], [[]]]`; the program that appends
in place builds a list that contains itself, and stands for no value. -/
theorem C72_accumulator_alias :
    pden demoCfg () (map2Macro sampleCfg false "__result__" "x" none (.const (.list [.int 1, .int 2]))
      (.ident "__result__" false)) [] = ⟨.list [.list [], .list [.list []]], none⟩ ∧
    (∃ H, mapInPlace sampleCfg (fun _ a => a) (listItems 0 [.int 1, .int 2]) = .ok (⟨.ref 0, none⟩, H) ∧
      H[0]? = some (.list [.ref 0, .ref 0])) ∧
    ¬ ∃ v, Yields (mapInPlace sampleCfg (fun _ a => a) (listItems 0 [.int 1, .int 2])) v := by
  have h2 : mapInPlace sampleCfg (fun _ a => a) (listItems 0 [.int 1, .int 2]) =
      .ok (⟨.ref 0, none⟩, [.list [.ref 0, .ref 0]]) := by rfl
  refine ⟨by rfl, ⟨_, h2, rfl⟩, ?_⟩
  rintro ⟨v, a, H, h3, h4⟩
  rw [h2] at h3
  cases h3
  have : ∀ (x : HV) (v : Value), Denotes [.list [.ref 0, .ref 0]] x v → x ≠ .ref 0 := by
    intro x v hv
    induction hv with
    | val => simp
    | @list n xs vs hn hl _ ih =>
      intro hx
      cases hx
      simp only [List.getElem?_cons_zero, Option.some.injEq, Obj.list.injEq] at hn
      subst hn
      have hvs : 0 < vs.length := by simp at hl; omega
      exact ih 0 (.ref 0) vs[0] rfl (List.getElem?_eq_getElem hvs) rfl
    | @map n es m hn =>
      intro hx
      cases hx
      simp at hn
  exact this _ _ h4 rfl

/-! ## Examples -/

/-- `{"a": 1, "b": 2}.transformMap(k, v, v == 1)` and `[1, 2, 1].transformMap(i, v, v == 1, i)`. -/
example :
    pden demoCfg () (transformMap3 sampleCfg false false "@result" "k" "v"
      (.const (.map [(.str "a", .int 1), (.str "b", .int 2)])) (.op (eqOp sampleCfg) (args2 (.ident "v" false) (.const (.int 1))))) [] =
      ⟨.map [(.str "a", .bool true), (.str "b", .bool false)], none⟩ ∧
    pden demoCfg () (transformMap4 sampleCfg false true "@result" "i" "v"
      (.const (.list [.int 1, .int 2, .int 1])) (.op (eqOp sampleCfg) (args2 (.ident "v" false) (.const (.int 1))))
      (.ident "i" false)) [] = ⟨.map [(.int 0, .int 0), (.int 2, .int 2)], none⟩ := ⟨by rfl, by rfl⟩

/-- `["x", "y", "x"].transformMapEntry(i, v, {v: i})` is an error: "x" occurs twice. -/
example :
    pden demoCfg () (transformEntry3 sampleCfg false false "@result" "i" "v"
      (.const (.list [.str "x", .str "y", .str "x"]))
      (.op (mapOp sampleCfg) (args2 (.ident "v" false) (.ident "i" false)))) [] =
      ⟨.error ⟨.alreadyExists, "duplicate key in map"⟩, none⟩ := by rfl

/-- The hypotheses of the transformMap theorems hold of a non-trivial case. -/
example : ∃ v, pden demoCfg () (transformMap3 sampleCfg false true "@result" "i" "v"
      (.const (.list [.int 5, .int 6])) (.ident "v" false)) [] = ⟨v, none⟩ ∧
    Collects (entriesOf demoCfg () "i" "v" none [] (.ident "v" false) (listItems 0 [.int 5, .int 6])) v := by
  refine C71_transform_map sampleCfg false true "@result" "i" "v" (.const (.list [.int 5, .int 6])) (.ident "v" false) []
    ⟨by decide, by simp, by simp [Free]⟩ (listItems 0 [.int 5, .int 6]) rfl ?_ ?_
  · intro it hi
    simp only [listItems, List.mem_cons, List.not_mem_nil, or_false] at hi
    rcases hi with rfl | rfl <;> exact ⟨⟨rfl, rfl⟩, fun hu => by cases hu⟩
  · intro it hi
    simp only [listItems, List.mem_cons, List.not_mem_nil, or_false] at hi
    rcases hi with rfl | rfl <;> exact ⟨⟨rfl, rfl⟩, fun hu => by cases hu⟩

/-- ... and those of the in-place theorems, with an error among the elements. -/
example : Yields (mapInPlace sampleCfg (fun it _ => lift (valueAt demoCfg () "x" none none [] demoPred it)) demoItems)
    (.list [.bool true, .bool false, .bool true]) := by
  have := C72_list_append_partial (cfg := demoCfg) (h := ()) sampleCfg false "@result" "x" none
    (.const (.list [.int 1, .int 2, .int 1])) demoPred [] demo_hygienic demoItems rfl (by
      intro it hi
      simp only [demoItems, listItems, List.mem_cons, List.not_mem_nil, or_false] at hi
      rcases hi with rfl | rfl | rfl <;> exact ⟨rfl, fun hu => by cases hu⟩)
  exact this

end Cel.Macro
