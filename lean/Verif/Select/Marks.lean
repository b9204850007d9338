import Verif.Select.Model
import Verif.Eval.AttributeProps

/-!
# Unknown and missing attributes along a chain of selects

`extensions/select_optimization.cc` (`CheckForMarkedAttributes`, `GetAttributeTrail`, the two
`Evaluate`), next to the checks of `eval/eval/select_step.cc` and `eval/eval/container_access_step.cc`.
Patterns, trails and their matching are those of `Verif/Eval/Attribute.lean` (C31).
-/

set_option linter.unusedSimpArgs false
set_option linter.unusedVariables false

namespace Cel.Select
open Cel
open Cel.Eval (Qual Attr Pattern Trail checkUnknown checkMissing match_against_iff matchAgainst pattern_full_extends)

/-- What the activation marks, and which of the two is enabled. -/
structure Marks where
  unknown : List Pattern
  missing : List Pattern
  unk : Bool
  mis : Bool

/-- The value of a step: `unknown` with the attribute of the set it makes, `missing` with that of the
error. -/
inductive MV where
  | val (v : Val)
  | unknown (a : Attr)
  | missing (a : Attr)

/-- A step of the chain: a select or an index by a constant. -/
inductive PStep where
  | sel (f : String) (test : Bool)
  | idx (k : Const)

/-- `AttributeQualifierFromValue` (`eval/eval/container_access_step.cc` lines 76-90). -/
def constQual : Const → Qual
  | .int i => .int i
  | .uint i => .uint i
  | .bool b => .bool b
  | .str s => .str s
  | .dbl _ _ => .invalid 0

def PStep.qual : PStep → Qual
  | .sel f _ => .str f
  | .idx k => constQual k

/-- `CheckForMarkedAttributes` (`eval/eval/select_step.cc` lines 53-76; the same in
`extensions/select_optimization.cc` lines 600-628). -/
def marked (M : Marks) (t : Trail) : Option MV :=
  match t with
  | none => none
  | some a =>
    if M.unk = true ∧ checkUnknown M.unknown (some a) false = true then some (.unknown a)
    else if M.mis = true ∧ checkMissing M.missing (some a) = true then some (.missing a)
    else none

def isTarget : Val → Bool
  | .map _ _ => true
  | .msg _ => true
  | _ => false

/-- `SelectStep::Evaluate` (`eval/eval/select_step.cc` lines 139-235) and, when `direct`,
`DirectSelectStep::Evaluate` (lines 321-384), with the trail. -/
def markSelect (L : Lib) (N : Env) (M : Marks) (direct : Bool) (x : MV) (t : Trail) (f : String)
    (test : Bool) : MV × Trail :=
  match x with
  | .unknown a => (.unknown a, t)
  | .missing a => (.missing a, t)
  | .val v =>
    if isError v then (.val v, t)
    else
      let t' := if M.unk || M.mis then Eval.Trail.step t (.str f) else none
      if direct = false ∧ isTarget v = false then (.val (.error selectTarget), t')
      else
        match marked M t' with
        | some y => (y, t')
        | none => (.val (selectStep L N.unsetNull v f test), if test && !direct then none else t')

/-- `PerformLookup` (`eval/eval/container_access_step.cc` lines 221-268): the check comes before the
error of the container, and missing attributes are not checked. -/
def markIndex (N : Env) (M : Marks) (x : MV) (t : Trail) (k : Const) : MV × Trail :=
  let look (t' : Trail) : MV × Trail :=
    match x with
    | .val v => (.val (indexStep N.het v k), t')
    | x => (x, t')
  if M.unk then
    match x with
    | .unknown a => (.unknown a, none)
    | _ =>
      match Eval.Trail.step t (constQual k) with
      | none => look none
      | some a =>
        if checkUnknown M.unknown (some a) false then (.unknown a, some a) else look (some a)
  else look none

def markStep (L : Lib) (N : Env) (M : Marks) (direct : Bool) (s : MV × Trail) : PStep → MV × Trail
  | .sel f test => markSelect L N M direct s.1 s.2 f test
  | .idx k => markIndex N M s.1 s.2 k

/-- The plain evaluation of a chain. -/
def markChain (L : Lib) (N : Env) (M : Marks) (direct : Bool) : MV × Trail → List PStep → MV × Trail
  | s, [] => s
  | s, p :: l => markChain L N M direct (markStep L N M direct s p) l

/-- The step without marks. -/
def valStep (L : Lib) (N : Env) (v : Val) : PStep → Val
  | .sel f test => selectStep L N.unsetNull v f test
  | .idx k => indexStep N.het v k

def valChain (L : Lib) (N : Env) : Val → List PStep → Val
  | v, [] => v
  | v, p :: l => valChain L N (valStep L N v p) l

/-- The optimized step (`extensions/select_optimization.cc` lines 697-742, 766-794) as far as its
result does not come from the operand: `none` when it goes on to `attributeStep`.  The qualifiers are those
of the steps, except that a double index became an integer. -/
def optMarked (M : Marks) (x : MV) (t : Trail) (qs : List Qual) : Option MV :=
  match x with
  | .unknown a => some (.unknown a)
  | .missing a => some (.missing a)
  | .val v =>
    if isError v then some (.val v)
    else if M.unk || M.mis then
      match t with
      | none => none
      | some a => marked M (some ⟨a.var, a.path ++ qs⟩)
    else none

/-! ## Theorems -/

def ext (a : Attr) (qs : List Qual) : Attr := ⟨a.var, a.path ++ qs⟩

/-- Nothing goes wrong before the last step: what is selected from is a message or a map, what is
indexed is no error. -/
def Reach (L : Lib) (N : Env) : Val → List PStep → Prop
  | _, [] => True
  | v, .sel f test :: l => isTarget v = true ∧ Reach L N (valStep L N v (.sel f test)) l
  | v, .idx k :: l => isError v = false ∧ Reach L N (valStep L N v (.idx k)) l

/-- A presence test is only the last step. -/
def TestLast : List PStep → Prop
  | [] => True
  | [_] => True
  | .sel _ test :: l => test = false ∧ TestLast l
  | .idx _ :: l => TestLast l

def Unk (M : Marks) (a : Attr) : Prop := ∃ p ∈ M.unknown, p.isMatch a = .full

theorem checkUnknown_iff (ps : List Pattern) (a : Attr) :
    checkUnknown ps (some a) false = true ↔ ∃ p ∈ ps, p.isMatch a = .full := by
  rw [← (match_against_iff ps a).1]
  simp only [checkUnknown]
  cases matchAgainst ps a <;> simp

theorem Unk.ext {M : Marks} {a : Attr} (h : Unk M a) (qs : List Qual) : Unk M (ext a qs) := by
  obtain ⟨p, hp, hm⟩ := h
  exact ⟨p, hp, pattern_full_extends p a qs hm⟩

theorem ext_nil (a : Attr) : ext a [] = a := by simp [ext]
theorem ext_cons (a : Attr) (q : Qual) (qs : List Qual) : ext (ext a [q]) qs = ext a (q :: qs) := by
  simp [ext]

theorem isTarget_noError {v : Val} (h : isTarget v = true) : isError v = false := by
  cases v <;> simp_all [isTarget, isError]

theorem chain_unknown (L : Lib) (N : Env) (M : Marks) (direct : Bool) (a : Attr) (t : Trail) :
    ∀ l, (markChain L N M direct (.unknown a, t) l).1 = .unknown a := by
  intro l
  induction l generalizing t with
  | nil => rfl
  | cons p l ih =>
    rw [markChain]
    cases p with
    | sel f test => exact ih t
    | idx k =>
      simp only [markStep, markIndex]
      cases hu : M.unk with
      | true => exact ih none
      | false => exact ih none

/-- One step when only unknown attributes are enabled. -/
theorem step_unknown {L : Lib} {N : Env} {M : Marks} (hu : M.unk = true) (hm : M.mis = false)
    (direct : Bool) (v : Val) (a : Attr) (p : PStep)
    (hr : Reach L N v [p]) :
    (Unk M (ext a [p.qual]) → markStep L N M direct (.val v, some a) p = (.unknown (ext a [p.qual]), some (ext a [p.qual]))) ∧
    (¬ Unk M (ext a [p.qual]) → ∃ t, markStep L N M direct (.val v, some a) p = (.val (valStep L N v p), t) ∧
      ((∀ f, p ≠ .sel f true) → t = some (ext a [p.qual]))) := by
  have hc := checkUnknown_iff M.unknown (ext a [p.qual])
  cases p with
  | sel f test =>
    have ht : isTarget v = true := hr.1
    have he := isTarget_noError ht
    have hstep : Eval.Trail.step (some a) (.str f) = some (ext a [.str f]) := rfl
    simp only [PStep.qual] at hc ⊢
    refine ⟨fun h => ?_, fun h => ?_⟩
    · have h' := hc.2 h
      simp only [markStep, markSelect, he, Bool.false_eq_true, Bool.true_or, if_false, hstep, ht, marked, hu, h',
        Bool.true_eq_false, and_false, and_self, if_true]
    · have h' : checkUnknown M.unknown (some (ext a [.str f])) false = false := by
        rw [Bool.eq_false_iff]; exact fun hh => h (hc.1 hh)
      refine ⟨if test && !direct then none else some (ext a [.str f]), ?_, ?_⟩
      · simp only [markStep, markSelect, he, Bool.false_eq_true, Bool.true_or, if_false, hstep, ht, marked, hu, h', hm,
          Bool.true_eq_false, and_false, false_and, valStep, if_true]
      · intro hf
        cases test with
        | true => exact absurd rfl (hf f)
        | false => rfl
  | idx k =>
    simp only [PStep.qual] at hc ⊢
    refine ⟨fun h => ?_, fun h => ?_⟩
    · have h' := hc.2 h
      have h'' : checkUnknown M.unknown (some ⟨a.var, a.path ++ [constQual k]⟩) false = true := h'
      simp only [markStep, markIndex, hu, if_true, Eval.Trail.step, h'', ext]
    · have h' : checkUnknown M.unknown (some ⟨a.var, a.path ++ [constQual k]⟩) false = false := by
        rw [Bool.eq_false_iff]; exact fun hh => h (hc.1 hh)
      refine ⟨some (ext a [constQual k]), ?_, fun _ => rfl⟩
      simp only [markStep, markIndex, hu, if_true, Eval.Trail.step, h', ext, Bool.false_eq_true, if_false, valStep]

/-- The plain evaluation reports the first attribute of the chain that is marked. -/
theorem plain_unknown {L : Lib} {N : Env} {M : Marks} (hu : M.unk = true) (hm : M.mis = false)
    (direct : Bool) : ∀ (l : List PStep) (v : Val) (a : Attr), Reach L N v l → TestLast l → ¬ Unk M a →
    (Unk M (ext a (l.map PStep.qual)) → ∃ n, 0 < n ∧ n ≤ l.length ∧
      (markChain L N M direct (.val v, some a) l).1 = .unknown (ext a ((l.take n).map PStep.qual)) ∧
      Unk M (ext a ((l.take n).map PStep.qual)) ∧
      ∀ k, k < n → ¬ Unk M (ext a ((l.take k).map PStep.qual))) ∧
    (¬ Unk M (ext a (l.map PStep.qual)) →
      (markChain L N M direct (.val v, some a) l).1 = .val (valChain L N v l)) := by
  intro l
  induction l with
  | nil =>
    intro v a _ _ ha
    refine ⟨fun h => absurd (by simpa [ext] using h) ha, fun _ => rfl⟩
  | cons p l ih =>
    intro v a hr ht ha
    have hr1 : Reach L N v [p] := by cases p <;> exact ⟨hr.1, trivial⟩
    have hr2 : Reach L N (valStep L N v p) l := by cases p <;> exact hr.2
    obtain ⟨s1, s2⟩ := step_unknown hu hm direct v a p hr1
    by_cases h1 : Unk M (ext a [p.qual])
    · refine ⟨fun _ => ⟨1, by omega, by simp, ?_, by simpa using h1, ?_⟩, fun h => ?_⟩
      · rw [markChain, s1 h1, chain_unknown]; rfl
      · intro k hk
        have : k = 0 := by omega
        subst this
        simpa [ext] using ha
      · exfalso; apply h
        rw [List.map_cons, ← ext_cons]
        exact h1.ext _
    · obtain ⟨t, h2, h3⟩ := s2 h1
      rw [markChain, h2]
      cases l with
      | nil => exact ⟨fun h => absurd (by simpa using h) h1, fun _ => rfl⟩
      | cons p' l' =>
        have hnt : ∀ f, p ≠ .sel f true := by
          intro f hf
          subst hf
          simp [TestLast] at ht
        have ht' : TestLast (p' :: l') := by
          cases p with
          | sel f test => exact ht.2
          | idx k => exact ht
        rw [h3 hnt]
        obtain ⟨i1, i2⟩ := ih (valStep L N v p) (ext a [p.qual]) hr2 ht' h1
        rw [List.map_cons, ← ext_cons]
        refine ⟨fun h => ?_, fun h => i2 h⟩
        obtain ⟨n, n1, n2, n3, n4, n5⟩ := i1 h
        refine ⟨n + 1, by omega, by simp at n2 ⊢; omega, ?_, ?_, ?_⟩
        · simp only [n3, List.take_succ_cons, List.map_cons, ext_cons]
        · rw [List.take_succ_cons, List.map_cons, ← ext_cons]; exact n4
        · intro k hk
          cases k with
          | zero => simpa [ext] using ha
          | succ k =>
            rw [List.take_succ_cons, List.map_cons, ← ext_cons]
            exact n5 k (by omega)

/-- **C81.**  With unknown attributes enabled, a chain on a message is unknown when optimized exactly
when the plain chain is, provided nothing goes wrong on the way; the plain evaluation reports the shortest
attribute of the chain that is marked, and the optimized one the attribute of the whole chain, which extends
it.  Otherwise neither evaluation is affected by the marks. -/
theorem unknown_agrees_partial (L : Lib) (N : Env) (M : Marks) (hu : M.unk = true) (hm : M.mis = false)
    (direct : Bool) (l : List PStep) (v : Val) (a : Attr) (hv : isError v = false)
    (hr : Reach L N v l) (ht : TestLast l) (ha : ¬ Unk M a) :
    (∃ n, 0 < n ∧ n ≤ l.length ∧
        (∀ k, k < n → ¬ Unk M (ext a ((l.take k).map PStep.qual))) ∧
        (markChain L N M direct (.val v, some a) l).1 = .unknown (ext a ((l.take n).map PStep.qual)) ∧
        optMarked M (.val v) (some a) (l.map PStep.qual) = some (.unknown (ext a (l.map PStep.qual)))) ∨
    ((markChain L N M direct (.val v, some a) l).1 = .val (valChain L N v l) ∧
        optMarked M (.val v) (some a) (l.map PStep.qual) = none) := by
  obtain ⟨p1, p2⟩ := plain_unknown hu hm direct l v a hr ht ha
  have hc := checkUnknown_iff M.unknown (ext a (l.map PStep.qual))
  have ho : optMarked M (.val v) (some a) (l.map PStep.qual) =
      marked M (some (ext a (l.map PStep.qual))) := by
    simp only [optMarked, hv, Bool.false_eq_true, if_false, hu, Bool.true_or, if_true, ext]
  rw [ho]
  by_cases h : Unk M (ext a (l.map PStep.qual))
  · obtain ⟨n, n1, n2, n3, n4, n5⟩ := p1 h
    refine .inl ⟨n, n1, n2, n5, n3, ?_⟩
    simp only [marked, hu, hc.2 h, and_self, if_true]
  · refine .inr ⟨p2 h, ?_⟩
    have h' : checkUnknown M.unknown (some (ext a (l.map PStep.qual))) false = false := by
      rw [Bool.eq_false_iff]; exact fun hh => h (hc.1 hh)
    simp only [marked, hu, h', hm, Bool.false_eq_true, and_false, false_and, if_false]

/-! ## When something goes wrong on the way -/

def isFail : MV → Bool
  | .val v => isError v
  | .unknown _ => true
  | .missing _ => true

theorem step_fail {L : Lib} {N : Env} {M : Marks} {direct : Bool} {x : MV} {t : Trail} (p : PStep)
    (h : isFail x = true) : isFail (markStep L N M direct (x, t) p).1 = true := by
  cases p with
  | sel f test =>
    cases x with
    | val v => simp only [isFail] at h; simp [markStep, markSelect, h, isFail]
    | unknown a => rfl
    | missing a => rfl
  | idx k =>
    simp only [markStep, markIndex]
    cases x with
    | val v =>
      simp only [isFail] at h
      have hx : isError (indexStep N.het v k) = true := by cases v <;> simp_all [isError, indexStep]
      cases hu : M.unk with
      | false => exact hx
      | true =>
        cases hs : Eval.Trail.step t (constQual k) with
        | none => exact hx
        | some a =>
          simp only [if_true]
          cases checkUnknown M.unknown (some a) false with
          | false => exact hx
          | true => rfl
    | unknown a => cases M.unk <;> rfl
    | missing a =>
      cases hu : M.unk with
      | false => rfl
      | true =>
        cases hs : Eval.Trail.step t (constQual k) with
        | none => rfl
        | some a =>
          simp only [if_true]
          cases checkUnknown M.unknown (some a) false <;> rfl

theorem chain_fail {L : Lib} {N : Env} {M : Marks} {direct : Bool} (l : List PStep) :
    ∀ (x : MV) (t : Trail), isFail x = true → isFail (markChain L N M direct (x, t) l).1 = true := by
  induction l with
  | nil => exact fun _ _ h => h
  | cons p l ih =>
    intro x t h
    rw [markChain]
    have := step_fail (L := L) (N := N) (M := M) (direct := direct) (t := t) p h
    exact ih _ _ this

/-- **C81.**  Whatever happens on the way: when the optimized step is unknown, the plain chain does not
yield a value either; it is unknown or an error. -/
theorem unknown_never_hides_value (L : Lib) (N : Env) (M : Marks) (hu : M.unk = true) (direct : Bool) :
    ∀ (l : List PStep) (v : Val) (a b : Attr), TestLast l → ¬ Unk M a →
    optMarked M (.val v) (some a) (l.map PStep.qual) = some (.unknown b) →
    isFail (markChain L N M direct (.val v, some a) l).1 = true := by
  have main : ∀ (l : List PStep) (v : Val) (a : Attr), TestLast l → ¬ Unk M a →
      Unk M (ext a (l.map PStep.qual)) → isFail (markChain L N M direct (.val v, some a) l).1 = true := by
    intro l
    induction l with
    | nil => intro v a _ ha h; exact absurd (by simpa [ext] using h) ha
    | cons p l ih =>
      intro v a ht ha h
      rw [markChain]
      by_cases hf : isFail (markStep L N M direct (.val v, some a) p).1 = true
      · exact chain_fail l _ _ hf
      · -- the step has a value, so its attribute is not marked
        have hc := checkUnknown_iff M.unknown (ext a [p.qual])
        have key : ∃ w t, markStep L N M direct (.val v, some a) p = (.val w, t) ∧
            ¬ Unk M (ext a [p.qual]) ∧ ((∀ f, p ≠ .sel f true) → t = some (ext a [p.qual])) := by
          cases p with
          | sel f test =>
            have hstep : Eval.Trail.step (some a) (.str f) = some (ext a [.str f]) := rfl
            simp only [markStep, markSelect, hu, Bool.true_or, if_true, hstep, PStep.qual] at hf hc ⊢
            by_cases he : isError v = true
            · simp [he, isFail] at hf
            · simp only [he, Bool.false_eq_true, if_false] at hf ⊢
              split at hf
              · simp [isFail, isError] at hf
              · rename_i h2
                simp only [h2, if_false]
                by_cases hx : checkUnknown M.unknown (some (ext a [.str f])) false = true
                · simp [marked, hu, hx, isFail] at hf
                · simp only [marked, hu, hx, and_false, if_false, Bool.false_eq_true] at hf ⊢
                  by_cases hy : M.mis = true ∧ checkMissing M.missing (some (ext a [.str f])) = true
                  · simp [hy, isFail] at hf
                  · simp only [hy, if_false]
                    refine ⟨_, _, rfl, fun hh => hx (hc.2 hh), fun hnt => ?_⟩
                    cases test with
                    | true => exact absurd rfl (hnt f)
                    | false => rfl
          | idx k =>
            have hstep : Eval.Trail.step (some a) (constQual k) = some (ext a [constQual k]) := rfl
            simp only [markStep, markIndex, hu, if_true, hstep, PStep.qual] at hf hc ⊢
            by_cases hx : checkUnknown M.unknown (some (ext a [constQual k])) false = true
            · simp [hx, isFail] at hf
            · simp only [hx, Bool.false_eq_true, if_false]
              exact ⟨_, _, rfl, fun hh => hx (hc.2 hh), fun _ => rfl⟩
        obtain ⟨w, t, k1, k2, k3⟩ := key
        rw [k1]
        cases l with
        | nil => exact absurd (by simpa using h) k2
        | cons p' l' =>
          have hnt : ∀ f, p ≠ .sel f true := by
            intro f hf
            subst hf
            simp [TestLast] at ht
          have ht' : TestLast (p' :: l') := by
            cases p with
            | sel f test => exact ht.2
            | idx k => exact ht
          rw [k3 hnt]
          refine ih w _ ht' k2 ?_
          rw [ext_cons]; exact h
  intro l v a b ht ha h
  by_cases he : isError v = true
  · exact chain_fail l _ _ he
  · refine main l v a ht ha ?_
    simp only [optMarked, he, Bool.false_eq_true, if_false, hu, Bool.true_or, if_true, marked] at h
    rw [Unk, ← checkUnknown_iff]
    by_cases hx : checkUnknown M.unknown (some ⟨a.var, a.path ++ l.map PStep.qual⟩) false = true
    · exact hx
    · simp only [hx, and_false, if_false, Bool.false_eq_true] at h
      split at h <;> cases h

/-! ## Where they differ -/

def exEnv : Env := ⟨fun _ => .ub, fun _ _ => .ub, true, true, false⟩
def exLib : Lib := ⟨fun _ => true, fun t => if t = "M" then [⟨1, "m", .map .str (.scalar 0)⟩, ⟨2, "n", .one (.scalar 0)⟩,
  ⟨3, "l", .rep (.msg "M")⟩] else [], fun _ => .none, fun m => .msg m⟩
/-- `{m: {"k": 7}, l: [{n: 5}]}` -/
def exMsg : Msg := .mk "M" [(1, .map [(.str "k", .scal 7)]), (3, .rep [.msg (.mk "M" [(2, .one (.scal 5))])])]

/-- A case for the theorem: `x.m["k"]` with `x.m` marked. -/
example : Reach exLib exEnv (.msg exMsg) [.sel "m" false, .idx (.str "k")] ∧
    (markChain exLib exEnv ⟨[⟨"x", [some (.str "m")]⟩], [], true, false⟩ true (.val (.msg exMsg), some ⟨"x", []⟩)
      [.sel "m" false, .idx (.str "k")]).1 = .unknown ⟨"x", [.str "m"]⟩ ∧
    optMarked ⟨[⟨"x", [some (.str "m")]⟩], [], true, false⟩ (.val (.msg exMsg)) (some ⟨"x", []⟩)
      [.str "m", .str "k"] = some (.unknown ⟨"x", [.str "m", .str "k"]⟩) := by
  refine ⟨⟨rfl, rfl, trivial⟩, rfl, rfl⟩

/-- **C81, the code is wrong here.**  `x.m.a.b["k"]`, where `x.m` has no key `a`, is the error of the
missing key; but when `x.m.a["k"]`, which the expression does not read, is marked, the plain evaluation
is unknown: an error keeps its trail, and indexing it steps from there. -/
theorem unknown_of_another_attribute : ∃ (L : Lib) (N : Env) (M : Marks) (v : Val) (l : List PStep)
    (a b : Attr), M.unk = true ∧ M.mis = false ∧
    (markChain L N M true (.val v, some a) l).1 = .unknown b ∧
    (markChain L N M false (.val v, some a) l).1 = .unknown b ∧
    isError (valChain L N v l) = true ∧
    (∀ n, b ≠ ext a ((l.take n).map PStep.qual)) ∧
    optMarked M (.val v) (some a) (l.map PStep.qual) = none := by
  refine ⟨exLib, exEnv, ⟨[⟨"x", [some (.str "m"), some (.str "a"), some (.str "k")]⟩], [], true, false⟩,
    .msg exMsg, [.sel "m" false, .sel "a" false, .sel "b" false, .idx (.str "k")], ⟨"x", []⟩,
    ⟨"x", [.str "m", .str "a", .str "k"]⟩, rfl, rfl, rfl, rfl, rfl, ?_, rfl⟩
  intro n h
  rcases n with _ | _ | _ | _ | _ | n <;>
    simp [ext, PStep.qual, constQual] at h

/-- **C81, the code is wrong here.**  With only missing attributes enabled, a plain index loses the
trail: a missing attribute behind it is read as if it were there, and is an error when optimized. -/
theorem missing_lost_behind_index : ∃ (L : Lib) (N : Env) (M : Marks) (v : Val) (l : List PStep)
    (a : Attr) (w : Val), M.unk = false ∧ M.mis = true ∧
    (∀ d, (markChain L N M d (.val v, some a) l).1 = .val w) ∧ isError w = false ∧
    optMarked M (.val v) (some a) (l.map PStep.qual) = some (.missing (ext a (l.map PStep.qual))) := by
  refine ⟨exLib, exEnv, ⟨[], [⟨"x", [some (.str "l"), some (.int 0), some (.str "n")]⟩], false, true⟩,
    .msg exMsg, [.sel "l" false, .idx (.int 0), .sel "n" false], ⟨"x", []⟩, .scal 5, rfl, rfl, ?_, rfl, rfl⟩
  intro d; cases d <;> rfl

/-- **C81, the code is wrong here.**  The two evaluators differ: selecting a marked attribute from a
value that has no fields is an error in the stack machine and unknown in the recursive evaluation. -/
theorem evaluators_differ : ∃ (L : Lib) (N : Env) (M : Marks) (v : Val) (l : List PStep) (a b : Attr),
    (∃ s, (markChain L N M false (.val v, some a) l).1 = .val (.error s)) ∧
    (markChain L N M true (.val v, some a) l).1 = .unknown b :=
  ⟨exLib, exEnv, ⟨[⟨"x", [some (.str "n"), some (.str "z")]⟩], [], true, false⟩,
    .msg exMsg, [.sel "n" false, .sel "z" false], ⟨"x", []⟩, ⟨"x", [.str "n", .str "z"]⟩, ⟨_, rfl⟩, rfl⟩

end Cel.Select
