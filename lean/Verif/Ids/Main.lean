import Verif.Ids.Visit
import Verif.Ids.Std
import Verif.Refs.Spec

set_option linter.unusedSimpArgs false
set_option linter.unusedVariables false

/-!
# C85: ids are unique; copies are faithful
-/

namespace Cel.Ids
open Cel Cel.Proto

mutual
theorem located_of (good : Range → Prop) : ∀ (t : Syn), (∀ r ∈ ranges t, good r) → Located good t
  | .absent, _ => by simp [Located]
  | .node n ks, h => by
    simp only [ranges] at h
    simp only [Located]
    exact ⟨fun g hg r hr => h r (List.mem_append_left _ (List.mem_flatten.2 ⟨g, hg, hr⟩)),
      locatedAll_of good ks fun r hr => h r (List.mem_append_right _ hr)⟩
theorem locatedAll_of (good : Range → Prop) : ∀ (ks : List Syn), (∀ r ∈ rangesAll ks, good r) → LocatedAll good ks
  | [], _ => by simp [LocatedAll]
  | k :: ks, h => by
    simp only [rangesAll] at h
    simp only [LocatedAll]
    exact ⟨located_of good k fun r hr => h r (List.mem_append_left _ hr),
      locatedAll_of good ks fun r hr => h r (List.mem_append_right _ hr)⟩
end

/-- **C85 (unique).** Whatever macros are registered and whatever options are set: in the expression
that comes out of the parser every id – of a node, of a field, of an entry – is positive and occurs
once, it has a source position, which is that of a token of the source, and no id is 0 or beyond the
counter; only calls have an unset child. -/
theorem C85_unique (env : Env) (t : Syn) {e : NExpr} {s : St} (hr : ∀ r ∈ ranges t, r.known = true)
    (h : parse env t = some (e, s)) :
    (allIds e).Nodup ∧ Complete e ∧
      ∀ i ∈ allIds e, 1 ≤ i ∧ i < s.next ∧ ∃ r, s.pos i = some r ∧ r ∈ ranges t := by
  obtain ⟨h1, h2⟩ := visit_inv (good := fun r => r ∈ ranges t ∧ r.known = true) (fun r hr => hr.2) env t init_inv
    (located_of _ t fun r hr' => ⟨hr', hr r hr'⟩) h
  rw [List.append_nil] at h1
  refine ⟨h1.nodup, h2, fun i hi => ?_⟩
  obtain ⟨r, a, b⟩ := h1.pos i hi
  exact ⟨(h1.range i hi).1, (h1.range i hi).2, r, a, b.1⟩

mutual
theorem ids_sublist : ∀ (e : NExpr), (Refs.ids e).Sublist (allIds e)
  | .absent => by simp [Refs.ids]
  | .node l ks => by
    rw [Refs.ids, allIds]
    split
    · exact (idsKids_sublist ks _).trans (List.sublist_cons_self _ _)
    · exact List.Sublist.cons_cons _ (idsKids_sublist ks _)
theorem idsKids_sublist : ∀ (ks : List NExpr) (gs : List (List Int)), (Refs.idsKids ks).Sublist (idsKids gs ks)
  | [], gs => by simp [Refs.idsKids]
  | k :: ks, gs => by
    rw [Refs.idsKids, idsKids]
    exact ((ids_sublist k).append (idsKids_sublist ks gs.tail)).trans (List.sublist_append_right _ _)
end

/-- **C85 (for the planner).** What the reference resolver needs of a parsed expression. -/
theorem C85_for_resolver (env : Env) (t : Syn) {e : NExpr} {s : St} (hr : ∀ r ∈ ranges t, r.known = true)
    (h : parse env t = some (e, s)) : Refs.DistinctIds e :=
  (C85_unique env t hr h).1.sublist (ids_sublist e)

/-- **C85 (copy).** A copy has the ids that come next, in the same order as the original's; each has
the source position of the id it copies; old positions stay; and apart from ids – and the second
variable of comprehensions – it is the original. -/
theorem C85_copy {e : NExpr} {s : St} (hs : Sane s) (hc : Complete e) (ho : ∀ i ∈ allIds e, i ≠ 0 ∧ i < s.next) :
    allIds (copy e s).1 = upFrom s.next (allIds e).length ∧
    (allIds (copy e s).1).map (copy e s).2.pos = (allIds e).map s.pos ∧
    (∀ i, i < s.next → (copy e s).2.pos i = s.pos i) ∧
    (copy e s).2.next = s.next + (allIds e).length ∧
    bare (copy e s).1 = bare (dropSecond e) := by
  obtain ⟨h1, h2, -⟩ := copy_spec e hs ho hc
  exact ⟨h1.ids, h1.pos, h1.keep, h1.next, h2⟩

/-- **C85 (faithful).** Without two-variable comprehensions a copy is the original up to ids. -/
theorem C85_copy_faithful {e : NExpr} {s : St} (hs : Sane s) (hc : Complete e)
    (ho : ∀ i ∈ allIds e, i ≠ 0 ∧ i < s.next) (h1 : OneVariable e) : bare (copy e s).1 = bare e := by
  rw [(C85_copy hs hc ho).2.2.2.2, dropSecond_one e h1]

/-- **C85 (boundary).** With one, it is not: in `l.transformList(i, v, v)…optMap(x, x)` the copied
target has lost `v`. -/
theorem C85_boundary_copy : ∃ (e : NExpr) (s : St), Sane s ∧ Complete e ∧ (∀ i ∈ allIds e, i ≠ 0 ∧ i < s.next) ∧
    bare (copy e s).1 ≠ bare e := by
  refine ⟨.node ⟨1, .comprehension "i" "v" "@result"⟩
    [.node ⟨2, .ident "l"⟩ [], .node ⟨3, .list []⟩ [], .node ⟨4, .const (.bool true)⟩ [],
      .node ⟨5, .ident "v"⟩ [], .node ⟨6, .ident "@result"⟩ []],
    ⟨7, fun _ => none, .unknown, fun _ => none⟩, ⟨by simp, by simp⟩, by simp [Complete, CompleteAll], ?_, ?_⟩
  · intro i hi
    simp only [allIds, idsKids, groups, List.headD, List.tail, List.flatten_nil, List.nil_append, List.append_nil,
      List.cons_append, List.mem_cons, List.not_mem_nil, or_false] at hi
    show i ≠ 0 ∧ i < 7
    omega
  · intro h
    rw [copy] at h
    simp only [bare, Proto.Tree.node.injEq, NNode.mk.injEq] at h
    simp [oneVar, withIds, bareKind] at h

/-- **C85 (macros).** Any macro written with the factory that moves each of its inputs at most once –
that is what a program can do – gives an expression with distinct ids none of which is one of those
(`F`) that other expressions hold. -/
theorem C85_macro {good : Range → Prop} (hk : ∀ r, good r → r.known = true) {p : Prog} {inputs : List NExpr}
    {s s1 : St} {e : NExpr} {F : List Int} (h : Inv good s (idsAll inputs ++ F))
    (hc : ∀ e ∈ inputs, Complete e) (hm : good s.macroPos) (hs : runProg p inputs s = some (e, s1)) :
    (allIds e).Nodup ∧ (∀ i ∈ allIds e, i ∉ F ∧ 1 ≤ i ∧ i < s1.next ∧ ∃ r, s1.pos i = some r ∧ good r) := by
  obtain ⟨h1, -⟩ := runProg_inv hk h hc hm hs
  have hn := List.nodup_append.1 h1.nodup
  refine ⟨hn.1, fun i hi => ⟨fun hf => hn.2.2 i hi i hf rfl, ?_⟩⟩
  exact ⟨(h1.range i (List.mem_append_left _ hi)).1, (h1.range i (List.mem_append_left _ hi)).2,
    h1.pos i (List.mem_append_left _ hi)⟩

theorem varMacro_prog {n : Nat} {prog : String → Prog} {target : Option NExpr} {args : List NExpr} {p : Prog}
    (hp : varMacro n prog target args = .expand p) : ∃ v, p = prog v := by
  unfold varMacro withVar at hp
  split at hp
  · split at hp
    · cases hp
    · split at hp
      · cases hp
      · injection hp with hp; exact ⟨_, hp.symm⟩
  · cases hp

/-- An input of every macro is whole, and a selection has one operand. -/
def InputOk (e : NExpr) : Prop := Complete e ∧ ∀ i f t ks, e = .node ⟨i, .select f t⟩ ks → ks.length = 1

theorem has_runs {target : Option NExpr} {args : List NExpr} {p : Prog} (ht : target = none)
    (hc : ∀ e ∈ args, InputOk e) (hp : expandHas target args = .expand p) (s : St) :
    ∃ e s1, runProg p (target.toList ++ args) s = some (e, s1) := by
  unfold expandHas at hp
  split at hp
  · rename_i i f ks
    injection hp with hp
    subst hp ht
    have h := hc (.node ⟨i, .select f false⟩ ks) (by simp)
    obtain ⟨k, rfl⟩ := List.length_eq_one_iff.1 (h.2 i f false ks rfl)
    have hk : Complete k := by simpa [Complete, CompleteAll, isCall] using h.1
    cases k with
    | absent => simp [Complete] at hk
    | node l cs => exact ⟨_, _, rfl⟩
  · cases hp

theorem bind_runs {t a b c : NExpr} {p : Prog} (hp : expandBind (some t) [a, b, c] = .expand p) (s : St) :
    ∃ e s1, runProg p [t, a, b, c] s = some (e, s1) := by
  unfold expandBind at hp
  split at hp
  · injection hp with hp
    subst hp
    exact ⟨_, _, rfl⟩
  · cases hp
  · cases hp

/-! Whether a program runs depends only on which registers are full. -/

def takeB (occ : List Bool) (i : Nat) : Option (List Bool) :=
  match occ[i]? with
  | some true => some (occ.set i false)
  | _ => none

def takeAllB : List Bool → List Nat → Option (List Bool)
  | occ, [] => some occ
  | occ, i :: is => match takeB occ i with
    | none => none
    | some o => takeAllB o is

def stepB (occ : List Bool) : Instr → Option (List Bool)
  | .new _ is => (takeAllB occ is).map (· ++ [true])
  | .call _ is => (takeAllB occ is).map (· ++ [true])
  | .copy i => match occ[i]? with
    | some true => some (occ ++ [true])
    | _ => none
  | .release _ => none

def runB : List Bool → List Instr → Option (List Bool)
  | occ, [] => some occ
  | occ, i :: is => match stepB occ i with
    | none => none
    | some o => runB o is

def full (regs : Regs) : List Bool := regs.map Option.isSome

theorem full_get {regs : Regs} {i : Nat} (h : (full regs)[i]? = some true) : ∃ e, regs[i]? = some (some e) := by
  simp only [full, List.getElem?_map, Option.map_eq_some_iff] at h
  obtain ⟨r, h1, h2⟩ := h
  obtain ⟨e, rfl⟩ := Option.isSome_iff_exists.1 h2
  exact ⟨e, h1⟩

theorem takeB_sim {regs : Regs} {i : Nat} {o : List Bool} (h : takeB (full regs) i = some o) :
    ∃ e regs1, take regs i = some (e, regs1) ∧ full regs1 = o := by
  unfold takeB at h
  split at h
  · rename_i hi
    injection h with h
    obtain ⟨e, he⟩ := full_get hi
    refine ⟨e, regs.set i none, by simp [take, he], ?_⟩
    rw [← h]
    simp [full, List.map_set]
  · cases h

theorem takeAllB_sim : ∀ (is : List Nat) {regs : Regs} {o : List Bool} (h : takeAllB (full regs) is = some o),
    ∃ es regs1, takeAll regs is = some (es, regs1) ∧ full regs1 = o
  | [], regs, o, h => by
    simp only [takeAllB, Option.some.injEq] at h
    exact ⟨[], regs, rfl, h⟩
  | i :: is, regs, o, h => by
    simp only [takeAllB] at h
    split at h
    · cases h
    · rename_i o1 h1
      obtain ⟨e, regs1, h2, h3⟩ := takeB_sim h1
      rw [← h3] at h
      obtain ⟨es, regs2, h4, h5⟩ := takeAllB_sim is h
      exact ⟨e :: es, regs2, by simp [takeAll, h2, h4], h5⟩

theorem stepB_sim {i : Instr} {regs : Regs} {o : List Bool} (s : St) (h : stepB (full regs) i = some o) :
    ∃ regs1 s1, step regs s i = some (regs1, s1) ∧ full regs1 = o := by
  cases i with
  | new k is =>
    simp only [stepB, Option.map_eq_some_iff] at h
    obtain ⟨o1, h1, rfl⟩ := h
    obtain ⟨es, regs1, h2, h3⟩ := takeAllB_sim is h1
    refine ⟨_, _, by simp only [step, h2]; rfl, ?_⟩
    rw [← h3]; simp [full]
  | call f is =>
    simp only [stepB, Option.map_eq_some_iff] at h
    obtain ⟨o1, h1, rfl⟩ := h
    obtain ⟨es, regs1, h2, h3⟩ := takeAllB_sim is h1
    refine ⟨_, _, by simp only [step, h2]; rfl, ?_⟩
    rw [← h3]; simp [full]
  | copy i =>
    simp only [stepB] at h
    split at h
    · rename_i hi
      injection h with h
      obtain ⟨e, he⟩ := full_get hi
      refine ⟨_, _, by simp only [step, he]; rfl, ?_⟩
      rw [← h]; simp [full]
    · cases h
  | release i => cases h

theorem runB_sim : ∀ (is : List Instr) {regs : Regs} {o : List Bool} (s : St) (h : runB (full regs) is = some o),
    ∃ regs1 s1, runInstrs regs s is = some (regs1, s1) ∧ full regs1 = o
  | [], regs, o, s, h => by
    simp only [runB, Option.some.injEq] at h
    exact ⟨regs, s, rfl, h⟩
  | i :: is, regs, o, s, h => by
    simp only [runB] at h
    split at h
    · cases h
    · rename_i o1 h1
      obtain ⟨regs1, s1, h2, h3⟩ := stepB_sim s h1
      rw [← h3] at h
      obtain ⟨regs2, s2, h4, h5⟩ := runB_sim is s1 h
      exact ⟨regs2, s2, by simp [runInstrs, h2, h4], h5⟩

theorem runs_of {p : Prog} {inputs : List NExpr} (s : St)
    (hb : (runB (inputs.map fun _ => true) p.instrs).bind (fun o => o[p.ret]?) = some true) :
    ∃ e s1, runProg p inputs s = some (e, s1) := by
  obtain ⟨o, h, hr⟩ := Option.bind_eq_some_iff.1 hb
  have hf : full (inputs.map some) = inputs.map fun _ => true := by
    rw [full, List.map_map]; rfl
  rw [← hf] at h
  obtain ⟨regs, s1, h1, h2⟩ := runB_sim p.instrs s h
  rw [← h2] at hr
  obtain ⟨e, he⟩ := full_get hr
  exact ⟨e, s1, by simp [runProg, h1, take, he]⟩

theorem all_runs (v : String) (t a b : NExpr) (s : St) : ∃ e s1, runProg (allProg v) [t, a, b] s = some (e, s1) :=
  runs_of s (by simp [allProg, runB, stepB, takeAllB, takeB, accu, litBool, litInt, comp])
theorem exists_runs (v : String) (t a b : NExpr) (s : St) :
    ∃ e s1, runProg (existsProg v) [t, a, b] s = some (e, s1) :=
  runs_of s (by simp [existsProg, runB, stepB, takeAllB, takeB, accu, litBool, litInt, comp])
theorem existsOne_runs (v : String) (t a b : NExpr) (s : St) :
    ∃ e s1, runProg (existsOneProg v) [t, a, b] s = some (e, s1) :=
  runs_of s (by simp [existsOneProg, runB, stepB, takeAllB, takeB, accu, litBool, litInt, comp])
theorem map2_runs (v : String) (t a b : NExpr) (s : St) :
    ∃ e s1, runProg (map2Prog v) [t, a, b] s = some (e, s1) :=
  runs_of s (by simp [map2Prog, runB, stepB, takeAllB, takeB, accu, litBool, litInt, comp])
theorem map3_runs (v : String) (t a b c : NExpr) (s : St) :
    ∃ e s1, runProg (map3Prog v) [t, a, b, c] s = some (e, s1) :=
  runs_of s (by simp [map3Prog, runB, stepB, takeAllB, takeB, accu, litBool, litInt, comp])
theorem filter_runs (v : String) (t a b : NExpr) (s : St) :
    ∃ e s1, runProg (filterProg v) [t, a, b] s = some (e, s1) :=
  runs_of s (by simp [filterProg, runB, stepB, takeAllB, takeB, accu, litBool, litInt, comp])
theorem optMap_runs (v : String) (t a b : NExpr) (s : St) :
    ∃ e s1, runProg (optMapProg v) [t, a, b] s = some (e, s1) :=
  runs_of s (by simp [optMapProg, runB, stepB, takeAllB, takeB, accu, litBool, litInt, comp])
theorem optFlatMap_runs (v : String) (t a b : NExpr) (s : St) :
    ∃ e s1, runProg (optFlatMapProg v) [t, a, b] s = some (e, s1) :=
  runs_of s (by simp [optFlatMapProg, runB, stepB, takeAllB, takeB, accu, litBool, litInt, comp])

/-- **C85 (standard macros).** The standard macros and `cel.bind` use no input twice and none that is
not there: called with the number of arguments they are registered for, an expansion they start
always succeeds. -/
theorem C85_standard (f : String) (receiver : Bool) (m : Expander) (target : Option NExpr) (args : List NExpr)
    (hm : ((f, args.length, receiver), m) ∈ stdList) (ht : target.isSome = receiver)
    (hc : ∀ e ∈ target.toList ++ args, InputOk e) (p : Prog) (hp : m target args = .expand p) (s : St) :
    ∃ e s1, runProg p (target.toList ++ args) s = some (e, s1) := by
  have two : args.length = 2 → receiver = true → ∃ t a b, target = some t ∧ args = [a, b] := by
    intro h1 h2
    obtain ⟨a, b, rfl⟩ := List.length_eq_two.1 h1
    rw [h2] at ht
    obtain ⟨t, rfl⟩ := Option.isSome_iff_exists.1 ht
    exact ⟨t, a, b, rfl, rfl⟩
  have three : args.length = 3 → receiver = true → ∃ t a b c, target = some t ∧ args = [a, b, c] := by
    intro h1 h2
    obtain ⟨a, b, c, rfl⟩ := List.length_eq_three.1 h1
    rw [h2] at ht
    obtain ⟨t, rfl⟩ := Option.isSome_iff_exists.1 ht
    exact ⟨t, a, b, c, rfl, rfl⟩
  simp only [stdList, List.mem_cons, Prod.mk.injEq, List.not_mem_nil, or_false] at hm
  rcases hm with ⟨⟨-, hn, hr⟩, rfl⟩ | ⟨⟨-, hn, hr⟩, rfl⟩ | ⟨⟨-, hn, hr⟩, rfl⟩ | ⟨⟨-, hn, hr⟩, rfl⟩ |
    ⟨⟨-, hn, hr⟩, rfl⟩ | ⟨⟨-, hn, hr⟩, rfl⟩ | ⟨⟨-, hn, hr⟩, rfl⟩ | ⟨⟨-, hn, hr⟩, rfl⟩ | ⟨⟨-, hn, hr⟩, rfl⟩ |
    ⟨⟨-, hn, hr⟩, rfl⟩
  · have : target = none := by
      rw [hr] at ht
      cases target with
      | none => rfl
      | some t => simp at ht
    exact has_runs this (fun e he => hc e (List.mem_append_right _ he)) hp s
  · obtain ⟨t, a, b, rfl, rfl⟩ := two hn hr
    obtain ⟨v, rfl⟩ := varMacro_prog hp
    exact all_runs v t a b s
  · obtain ⟨t, a, b, rfl, rfl⟩ := two hn hr
    obtain ⟨v, rfl⟩ := varMacro_prog hp
    exact exists_runs v t a b s
  · obtain ⟨t, a, b, rfl, rfl⟩ := two hn hr
    obtain ⟨v, rfl⟩ := varMacro_prog hp
    exact existsOne_runs v t a b s
  · obtain ⟨t, a, b, rfl, rfl⟩ := two hn hr
    obtain ⟨v, rfl⟩ := varMacro_prog hp
    exact map2_runs v t a b s
  · obtain ⟨t, a, b, c, rfl, rfl⟩ := three hn hr
    obtain ⟨v, rfl⟩ := varMacro_prog hp
    exact map3_runs v t a b c s
  · obtain ⟨t, a, b, rfl, rfl⟩ := two hn hr
    obtain ⟨v, rfl⟩ := varMacro_prog hp
    exact filter_runs v t a b s
  · obtain ⟨t, a, b, rfl, rfl⟩ := two hn hr
    obtain ⟨v, rfl⟩ := varMacro_prog hp
    exact optMap_runs v t a b s
  · obtain ⟨t, a, b, rfl, rfl⟩ := two hn hr
    obtain ⟨v, rfl⟩ := varMacro_prog hp
    exact optFlatMap_runs v t a b s
  · obtain ⟨t, a, b, c, rfl, rfl⟩ := three hn hr
    exact bind_runs hp s

end Cel.Ids
