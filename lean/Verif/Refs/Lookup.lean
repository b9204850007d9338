import Verif.Refs.Spec

set_option linter.unusedSimpArgs false
set_option linter.unusedVariables false

/-! # The lookups of the resolver are those of the specification -/

namespace Cel.Refs
open Cel Cel.Proto Cel.Walk Cel.Rewrite Cel.Runtime

theorem kindsMatch_any : ∀ (ts : List Kind) (n : Nat), kindsMatch ts (List.replicate n kAny) = true
  | [], n => by simp [kindsMatch]
  | t :: ts, 0 => by simp [kindsMatch]
  | t :: ts, n + 1 => by
    rw [List.replicate_succ, kindsMatch, if_neg (by simp), kindsMatch_any ts n]

theorem shape_any (d : Desc) (receiver : Bool) (n : Nat) :
    d.shapeMatches receiver (argumentsMatcher n) = (d.receiver == receiver && d.types.length == n) := by
  simp only [Desc.shapeMatches, argumentsMatcher, List.length_replicate, kindsMatch_any]
  by_cases h1 : d.receiver = receiver <;> by_cases h2 : d.types.length = n <;> simp [h1, h2]

theorem findStatic_any {F : Type} (r : Registry F) (n : String) (receiver : Bool) (k : Nat) :
    r.findStatic n receiver (argumentsMatcher k) = r.findStaticByArity n receiver k := by
  simp only [Registry.findStatic, Registry.findStaticByArity, shape_any]

theorem findLazy_any {F : Type} (r : Registry F) (n : String) (receiver : Bool) (k : Nat) :
    r.findLazy n receiver (argumentsMatcher k) = r.findLazyByArity n receiver k := by
  simp only [Registry.findLazy, Registry.findLazyByArity, shape_any]

theorem findOverloads_some {F : Type} (env : Env F) (receiver : Bool) (k : Nat) : ∀ ns : List String,
    (!(findOverloads env receiver (argumentsMatcher k) ns).isEmpty) = true ↔
      ∃ n ∈ ns, ∃ d f, (d, f) ∈ env.functions.findStaticByArity n receiver k
  | [] => by simp [findOverloads]
  | n :: ns => by
    simp only [findOverloads, findStatic_any]
    cases h : env.functions.findStaticByArity n receiver k with
    | nil => simp [findOverloads_some env receiver k ns, h]
    | cons x xs =>
      simp only [List.isEmpty_cons, Bool.false_eq_true, if_false, Bool.not_false, true_iff]
      exact ⟨n, by simp, x.1, x.2, by simp [h]⟩

theorem findLazyOverloads_some {F : Type} (env : Env F) (receiver : Bool) (k : Nat) : ∀ ns : List String,
    (!(findLazyOverloads env receiver (argumentsMatcher k) ns).isEmpty) = true ↔
      ∃ n ∈ ns, ∃ d, d ∈ env.functions.findLazyByArity n receiver k
  | [] => by simp [findLazyOverloads]
  | n :: ns => by
    simp only [findLazyOverloads, findLazy_any]
    cases h : env.functions.findLazyByArity n receiver k with
    | nil => simp [findLazyOverloads_some env receiver k ns, h]
    | cons x xs =>
      simp only [List.isEmpty_cons, Bool.false_eq_true, if_false, Bool.not_false, true_iff]
      exact ⟨n, by simp, x, by simp [h]⟩

theorem overloadExists_iff {F : Type} (env : Env F) (name : String) (k : Nat) (receiver : Bool) :
    overloadExists env name (argumentsMatcher k) receiver = true ↔ Known env receiver k name := by
  rw [overloadExists, Bool.or_eq_true, findOverloads_some, findLazyOverloads_some, Known]
  constructor
  · rintro (⟨n, hn, h⟩ | ⟨n, hn, h⟩)
    · exact ⟨n, hn, .inl h⟩
    · exact ⟨n, hn, .inr h⟩
  · rintro ⟨n, hn, h | h⟩
    · exact .inl ⟨n, hn, h⟩
    · exact .inr ⟨n, hn, h⟩

open Classical in
theorem bestLoop_eq {F : Type} (env : Env F) (base : String) (k : Nat) : ∀ ns : List String,
    bestLoop env base (argumentsMatcher k) ns =
      match ns.find? (fun n => decide (Known env false k n)) with
      | none => none
      | some n => if base.toList.head? = some '.' then some base else some n
  | [] => by simp [bestLoop]
  | n :: ns => by
    rw [bestLoop, List.find?_cons]
    by_cases h : Known env false k n
    · rw [if_pos ((overloadExists_iff env n k false).mpr h)]
      simp [h]
    · rw [if_neg (fun e => h ((overloadExists_iff env n k false).mp e)), bestLoop_eq env base k ns]
      simp [h]

theorem best_eq {F : Type} (env : Env F) (base : String) (k : Nat) :
    bestOverloadMatch env base k = functionFor env base k := by
  simp only [bestOverloadMatch, functionFor, bestLoop_eq]; rfl

end Cel.Refs
