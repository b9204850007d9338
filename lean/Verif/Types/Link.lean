import Verif.Types.Sound

/-!
# C60: functions linked by run-time dispatch keep to their declarations

`Conforms` asks that a call with arguments of the declared types gives a result of the declared type. Here that is reduced to the
implementations: it holds if every declared overload is registered under the kinds of its parameters, and the implementation that
dispatch (`evalCall`) may choose for such arguments returns a result of the declared type.
-/

set_option linter.unusedSimpArgs false
set_option linter.unusedVariables false

namespace Cel.Types
open Cel Cel.Eval Cel.Data Cel.Direct Cel.Checker

/-- The kind an overload is registered with for a parameter of this type: what `AdaptedKind` (`runtime/internal/function_adapter.h` lines
39-98) gives for the C++ type that stands for it. -/
def kindOf : Ty → Nat
  | .con (.base .null) _ => kNull
  | .con (.base .bool) _ => kBool
  | .con (.base .int) _ => kInt
  | .con (.base .uint) _ => kUint
  | .con (.base .double) _ => kDouble
  | .con (.base .string) _ => kString
  | .con (.base .bytes) _ => kBytes
  | .con (.base .duration) _ => kDuration
  | .con (.base .timestamp) _ => kTimestamp
  | .con .list _ => kList
  | .con .map _ => kMap
  | .con .type _ => kType
  | .con (.struct _) _ => kStruct
  | .con (.enum _) _ => kInt
  | .con (.opaque _) _ => kOpaque
  | _ => kAny

/-- The functions a program is linked with (`eval/compiler/resolver.cc`): a call site for each name and call style. -/
def link {σ : Type} (r : RCfg σ) (sites : String → Bool → CallSite σ) (create : String → List String → Op σ) : Impl σ :=
  ⟨fun fn recv => callOp r (sites fn recv), create⟩

/-- The overloads registered for a function implement its declaration: one is registered under the kinds of each declared overload; all
are strict; and each returns, for arguments of the types of a declared overload that dispatch would give it, a result of the declared
type, or an error that is no type error. -/
structure Implements {σ : Type} (legacy unknowns : Bool) (recv : Bool) (decl : List Checker.Overload) (os : List (Eval.Overload σ)) : Prop where
  all : ∀ o ∈ decl, o.member = recv → ∃ w ∈ os, w.desc.kinds = o.args.map kindOf
  strict : ∀ w ∈ os, w.desc.strict = true
  result : ∀ w ∈ os, ∀ o ∈ decl, o.member = recv → ∀ (θ : Name → Ty) (args : List Value) h, (∀ p ∈ o.args, Strict legacy (subst θ p)) →
    Both (fun p v => HasType (subst θ p) v) o.args args → argumentKindsMatch w.desc args = true → FineVal unknowns (subst θ o.result) (w.impl args h).1

theorem kind_of_hasType {t : Ty} {v : Value} (h : HasType t v) : kindOf t = kAny ∨ v.kind = kindOf t := by
  cases h <;> first | exact .inr rfl | exact .inl rfl | (rename_i hw; cases hw <;> exact .inl rfl) | (rename_i hw _; cases hw <;> exact .inl rfl)

theorem kindOf_subst (θ : Name → Ty) (p : Ty) : kindOf p = kAny ∨ kindOf (subst θ p) = kindOf p := by
  cases p with
  | param x => exact .inl rfl
  | con h ps =>
    right
    rw [subst]
    unfold kindOf
    cases h with
    | base b => cases b <;> rfl
    | _ => rfl

theorem kinds_match {θ : Name → Ty} : ∀ (ps : List Ty) (vs : List Value), Both (fun p v => HasType (subst θ p) v) ps vs →
    kindsMatchLoop (ps.map kindOf) vs = true
  | [], _, .nil => rfl
  | p :: ps, v :: vs, .cons h hs => by
    rw [List.map_cons, kindsMatchLoop, if_neg, kinds_match ps vs hs]
    rintro ⟨h1, h2⟩
    rcases kindOf_subst θ p with e | e
    · exact h2 e
    · rcases kind_of_hasType h with g | g
      · rw [e] at g; exact h2 g
      · rw [e] at g; exact h1 g

theorem resolve_some {σ : Type} {args : List Value} : ∀ (os : List (Eval.Overload σ)), (∃ w ∈ os, argumentKindsMatch w.desc args = true) →
    ∃ w ∈ os, argumentKindsMatch w.desc args = true ∧ resolveStatic args os = some w
  | [], ⟨w, hw, _⟩ => nomatch hw
  | o :: os, ⟨w, hw, h⟩ => by
    rw [resolveStatic]
    by_cases ho : argumentKindsMatch o.desc args = true
    · exact ⟨o, by simp, ho, by rw [if_pos ho]⟩
    · rcases List.mem_cons.mp hw with rfl | hw
      · exact absurd h ho
      · obtain ⟨w', h1, h2, h3⟩ := resolve_some os ⟨w, hw, h⟩
        exact ⟨w', by simp [h1], h2, by rw [if_neg ho, h3]⟩

theorem resolve_mem {σ : Type} {args : List Value} {w : Eval.Overload σ} : ∀ (os : List (Eval.Overload σ)), resolveStatic args os = some w → w ∈ os
  | [], h => nomatch h
  | o :: os, h => by
    rw [resolveStatic] at h
    split at h
    · injection h with h; rw [h]; simp
    · have := resolve_mem os h; simp [this]

theorem accept_values {d : FnDesc} : ∀ vs : List Value, (∀ v ∈ vs, v.isError = false ∧ v.isUnknown = false) → shouldAcceptOverload d vs = true
  | [], _ => rfl
  | v :: vs, h => by
    rw [shouldAcceptOverload, if_neg, accept_values vs (fun w hw => h w (by simp [hw]))]
    have := h v (by simp)
    rw [this.1, this.2]
    simp

theorem accept_none {d : FnDesc} (hd : d.strict = true) : ∀ vs : List Value, (∃ v ∈ vs, v.isError = true ∨ v.isUnknown = true) →
    shouldAcceptOverload d vs = false
  | [], ⟨v, hv, _⟩ => nomatch hv
  | w :: vs, ⟨v, hv, h⟩ => by
    rw [shouldAcceptOverload]
    split
    · rw [hd]; rfl
    · rename_i hn
      rcases List.mem_cons.mp hv with rfl | hv
      · exact absurd (by rcases h with h | h; exact .inr h; exact .inl h) hn
      · exact accept_none hd vs ⟨v, hv, h⟩

theorem firstError_none : ∀ vs : List Value, firstError vs = none → ∀ v ∈ vs, v.isError = false
  | [], _, v, hv => nomatch hv
  | w :: vs, h, v, hv => by
    unfold firstError at h
    split at h
    · rename_i e; exact nomatch e
    · exact nomatch h
    · rename_i hn e
      injection e with e1 e2
      subst e1 e2
      rcases List.mem_cons.mp hv with rfl | hv
      · cases v <;> first | rfl | exact absurd rfl (hn _)
      · exact firstError_none _ h v hv

/-- A strict function given an error or an unknown. -/
theorem noOverloadResult_fine {u recv : Bool} {name : String} {a : Ty} {ts : List Ty} {vs : List Value} (h : Both (fun t v => Fine u t v) ts vs)
    (hv : ∃ v ∈ vs, v.isError = true ∨ v.isUnknown = true) : Fine u a (noOverloadResult name vs recv u) := by
  unfold noOverloadResult
  split
  · rename_i e he
    obtain ⟨h1, h2⟩ := firstError_mem _ he
    obtain ⟨t, _, ht⟩ := h.right e h1
    rcases ht.cases3 with g | ⟨s, rfl, hn⟩ | ⟨w, rfl, hu⟩
    · rw [g.value.1] at h2; exact nomatch h2
    · exact .error hn
    · exact nomatch h2
  · rename_i he
    obtain ⟨v, hm, hq⟩ := hv
    have hnoe := firstError_none _ he v hm
    have hun : v.isUnknown = true := by rcases hq with h | h; rw [hnoe] at h; exact nomatch h; exact h
    obtain ⟨t, _, ht⟩ := h.right v hm
    have hu : u = true := by
      rcases ht.cases3 with g | ⟨s, rfl, hn⟩ | ⟨w, rfl, hu⟩
      · rw [g.value.2] at hun; exact nomatch hun
      · exact nomatch hun
      · exact hu
    rw [if_pos hu]
    cases hq : mergeUnknowns vs with
    | none => rw [mergeUnknowns_none _ hq v hm] at hun; exact nomatch hun
    | some w => exact .unknown _ hu

theorem partial_fine {u : Bool} (hu : u = true) {pats : List Pattern} : ∀ {ts : List Ty} {xs : List VA}, Both (fun t (x : VA) => Fine u t x.v) ts xs →
    Both (fun t v => Fine u t v) ts (checkPartialUnknowns pats xs)
  | [], [], .nil => .nil
  | t :: ts, x :: xs, .cons h hs => by
    rw [checkPartialUnknowns]
    refine .cons ?_ (partial_fine hu hs)
    split
    · exact .unknown _ hu
    · exact h

theorem invoke_fine {σ : Type} {opts : CallOpts} (hf : opts.unknownFnResults = true → opts.unknowns = true) {a : Ty} {w : Eval.Overload σ} {id : Int}
    {vs : List Value} {h : σ} (hr : FineVal opts.unknowns a (w.impl vs h).1) : FineVal opts.unknowns a (invoke opts w id vs h).1 := by
  unfold invoke
  split
  · rename_i v s' e
    rw [e] at hr
    split
    · split
      · rename_i hu; exact Fine.unknown _ (hf hu.1)
      · exact hr
    · exact hr
  · exact hr

theorem both_values {u : Bool} : ∀ {ts : List Ty} {vs : List Value}, Both (fun t v => Fine u t v) ts vs →
    (∀ v ∈ vs, v.isError = false ∧ v.isUnknown = false) → Both (fun t v => HasType t v) ts vs
  | [], [], .nil, _ => .nil
  | t :: ts, v :: vs, .cons h hs, hv => by
    refine .cons ?_ (both_values hs (fun w hw => hv w (by simp [hw])))
    have := hv v (by simp)
    rcases h.cases3 with h | ⟨s, rfl, _⟩ | ⟨w, rfl, _⟩
    · exact h
    · exact nomatch this.1
    · exact nomatch this.2

theorem both_map_left {α β γ : Type} {R : γ → β → Prop} {f : α → γ} : ∀ {as : List α} {bs : List β}, Both R (as.map f) bs → Both (fun a b => R (f a) b) as bs
  | [], _, .nil => .nil
  | _ :: _, _, .cons h hs => .cons h (both_map_left hs)
theorem both_left_map {α β γ : Type} {R : γ → β → Prop} {f : α → γ} {as : List α} {bs : List β} (h : Both (fun a b => R (f a) b) as bs) : Both R (as.map f) bs := by
  induction h with
  | nil => exact .nil
  | cons h _ ih => exact .cons h ih

/-- **C60, calls.** A call with arguments of the types of a declared overload, dispatched at run time among overloads that implement the
declaration, gives a result of the declared type (or an error that is no type error, or an unknown); in particular a matching overload
is always found. -/
theorem C60_dispatch {σ : Type} {opts : CallOpts} (hfn : opts.unknownFnResults = true → opts.unknowns = true) {l recv : Bool} {decl : List Checker.Overload}
    {os : List (Eval.Overload σ)} (hi : Implements l opts.unknowns recv decl os) {site : CallSite σ} (hsite : site.resolver = .eager os)
    {o : Checker.Overload} (ho : o ∈ decl) (hm : o.member = recv) (θ : Name → Ty) (hst : ∀ p ∈ o.args, Strict l (subst θ p)) (xs : List VA) (h : σ)
    (hx : Both (fun p (x : VA) => Fine opts.unknowns (subst θ p) x.v) o.args xs) :
    FineVal opts.unknowns (subst θ o.result) (evalCall opts site xs h).1 := by
  have hargs : Both (fun t v => Fine opts.unknowns t v) (o.args.map (subst θ)) (if opts.unknowns then checkPartialUnknowns opts.pats xs else xs.map (·.v)) := by
    replace hx := both_left_map (R := fun t (x : VA) => Fine opts.unknowns t x.v) hx
    split
    · rename_i hu; exact partial_fine hu hx
    · generalize o.args.map (subst θ) = ts at hx
      clear hi hst
      induction hx with
      | nil => exact .nil
      | cons h _ ih => exact .cons h ih
  unfold evalCall
  dsimp only
  generalize (if opts.unknowns then checkPartialUnknowns opts.pats xs else xs.map (·.v)) = vs at hargs
  unfold CallSite.resolve
  rw [hsite]
  dsimp only
  by_cases hv : ∃ v ∈ vs, v.isError = true ∨ v.isUnknown = true
  · cases hr : resolveStatic vs os with
    | none => exact noOverloadResult_fine hargs hv
    | some w =>
      dsimp only
      rw [if_neg (by rw [accept_none (hi.strict w (resolve_mem _ hr)) vs hv]; simp)]
      exact noOverloadResult_fine hargs hv
  · have hvals : ∀ v ∈ vs, v.isError = false ∧ v.isUnknown = false := by
      intro v hm
      refine ⟨?_, ?_⟩
      · cases he : v.isError with
        | false => rfl
        | true => exact absurd ⟨v, hm, .inl he⟩ hv
      · cases he : v.isUnknown with
        | false => rfl
        | true => exact absurd ⟨v, hm, .inr he⟩ hv
    have htyped := both_map_left (both_values hargs hvals)
    obtain ⟨w0, hw0, hk⟩ := hi.all o ho hm
    have hmatch : argumentKindsMatch w0.desc vs = true := by
      unfold argumentKindsMatch
      rw [if_neg, hk, kinds_match _ _ htyped]
      rw [hk, List.length_map, htyped.length]
      simp
    obtain ⟨w, hw, hwm, hwr⟩ := resolve_some os ⟨w0, hw0, hmatch⟩
    rw [hwr]
    dsimp only
    rw [if_pos (accept_values vs hvals)]
    exact invoke_fine hfn (hi.result w hw o ho hm θ vs h hst htyped hwm)

/-- `Conforms.funcs` for linked functions. -/
theorem link_funcs {σ : Type} {d : Decls} {l : Bool} {r : RCfg σ} (hfn : r.fnResults = true → r.c.unknowns = true) {sites : String → Bool → CallSite σ}
    {create : String → List String → Op σ} {os : String → Bool → List (Eval.Overload σ)} (hsites : ∀ fn recv, (sites fn recv).resolver = .eager (os fn recv))
    (hi : ∀ fn fd, d.funcs fn = some fd → fn ∉ builtins → ∀ recv, Implements l r.c.unknowns recv fd.overloads (os fn recv)) :
    ∀ fn fd o, d.funcs fn = some fd → o ∈ fd.overloads → fn ∉ builtins → ∀ (θ : Name → Ty) (args : List VA) h, (∀ p ∈ o.args, Strict l (subst θ p)) →
      Both (fun p (x : VA) => Fine r.c.unknowns (subst θ p) x.v) o.args args →
      FineRes r.c.unknowns (subst θ o.result) ((link r sites create).call fn o.member args h).1 := by
  intro fn fd o hf ho hb θ args h hst hx
  have := C60_dispatch (opts := r.callOpts) hfn (hi fn fd hf hb o.member) (hsites fn o.member) ho rfl θ hst args h hx
  show FineRes _ _ (callOp r (sites fn o.member) args h).1
  unfold callOp
  revert this
  cases evalCall r.callOpts (sites fn o.member) args h with
  | mk a b => cases a <;> exact id

end Cel.Types
