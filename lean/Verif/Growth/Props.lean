import Verif.Growth.Linear

/-!
# What the comprehension vulnerability check promises
-/

set_option linter.unusedSimpArgs false
set_option linter.unusedVariables false
set_option linter.unusedTactic false

namespace Cel.Growth
variable {V : Type} (D : Dom V)

/-- One iteration of a comprehension's loop. -/
def stepOf (ρ : String → V) (iter iter2 accu : String) (step : X) : V → V × V → V :=
  fun a it => eval D step (bind (bind (bind ρ accu a) iter2 it.2) iter it.1)

/-- **C73 (linear growth).** If the check accepts a loop step in which the accumulator is used as the check
assumes (`Counted`), the accumulator grows by at most a constant in every iteration.  The constant depends on the
step and on the size of the other variables and of the elements, not on the accumulator nor on the number of
elements. -/
theorem C73_linear_growth_partial (iter iter2 accu : String) (cond step : X) (hc : Counted D accu step)
    (hv : vulnerable accu step = false) (b : Nat) :
    ∃ k, ∀ (ρ : String → V) (its : List (V × V)) (a : V), EnvLe D b ρ →
      (∀ it ∈ its, D.size it.1 ≤ b ∧ D.size it.2 ≤ b) →
      match loop D (stepOf D ρ iter iter2 accu cond) (stepOf D ρ iter iter2 accu step) its a with
      | .inl v => D.size v ≤ D.size a + its.length * k
      | .inr v => D.size v ≤ D.c := by
  obtain ⟨k, hk⟩ := eval_linear D b step hc
  have hr : refs accu step ≤ 1 := by
    unfold vulnerable at hv; simp at hv; omega
  refine ⟨k + b, ?_⟩
  intro ρ its
  induction its with
  | nil => intro a _ _; simp [loop]
  | cons it its ih =>
    intro a hρ hi
    unfold loop
    cases ht : D.truth (stepOf D ρ iter iter2 accu cond a it) with
    | none => simp only []; exact D.noCond_size _
    | some t =>
      cases t with
      | false => simp only []; omega
      | true =>
        simp only []
        have h1 := hi it (by simp)
        have hstep : D.size (stepOf D ρ iter iter2 accu step a it) ≤ D.size a + (k + b) := by
          have hb : EnvLeBut D accu b (bind (bind (bind ρ accu a) iter2 it.2) iter it.1) := by
            intro x hx
            unfold bind
            split
            · exact h1.1
            · split
              · exact h1.2
              · exact hρ x
          have ha : D.size (bind (bind (bind ρ accu a) iter2 it.2) iter it.1 accu) ≤ D.size a + b := by
            unfold bind
            split
            · have := h1.1; omega
            · split
              · have := h1.2; omega
              · simp
          have h2 := hk _ hb
          have h3 : refs accu step * D.size (bind (bind (bind ρ accu a) iter2 it.2) iter it.1 accu) ≤
              1 * (D.size a + b) := Nat.mul_le_mul hr ha
          unfold stepOf
          omega
        have := ih (stepOf D ρ iter iter2 accu step a it) hρ (fun x hx => hi x (by simp [hx]))
        revert this
        cases loop D (stepOf D ρ iter iter2 accu cond) (stepOf D ρ iter iter2 accu step) its
          (stepOf D ρ iter iter2 accu step a it) with
        | inl v =>
          simp only [List.length_cons, Nat.add_mul, Nat.one_mul]
          intro h
          omega
        | inr v => simp only []; exact id

/-! ## Expressions that the parser produces -/

mutual
/-- Source expressions: what a user writes, with macros not yet expanded.  A loop has a variable and, in the
two-variable form, a second one (`""` if there is none). -/
inductive Src where
  | const (n : Nat)
  | ident (name : String)
  | select (e : Src) (field : String)
  | has (e : Src) (field : String)
  | call (fn : String) (target : Srcs) (args : Srcs)
  | list (es : Srcs)
  | struct (type : String) (vals : Srcs)
  | map (keys vals : Srcs)
  | all (x y : String) (target p : Src)
  | exist (x y : String) (target p : Src)
  | existsOne (x y : String) (target p : Src)
  | mapE (x y : String) (target e : Src)
  | mapPE (x y : String) (target p e : Src)
  | filter (x : String) (target p : Src)
  | transformMap (x y : String) (target e : Src)
  | transformMapP (x y : String) (target p e : Src)
  | transformEntry (x y : String) (target e : Src)
  | transformEntryP (x y : String) (target p e : Src)
  | bind (x : String) (init body : Src)
  | optMap (x : String) (target e : Src)
  | optFlatMap (x : String) (target e : Src)
inductive Srcs where
  | nil
  | cons (e : Src) (es : Srcs)
end

def one (x : X) : Xs := .cons x .nil
def two (x y : X) : Xs := .cons x (.cons y .nil)
def three (x y z : X) : Xs := .cons x (.cons y (.cons z .nil))

/-- The comprehension behind `cel.bind` and the optional macros (`extensions/bindings_ext.cc` lines 79-85). -/
def bindX (x : String) (init body : X) : X :=
  .comp "#unused" "" x (.list .nil) init (.const 0) (.ident x) body

mutual
/-- The macro expansions of `parser/macro.cc` lines 91-372, `extensions/bindings_ext.cc` lines 66-86 and
`extensions/comprehensions_v2_macros.cc` lines 33-491, `A` being the accumulator's name.  Constants are
numbered `0`. -/
def expand (A : String) : Src → X
  | .const n => .const n
  | .ident x => .ident x
  | .select e f => .select (expand A e) f false
  | .has e f => .select (expand A e) f true
  | .call fn t args => .call fn (expands A t) (expands A args)
  | .list es => .list (expands A es)
  | .struct ty vs => .struct ty (expands A vs)
  | .map ks vs => .map (expands A ks) (expands A vs)
  | .all x y t p => .comp x y A (expand A t) (.const 0) (.call "@not_strictly_false" .nil (one (.ident A)))
      (.call "_&&_" .nil (two (.ident A) (expand A p))) (.ident A)
  | .exist x y t p => .comp x y A (expand A t) (.const 0)
      (.call "@not_strictly_false" .nil (one (.call "!_" .nil (one (.ident A)))))
      (.call "_||_" .nil (two (.ident A) (expand A p))) (.ident A)
  | .existsOne x y t p => .comp x y A (expand A t) (.const 0) (.const 0)
      (.call kTernary .nil (three (expand A p) (.call kAdd .nil (two (.ident A) (.const 0))) (.ident A)))
      (.call "_==_" .nil (two (.ident A) (.const 0)))
  | .mapE x y t e => .comp x y A (expand A t) (.list .nil) (.const 0)
      (.call kAdd .nil (two (.ident A) (.list (one (expand A e))))) (.ident A)
  | .mapPE x y t p e => .comp x y A (expand A t) (.list .nil) (.const 0)
      (.call kTernary .nil (three (expand A p) (.call kAdd .nil (two (.ident A) (.list (one (expand A e))))) (.ident A)))
      (.ident A)
  | .filter x t p => .comp x "" A (expand A t) (.list .nil) (.const 0)
      (.call kTernary .nil (three (expand A p) (.call kAdd .nil (two (.ident A) (.list (one (.ident x))))) (.ident A)))
      (.ident A)
  | .transformMap x y t e => .comp x y A (expand A t) (.map .nil .nil) (.const 0)
      (.call "cel.@mapInsert" .nil (three (.ident A) (.ident x) (expand A e))) (.ident A)
  | .transformMapP x y t p e => .comp x y A (expand A t) (.map .nil .nil) (.const 0)
      (.call kTernary .nil (three (expand A p)
        (.call "cel.@mapInsert" .nil (three (.ident A) (.ident x) (expand A e))) (.ident A))) (.ident A)
  | .transformEntry x y t e => .comp x y A (expand A t) (.map .nil .nil) (.const 0)
      (.call "cel.@mapInsert" .nil (two (.ident A) (expand A e))) (.ident A)
  | .transformEntryP x y t p e => .comp x y A (expand A t) (.map .nil .nil) (.const 0)
      (.call kTernary .nil (three (expand A p)
        (.call "cel.@mapInsert" .nil (two (.ident A) (expand A e))) (.ident A))) (.ident A)
  | .bind x init body => bindX x (expand A init) (expand A body)
  | .optMap x t e => .call kTernary .nil (three (.call "hasValue" (one (expand A t)) .nil)
      (.call "optional.of" .nil (one (bindX x (.call "value" (one (expand A t)) .nil) (expand A e))))
      (.call "optional.none" .nil .nil))
  | .optFlatMap x t e => .call kTernary .nil (three (.call "hasValue" (one (expand A t)) .nil)
      (bindX x (.call "value" (one (expand A t)) .nil) (expand A e)) (.call "optional.none" .nil .nil))
def expands (A : String) : Srcs → Xs
  | .nil => .nil
  | .cons e es => .cons (expand A e) (expands A es)
end

mutual
/-- The source does not mention the name `A`: it is not an identifier of the grammar (`@result`). -/
def Src.Avoids (A : String) : Src → Prop
  | .const _ => True
  | .ident x => x ≠ A
  | .select e _ => e.Avoids A
  | .has e _ => e.Avoids A
  | .call _ t args => t.Avoids A ∧ args.Avoids A
  | .list es => es.Avoids A
  | .struct _ vs => vs.Avoids A
  | .map ks vs => ks.Avoids A ∧ vs.Avoids A
  | .all x y t p => x ≠ A ∧ y ≠ A ∧ t.Avoids A ∧ p.Avoids A
  | .exist x y t p => x ≠ A ∧ y ≠ A ∧ t.Avoids A ∧ p.Avoids A
  | .existsOne x y t p => x ≠ A ∧ y ≠ A ∧ t.Avoids A ∧ p.Avoids A
  | .mapE x y t e => x ≠ A ∧ y ≠ A ∧ t.Avoids A ∧ e.Avoids A
  | .mapPE x y t p e => x ≠ A ∧ y ≠ A ∧ t.Avoids A ∧ p.Avoids A ∧ e.Avoids A
  | .filter x t p => x ≠ A ∧ t.Avoids A ∧ p.Avoids A
  | .transformMap x y t e => x ≠ A ∧ y ≠ A ∧ t.Avoids A ∧ e.Avoids A
  | .transformMapP x y t p e => x ≠ A ∧ y ≠ A ∧ t.Avoids A ∧ p.Avoids A ∧ e.Avoids A
  | .transformEntry x y t e => x ≠ A ∧ y ≠ A ∧ t.Avoids A ∧ e.Avoids A
  | .transformEntryP x y t p e => x ≠ A ∧ y ≠ A ∧ t.Avoids A ∧ p.Avoids A ∧ e.Avoids A
  | .bind x init body => x ≠ A ∧ init.Avoids A ∧ body.Avoids A
  | .optMap x t e => x ≠ A ∧ t.Avoids A ∧ e.Avoids A
  | .optFlatMap x t e => x ≠ A ∧ t.Avoids A ∧ e.Avoids A
def Srcs.Avoids (A : String) : Srcs → Prop
  | .nil => True
  | .cons e es => e.Avoids A ∧ es.Avoids A
end

theorem callRefs_zero {A : String} (fn : String) : ∀ (args : Xs), sumRefs A args = 0 → callRefs A fn args = 0
  | .nil, _ => rfl
  | .cons x .nil, h => by
      simp only [sumRefs, Nat.add_eq_zero_iff] at h
      simp only [callRefs, h]; split <;> (try split) <;> rfl
  | .cons x (.cons y .nil), h => by
      simp only [sumRefs, Nat.add_eq_zero_iff] at h
      simp only [callRefs, h]; split <;> (try split) <;> rfl
  | .cons x (.cons y (.cons z .nil)), h => by
      simp only [sumRefs, Nat.add_eq_zero_iff] at h
      simp only [callRefs, h]; split <;> (try split) <;> rfl
  | .cons x (.cons y (.cons z (.cons w ws))), h => by
      simp only [sumRefs, Nat.add_eq_zero_iff] at h
      simp only [callRefs, h]; split <;> (try split) <;> rfl

theorem bindX_ok {A x : String} {init body : X} (hA : A ≠ "#unused") (hx : x ≠ A) (hi : refs A init = 0)
    (hb : refs A body = 0) (pi : passes init = true) (pb : passes body = true) :
    refs A (bindX x init body) = 0 ∧ passes (bindX x init body) = true := by
  simp [bindX, refs, passes, vulnerable, sumRefs, passesAll, hi, hb, pi, pb, hx]

mutual
theorem expand_ok {A : String} (hA : A ≠ "#unused") : ∀ (e : Src), e.Avoids A →
    refs A (expand A e) = 0 ∧ passes (expand A e) = true
  | .const n, _ => by simp [expand, refs, passes]
  | .ident x, h => by simp only [Src.Avoids] at h; simp [expand, refs, passes, h]
  | .select e f, h => by have := expand_ok hA e h; simp [expand, refs, passes, this]
  | .has e f, h => by have := expand_ok hA e h; simp [expand, refs, passes, this]
  | .call fn t args, h => by
      have h1 := expands_ok hA t h.1
      have h2 := expands_ok hA args h.2
      simp [expand, refs, passes, h1, h2, callRefs_zero fn _ h2.1]
  | .list es, h => by have := expands_ok hA es h; simp [expand, refs, passes, this]
  | .struct ty vs, h => by have := expands_ok hA vs h; simp [expand, refs, passes, this]
  | .map ks vs, h => by
      have h1 := expands_ok hA ks h.1
      have h2 := expands_ok hA vs h.2
      simp [expand, refs, passes, h1, h2]
  | .all x y t p, h => by
      have h1 := expand_ok hA t h.2.2.1
      have h2 := expand_ok hA p h.2.2.2
      simp [expand, refs, passes, passesAll, vulnerable, callRefs, one, two, three, sumRefs, h1, h2, kAdd, kIndex, kDyn, kTernary]
  | .exist x y t p, h => by
      have h1 := expand_ok hA t h.2.2.1
      have h2 := expand_ok hA p h.2.2.2
      simp [expand, refs, passes, passesAll, vulnerable, callRefs, one, two, three, sumRefs, h1, h2, kAdd, kIndex, kDyn, kTernary]
  | .existsOne x y t p, h => by
      have h1 := expand_ok hA t h.2.2.1
      have h2 := expand_ok hA p h.2.2.2
      simp [expand, refs, passes, passesAll, vulnerable, callRefs, one, two, three, sumRefs, h1, h2, kAdd, kIndex, kDyn, kTernary]
  | .mapE x y t e, h => by
      have h1 := expand_ok hA t h.2.2.1
      have h2 := expand_ok hA e h.2.2.2
      simp [expand, refs, passes, passesAll, vulnerable, callRefs, one, two, three, sumRefs, h1, h2, kAdd, kIndex, kDyn, kTernary]
  | .mapPE x y t p e, h => by
      have h1 := expand_ok hA t h.2.2.1
      have h2 := expand_ok hA p h.2.2.2.1
      have h3 := expand_ok hA e h.2.2.2.2
      simp [expand, refs, passes, passesAll, vulnerable, callRefs, one, two, three, sumRefs, h1, h2, h3, kAdd, kIndex, kDyn, kTernary]
  | .filter x t p, h => by
      have h1 := expand_ok hA t h.2.1
      have h2 := expand_ok hA p h.2.2
      simp [expand, refs, passes, passesAll, vulnerable, callRefs, one, two, three, sumRefs, h1, h2, h.1, kAdd, kIndex, kDyn, kTernary]
  | .transformMap x y t e, h => by
      have h1 := expand_ok hA t h.2.2.1
      have h2 := expand_ok hA e h.2.2.2
      simp [expand, refs, passes, passesAll, vulnerable, callRefs, one, two, three, sumRefs, h1, h2, kAdd, kIndex, kDyn, kTernary]
  | .transformMapP x y t p e, h => by
      have h1 := expand_ok hA t h.2.2.1
      have h2 := expand_ok hA p h.2.2.2.1
      have h3 := expand_ok hA e h.2.2.2.2
      simp [expand, refs, passes, passesAll, vulnerable, callRefs, one, two, three, sumRefs, h1, h2, h3, kAdd, kIndex, kDyn, kTernary]
  | .transformEntry x y t e, h => by
      have h1 := expand_ok hA t h.2.2.1
      have h2 := expand_ok hA e h.2.2.2
      simp [expand, refs, passes, passesAll, vulnerable, callRefs, one, two, three, sumRefs, h1, h2, kAdd, kIndex, kDyn, kTernary]
  | .transformEntryP x y t p e, h => by
      have h1 := expand_ok hA t h.2.2.1
      have h2 := expand_ok hA p h.2.2.2.1
      have h3 := expand_ok hA e h.2.2.2.2
      simp [expand, refs, passes, passesAll, vulnerable, callRefs, one, two, three, sumRefs, h1, h2, h3, kAdd, kIndex, kDyn, kTernary]
  | .bind x init body, h => by
      have h1 := expand_ok hA init h.2.1
      have h2 := expand_ok hA body h.2.2
      exact bindX_ok hA h.1 h1.1 h2.1 h1.2 h2.2
  | .optMap x t e, h => by
      have h1 := expand_ok hA t h.2.1
      have h2 := expand_ok hA e h.2.2
      have h3 := bindX_ok (A := A) (x := x) (init := .call "value" (one (expand A t)) .nil) hA h.1
        (by simp [refs, callRefs]) h2.1 (by simp [passes, passesAll, one, h1]) h2.2
      simp [expand, refs, passes, passesAll, callRefs, one, two, three, sumRefs, h1, kAdd, kIndex, kDyn, kTernary]
      exact h3.2
  | .optFlatMap x t e, h => by
      have h1 := expand_ok hA t h.2.1
      have h2 := expand_ok hA e h.2.2
      have h3 := bindX_ok (A := A) (x := x) (init := .call "value" (one (expand A t)) .nil) hA h.1
        (by simp [refs, callRefs]) h2.1 (by simp [passes, passesAll, one, h1]) h2.2
      simp [expand, refs, passes, passesAll, callRefs, one, two, three, sumRefs, h1, kAdd, kIndex, kDyn, kTernary]
      exact h3
theorem expands_ok {A : String} (hA : A ≠ "#unused") : ∀ (es : Srcs), es.Avoids A →
    sumRefs A (expands A es) = 0 ∧ passesAll (expands A es) = true
  | .nil, _ => ⟨rfl, rfl⟩
  | .cons e es, h => by
      have h1 := expand_ok hA e h.1
      have h2 := expands_ok hA es h.2
      simp [expands, sumRefs, passesAll, h1, h2]
end

/-- **C73 (no false alarms on macros).** The check accepts everything the parser can produce, however macros are
nested, as long as the source cannot name the hidden accumulator. -/
theorem C73_accepts_macros (e : Src) (h : e.Avoids "@result") : passes (expand "@result" e) = true :=
  (expand_ok (by decide) e h).2

end Cel.Growth
