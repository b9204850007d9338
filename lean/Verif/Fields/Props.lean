import Verif.Fields.Model

set_option linter.unusedSimpArgs false
set_option linter.unusedVariables false

/-!
# C93
-/

namespace Cel.Fields

/-! ### Specification -/

/-- `n.f1.f2…`: a variable and the fields selected from it. -/
inductive Chain : Expr → Name → List Name → Prop where
  | ident (n : Name) : Chain (.ident n) n []
  | select {e : Expr} {n : Name} {fs : List Name} (f : Name) (h : Chain e n fs) : Chain (.select e f) n (fs ++ [f])

def Vars.has (v : Vars) (n : Name) : Prop := n = v.iter ∨ n = v.iter2 ∨ n = v.accu

/-- The longest chains in an expression whose variable is not one of `hidden` and not one of a comprehension
around it, wherever in the comprehension it is. -/
inductive Uses : (Name → Prop) → Expr → List Name → Prop where
  | chain {hidden : Name → Prop} {e : Expr} {n : Name} {fs : List Name} (h : Chain e n fs) (hn : ¬ hidden n) : Uses hidden e (n :: fs)
  | select {hidden : Name → Prop} {e : Expr} {f : Name} {p : List Name} (hc : ∀ n fs, ¬ Chain e n fs) (h : Uses hidden e p) :
    Uses hidden (.select e f) p
  | other {hidden : Name → Prop} {cs : List Expr} {c : Expr} {p : List Name} (hc : c ∈ cs) (h : Uses hidden c p) : Uses hidden (.other cs) p
  | comp {hidden : Name → Prop} {v : Vars} {range init cond step result c : Expr} {p : List Name}
    (hc : c ∈ [range, init, cond, step, result]) (h : Uses (fun n => hidden n ∨ v.has n) c p) :
    Uses hidden (.comp v range init cond step result) p

/-- The same with the scopes of the language: range and initial value do not see the variables of their comprehension,
the result sees only the accumulator. -/
inductive Free : (Name → Prop) → Expr → List Name → Prop where
  | chain {hidden : Name → Prop} {e : Expr} {n : Name} {fs : List Name} (h : Chain e n fs) (hn : ¬ hidden n) : Free hidden e (n :: fs)
  | select {hidden : Name → Prop} {e : Expr} {f : Name} {p : List Name} (hc : ∀ n fs, ¬ Chain e n fs) (h : Free hidden e p) :
    Free hidden (.select e f) p
  | other {hidden : Name → Prop} {cs : List Expr} {c : Expr} {p : List Name} (hc : c ∈ cs) (h : Free hidden c p) : Free hidden (.other cs) p
  | outside {hidden : Name → Prop} {v : Vars} {range init cond step result c : Expr} {p : List Name}
    (hc : c ∈ [range, init]) (h : Free hidden c p) : Free hidden (.comp v range init cond step result) p
  | inside {hidden : Name → Prop} {v : Vars} {range init cond step result c : Expr} {p : List Name}
    (hc : c ∈ [cond, step]) (h : Free (fun n => hidden n ∨ v.has n) c p) : Free hidden (.comp v range init cond step result) p
  | result {hidden : Name → Prop} {v : Vars} {range init cond step result : Expr} {p : List Name}
    (h : Free (fun n => hidden n ∨ n = v.accu) result p) : Free hidden (.comp v range init cond step result) p

mutual
/-- No comprehension uses the name of one of its variables where that variable is not in scope. -/
inductive Apart : Expr → Prop where
  | ident (n : Name) : Apart (.ident n)
  | select {e : Expr} (f : Name) (h : Apart e) : Apart (.select e f)
  | other {cs : List Expr} (h : Aparts cs) : Apart (.other cs)
  | comp {v : Vars} {range init cond step result : Expr} (h : Aparts [range, init, cond, step, result])
    (ho : ∀ hidden n fs, Free hidden range (n :: fs) ∨ Free hidden init (n :: fs) → ¬ v.has n)
    (hr : ∀ hidden n fs, Free hidden result (n :: fs) → n ≠ v.iter ∧ n ≠ v.iter2) : Apart (.comp v range init cond step result)

inductive Aparts : List Expr → Prop where
  | nil : Aparts []
  | cons {c : Expr} {cs : List Expr} (h : Apart c) (hs : Aparts cs) : Aparts (c :: cs)
end

/-- Joined by dots. -/
def dotted (p : List Name) : Name := List.intercalate ['.'] p

/-! ### Proofs -/

mutual
/-- What the loop adds for an expression when it comes to it with these fields. -/
def found (up : List Vars) : List Name → Expr → List Name
  | sc, .ident n => if defined n up then [] else [dotted (sc ++ [n]).reverse]
  | sc, .select e f => found up (sc ++ [f]) e
  | _, .other cs => foundAll up cs
  | _, .comp v a b c d r =>
    found (v :: up) [] a ++ found (v :: up) [] b ++ found (v :: up) [] c ++ found (v :: up) [] d ++ found (v :: up) [] r

def foundAll (up : List Vars) : List Expr → List Name
  | [] => []
  | e :: es => found up [] e ++ foundAll up es
end

mutual
theorem loop : ∀ (e : Expr) (up : List Vars) (sc ps : List Name),
    (nodes up e).foldl step ⟨sc, ps⟩ = ⟨[], ps ++ found up sc e⟩
  | .ident n, up, sc, ps => by
    cases h : defined n up <;> simp [nodes, step, found, h, dotted]
  | .select e f, up, sc, ps => by
    simp only [nodes, List.foldl_cons, step, found]
    exact loop e up _ _
  | .other cs, up, sc, ps => by
    simp only [nodes, List.foldl_cons, step, found]
    exact loopAll cs up _
  | .comp v a b c d r, up, sc, ps => by
    simp only [nodes, List.foldl_cons, List.foldl_append, step, found, loop a, loop b, loop c, loop d, loop r, List.append_assoc]

theorem loopAll : ∀ (es : List Expr) (up : List Vars) (ps : List Name),
    (nodesAll up es).foldl step ⟨[], ps⟩ = ⟨[], ps ++ foundAll up es⟩
  | [], _, ps => by simp [nodesAll, foundAll]
  | e :: es, up, ps => by
    simp only [nodesAll, List.foldl_append, loop e, loopAll es, foundAll, List.append_assoc]
end

def hid (up : List Vars) (n : Name) : Prop := ∃ v ∈ up, v.has n

theorem defined_iff (n : Name) (up : List Vars) : defined n up = true ↔ hid up n := by
  simp [defined, hid, Vars.has, or_assoc]

theorem uses_congr {h h' : Name → Prop} (e : ∀ n, h n ↔ h' n) {x : Expr} {p : List Name} : Uses h x p ↔ Uses h' x p := by
  rw [show h = h' from funext fun n => propext (e n)]

theorem hid_cons (v : Vars) (up : List Vars) (n : Name) : hid (v :: up) n ↔ (hid up n ∨ v.has n) := by
  simp [hid, or_comm]

theorem no_chain_other {cs : List Expr} : ∀ n fs, ¬ Chain (.other cs) n fs := by intro n fs h; cases h

theorem no_chain_comp {v : Vars} {a b c d r : Expr} : ∀ n fs, ¬ Chain (.comp v a b c d r) n fs := by intro n fs h; cases h

/-- What is found, with fields from above. -/
def Found (up : List Vars) (sc : List Name) (e : Expr) (s : Name) : Prop :=
  (∃ n fs, Chain e n fs ∧ ¬ hid up n ∧ s = dotted (n :: fs ++ sc.reverse)) ∨
  ((∀ n fs, ¬ Chain e n fs) ∧ ∃ p, Uses (hid up) e p ∧ s = dotted p)

theorem found_top {up : List Vars} {e : Expr} {s : Name} : Found up [] e s ↔ ∃ p, Uses (hid up) e p ∧ s = dotted p := by
  constructor
  · rintro (⟨n, fs, h, hn, hs⟩ | ⟨_, h⟩)
    · exact ⟨_, .chain h hn, by simpa using hs⟩
    · exact h
  · rintro ⟨p, h, hs⟩
    by_cases hc : ∃ n fs, Chain e n fs
    · obtain ⟨n, fs, hc⟩ := hc
      cases h with
      | chain h hn => exact Or.inl ⟨_, _, h, hn, by simpa using hs⟩
      | select hno _ => cases hc with | select _ h => exact absurd h (hno _ _)
      | other _ _ => cases hc
      | comp _ _ => cases hc
    · exact Or.inr ⟨fun n fs h => hc ⟨n, fs, h⟩, p, h, hs⟩

mutual
theorem found_iff : ∀ (e : Expr) (up : List Vars) (sc : List Name) (s : Name), s ∈ found up sc e ↔ Found up sc e s
  | .ident n, up, sc, s => by
    constructor
    · intro h
      simp only [found] at h
      split at h
      · simp at h
      · rename_i hd
        refine Or.inl ⟨n, [], .ident n, fun x => hd ((defined_iff n up).2 x), ?_⟩
        simpa using h
    · rintro (⟨n', fs, hc, hn, hs⟩ | ⟨hc, _⟩)
      · cases hc
        rw [found, if_neg fun x => hn ((defined_iff n up).1 x)]
        simpa using hs
      · exact absurd (.ident n) (hc _ _)
  | .select e f, up, sc, s => by
    rw [found, found_iff e up (sc ++ [f]) s]
    constructor
    · rintro (⟨n, fs, hc, hn, hs⟩ | ⟨hc, p, hp, hs⟩)
      · exact Or.inl ⟨n, fs ++ [f], .select f hc, hn, by simpa using hs⟩
      · exact Or.inr ⟨fun n fs h => by cases h with | select _ h => exact hc _ _ h, p, .select hc hp, hs⟩
    · rintro (⟨n, fs, hc, hn, hs⟩ | ⟨hc, p, hp, hs⟩)
      · cases hc with
        | select _ hc => exact Or.inl ⟨n, _, hc, hn, by simpa using hs⟩
      · cases hp with
        | chain h _ => exact absurd h (hc _ _)
        | select hno h => exact Or.inr ⟨hno, p, h, hs⟩
  | .other cs, up, sc, s => by
    rw [found, foundAll_iff cs up s]
    constructor
    · rintro ⟨c, hc, p, h, hs⟩
      exact Or.inr ⟨no_chain_other, p, .other hc h, hs⟩
    · rintro (⟨n, fs, hc, _⟩ | ⟨_, p, h, hs⟩)
      · cases hc
      · cases h with
        | chain h _ => cases h
        | other hc h => exact ⟨_, hc, p, h, hs⟩
  | .comp v a b c d r, up, sc, s => by
    simp only [found, List.mem_append, found_iff a, found_iff b, found_iff c, found_iff d, found_iff r, found_top, uses_congr (hid_cons v up)]
    constructor
    · rintro ((((⟨p, h, hs⟩ | ⟨p, h, hs⟩) | ⟨p, h, hs⟩) | ⟨p, h, hs⟩) | ⟨p, h, hs⟩) <;>
        exact Or.inr ⟨no_chain_comp, p, .comp (by simp) h, hs⟩
    · rintro (⟨n, fs, hc, _⟩ | ⟨_, p, h, hs⟩)
      · cases hc
      · cases h with
        | chain h _ => cases h
        | comp hc h =>
          simp only [List.mem_cons, List.not_mem_nil, or_false] at hc
          rcases hc with rfl | rfl | rfl | rfl | rfl
          · exact Or.inl (Or.inl (Or.inl (Or.inl ⟨p, h, hs⟩)))
          · exact Or.inl (Or.inl (Or.inl (Or.inr ⟨p, h, hs⟩)))
          · exact Or.inl (Or.inl (Or.inr ⟨p, h, hs⟩))
          · exact Or.inl (Or.inr ⟨p, h, hs⟩)
          · exact Or.inr ⟨p, h, hs⟩

theorem foundAll_iff : ∀ (es : List Expr) (up : List Vars) (s : Name),
    s ∈ foundAll up es ↔ ∃ c ∈ es, ∃ p, Uses (hid up) c p ∧ s = dotted p
  | [], _, s => by simp [foundAll]
  | e :: es, up, s => by
    simp only [foundAll, List.mem_append, found_iff e, foundAll_iff es, found_top, List.mem_cons, exists_eq_or_imp]
end

theorem uses_free {h : Name → Prop} {e : Expr} {p : List Name} (u : Uses h e p) :
    ∀ {h' : Name → Prop}, (∀ n, h' n → h n) → Free h' e p := by
  induction u with
  | chain hc hn => intro h' hs; exact .chain hc fun x => hn (hs _ x)
  | select hc _ ih => intro h' hs; exact .select hc (ih hs)
  | other hc _ ih => intro h' hs; exact .other hc (ih hs)
  | @comp hidden v range init cond step result c p hc _ ih =>
    intro h' hs
    simp only [List.mem_cons, List.not_mem_nil, or_false] at hc
    rcases hc with rfl | rfl | rfl | rfl | rfl
    · exact .outside (by simp) (ih fun n x => Or.inl (hs n x))
    · exact .outside (by simp) (ih fun n x => Or.inl (hs n x))
    · exact .inside (by simp) (ih fun n x => x.imp (hs n) id)
    · exact .inside (by simp) (ih fun n x => x.imp (hs n) id)
    · exact .result (ih fun n x => x.imp (hs n) fun e => Or.inr (Or.inr e))

theorem apart_mem {cs : List Expr} {c : Expr} (h : c ∈ cs) : Aparts cs → Apart c := by
  induction cs with
  | nil => cases h
  | cons d cs ih =>
    intro ha
    cases ha with
    | cons h1 h2 =>
      rcases List.mem_cons.1 h with rfl | h
      · exact h1
      · exact ih h h2

theorem free_head {h : Name → Prop} {e : Expr} {p : List Name} (f : Free h e p) : ∃ n fs, p = n :: fs ∧ ¬ h n := by
  induction f with
  | chain _ hn => exact ⟨_, _, rfl, hn⟩
  | select _ _ ih => exact ih
  | other _ _ ih => exact ih
  | outside _ _ ih => exact ih
  | inside _ _ ih => obtain ⟨n, fs, e, h⟩ := ih; exact ⟨n, fs, e, fun x => h (Or.inl x)⟩
  | result _ ih => obtain ⟨n, fs, e, h⟩ := ih; exact ⟨n, fs, e, fun x => h (Or.inl x)⟩

/-- More names may be hidden if the path does not start with one of them. -/
theorem free_uses {h : Name → Prop} {e : Expr} {p : List Name} (f : Free h e p) : Apart e →
    ∀ {h' : Name → Prop}, (∀ n fs, p = n :: fs → h' n → h n) → Uses h' e p := by
  induction f with
  | chain hc hn => intro _ h' hs; exact .chain hc fun x => hn (hs _ _ rfl x)
  | select hc _ ih => intro ha h' hs; cases ha with | select _ ha => exact .select hc (ih ha hs)
  | other hc _ ih => intro ha h' hs; cases ha with | other ha => exact .other hc (ih (apart_mem hc ha) hs)
  | @outside hidden v range init cond step result c p hc f ih =>
    intro ha h' hs
    cases ha with
    | comp ha ho hr =>
      have hc5 : c ∈ [range, init, cond, step, result] := by
        simp only [List.mem_cons, List.not_mem_nil, or_false] at hc ⊢
        rcases hc with rfl | rfl <;> simp
      refine .comp hc5 (ih (apart_mem hc5 ha) fun n fs e x => ?_)
      rcases x with x | x
      · exact hs n fs e x
      · subst e
        simp only [List.mem_cons, List.not_mem_nil, or_false] at hc
        rcases hc with rfl | rfl
        · exact absurd x (ho _ _ _ (Or.inl f))
        · exact absurd x (ho _ _ _ (Or.inr f))
  | @inside hidden v range init cond step result c p hc f ih =>
    intro ha h' hs
    cases ha with
    | comp ha ho hr =>
      have hc5 : c ∈ [range, init, cond, step, result] := by
        simp only [List.mem_cons, List.not_mem_nil, or_false] at hc ⊢
        rcases hc with rfl | rfl <;> simp
      exact .comp hc5 (ih (apart_mem hc5 ha) fun n fs e x => x.imp (hs n fs e) id)
  | @result hidden v range init cond step result p f ih =>
    intro ha h' hs
    cases ha with
    | comp ha ho hr =>
      refine .comp (c := result) (by simp) (ih (apart_mem (by simp) ha) fun n fs e x => ?_)
      rcases x with x | x | x | x
      · exact Or.inl (hs n fs e x)
      · subst e; exact absurd x (hr _ _ _ f).1
      · subst e; exact absurd x (hr _ _ _ f).2
      · exact Or.inr x

/-! ### The theorems -/

/-- **C93 (exact).** The paths are those of the longest chains whose variable is of no comprehension around them. -/
theorem C93_exact (e : Expr) (s : Name) : s ∈ extract e ↔ ∃ p, Uses (fun _ => False) e p ∧ s = dotted p := by
  rw [extract, loop]
  simp only [List.nil_append, found_iff, found_top]
  rw [show hid [] = fun _ => False from funext fun n => by simp [hid]]

/-- **C93 (free).** Each is the path of a free variable. -/
theorem C93_free (e : Expr) (s : Name) (h : s ∈ extract e) : ∃ p, Free (fun _ => False) e p ∧ s = dotted p := by
  obtain ⟨p, hp, hs⟩ := (C93_exact e s).1 h
  exact ⟨p, uses_free hp fun _ x => x, hs⟩

/-- **C93 (all).** If no comprehension has the name of one of its variables where it is not in scope, all paths of
free variables are there. -/
theorem C93_all (e : Expr) (ha : Apart e) (p : List Name) (h : Free (fun _ => False) e p) : dotted p ∈ extract e :=
  (C93_exact e _).2 ⟨p, free_uses h ha fun _ _ _ x => x, rfl⟩

/-- `x.map(x, x.y)`, the accumulator `@`. -/
def outer : Expr :=
  .comp ⟨['x'], [], ['@']⟩ (.ident ['x']) (.other []) (.other [])
    (.other [.ident ['@'], .other [.select (.ident ['x']) ['y']]]) (.ident ['@'])

/-- **C93, what is missed.** In `x.map(x, x.y)` the outer `x` is a free variable, and nothing is reported. -/
theorem C93_boundary : Free (fun _ => False) outer [['x']] ∧ extract outer = [] := by
  refine ⟨.outside (c := .ident ['x']) (by simp) (.chain (.ident _) id), by decide +kernel⟩

/-- A case: `a.b.c + f(d.e).g`; and `a.l.map(x, x.y + b)`, which is apart. -/
theorem C93_example :
    extract (.other [.select (.select (.ident ['a']) ['b']) ['c'], .select (.other [.select (.ident ['d']) ['e']]) ['g']]) =
      [['a', '.', 'b', '.', 'c'], ['d', '.', 'e']] ∧
    extract (.comp ⟨['x'], [], ['@']⟩ (.select (.ident ['a']) ['l']) (.other []) (.other [])
      (.other [.ident ['@'], .other [.select (.ident ['x']) ['y'], .ident ['b']]]) (.ident ['@'])) = [['a', '.', 'l'], ['b']] ∧
    Apart (.comp ⟨['x'], [], ['@']⟩ (.select (.ident ['a']) ['l']) (.other []) (.other [])
      (.other [.ident ['@'], .other [.select (.ident ['x']) ['y'], .ident ['b']]]) (.ident ['@'])) := by
  refine ⟨by decide +kernel, by decide +kernel, .comp ?_ ?_ ?_⟩
  · exact .cons (.select _ (.ident _)) (.cons (.other .nil) (.cons (.other .nil) (.cons (.other (.cons (.ident _) (.cons
      (.other (.cons (.select _ (.ident _)) (.cons (.ident _) .nil))) .nil))) (.cons (.ident _) .nil))))
  · rintro h n fs (h | h)
    · cases h with
      | chain hc _ => cases hc with | select _ hc => cases hc; simp [Vars.has]
      | select hc _ => exact absurd (.ident _) (hc _ _)
    · cases h with
      | chain hc _ => cases hc
      | other hc _ => cases hc
  · intro h n fs f
    cases f with
    | chain hc _ => cases hc; simp [Vars.has]

end Cel.Fields
