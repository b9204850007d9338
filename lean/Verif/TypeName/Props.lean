import Verif.TypeName.Model

set_option linter.unusedSimpArgs false
set_option linter.unusedVariables false

/-!
# C92
-/

namespace Cel.TypeName

/-! ### Specification -/

def Prim.basic : Prim → Basic
  | .bool => .bool
  | .bytes => .bytes
  | .double => .double
  | .int => .int
  | .string => .string
  | .uint => .uint

/-- The name of a type, without its parameters. -/
def head : Ty → Name
  | .basic b => b.text
  | .wrapper _ => ['w', 'r', 'a', 'p', 'p', 'e', 'r']
  | .list _ => ['l', 'i', 's', 't']
  | .map _ _ => ['m', 'a', 'p']
  | .opaque n _ => n
  | .struct n => n
  | .type0 => ['t', 'y', 'p', 'e']
  | .type _ => ['t', 'y', 'p', 'e']
  | .param n => n

/-- The parameters of a type. -/
def args : Ty → List Ty
  | .wrapper p => [.basic p.basic]
  | .list e => [e]
  | .map k v => [k, v]
  | .opaque _ ps => ps
  | .type t => [t]
  | _ => []

/-- Parameters in brackets, commas between; nothing if there are none. -/
def brackets : List Name → Name
  | [] => []
  | s :: ss => '(' :: (List.intercalate [',', ' '] (s :: ss) ++ [')'])

mutual
/-- The text of a type: its name, the texts of its parameters in brackets. -/
inductive Text : Ty → Name → Prop where
  | mk {t : Ty} {ss : List Name} (h : Texts (args t) ss) : Text t (head t ++ brackets ss)

inductive Texts : List Ty → List Name → Prop where
  | nil : Texts [] []
  | cons {t : Ty} {s : Name} {ts : List Ty} {ss : List Name} (h : Text t s) (hs : Texts ts ss) : Texts (t :: ts) (s :: ss)
end

/-- What a name is used for. -/
inductive Use where
  | builtin | struct | opaque | param
  deriving DecidableEq

/-- The names of the language. -/
def reserved : List Name :=
  [.dyn, .any, .bool, .bytes, .double, .duration, .int, .null, .string, .timestamp, .uint, .unknown, .error].map Basic.text ++
    [['w', 'r', 'a', 'p', 'p', 'e', 'r'], ['l', 'i', 's', 't'], ['m', 'a', 'p'], ['t', 'y', 'p', 'e']]

/-- No bracket and no comma. -/
def Plain (n : Name) : Prop := '(' ∉ n ∧ ')' ∉ n ∧ ',' ∉ n

mutual
/-- All names in the type are plain and used as `use` says. -/
inductive Named (use : Name → Use) : Ty → Prop where
  | basic (b : Basic) : Named use (.basic b)
  | wrapper (p : Prim) : Named use (.wrapper p)
  | list {e : Ty} (h : Named use e) : Named use (.list e)
  | map {k v : Ty} (hk : Named use k) (hv : Named use v) : Named use (.map k v)
  | opaque {n : Name} {ps : List Ty} (hn : Plain n) (hu : use n = .opaque) (h : Nameds use ps) : Named use (.opaque n ps)
  | struct {n : Name} (hn : Plain n) (hu : use n = .struct) : Named use (.struct n)
  | type0 : Named use .type0
  | type {t : Ty} (h : Named use t) : Named use (.type t)
  | param {n : Name} (hn : Plain n) (hu : use n = .param) : Named use (.param n)

inductive Nameds (use : Name → Use) : List Ty → Prop where
  | nil : Nameds use []
  | cons {t : Ty} {ts : List Ty} (h : Named use t) (hs : Nameds use ts) : Nameds use (t :: ts)
end

mutual
/-- The same type, enums taken for ints and functions for errors. -/
inductive Same : Ty → Ty → Prop where
  | basic (b : Basic) : Same (.basic b) (.basic b)
  | enum : Same (.basic .enum) (.basic .int)
  | int : Same (.basic .int) (.basic .enum)
  | function : Same (.basic .function) (.basic .error)
  | error : Same (.basic .error) (.basic .function)
  | wrapper (p : Prim) : Same (.wrapper p) (.wrapper p)
  | list {e e' : Ty} (h : Same e e') : Same (.list e) (.list e')
  | map {k k' v v' : Ty} (hk : Same k k') (hv : Same v v') : Same (.map k v) (.map k' v')
  | opaque (n : Name) {ps ps' : List Ty} (h : Sames ps ps') : Same (.opaque n ps) (.opaque n ps')
  | struct (n : Name) : Same (.struct n) (.struct n)
  | type0 : Same .type0 .type0
  | type {t t' : Ty} (h : Same t t') : Same (.type t) (.type t')
  | param (n : Name) : Same (.param n) (.param n)

inductive Sames : List Ty → List Ty → Prop where
  | nil : Sames [] []
  | cons {t t' : Ty} {ts ts' : List Ty} (h : Same t t') (hs : Sames ts ts') : Sames (t :: ts) (t' :: ts')
end

/-! ### Proofs: the text -/

/-- After the first parameter. -/
def after : List Name → Name
  | [] => [')']
  | s :: ss => [',', ' '] ++ s ++ after ss

theorem brackets_cons (s : Name) (ss : List Name) : brackets (s :: ss) = '(' :: (s ++ after ss) := by
  have h : ∀ (s : Name) (ss : List Name), List.intercalate [',', ' '] (s :: ss) ++ [')'] = s ++ after ss := by
    intro s ss
    induction ss generalizing s with
    | nil => simp [List.intercalate, after]
    | cons u ss ih =>
      have := ih u
      simp only [List.intercalate, List.intersperse_cons_cons, List.flatten_cons, after, List.append_assoc] at this ⊢
      rw [this]
  simp only [brackets, h]

mutual
theorem text_ex : ∀ t : Ty, ∃ s, Text t s ∧ ∃ n, ∀ m out st, run (n + m) out ((t, 0) :: st) = run m (out ++ s) st
  | .basic b => ⟨_, .mk .nil, 1, fun m out st => by rw [Nat.add_comm]; simp [run, emit, head, brackets]⟩
  | .wrapper p => by
    refine ⟨_, .mk (.cons (.mk .nil) .nil), 1, fun m out st => ?_⟩
    rw [Nat.add_comm]
    cases p <;> simp [run, emit, head, brackets_cons, after, Prim.text, Prim.basic, Basic.text, brackets]
  | .list e => by
    obtain ⟨s, hs, n, hn⟩ := text_ex e
    refine ⟨_, .mk (.cons hs .nil), 1 + (n + 1), fun m out st => ?_⟩
    rw [show 1 + (n + 1) + m = n + (m + 1) + 1 by omega]
    simp only [run, emit, if_true, List.cons_append, List.nil_append, hn]
    simp [run, emit, head, brackets_cons, after]
  | .map k v => by
    obtain ⟨s, hs, n, hn⟩ := text_ex k
    obtain ⟨s', hs', n', hn'⟩ := text_ex v
    refine ⟨_, .mk (.cons hs (.cons hs' .nil)), 1 + (n + 1 + (n' + 1)), fun m out st => ?_⟩
    rw [show 1 + (n + 1 + (n' + 1)) + m = n + (n' + (m + 1) + 1) + 1 by omega]
    simp only [run, emit, if_true, List.cons_append, List.nil_append, hn]
    simp only [run, emit, if_true, List.cons_append, List.nil_append, hn', Nat.one_ne_zero, if_false]
    simp [run, emit, head, brackets_cons, after]
  | .opaque n [] => ⟨_, .mk .nil, 1, fun m out st => by rw [Nat.add_comm]; simp [run, emit, head, brackets]⟩
  | .opaque n (p :: ps) => by
    obtain ⟨s, hs, k, hk⟩ := text_ex p
    obtain ⟨ss, hss, k', hk'⟩ := texts_ex n ps [p] (by simp)
    refine ⟨_, .mk (.cons hs hss), 1 + (k + k'), fun m out st => ?_⟩
    rw [show 1 + (k + k') + m = k + (k' + m) + 1 by omega]
    simp only [run, emit, if_true, List.cons_append, List.nil_append, hk]
    have := hk' m (out ++ (n ++ ['(']) ++ s) st
    simp only [List.length_singleton, List.cons_append, List.nil_append] at this
    rw [this]
    simp [head, brackets_cons]
  | .struct n => ⟨_, .mk .nil, 1, fun m out st => by rw [Nat.add_comm]; simp [run, emit, head, brackets]⟩
  | .type0 => ⟨_, .mk .nil, 1, fun m out st => by rw [Nat.add_comm]; simp [run, emit, head, brackets]⟩
  | .type e => by
    obtain ⟨s, hs, n, hn⟩ := text_ex e
    refine ⟨_, .mk (.cons hs .nil), 1 + (n + 1), fun m out st => ?_⟩
    rw [show 1 + (n + 1) + m = n + (m + 1) + 1 by omega]
    simp only [run, emit, if_true, List.cons_append, List.nil_append, hn]
    simp [run, emit, head, brackets_cons, after]
  | .param n => ⟨_, .mk .nil, 1, fun m out st => by rw [Nat.add_comm]; simp [run, emit, head, brackets]⟩

theorem texts_ex (name : Name) : ∀ (ps pre : List Ty), pre ≠ [] → ∃ ss, Texts ps ss ∧ ∃ n, ∀ m out st,
    run (n + m) out ((.opaque name (pre ++ ps), pre.length) :: st) = run m (out ++ after ss) st
  | [], pre, hp => by
    have h0 : pre.length ≠ 0 := fun h => hp (List.length_eq_zero_iff.1 h)
    refine ⟨[], .nil, 1, fun m out st => ?_⟩
    rw [Nat.add_comm]
    simp [run, emit, h0, after]
  | p :: ps, pre, hp => by
    have h0 : pre.length ≠ 0 := fun h => hp (List.length_eq_zero_iff.1 h)
    obtain ⟨s, hs, k, hk⟩ := text_ex p
    obtain ⟨ss, hss, k', hk'⟩ := texts_ex name ps (pre ++ [p]) (by simp)
    refine ⟨_, .cons hs hss, 1 + (k + k'), fun m out st => ?_⟩
    rw [show 1 + (k + k') + m = k + (k' + m) + 1 by omega]
    have e : (pre ++ p :: ps)[pre.length]? = some p := by simp
    simp only [run, emit, if_neg h0, e, List.cons_append, List.nil_append, hk]
    have := hk' m (out ++ [',', ' '] ++ s) st
    simp only [List.append_assoc, List.length_append, List.length_singleton, List.cons_append, List.nil_append] at this ⊢
    rw [this]
    simp [after]
end

/-! ### Proofs: two types with one text -/

/-- What can follow a type: nothing, or a character that is in no name and is not `(`. -/
def Stop (r : Name) : Prop := ∀ c, r.head? = some c → c = ',' ∨ c = ')'

/-- What can follow a name. -/
def End (r : Name) : Prop := ∀ c, r.head? = some c → c = '(' ∨ c = ',' ∨ c = ')'

theorem split_names : ∀ {a b : Name} {r r' : Name}, Plain a → Plain b → End r → End r' → a ++ r = b ++ r' → a = b ∧ r = r'
  | [], [], _, _, _, _, _, _, h => ⟨rfl, h⟩
  | [], c :: b, r, r', _, hb, hr, _, h => by
    simp only [List.nil_append] at h
    rcases hr c (by rw [h]; rfl) with e | e | e <;> subst e
    · exact absurd (by simp) hb.1
    · exact absurd (by simp) hb.2.2
    · exact absurd (by simp) hb.2.1
  | c :: a, [], r, r', ha, _, _, hr, h => by
    simp only [List.nil_append] at h
    rcases hr c (by rw [← h]; rfl) with e | e | e <;> subst e
    · exact absurd (by simp) ha.1
    · exact absurd (by simp) ha.2.2
    · exact absurd (by simp) ha.2.1
  | c :: a, d :: b, r, r', ha, hb, hr, hr', h => by
    simp only [List.cons_append, List.cons.injEq] at h
    have tl : ∀ {x : Char} {l : Name}, Plain (x :: l) → Plain l := fun h =>
      ⟨fun e => h.1 (List.mem_cons_of_mem _ e), fun e => h.2.1 (List.mem_cons_of_mem _ e), fun e => h.2.2 (List.mem_cons_of_mem _ e)⟩
    have := split_names (tl ha) (tl hb) hr hr' h.2
    exact ⟨by rw [h.1, this.1], this.2⟩

instance (n : Name) : Decidable (Plain n) := by unfold Plain; infer_instance

theorem plain_head {use : Name → Use} {t : Ty} (h : Named use t) : Plain (head t) := by
  cases h with
  | basic b => cases b <;> decide
  | «opaque» hn _ _ => exact hn
  | struct hn _ => exact hn
  | param hn _ => exact hn
  | _ => exact (by decide : ∀ n ∈ reserved, Plain n) _ (by simp [reserved, head])

theorem args_named {use : Name → Use} {t : Ty} (h : Named use t) : Nameds use (args t) := by
  cases h with
  | wrapper p => exact .cons (.basic _) .nil
  | list h => exact .cons h .nil
  | map hk hv => exact .cons hk (.cons hv .nil)
  | «opaque» _ _ h => exact h
  | type h => exact .cons h .nil
  | _ => exact .nil

theorem end_brackets (ss : List Name) {r : Name} (hr : Stop r) : End (brackets ss ++ r) := by
  intro c h
  cases ss with
  | nil => exact Or.inr (hr c h)
  | cons s ss => rw [brackets_cons] at h; left; simpa using h.symm

theorem stop_after (ss : List Name) (r : Name) : Stop (after ss ++ r) := by
  intro c h
  cases ss with
  | nil => right; simpa [after] using h.symm
  | cons s ss => left; simpa [after] using h.symm

theorem basic_same {b b' : Basic} (h : b.text = b'.text) : Same (.basic b) (.basic b') := by
  by_cases hb : b = b'
  · subst hb; exact .basic _
  · revert h hb
    cases b <;> cases b' <;> intro h hb <;> first
      | exact absurd rfl hb
      | exact absurd h (by decide)
      | exact .enum
      | exact .int
      | exact .function
      | exact .error

def useOf : Ty → Use
  | .opaque _ _ => .opaque
  | .struct _ => .struct
  | .param _ => .param
  | _ => .builtin

theorem use_head {use : Name → Use} (hu : ∀ n ∈ reserved, use n = .builtin) {t : Ty} (h : Named use t) :
    use (head t) = useOf t := by
  cases h with
  | basic b => exact hu _ (by cases b <;> decide)
  | «opaque» _ h _ => exact h
  | struct _ h => exact h
  | param _ h => exact h
  | _ => exact hu _ (by simp [reserved, head])

theorem basic_head {b : Basic} : b.text ≠ ['w', 'r', 'a', 'p', 'p', 'e', 'r'] ∧ b.text ≠ ['l', 'i', 's', 't'] ∧ b.text ≠ ['m', 'a', 'p'] ∧ b.text ≠ ['t', 'y', 'p', 'e'] := by
  cases b <;> decide

theorem same_of {t t' : Ty} (hu : useOf t = useOf t') (hh : head t = head t') (ha : Sames (args t) (args t')) : Same t t' := by
  cases t <;> cases t' <;> first
    | (exfalso; simp [useOf] at hu; done)
    | (exfalso; simp [head] at hh; done)
    | exact basic_same hh
    | exact absurd hh basic_head.1
    | exact absurd hh basic_head.2.1
    | exact absurd hh basic_head.2.2.1
    | exact absurd hh basic_head.2.2.2
    | exact absurd hh.symm basic_head.1
    | exact absurd hh.symm basic_head.2.1
    | exact absurd hh.symm basic_head.2.2.1
    | exact absurd hh.symm basic_head.2.2.2
    | (simp only [head] at hh; subst hh; exact .struct _)
    | (simp only [head] at hh; subst hh; exact .param _)
    | (simp only [head] at hh; subst hh; exact .opaque _ ha)
    | exact .type0
    | (cases ha with | cons h hs => exact .list h)
    | (cases ha with | cons h hs => exact .type h)
    | (cases ha with | cons h hs => cases hs with | cons h' _ => exact .map h h')
    | (cases ha; done)
    | (rename_i p p'
       cases ha with
       | cons h hs => cases p <;> cases p' <;> first | exact .wrapper _ | (cases h; done))

mutual
theorem inj {use : Name → Use} (hu : ∀ n ∈ reserved, use n = .builtin) : ∀ (N : Nat) {t t' : Ty} {s s' r r' : Name}, 2 * s.length < N →
    Text t s → Text t' s' → Named use t → Named use t' → Stop r → Stop r' → s ++ r = s' ++ r' → Same t t' ∧ r = r'
  | 0, _, _, _, _, _, _, l, _, _, _, _, _, _, _ => absurd l (Nat.not_lt_zero _)
  | N + 1, t, t', s, s', r, r', l, h, h', hn, hn', hr, hr', e => by
    obtain ⟨h⟩ := h
    rename_i ss
    obtain ⟨h'⟩ := h'
    rename_i ss'
    rw [List.append_assoc, List.append_assoc] at e
    obtain ⟨eh, eb⟩ := split_names (plain_head hn) (plain_head hn') (end_brackets ss hr) (end_brackets ss' hr') e
    have key : Sames (args t) (args t') ∧ r = r' := by
      revert eb
      cases ss with
      | nil =>
        cases ss' with
        | nil =>
          intro eb
          generalize args t = a at h
          generalize args t' = a' at h'
          cases h; cases h'
          exact ⟨.nil, eb⟩
        | cons s ss =>
          intro eb
          rw [brackets_cons] at eb
          rcases hr '(' (by rw [show r = _ from eb]; rfl) with x | x <;> exact absurd x (by decide)
      | cons s ss =>
        cases ss' with
        | nil =>
          intro eb
          rw [brackets_cons] at eb
          rcases hr' '(' (by rw [show r' = _ from eb.symm]; rfl) with x | x <;> exact absurd x (by decide)
        | cons s' ss' =>
          intro eb
          rw [brackets_cons, brackets_cons] at eb
          simp only [List.cons_append, List.append_assoc, List.cons.injEq, true_and] at eb
          refine inj_first hu N ?_ h h' (args_named hn) (args_named hn') eb
          simp only [brackets_cons, List.length_append, List.length_cons] at l
          omega
    refine ⟨same_of ?_ eh key.1, key.2⟩
    rw [← use_head hu hn, ← use_head hu hn', eh]

theorem inj_first {use : Name → Use} (hu : ∀ n ∈ reserved, use n = .builtin) : ∀ (N : Nat) {ts ts' : List Ty} {s s' : Name} {ss ss' : List Name}
    {r r' : Name}, 2 * (s.length + (after ss).length) < N → Texts ts (s :: ss) → Texts ts' (s' :: ss') → Nameds use ts → Nameds use ts' →
    s ++ (after ss ++ r) = s' ++ (after ss' ++ r') → Sames ts ts' ∧ r = r'
  | 0, _, _, _, _, _, _, _, _, l, _, _, _, _, _ => absurd l (Nat.not_lt_zero _)
  | N + 1, _, _, _, _, ss, ss', r, r', l, .cons h hs, .cons h' hs', .cons hn hns, .cons hn' hns', e => by
    have la : 0 < (after ss).length := by cases ss <;> simp [after]
    obtain ⟨h1, e1⟩ := inj hu N (by omega) h h' hn hn' (stop_after _ _) (stop_after _ _) e
    obtain ⟨h2, e2⟩ := inj_after hu N (by omega) hs hs' hns hns' e1
    exact ⟨.cons h1 h2, e2⟩

theorem inj_after {use : Name → Use} (hu : ∀ n ∈ reserved, use n = .builtin) : ∀ (N : Nat) {ts ts' : List Ty} {ss ss' : List Name}
    {r r' : Name}, 2 * (after ss).length ≤ N + 1 → Texts ts ss → Texts ts' ss' → Nameds use ts → Nameds use ts' →
    after ss ++ r = after ss' ++ r' → Sames ts ts' ∧ r = r'
  | _, _, _, _, _, r, r', _, .nil, .nil, _, _, e => ⟨.nil, by simpa [after] using e⟩
  | _, _, _, _, _, r, r', _, .nil, .cons _ _, _, _, e => by simp [after] at e
  | _, _, _, _, _, r, r', _, .cons _ _, .nil, _, _, e => by simp [after] at e
  | 0, _, _, _, _, r, r', l, .cons h hs, .cons h' hs', _, _, e => by
    simp [after] at l; omega
  | N + 1, _, _, _, _, r, r', l, .cons h hs, .cons h' hs', .cons hn hns, .cons hn' hns', e => by
    simp only [after, List.length_append, List.length_cons, List.length_nil] at l
    simp only [after, List.cons_append, List.nil_append, List.append_assoc, List.cons.injEq, true_and] at e
    obtain ⟨h1, e1⟩ := inj hu N (by omega) h h' hn hn' (stop_after _ _) (stop_after _ _) e
    obtain ⟨h2, e2⟩ := inj_after hu N (by omega) hs hs' hns hns' e1
    exact ⟨.cons h1 h2, e2⟩
end

/-! ### The theorems -/

/-- **C92 (the text).** Printing a type ends with its text. -/
theorem C92_text (t : Ty) : ∃ s, Text t s ∧ ∃ n, ∀ m, n ≤ m → run m [] [(t, 0)] = some s := by
  obtain ⟨s, hs, n, hn⟩ := text_ex t
  refine ⟨s, hs, n, fun m hm => ?_⟩
  have := hn (m - n) [] []
  rw [show n + (m - n) = m by omega] at this
  rw [this]
  cases m - n <;> rfl

/-- **C92 (one text, one type).** If each name is used for one thing only, two types with the same text are the
same, but for enums and ints and for functions and errors. -/
theorem C92_tells (use : Name → Use) (hu : ∀ n ∈ reserved, use n = .builtin) (t t' : Ty) (hn : Named use t) (hn' : Named use t')
    (n : Nat) (s : Name) (h : run n [] [(t, 0)] = some s) (n' : Nat) (h' : run n' [] [(t', 0)] = some s) : Same t t' := by
  have det : ∀ (n m : Nat) (out : Name) (st : List (Ty × Nat)) (s : Name), run n out st = some s → run (n + m) out st = some s := by
    intro n
    induction n with
    | zero =>
      intro m out st s h
      cases st with
      | nil => cases m <;> simpa [run] using h
      | cons a st => simp [run] at h
    | succ n ih =>
      intro m out st s h
      cases st with
      | nil => rw [show n + 1 + m = (n + m) + 1 by omega]; simpa [run] using h
      | cons a st =>
        rw [show n + 1 + m = (n + m) + 1 by omega]
        simp only [run] at h ⊢
        exact ih m _ _ _ h
  have one : ∀ (t : Ty) (n : Nat), run n [] [(t, 0)] = some s → Text t s := by
    intro t n h
    obtain ⟨s', hs', k, hk⟩ := C92_text t
    have h1 := det n k _ _ _ h
    rw [hk (n + k) (by omega)] at h1
    rw [← Option.some.inj h1]
    exact hs'
  exact (inj hu _ (Nat.lt_succ_self _) (one t n h) (one t' n' h') hn hn' (r := []) (r' := []) (by intro c h; simp at h) (by intro c h; simp at h) rfl).1

/-- **C92, where it cannot tell.** Enums look like ints; an opaque type of the name `list`, or a type parameter of the
name `int`, looks like the type of the language. -/
theorem C92_boundary :
    run 1 [] [(.basic .enum, 0)] = run 1 [] [(.basic .int, 0)] ∧
    run 3 [] [(.opaque ['l', 'i', 's', 't'] [.basic .int], 0)] = run 3 [] [(.list (.basic .int), 0)] ∧
    run 1 [] [(.param ['i', 'n', 't'], 0)] = run 1 [] [(.basic .int, 0)] := by
  refine ⟨by decide +kernel, by decide +kernel, by decide +kernel⟩

/-- A case: `map(string, vec(T, wrapper(int)))`. -/
theorem C92_example :
    run 9 [] [(.map (.basic .string) (.opaque ['v', 'e', 'c'] [.param ['T'], .wrapper .int]), 0)] =
      some ['m', 'a', 'p', '(', 's', 't', 'r', 'i', 'n', 'g', ',', ' ', 'v', 'e', 'c', '(', 'T', ',', ' ', 'w', 'r', 'a', 'p', 'p', 'e', 'r', '(', 'i', 'n', 't', ')', ')', ')'] ∧
    Named (fun n => if n = ['v', 'e', 'c'] then .opaque else if n = ['T'] then .param else .builtin)
      (.map (.basic .string) (.opaque ['v', 'e', 'c'] [.param ['T'], .wrapper .int])) ∧
    ∀ n ∈ reserved, (if n = ['v', 'e', 'c'] then Use.opaque else if n = ['T'] then .param else .builtin) = .builtin := by
  refine ⟨by decide +kernel, .map (.basic _) (.opaque (by decide) (by decide) (.cons (.param (by decide) (by decide)) (.cons (.wrapper _) .nil))),
    by decide +kernel⟩

end Cel.TypeName
