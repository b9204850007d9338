import Verif.Proto.Machine

set_option linter.unusedSimpArgs false
set_option linter.unusedVariables false

/-!
# Child slots, and when a loop computes a given function

A node's children are created slot by slot; a slot may or may not come with a push.
-/

namespace Cel.Proto
open Cel

/-- One child position of the node being filled: what it holds afterwards and, if its source was
pushed, the generation of the address that was pushed. -/
structure Slot (S L : Type) where
  cell : Cell L
  push : Option (Nat × S)

/-- The pushes of a list of slots, starting at child position `i`. -/
def slotPushes {S L : Type} : Nat → List (Slot S L) → List (Push S)
  | _, [] => []
  | i, s :: ss =>
    (match s.push with
      | some (a, t) => [⟨i, a, t⟩]
      | none => []) ++ slotPushes (i + 1) ss

/-- Append the slots to the children that the node holds. -/
def finish {S L : Type} (cur : List (Cell L)) (l : L) (ss : List (Slot S L)) : Filled S L :=
  ⟨l, cur ++ ss.map (·.cell), slotPushes cur.length ss⟩

/-- The children, when every pushed source is converted with `G`; the last slot first. -/
def evalSlots {S L : Type} (G : S → Except Status (Tree L)) :
    List (Slot S L) → Except Status (List (Tree L))
  | [] => .ok []
  | s :: ss =>
    match evalSlots G ss with
    | .error e => .error e
    | .ok ts =>
      match s.push with
      | none => .ok (forget s.cell :: ts)
      | some (_, t) =>
        match G t with
        | .error e => .error e
        | .ok x => .ok (x :: ts)

/-- Total size of what the slots push. -/
def pushedSize {S L : Type} (size : S → Nat) : List (Slot S L) → Nat
  | [] => 0
  | s :: ss => (match s.push with | some (_, t) => size t | none => 0) + pushedSize size ss

/-- The cell a machine ends with holds the tree that a function returns. -/
def Sim {L : Type} : Except Status (Cell L) → Except Status (Tree L) → Prop
  | .ok c, .ok t => forget c = t
  | .error e, .error e' => e = e'
  | _, _ => False

def SimL {L : Type} (tail : List (Cell L)) :
    Except Status (List (Cell L)) → Except Status (List (Tree L)) → Prop
  | .ok cs, .ok ts => ∃ cs0, cs = cs0 ++ tail ∧ forgets cs0 = ts
  | .error e, .error e' => e = e'
  | _, _ => False

/-- The loop, started on a target satisfying `Fresh`, computes `G` on `s`, in at most `size s`
iterations. -/
def Done {S L : Type} (st : Stepper S L) (G : S → Except Status (Tree L)) (size : S → Nat)
    (Fresh : L → List (Cell L) → Prop) (s : S) : Prop :=
  ∀ a l ks, Fresh l ks → ∃ r n, Big st s (.node (a, l) ks) r n ∧ Sim r (G s) ∧ n ≤ size s

theorem slotPushes_append {S L : Type} : ∀ (i : Nat) (xs ys : List (Slot S L)),
    slotPushes i (xs ++ ys) = slotPushes i xs ++ slotPushes (i + xs.length) ys
  | i, [], ys => by simp [slotPushes]
  | i, x :: xs, ys => by
    simp only [List.cons_append, slotPushes, slotPushes_append (i + 1) xs ys, List.length_cons,
      List.append_assoc]
    rw [show i + 1 + xs.length = i + (xs.length + 1) by omega]

theorem forgets_append {L : Type} : ∀ xs ys : List (Cell L),
    forgets (xs ++ ys) = forgets xs ++ forgets ys
  | [], ys => by simp [forgets]
  | x :: xs, ys => by simp [forgets, forgets_append xs ys]

theorem evalSlots_append {S L : Type} (G : S → Except Status (Tree L)) :
    ∀ xs ys : List (Slot S L), evalSlots G (xs ++ ys) =
      match evalSlots G ys with
      | .error e => .error e
      | .ok ts =>
        match evalSlots G xs with
        | .error e => .error e
        | .ok us => .ok (us ++ ts)
  | [], ys => by
    simp only [List.nil_append, evalSlots]
    cases evalSlots G ys <;> simp
  | x :: xs, ys => by
    simp only [List.cons_append, evalSlots, evalSlots_append G xs ys]
    cases evalSlots G ys with
    | error e => rfl
    | ok ts =>
      simp only
      cases evalSlots G xs with
      | error e => rfl
      | ok us =>
        simp only
        cases x.push with
        | none => simp
        | some p =>
          simp only
          cases G p.2 <;> simp

theorem pushedSize_append {S L : Type} (size : S → Nat) : ∀ xs ys : List (Slot S L),
    pushedSize size (xs ++ ys) = pushedSize size xs + pushedSize size ys
  | [], ys => by simp [pushedSize]
  | x :: xs, ys => by
    simp only [List.cons_append, pushedSize, pushedSize_append size xs ys]; omega

/-- A slot whose pushed address is the address of its (still empty) cell. -/
def Slot.Ok {S L : Type} (dflt : L) (s : Slot S L) : Prop :=
  ∀ a t, s.push = some (a, t) → s.cell = .node (a, dflt) []

theorem slots_done_aux {S L : Type} {st : Stepper S L} {G : S → Except Status (Tree L)}
    {size : S → Nat} {Fresh : L → List (Cell L) → Prop} {dflt : L} (hd : Fresh dflt []) :
    ∀ (k : Nat) (ss : List (Slot S L)), ss.length = k → (∀ s ∈ ss, s.Ok dflt) →
    (∀ s ∈ ss, ∀ a t, s.push = some (a, t) → Done st G size Fresh t) → ∀ tail,
    ∃ r n, BigKids st (slotPushes 0 ss).reverse (ss.map (·.cell) ++ tail) r n ∧
      SimL tail r (evalSlots G ss) ∧ n ≤ pushedSize size ss
  | 0, ss, hl, _, _, tail => by
    have : ss = [] := List.length_eq_zero_iff.mp hl
    subst this
    exact ⟨_, _, BigKids.nil, ⟨[], rfl, rfl⟩, Nat.zero_le _⟩
  | k + 1, ss, hl, hok, hdn, tail => by
    have hne : ss ≠ [] := by intro h; rw [h] at hl; cases hl
    obtain ⟨init, s, rfl⟩ : ∃ i s, ss = i ++ [s] :=
      ⟨_, _, (List.dropLast_concat_getLast hne).symm⟩
    have hil : init.length = k := by simpa using hl
    have hok' : ∀ s ∈ init, s.Ok dflt := fun x hx => hok x (by simp [hx])
    have hdn' : ∀ s ∈ init, ∀ a t, s.push = some (a, t) → Done st G size Fresh t :=
      fun x hx => hdn x (by simp [hx])
    rw [slotPushes_append, evalSlots_append, pushedSize_append]
    simp only [Nat.zero_add, slotPushes, List.append_nil, evalSlots, pushedSize,
      List.reverse_append]
    cases hp : s.push with
    | none =>
      simp only [List.reverse_nil, List.nil_append, Nat.add_zero]
      obtain ⟨r, n, hb, hs, hn⟩ := slots_done_aux hd k init hil hok' hdn' (s.cell :: tail)
      refine ⟨r, n, ?_, ?_, hn⟩
      · simpa using hb
      · cases r with
        | error e =>
          cases he : evalSlots G init with
          | error e' => rw [he] at hs; exact hs
          | ok us => rw [he] at hs; exact hs.elim
        | ok cs =>
          cases he : evalSlots G init with
          | error e' => rw [he] at hs; exact hs.elim
          | ok us =>
            rw [he] at hs
            obtain ⟨cs0, h1, h2⟩ := hs
            exact ⟨cs0 ++ [s.cell], by simp [h1], by
              simp [forgets_append, h2, forgets]⟩
    | some q =>
      obtain ⟨a, t⟩ := q
      simp only [List.reverse_cons, List.reverse_nil, List.nil_append, List.cons_append]
      have hcell := hok s (by simp) a t hp
      obtain ⟨r0, n0, hb0, hs0, hn0⟩ := hdn s (by simp) a t hp a dflt [] hd
      have hidx : (List.map (fun x => x.cell) (init ++ [s]) ++ tail)[init.length]? =
          some (.node (a, dflt) []) := by
        simp [hcell]
      cases r0 with
      | error e =>
        refine ⟨_, _, BigKids.err hidx hb0, ?_, by omega⟩
        cases hg : G t with
        | error e' => rw [hg] at hs0; exact hs0
        | ok x => rw [hg] at hs0; exact hs0.elim
      | ok c =>
        cases hg : G t with
        | error e' => rw [hg] at hs0; exact hs0.elim
        | ok x =>
          rw [hg] at hs0
          simp only
          obtain ⟨r, n, hb, hs, hn⟩ := slots_done_aux hd k init hil hok' hdn' (c :: tail)
          have hset : (List.map (fun x => x.cell) (init ++ [s]) ++ tail).set init.length c =
              init.map (·.cell) ++ c :: tail := by
            simp [List.set_append]
          refine ⟨r, _, BigKids.cons hidx hb0 (by rw [hset]; exact hb), ?_, by omega⟩
          cases r with
          | error e =>
            cases he : evalSlots G init with
            | error e' => rw [he] at hs; exact hs
            | ok us => rw [he] at hs; exact hs.elim
          | ok cs =>
            cases he : evalSlots G init with
            | error e' => rw [he] at hs; exact hs.elim
            | ok us =>
              rw [he] at hs
              obtain ⟨cs0, h1, h2⟩ := hs
              exact ⟨cs0 ++ [c], by simp [h1], by
                simp only [forgets_append, h2, forgets]
                rw [show forget c = x from hs0]⟩

/-- If filling a node makes exactly these slots, and the loop computes `G` on everything pushed,
then it computes the node with the converted children. -/
theorem slots_done {S L : Type} {st : Stepper S L} {G : S → Except Status (Tree L)}
    {size : S → Nat} {Fresh : L → List (Cell L) → Prop} {dflt : L} (hd : Fresh dflt []) {s : S}
    (lab : L) (ss : List (Slot S L)) (hok : ∀ x ∈ ss, x.Ok dflt)
    (hdn : ∀ x ∈ ss, ∀ a t, x.push = some (a, t) → Done st G size Fresh t)
    (hst : ∀ l ks, Fresh l ks → st s l ks = .ok (finish [] lab ss))
    (hG : G s = match evalSlots G ss with
      | .error e => .error e
      | .ok ts => .ok (.node lab ts))
    (hsz : pushedSize size ss + 1 ≤ size s) : Done st G size Fresh s := by
  intro a l ks hf
  obtain ⟨r, n, hb, hs, hn⟩ := slots_done_aux (st := st) hd ss.length ss rfl hok hdn []
  have hst' := hst l ks hf
  rw [List.append_nil] at hb
  cases r with
  | error e =>
    refine ⟨_, _, Big.okE hst' (by simpa [finish] using hb), ?_, by omega⟩
    rw [hG]
    cases he : evalSlots G ss with
    | error e' => rw [he] at hs; exact hs
    | ok us => rw [he] at hs; exact hs.elim
  | ok cs =>
    refine ⟨_, _, Big.ok hst' (by simpa [finish] using hb), ?_, by omega⟩
    rw [hG]
    cases he : evalSlots G ss with
    | error e' => rw [he] at hs; exact hs.elim
    | ok us =>
      rw [he] at hs
      obtain ⟨cs0, h1, h2⟩ := hs
      rw [List.append_nil] at h1
      subst h1
      simp [Sim, forget, finish, h2]

/-- Filling a node may also fail. -/
theorem err_done {S L : Type} {st : Stepper S L} {G : S → Except Status (Tree L)}
    {size : S → Nat} {Fresh : L → List (Cell L) → Prop} {s : S} (e : Status)
    (hst : ∀ l ks, Fresh l ks → st s l ks = .error e) (hG : G s = .error e) (hsz : 1 ≤ size s) :
    Done st G size Fresh s := by
  intro a l ks hf
  exact ⟨_, _, Big.err (hst l ks hf), by rw [hG]; exact rfl, hsz⟩

/-- The whole loop: it stops, uses no dangling pointer and computes `G`. -/
theorem run_done {S L : Type} {st : Stepper S L} {G : S → Except Status (Tree L)}
    {size : S → Nat} {Fresh : L → List (Cell L) → Prop} {s : S} (h : Done st G size Fresh s)
    (a : Nat) (l : L) (ks : List (Cell L)) (hf : Fresh l ks) (fuel : Nat) (hfuel : size s ≤ fuel) :
    match G s with
    | .ok t => ∃ c, run st fuel [⟨s, []⟩] (.node (a, l) ks) = some (.ok c) ∧ forget c = t
    | .error e => run st fuel [⟨s, []⟩] (.node (a, l) ks) = some (.err e) := by
  obtain ⟨r, n, hb, hs, hn⟩ := h a l ks hf
  obtain ⟨k, rfl⟩ : ∃ k, fuel = n + k := ⟨fuel - n, by omega⟩
  have := run_big hb k [] [] (.node (a, l) ks) rfl
  rw [this]
  cases r with
  | error e =>
    cases hg : G s with
    | error e' => rw [hg] at hs; simp only; rw [show e = e' from hs]
    | ok t => rw [hg] at hs; exact hs.elim
  | ok c =>
    cases hg : G s with
    | error e' => rw [hg] at hs; exact hs.elim
    | ok t =>
      rw [hg] at hs
      exact ⟨c, by simp [run, store], hs⟩

end Cel.Proto
