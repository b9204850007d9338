import Verif.Names.Model

/-!
# C38: container name resolution
-/

set_option linter.unusedSimpArgs false
set_option linter.unusedVariables false

namespace Cel.Names
open Cel

/-! ## Specification -/

/-- The namespaces enclosing an expression in the container with these segments, innermost first: the container without
its last 0, 1, 2, ... segments, down to the root. -/
def enclosing (segs : List Name) : List (List Name) :=
  (List.range (segs.length + 1)).map (fun k => segs.take (segs.length - k))

/-- Candidates for a name: it is prefixed with each enclosing namespace, innermost first. -/
def nameCandidates (segs path : List Name) : List Name := (enclosing segs).map (fun ns => joinDot (ns ++ path))

/-- Candidates for `a.b.c`: in each enclosing namespace, `a.b.c`, then `a.b`, then `a`, with the index of the last
segment taken; the remaining segments are field selections. -/
def pathCandidates (segs path : List Name) : List (Name × Nat) :=
  (enclosing segs).flatMap fun ns =>
    (List.range path.length).map fun i => (joinDot (ns ++ path.take (path.length - i)), path.length - i - 1)

/-- Identifiers: what the names and containers of an expression are made of. -/
def Idents (l : List Name) : Prop := ∀ s ∈ l, isIdentifier s = true

/-- Segments with no dot in them, and not empty. -/
def Segs (l : List Name) : Prop := ∀ s ∈ l, s ≠ [] ∧ '.' ∉ s

/-- A name written `x.y.z` or `.x.y.z`. -/
def written (root : Bool) (path : List Name) : Name := if root then '.' :: joinDot path else joinDot path

/-- The first segment of a written path carries the leading dot. -/
def writtenPath (root : Bool) : List Name → List Name
  | [] => []
  | n :: ns => (if root then '.' :: n else n) :: ns

/-! ## Names as paths -/

theorem isIdentifier_seg {s : Name} (h : isIdentifier s = true) : s ≠ [] ∧ '.' ∉ s := by
  cases s with
  | nil => simp [isIdentifier] at h
  | cons a r =>
    refine ⟨by simp, ?_⟩
    intro hm
    unfold isIdentifier at h
    simp only [] at h
    split at h
    · simp at h
    · rename_i h1
      split at h
      · simp at h
      · rename_i h2
        rcases List.mem_cons.1 hm with rfl | hm
        · exact h1 (by decide)
        · apply h2
          rw [List.any_eq_true]
          exact ⟨'.', hm, by decide⟩

theorem Idents.segs {l : List Name} (h : Idents l) : Segs l := fun s hs => isIdentifier_seg (h s hs)

theorem splitDot_ne_nil (n : Name) : splitDot n ≠ [] := by
  cases n with
  | nil => simp [splitDot]
  | cons c cs =>
    simp only [splitDot]
    split
    · simp
    · split <;> simp

theorem splitDot_nodot {s : Name} (h : '.' ∉ s) : splitDot s = [s] := by
  induction s with
  | nil => rfl
  | cons c cs ih =>
    have hc : c ≠ '.' := by rintro rfl; simp at h
    have hcs : '.' ∉ cs := fun hm => h (List.mem_cons_of_mem _ hm)
    simp only [splitDot, if_neg hc, ih hcs]

theorem splitDot_append {s : Name} (h : '.' ∉ s) (r : Name) : splitDot (s ++ '.' :: r) = s :: splitDot r := by
  induction s with
  | nil => simp [splitDot]
  | cons c cs ih =>
    have hc : c ≠ '.' := by rintro rfl; simp at h
    have hcs : '.' ∉ cs := fun hm => h (List.mem_cons_of_mem _ hm)
    simp only [List.cons_append, splitDot, if_neg hc, ih hcs]

theorem joinDot_cons {s : Name} {l : List Name} (h : l ≠ []) : joinDot (s :: l) = s ++ '.' :: joinDot l := by
  cases l with
  | nil => exact absurd rfl h
  | cons a l => rfl

theorem splitDot_joinDot {l : List Name} (h : Segs l) (hne : l ≠ []) : splitDot (joinDot l) = l := by
  induction l with
  | nil => exact absurd rfl hne
  | cons s l ih =>
    cases l with
    | nil => exact splitDot_nodot (h s (by simp)).2
    | cons a l =>
      rw [joinDot_cons (by simp), splitDot_append (h s (by simp)).2,
        ih (fun x hx => h x (List.mem_cons_of_mem _ hx)) (by simp)]

theorem joinDot_splitDot (n : Name) : joinDot (splitDot n) = n := by
  induction n with
  | nil => rfl
  | cons c cs ih =>
    simp only [splitDot]
    split
    · rename_i h
      rw [joinDot_cons (splitDot_ne_nil _), ih, h]; rfl
    · cases hs : splitDot cs with
      | nil => exact absurd hs (splitDot_ne_nil _)
      | cons s ss =>
        rw [hs] at ih
        simp only []
        cases ss with
        | nil => simp only [joinDot] at ih ⊢; rw [ih]
        | cons a l => rw [joinDot_cons (by simp)] at ih ⊢; rw [← ih]; rfl

theorem joinDot_ne_nil {l : List Name} (h : Segs l) (hne : l ≠ []) : joinDot l ≠ [] := by
  cases l with
  | nil => exact absurd rfl hne
  | cons s l =>
    have := (h s (by simp)).1
    cases l with
    | nil => exact this
    | cons a l => rw [joinDot_cons (by simp)]; simp

theorem joinDot_append {a b : List Name} (ha : a ≠ []) (hb : b ≠ []) : joinDot (a ++ b) = joinDot a ++ '.' :: joinDot b := by
  induction a with
  | nil => exact absurd rfl ha
  | cons s a ih =>
    cases a with
    | nil => simp only [List.cons_append, List.nil_append]; rw [joinDot_cons hb]; rfl
    | cons x a =>
      rw [List.cons_append, joinDot_cons (by simp), ih (by simp), joinDot_cons (l := x :: a) (by simp)]
      simp

/-- No written path starts with a dot of its own. -/
theorem joinDot_head {l : List Name} (h : Segs l) (r : Name) : joinDot l ≠ '.' :: r := by
  cases l with
  | nil => simp [joinDot]
  | cons s l =>
    obtain ⟨h1, h2⟩ := h s (by simp)
    cases s with
    | nil => exact absurd rfl h1
    | cons c s =>
      have hc : c ≠ '.' := by rintro rfl; simp at h2
      cases l with
      | nil => simp [joinDot, hc]
      | cons a l => rw [joinDot_cons (by simp)]; simp [hc]

theorem stripDot_of {n : Name} (h : ∀ r, n ≠ '.' :: r) : stripDot n = n := by
  unfold stripDot
  split
  · rename_i r; exact absurd rfl (h r)
  · rfl

theorem startsDot_of {n : Name} (h : ∀ r, n ≠ '.' :: r) : startsDot n = false := by
  unfold startsDot
  split
  · rename_i r; exact absurd rfl (h r)
  · rfl

theorem qualified_go (n : Name) : ∀ cur, '.' ∉ cur →
    (isValidQualifiedName.go n cur = true ↔ Idents (splitDot (cur ++ n))) := by
  induction n with
  | nil =>
    intro cur hc
    simp only [isValidQualifiedName.go, List.append_nil, splitDot_nodot hc]
    simp [Idents]
  | cons c cs ih =>
    intro cur hcur
    simp only [isValidQualifiedName.go]
    by_cases hc : c = '.'
    · subst hc
      rw [if_pos rfl, splitDot_append hcur]
      by_cases hi : isIdentifier cur = true
      · simp only [hi, Bool.not_true, Bool.false_eq_true, if_false]
        rw [ih [] (by simp), List.nil_append]
        simp [Idents, hi]
      · simp only [Bool.not_eq_true] at hi
        simp [hi, Idents]
    · rw [if_neg hc, ih (cur ++ [c]) (by simp [hcur, Ne.symm hc])]
      simp

/-- The validator accepts exactly the dot-separated identifiers. -/
theorem C38_qualified_names (name : Name) :
    isValidQualifiedName name = true ↔ ∃ segs, segs ≠ [] ∧ Idents segs ∧ name = joinDot segs := by
  unfold isValidQualifiedName
  rw [qualified_go name [] (by simp), List.nil_append]
  constructor
  · intro h; exact ⟨splitDot name, splitDot_ne_nil _, h, (joinDot_splitDot name).symm⟩
  · rintro ⟨segs, hne, hi, rfl⟩
    rw [splitDot_joinDot hi.segs hne]; exact hi

/-! ## Configuring a container -/

/-- The configuration operations. -/
inductive Op where
  | setContainer (name : Name)
  | addAlias (alias name : Name)
  | addAbbreviation (name : Name)

/-- One operation; a rejected one returns an error status and changes nothing. -/
def Op.run (c : Container) : Op → Container
  | .setContainer n => (c.setContainer n).getD c
  | .addAlias a n => (c.addAlias a n).getD c
  | .addAbbreviation n => (c.addAbbreviation n).getD c

/-- A configuration any history of operations can reach. -/
def Reachable (c : Container) : Prop := ∃ ops : List Op, c = ops.foldl Op.run {}

/-- What holds of every configuration. -/
structure WellConfigured (c : Container) : Prop where
  /-- the container is empty or a qualified name -/
  container : ∃ segs, Idents segs ∧ c.container = joinDot segs
  /-- aliases are identifiers standing for qualified names -/
  aliases : ∀ e ∈ c.aliases, isIdentifier e.1 = true ∧ ∃ segs, segs ≠ [] ∧ Idents segs ∧ e.2 = joinDot segs
  /-- an alias has one meaning -/
  unique : c.aliases.Pairwise (fun a b => a.1 ≠ b.1)
  /-- no alias is the container's first segment -/
  apart : ∀ e ∈ c.aliases, ∀ segs, Idents segs → c.container = joinDot segs → segs.head? ≠ some e.1

theorem collides_iff {segs : List Name} {alias : Name} (h : Idents segs) (ha : isIdentifier alias = true) :
    collides (joinDot segs) alias = true ↔ segs.head? = some alias := by
  obtain ⟨ha1, ha2⟩ := isIdentifier_seg ha
  cases segs with
  | nil =>
    simp only [joinDot, collides, List.head?_nil]
    cases alias with
    | nil => exact absurd rfl ha1
    | cons => simp
  | cons s l =>
    obtain ⟨hs1, hs2⟩ := isIdentifier_seg (h s (by simp))
    simp only [List.head?_cons, Option.some.injEq]
    cases l with
    | nil =>
      simp only [joinDot, collides, Bool.or_eq_true, Bool.and_eq_true, beq_iff_eq, decide_eq_true_eq]
      constructor
      · rintro (h1 | ⟨_, h3⟩)
        · exact h1
        · exact absurd (List.mem_of_getElem? h3) hs2
      · exact fun h1 => .inl h1
    | cons a l =>
      rw [joinDot_cons (by simp)]
      simp only [collides, Bool.or_eq_true, Bool.and_eq_true, beq_iff_eq, decide_eq_true_eq]
      constructor
      · rintro (h1 | ⟨⟨h1, h2⟩, h3⟩)
        · exact absurd (h1 ▸ (by simp : '.' ∈ s ++ '.' :: joinDot (a :: l))) ha2
        · by_cases hlt : alias.length < s.length
          · rw [List.getElem?_append_left hlt] at h3
            exact absurd (List.mem_of_getElem? h3) hs2
          · by_cases heq : alias.length = s.length
            · rw [heq, List.take_left] at h2; exact h2
            · exfalso
              apply ha2
              rw [← h2]
              rw [List.mem_iff_getElem?]
              refine ⟨s.length, ?_⟩
              rw [List.getElem?_take]
              rw [if_pos (by omega)]
              simp
      · rintro rfl
        right
        refine ⟨⟨by simp, List.take_left⟩, by simp⟩

theorem wc_empty : WellConfigured {} := by
  refine ⟨⟨[], by intro s hs; simp at hs, rfl⟩, by intro e he; simp at he, by simp, by intro e he; simp at he⟩

theorem wc_set {c d : Container} {n : Name} (h : WellConfigured c) (hd : c.setContainer n = some d) : WellConfigured d := by
  unfold Container.setContainer at hd
  split at hd
  · simp only [Option.some.injEq] at hd; subst hd
    refine ⟨⟨[], by intro s hs; simp at hs, rfl⟩, h.aliases, h.unique, ?_⟩
    intro e he segs hs hc
    cases segs with
    | nil => simp
    | cons s l =>
      exact absurd hc.symm (joinDot_ne_nil hs.segs (by simp))
  · split at hd
    · simp at hd
    · rename_i hq
      split at hd
      · simp at hd
      · rename_i hcol
        simp only [Option.some.injEq] at hd; subst hd
        simp only [Bool.not_eq_true, Bool.not_eq_false', Bool.not_eq_false] at hq
        obtain ⟨segs, hne, hi, rfl⟩ := (C38_qualified_names n).1 hq
        refine ⟨⟨segs, hi, rfl⟩, h.aliases, h.unique, ?_⟩
        intro e he segs' hs' hc hh
        apply hcol
        rw [List.any_eq_true]
        refine ⟨e, he, ?_⟩
        simp only [] at hc
        rw [hc]
        exact (collides_iff hs' (h.aliases e he).1).2 hh

theorem wc_alias {c d : Container} {a n : Name} (h : WellConfigured c) (hd : c.addAlias a n = some d) : WellConfigured d := by
  unfold Container.addAlias at hd
  split at hd
  · simp at hd
  · rename_i ha
    split at hd
    · simp at hd
    · rename_i hq
      split at hd
      · simp at hd
      · rename_i hdup
        split at hd
        · simp at hd
        · rename_i hcol
          simp only [Option.some.injEq] at hd; subst hd
          simp only [Bool.not_eq_true, Bool.not_eq_false', Bool.not_eq_false] at hq ha
          refine ⟨h.container, ?_, ?_, ?_⟩
          · intro e he
            rcases List.mem_append.1 he with he | he
            · exact h.aliases e he
            · simp at he; subst he
              exact ⟨ha, (C38_qualified_names n).1 hq⟩
          · refine List.pairwise_append.2 ⟨h.unique, by simp, ?_⟩
            intro x hx y hy
            simp at hy; subst hy
            intro hxa
            apply hdup
            rw [List.find?_isSome]
            exact ⟨x, hx, by simp [hxa]⟩
          · intro e he segs hs hc
            rcases List.mem_append.1 he with he | he
            · exact h.apart e he segs hs hc
            · simp at he; subst he
              intro hh
              apply hcol
              have : c.container = joinDot segs := hc
              rw [this]
              exact (collides_iff hs ha).2 hh

theorem wc_step {c : Container} (h : WellConfigured c) (o : Op) : WellConfigured (o.run c) := by
  cases o with
  | setContainer n =>
    simp only [Op.run]
    cases hd : c.setContainer n with
    | none => exact h
    | some d => exact wc_set h hd
  | addAlias a n =>
    simp only [Op.run]
    cases hd : c.addAlias a n with
    | none => exact h
    | some d => exact wc_alias h hd
  | addAbbreviation n =>
    simp only [Op.run]
    cases hd : c.addAbbreviation n with
    | none => exact h
    | some d =>
      unfold Container.addAbbreviation at hd
      simp only [] at hd
      split at hd
      · simp at hd
      · split at hd
        · simp at hd
        · split at hd
          · simp at hd
          · exact wc_alias h hd

/-- **C38 (configuration).** Whatever operations are made on a container, accepted or rejected, it stays well configured:
its name and aliases are well formed, each alias has one meaning, and none is the container's first segment. -/
theorem C38_configuration {c : Container} (h : Reachable c) : WellConfigured c := by
  obtain ⟨ops, rfl⟩ := h
  have : ∀ (ops : List Op) (c : Container), WellConfigured c → WellConfigured (ops.foldl Op.run c) := by
    intro ops
    induction ops with
    | nil => exact fun c h => h
    | cons o ops ih => exact fun c h => ih _ (wc_step h o)
  exact this ops {} wc_empty

/-- An accepted alias is found, and other names are unaffected. -/
theorem C38_alias_found {c d : Container} {a n : Name} (h : c.addAlias a n = some d) :
    d.findAlias a = n ∧ ∀ b, b ≠ a → d.findAlias b = c.findAlias b := by
  unfold Container.addAlias at h
  split at h
  · simp at h
  · split at h
    · simp at h
    · split at h
      · simp at h
      · rename_i hdup
        split at h
        · simp at h
        · simp only [Option.some.injEq] at h; subst h
          have hn : c.aliases.find? (fun e => e.1 == a) = none := by
            cases hf : c.aliases.find? (fun e => e.1 == a) with
            | none => rfl
            | some x => rw [hf] at hdup; simp at hdup
          constructor
          · simp only [Container.findAlias, List.find?_append, hn]
            simp
          · intro b hb
            simp only [Container.findAlias, List.find?_append]
            cases c.aliases.find? (fun e => e.1 == b) with
            | some x => simp
            | none => simp [Ne.symm hb]

theorem rfindDot_last (x : Name) {s : Name} (h : '.' ∉ s) : rfindDot (x ++ '.' :: s) = some x.length := by
  unfold rfindDot
  have hlen : (x ++ '.' :: s).length = x.length + 1 + s.length := by simp; omega
  rw [hlen]
  have hgen : ∀ m, m ≤ s.length → (List.range (x.length + 1 + m)).reverse.find?
      (fun i => (x ++ '.' :: s)[i]? == some '.') = some x.length := by
    intro m
    induction m with
    | zero =>
      intro _
      rw [Nat.add_zero, List.range_succ, List.reverse_append]
      simp
    | succ m ih =>
      intro hm
      rw [← Nat.add_assoc, List.range_succ, List.reverse_append]
      simp only [List.reverse_cons, List.reverse_nil, List.nil_append, List.cons_append, List.find?_cons]
      have hno : ((x ++ '.' :: s)[x.length + 1 + m]? == some '.') = false := by
        rw [List.getElem?_append_right (by omega), show x.length + 1 + m - x.length = m + 1 by omega, List.getElem?_cons_succ]
        cases hs : s[m]? with
        | none => simp
        | some c =>
          have : c ≠ '.' := by rintro rfl; exact h (List.mem_of_getElem? hs)
          simp [this]
      rw [hno]
      exact ih (by omega)
  exact hgen s.length (Nat.le_refl _)

theorem rfindDot_none {s : Name} (h : '.' ∉ s) : rfindDot s = none := by
  unfold rfindDot
  rw [List.find?_eq_none]
  intro i _
  cases hs : s[i]? with
  | none => simp
  | some c =>
    have : c ≠ '.' := by rintro rfl; exact h (List.mem_of_getElem? hs)
    simp [this]

theorem identifier_char {s : Name} (h : isIdentifier s = true) : ∀ c ∈ s, isSpace c = false := by
  intro c hc
  have hword : isAlnum c = true ∨ c = '_' := by
    cases s with
    | nil => simp at hc
    | cons a r =>
      unfold isIdentifier at h
      simp only [] at h
      split at h
      · simp at h
      · rename_i h1
        split at h
        · simp at h
        · rename_i h2
          rcases List.mem_cons.1 hc with rfl | hc
          · simp only [Bool.and_eq_true, Bool.not_eq_true', bne_iff_ne, ne_eq, not_and, Decidable.not_not] at h1
            cases ha : isAlpha c with
            | true => left; unfold isAlnum; rw [ha]; rfl
            | false => right; exact h1 ha
          · simp only [List.any_eq_true, not_exists, not_and, Bool.and_eq_true, Bool.not_eq_true', bne_iff_ne, ne_eq, Decidable.not_not] at h2
            cases ha : isAlnum c with
            | true => left; rfl
            | false => right; exact h2 c hc ha
  rcases hword with h | rfl
  · cases hsp : isSpace c with
    | false => rfl
    | true =>
      exfalso
      unfold isAlnum isAlpha at h
      unfold isSpace at hsp
      simp only [Bool.or_eq_true, Bool.and_eq_true, decide_eq_true_eq, Char.le_def] at h hsp
      have e1 : 'a'.val = 97 := rfl
      have e2 : 'z'.val = 122 := rfl
      have e3 : 'A'.val = 65 := rfl
      have e4 : 'Z'.val = 90 := rfl
      have e5 : '0'.val = 48 := rfl
      have e6 : '9'.val = 57 := rfl
      have e7 : '\t'.val = 9 := rfl
      have e8 : '\r'.val = 13 := rfl
      rw [e1, e2, e3, e4, e5, e6] at h
      rw [e7, e8] at hsp
      rcases hsp with rfl | hsp
      · revert h; decide
      · simp only [UInt32.le_iff_toNat_le] at h hsp
        have : (97 : UInt32).toNat = 97 := rfl
        have : (122 : UInt32).toNat = 122 := rfl
        have : (65 : UInt32).toNat = 65 := rfl
        have : (90 : UInt32).toNat = 90 := rfl
        have : (48 : UInt32).toNat = 48 := rfl
        have : (57 : UInt32).toNat = 57 := rfl
        have : (9 : UInt32).toNat = 9 := rfl
        have : (13 : UInt32).toNat = 13 := rfl
        omega
  · decide

theorem joinDot_chars {l : List Name} (h : Idents l) : ∀ c ∈ joinDot l, isSpace c = false := by
  induction l with
  | nil => intro c hc; simp [joinDot] at hc
  | cons s l ih =>
    have hs := identifier_char (h s (by simp))
    have hl := ih fun x hx => h x (List.mem_cons_of_mem _ hx)
    cases l with
    | nil => exact hs
    | cons a l =>
      intro c hc
      rw [joinDot_cons (by simp)] at hc
      simp only [List.mem_append, List.mem_cons] at hc
      rcases hc with hc | rfl | hc
      · exact hs c hc
      · decide
      · exact hl c hc

theorem strip_id {s : Name} (h : ∀ c ∈ s, isSpace c = false) : stripWhitespace s = s := by
  have hd : ∀ t : Name, (∀ c ∈ t, isSpace c = false) → t.dropWhile isSpace = t := by
    intro t ht
    cases t with
    | nil => rfl
    | cons a t => rw [List.dropWhile_cons, ht a (by simp)]; rfl
  unfold stripWhitespace
  rw [hd s h, hd s.reverse (by simpa using h), List.reverse_reverse]

/-- **C38 (abbreviations).** The abbreviation `a.b.C` is the alias `C` for `a.b.C`; an unqualified one is rejected. -/
theorem C38_abbreviation (c : Container) {ns : List Name} {last : Name} (h : Idents (ns ++ [last])) :
    c.addAbbreviation (joinDot (ns ++ [last])) = if ns = [] then none else c.addAlias last (joinDot (ns ++ [last])) := by
  have hq : isValidQualifiedName (joinDot (ns ++ [last])) = true := (C38_qualified_names _).2 ⟨_, by simp, h, rfl⟩
  obtain ⟨h1, h2⟩ := isIdentifier_seg (h last (by simp))
  unfold Container.addAbbreviation
  rw [strip_id (joinDot_chars h)]
  simp only [hq, Bool.not_true, Bool.false_eq_true, if_false]
  by_cases hn : ns = []
  · subst hn
    rw [if_pos rfl]
    simp only [List.nil_append, joinDot, rfindDot_none h2]
  · rw [if_neg hn]
    have hns : Segs ns := fun x hx => h.segs x (List.mem_append_left _ hx)
    have hj : joinDot (ns ++ [last]) = joinDot ns ++ '.' :: last := by rw [joinDot_append hn (by simp)]; rfl
    rw [hj, rfindDot_last _ h2]
    simp only []
    have hpos : 0 < (joinDot ns).length := List.length_pos_iff.2 (joinDot_ne_nil hns hn)
    have hlpos : 0 < last.length := List.length_pos_iff.2 h1
    rw [if_neg (by rw [List.length_append, List.length_cons]; omega)]
    congr 1
    rw [show (joinDot ns).length + 1 = (joinDot ns ++ ['.']).length by simp,
      show joinDot ns ++ '.' :: last = (joinDot ns ++ ['.']) ++ last by simp, List.drop_left]

/-- In a well-configured container a name is an alias exactly if a non-empty string is found for it. -/
theorem findAlias_path {c : Container} (h : WellConfigured c) (a : Name) (hf : c.findAlias a ≠ []) :
    ∃ segs, segs ≠ [] ∧ Idents segs ∧ c.findAlias a = joinDot segs := by
  unfold Container.findAlias at hf ⊢
  cases hx : c.aliases.find? (fun e => e.1 == a) with
  | none => rw [hx] at hf; exact absurd rfl hf
  | some e => exact (h.aliases e (List.mem_of_find?_eq_some hx)).2

/-! ## Candidates -/

theorem foldl_prefixes (segs : List Name) (hs : Segs segs) : ∀ (pre : List Name) (acc : List Name), Segs pre →
    (segs.foldl (fun (st : Name × List Name) segment =>
      let p := if st.1 = [] then segment else st.1 ++ '.' :: segment
      (p, st.2 ++ [p])) (joinDot pre, acc)).2
      = acc ++ (List.range segs.length).map (fun k => joinDot (pre ++ segs.take (k + 1))) := by
  induction segs with
  | nil => intro pre acc hp; simp
  | cons s l ih =>
    intro pre acc hp
    have hl : Segs l := fun x hx => hs x (List.mem_cons_of_mem _ hx)
    have hp' : Segs (pre ++ [s]) := by
      intro x hx
      rcases List.mem_append.1 hx with hx | hx
      · exact hp x hx
      · simp only [List.mem_singleton] at hx; rw [hx]; exact hs s (by simp)
    have e : (if joinDot pre = [] then s else joinDot pre ++ '.' :: s) = joinDot (pre ++ [s]) := by
      by_cases hpe : pre = []
      · subst hpe; rfl
      · rw [if_neg (joinDot_ne_nil hp hpe), joinDot_append hpe (by simp)]; rfl
    rw [List.foldl_cons]
    simp only [e]
    rw [ih hl (pre ++ [s]) (acc ++ [joinDot (pre ++ [s])]) hp']
    rw [List.length_cons, List.range_succ_eq_map, List.map_cons, List.map_map, List.append_assoc]
    simp [Function.comp_def]

theorem range_reverse (n : Nat) : (List.range n).reverse = (List.range n).map (fun k => n - 1 - k) := by
  apply List.ext_getElem
  · simp
  · intro i h1 h2
    simp

theorem namespacePrefixes_eq {segs : List Name} (h : Idents segs) :
    namespacePrefixes (joinDot segs) = (List.range segs.length).map (fun k => joinDot (segs.take (segs.length - k))) := by
  unfold namespacePrefixes
  by_cases hne : segs = []
  · subst hne; rfl
  · rw [if_neg (joinDot_ne_nil h.segs hne), splitDot_joinDot h.segs hne]
    have := foldl_prefixes segs h.segs [] [] (by intro x hx; simp at hx)
    simp only [joinDot, List.nil_append] at this
    rw [this, ← List.map_reverse, range_reverse, List.map_map]
    apply List.map_congr_left
    intro k hk
    simp only [List.mem_range] at hk
    simp only [Function.comp_def]
    congr 2
    omega

theorem enclosing_eq {α : Type} (segs : List Name) (f : List Name → α) : (enclosing segs).map f =
    (List.range segs.length).map (fun k => f (segs.take (segs.length - k))) ++ [f []] := by
  unfold enclosing
  rw [List.range_succ, List.map_append, List.map_append, List.map_map]
  simp [Function.comp_def]

theorem forUntil_append {α σ : Type} (body : Callback α σ) (a b : List α) (s : σ) : forUntil body (a ++ b) s =
    match forUntil body a s with
    | (false, s) => (false, s)
    | (true, s) => forUntil body b s := by
  induction a generalizing s with
  | nil => rfl
  | cons x a ih =>
    simp only [List.cons_append, forUntil]
    cases hb : body x s with
    | mk b' s' =>
      cases b' with
      | false => rfl
      | true => simp only []; exact ih s'

theorem forUntil_map {α β σ : Type} (f : α → β) (cb : Callback β σ) (l : List α) (s : σ) :
    forUntil cb (l.map f) s = forUntil (fun a => cb (f a)) l s := by
  induction l generalizing s with
  | nil => rfl
  | cons x l ih =>
    simp only [List.map_cons, forUntil]
    cases cb (f x) s with
    | mk b' s' =>
      cases b' with
      | false => rfl
      | true => exact ih s'

theorem forUntil_flatMap {α β σ : Type} (f : α → List β) (cb : Callback β σ) (l : List α) (s : σ) :
    forUntil cb (l.flatMap f) s = forUntil (fun a => forUntil cb (f a)) l s := by
  induction l generalizing s with
  | nil => rfl
  | cons x l ih =>
    rw [List.flatMap_cons, forUntil_append]
    simp only [forUntil]
    cases forUntil cb (f x) s with
    | mk b' s' =>
      cases b' with
      | false => rfl
      | true => exact ih s'

theorem forUntil_congr {α σ : Type} {f g : Callback α σ} {l : List α} (h : ∀ a ∈ l, ∀ s, f a s = g a s) (s : σ) :
    forUntil f l s = forUntil g l s := by
  induction l generalizing s with
  | nil => rfl
  | cons x l ih =>
    simp only [forUntil, h x (by simp) s]
    cases g x s with
    | mk b' s' =>
      cases b' with
      | false => rfl
      | true => exact ih (fun a ha => h a (List.mem_cons_of_mem _ ha)) s'

theorem forUntil_single {α σ : Type} (cb : Callback α σ) (a : α) (s : σ) : forUntil cb [a] s = cb a s := by
  simp only [forUntil]
  cases cb a s with
  | mk b' s' => cases b' <;> rfl

theorem takeWhile_join {s : Name} (h : '.' ∉ s) (l : List Name) :
    (joinDot (s :: l)).takeWhile (· ≠ '.') = s ∧
      (joinDot (s :: l)).dropWhile (· ≠ '.') = if l = [] then [] else '.' :: joinDot l := by
  have hall : ∀ x ∈ s, decide (x ≠ '.') = true := fun x hx => by simp; rintro rfl; exact h hx
  cases l with
  | nil =>
    simp only [joinDot, if_true]
    have h1 := List.takeWhile_append_of_pos (l₂ := []) hall
    have h2 := List.dropWhile_append_of_pos (l₂ := []) hall
    rw [List.append_nil] at h1 h2
    exact ⟨by rw [h1]; simp, by rw [h2]; simp⟩
  | cons a l =>
    rw [joinDot_cons (by simp), if_neg (by simp)]
    constructor
    · rw [List.takeWhile_append_of_pos hall]; simp
    · rw [List.dropWhile_append_of_pos hall]; simp

/-- **C38 (simple names).** For a name made of identifiers, the candidates offered one after the other until one is
taken are: if its first segment is an alias, just the name with the alias replaced; otherwise, with a leading dot, just
the name; otherwise the name in each enclosing namespace, innermost first, ending with the name itself. -/
theorem C38_simple_candidates {σ : Type} {c : Container} (hc : WellConfigured c) {segs path : List Name} (hs : Idents segs)
    (hcont : c.container = joinDot segs) (hp : Idents path) {n : Name} {rest : List Name} (hpath : path = n :: rest)
    (root : Bool) (cb : Callback Name σ) (s : σ) :
    c.simpleCandidates (written root path) cb s =
      (forUntil cb (if c.findAlias n ≠ [] then [joinDot (c.findAlias n :: rest)]
        else if root then [joinDot path] else nameCandidates segs path) s).2 := by
  have hne : path ≠ [] := by rw [hpath]; simp
  obtain ⟨hn1, hn2⟩ := isIdentifier_seg (hp n (by rw [hpath]; simp))
  have hhead := joinDot_head hp.segs
  have hsimple : stripDot (written root path) = joinDot path := by
    cases root with
    | true => rfl
    | false => exact stripDot_of hhead
  have hroot : startsDot (written root path) = root := by
    cases root with
    | true => rfl
    | false => exact startsDot_of hhead
  have htw := takeWhile_join hn2 rest
  rw [← hpath] at htw
  have hcontainer : (if root then (cb (joinDot path) s).2
      else match forUntil (fun pre s => cb (pre ++ '.' :: joinDot path) s) (namespacePrefixes c.container) s with
      | (false, s) => s
      | (true, s) => (cb (joinDot path) s).2) = (forUntil cb (if root then [joinDot path] else nameCandidates segs path) s).2 := by
    cases root with
    | true => simp only [if_true, forUntil_single]
    | false =>
      simp only [Bool.false_eq_true, if_false]
      rw [nameCandidates, enclosing_eq, forUntil_append, forUntil_map, hcont, namespacePrefixes_eq hs, forUntil_map]
      rw [forUntil_congr (g := fun k => cb (joinDot (segs.take (segs.length - k) ++ path)))]
      · cases forUntil (fun k => cb (joinDot (segs.take (segs.length - k) ++ path))) (List.range segs.length) s with
        | mk b s' =>
          cases b with
          | false => rfl
          | true => simp only [forUntil_single]; rfl
      · intro k hk s
        rw [List.mem_range] at hk
        rw [joinDot_append _ hne]
        intro h0
        have := congrArg List.length h0
        rw [List.length_take] at this
        simp at this
        omega
  unfold Container.simpleCandidates
  simp only [hsimple, hroot, htw.1, htw.2]
  by_cases hr : rest = []
  · subst hr
    simp only [if_true]
    have : joinDot path = n := by rw [hpath]; rfl
    rw [show c.findAlias (joinDot path) = c.findAlias n by rw [this]]
    by_cases ha : c.findAlias n ≠ []
    · rw [if_pos ha, if_pos ha, forUntil_single]; rfl
    · rw [if_neg ha, if_neg ha]; exact hcontainer
  · simp only [if_neg hr]
    by_cases ha : c.findAlias n ≠ []
    · rw [if_pos ha, if_pos ha, forUntil_single, joinDot_cons hr]
    · rw [if_neg ha, if_neg ha]; exact hcontainer

theorem fieldSelect_plain {σ : Type} {ns path : List Name} (hns : Idents ns) (hp : Idents path) (root : Bool)
    (cb : Callback (Name × Nat) σ) (s : σ) :
    fieldSelectCandidates (joinDot ns) (writtenPath root path) false cb s =
      forUntil cb ((List.range path.length).map
        fun i => (joinDot (ns ++ path.take (path.length - i)), path.length - i - 1)) s := by
  have hlen : (writtenPath root path).length = path.length := by cases path <;> rfl
  rw [forUntil_map]
  simp only [fieldSelectCandidates, hlen]
  rw [forUntil_congr (g := fun i => cb (joinDot (ns ++ path.take (path.length - i)), path.length - i - 1))]
  · cases forUntil (fun i => cb (joinDot (ns ++ path.take (path.length - i)), path.length - i - 1)) (List.range path.length) s with
    | mk b s' => cases b <;> rfl
  · intro i hi s
    rw [List.mem_range] at hi
    have hstrip : stripDot (joinDot ((writtenPath root path).take (path.length - i))) = joinDot (path.take (path.length - i)) := by
      have hseg : Segs (path.take (path.length - i)) := fun x hx => hp.segs x (List.mem_of_mem_take hx)
      cases path with
      | nil => simp at hi
      | cons n l =>
        obtain ⟨k, hk⟩ : ∃ k, (n :: l).length - i = k + 1 := ⟨(n :: l).length - i - 1, by omega⟩
        rw [hk] at hseg ⊢
        cases root with
        | false => exact stripDot_of (joinDot_head hseg)
        | true =>
          simp only [writtenPath, if_true, List.take_succ_cons]
          cases hl : l.take k with
          | nil => rfl
          | cons a l' => rfl
    have htne : path.take (path.length - i) ≠ [] := by
      intro h0
      have := congrArg List.length h0
      rw [List.length_take, List.length_nil] at this
      omega
    simp only [hlen, hstrip, Bool.false_eq_true, if_false]
    congr 2
    by_cases hn : ns = []
    · subst hn; rfl
    · rw [if_pos (joinDot_ne_nil hns.segs hn), joinDot_append hn htne]

theorem fieldSelect_alias {σ : Type} {al rest : List Name} (hal : Idents al) (hne : al ≠ []) (hp : Idents rest)
    (cb : Callback (Name × Nat) σ) (s : σ) :
    fieldSelectCandidates (joinDot al) rest true cb s =
      forUntil cb ((List.range (rest.length + 1)).map
        fun i => (joinDot (al ++ rest.take (rest.length - i)), rest.length - i)) s := by
  rw [List.range_succ, List.map_append, forUntil_append, forUntil_map]
  simp only [fieldSelectCandidates]
  rw [forUntil_congr (g := fun i => cb (joinDot (al ++ rest.take (rest.length - i)), rest.length - i))]
  · cases forUntil (fun i => cb (joinDot (al ++ rest.take (rest.length - i)), rest.length - i)) (List.range rest.length) s with
    | mk b s' =>
      cases b with
      | false => rfl
      | true => simp [forUntil_single]
  · intro i hi s
    rw [List.mem_range] at hi
    have hseg : Segs (rest.take (rest.length - i)) := fun x hx => hp.segs x (List.mem_of_mem_take hx)
    have htne : rest.take (rest.length - i) ≠ [] := by
      intro h0
      have := congrArg List.length h0
      rw [List.length_take, List.length_nil] at this
      omega
    simp only [stripDot_of (joinDot_head hseg), if_true, if_pos (joinDot_ne_nil hal.segs hne), joinDot_append hne htne]
    rfl

/-- **C38 (qualified names).** For `a.b.c`, the candidates offered one after the other until one is taken are: if `a` is
an alias, `A.b.c`, `A.b`, `A` for what it stands for, and nothing else; otherwise, with a leading dot, `a.b.c`, `a.b`,
`a`; otherwise those three in each enclosing namespace, innermost first.  The index says how many segments were taken. -/
theorem C38_qualified_candidates {σ : Type} {c : Container} (hc : WellConfigured c) {segs path : List Name} (hs : Idents segs)
    (hcont : c.container = joinDot segs) (hp : Idents path) {n : Name} {rest : List Name} (hpath : path = n :: rest)
    (root : Bool) (cb : Callback (Name × Nat) σ) (s : σ) :
    c.qualifiedCandidates (writtenPath root path) cb s =
      (forUntil cb (if c.findAlias n ≠ [] then
          (List.range path.length).map fun i => (joinDot (c.findAlias n :: rest.take (rest.length - i)), rest.length - i)
        else if root then pathCandidates [] path else pathCandidates segs path) s).2 := by
  subst hpath
  have hn := hp n (by simp)
  obtain ⟨hn1, hn2⟩ := isIdentifier_seg hn
  have hrest : Idents rest := fun x hx => hp x (List.mem_cons_of_mem _ hx)
  have hnr : ∀ r, n ≠ '.' :: r := by rintro r rfl; simp at hn2
  have hstrip : stripDot (if root then '.' :: n else n) = n := by
    cases root with
    | true => rfl
    | false => exact stripDot_of hnr
  have hroot : startsDot (if root then '.' :: n else n) = root := by
    cases root with
    | true => rfl
    | false => exact startsDot_of hnr
  have hplain := fun (ns : List Name) (hns : Idents ns) (s : σ) => fieldSelect_plain hns hp root cb s
  have hempty : (fun s => fieldSelectCandidates [] (writtenPath root (n :: rest)) false cb s) =
      fun s => forUntil cb ((List.range (n :: rest).length).map
        fun i => (joinDot ([] ++ (n :: rest).take ((n :: rest).length - i)), (n :: rest).length - i - 1)) s :=
    funext fun s => hplain [] (by intro x hx; simp at hx) s
  have hempty' := fun s => congrFun hempty s
  unfold Container.qualifiedCandidates
  simp only [writtenPath] at hempty' hplain ⊢
  simp only [hstrip, hroot]
  by_cases ha : c.findAlias n ≠ []
  · rw [if_pos ha, if_pos ha]
    obtain ⟨al, hane, hai, he⟩ := findAlias_path hc n ha
    rw [he, fieldSelect_alias hai hane hrest]
    congr 2
    simp only [List.length_cons]
    apply List.map_congr_left
    intro i hi
    congr 1
    cases hr : rest.take (rest.length - i) with
    | nil => simp [joinDot]
    | cons x l => rw [joinDot_append hane (by simp)]; rfl
  · rw [if_neg ha, if_neg ha]
    cases root with
    | true =>
      simp only [if_true] at hempty' ⊢
      rw [hempty']
      simp [pathCandidates, enclosing]
    | false =>
      simp only [Bool.false_eq_true, if_false] at hempty' hplain ⊢
      have hpc : pathCandidates segs (n :: rest) = (List.range segs.length).flatMap (fun k =>
            (List.range (n :: rest).length).map fun i =>
              (joinDot (segs.take (segs.length - k) ++ (n :: rest).take ((n :: rest).length - i)), (n :: rest).length - i - 1)) ++
          (List.range (n :: rest).length).map fun i => (joinDot ([] ++ (n :: rest).take ((n :: rest).length - i)), (n :: rest).length - i - 1) := by
        unfold pathCandidates
        rw [List.flatMap_def, enclosing_eq, List.flatten_append]
        simp [List.flatMap_def]
      rw [hpc, forUntil_append, forUntil_flatMap, hcont, namespacePrefixes_eq hs, forUntil_map]
      rw [forUntil_congr (g := fun k => forUntil cb ((List.range (n :: rest).length).map fun i =>
              (joinDot (segs.take (segs.length - k) ++ (n :: rest).take ((n :: rest).length - i)), (n :: rest).length - i - 1)))]
      · cases forUntil (fun k => forUntil cb ((List.range (n :: rest).length).map fun i =>
              (joinDot (segs.take (segs.length - k) ++ (n :: rest).take ((n :: rest).length - i)), (n :: rest).length - i - 1)))
            (List.range segs.length) s with
        | mk b s' =>
          cases b with
          | false => rfl
          | true => simp only []; rw [hempty']
      · intro k hk s
        exact hplain _ (fun x hx => hs x (List.mem_of_mem_take hx)) s

/-! ## Resolution -/

/-- Looking names up until one is declared returns the first one declared. -/
theorem forUntil_lookup {α D : Type} (look : α → Option D) (l : List α) :
    (forUntil (fun cand (_ : Option D) => ((look cand).isNone, look cand)) l none).2 = l.findSome? look := by
  induction l with
  | nil => rfl
  | cons a l ih =>
    simp only [forUntil, List.findSome?_cons]
    cases h : look a with
    | none => simpa using ih
    | some d => rfl

theorem forUntil_lookup_idx {D : Type} (look : Name → Option D) (l : List (Name × Nat)) :
    (forUntil (lookupIndexed look) l (none, 0)).2 =
      match l.findSome? (fun p => (look p.1).map (·, p.2)) with
      | some (d, i) => (some d, i)
      | none => (none, 0) := by
  induction l with
  | nil => rfl
  | cons a l ih =>
    simp only [forUntil, List.findSome?_cons, lookupIndexed]
    cases h : look a.1 with
    | none => simpa using ih
    | some d => rfl

/-- **C38 (identifiers).** A one-segment identifier is the local variable of that name, unless it has a leading dot;
otherwise the first of its candidates that is declared. -/
theorem C38_resolve_simple {D : Type} {c : Container} (hc : WellConfigured c) {segs : List Name} (hs : Idents segs)
    (hcont : c.container = joinDot segs) {n : Name} (hn : isIdentifier n = true) (root : Bool) (locals globals : Name → Option D) :
    resolveSimple c locals globals (written root [n]) =
      match (if root then none else locals n) with
      | some d => some ⟨d, true, 0⟩
      | none => ((if c.findAlias n ≠ [] then [c.findAlias n] else if root then [n] else nameCandidates segs [n]).findSome?
          globals).map (⟨·, false, 0⟩) := by
  have hp : Idents [n] := by intro x hx; simp at hx; subst hx; exact hn
  have hsd : startsDot (written root [n]) = root := by
    cases root with
    | true => rfl
    | false => exact startsDot_of (joinDot_head hp.segs)
  have hcand := C38_simple_candidates hc hs hcont hp rfl root
    (fun cand (_ : Option D) => ((globals cand).isNone, globals cand)) none
  rw [forUntil_lookup] at hcand
  unfold resolveSimple lookupLocal
  simp only [hsd, hcand]
  cases root with
  | true => rfl
  | false => rfl

/-- **C38 (selections).** For an identifier followed by field selections, written `a.b.c` or `.a.b.c`: without a leading
dot a local variable `a` comes first, all the rest being field selections; otherwise the first declared of its
candidates is taken, and the segments after its index are field selections. -/
theorem C38_resolve_qualified {D : Type} {c : Container} (hc : WellConfigured c) {segs path : List Name} (hs : Idents segs)
    (hcont : c.container = joinDot segs) (hp : Idents path) {n : Name} {rest : List Name} (hpath : path = n :: rest)
    (hrest : rest ≠ []) (root : Bool) (locals globals : Name → Option D) :
    resolveQualified c locals globals (writtenPath root path) =
      match (if root then none else locals n) with
      | some d => some ⟨d, true, rest.length⟩
      | none => ((if c.findAlias n ≠ [] then
            (List.range path.length).map fun i => (joinDot (c.findAlias n :: rest.take (rest.length - i)), rest.length - i)
          else if root then pathCandidates [] path else pathCandidates segs path).findSome?
          (fun p => (globals p.1).map (fun d => ⟨d, false, rest.length - p.2⟩))) := by
  have hcand := C38_qualified_candidates hc hs hcont hp hpath root (lookupIndexed globals) (none, 0)
  rw [forUntil_lookup_idx] at hcand
  subst hpath
  cases rest with
  | nil => exact absurd rfl hrest
  | cons m rest =>
    obtain ⟨hn1, hn2⟩ := isIdentifier_seg (hp n (by simp))
    have hnr : ∀ r, n ≠ '.' :: r := by rintro r rfl; simp at hn2
    have hsd : startsDot (if root then '.' :: n else n) = root := by
      cases root with
      | true => rfl
      | false => exact startsDot_of hnr
    simp only [writtenPath] at hcand ⊢
    unfold resolveQualified lookupLocal
    simp only [hcand, hsd]
    generalize (if c.findAlias n ≠ [] then _ else _ : List (Name × Nat)) = L
    have hL : (match L.findSome? (fun (p : Name × Nat) => (globals p.1).map (·, p.2)) with
        | some (d, i) => ((some d : Option D), i)
        | none => (none, 0)).1.map (fun d => (⟨d, false, (m :: rest).length + 1 -
            (match L.findSome? (fun (p : Name × Nat) => (globals p.1).map (·, p.2)) with
              | some (d, i) => ((some d : Option D), i)
              | none => (none, 0)).2 - 1⟩ : Resolved D)) =
        L.findSome? (fun p => (globals p.1).map (fun d => (⟨d, false, (m :: rest).length - p.2⟩ : Resolved D))) := by
      induction L with
      | nil => rfl
      | cons a L ih =>
        simp only [List.findSome?_cons]
        cases hg : globals a.1 with
        | none => simpa using ih
        | some d =>
          simp only [Option.map_some, List.length_cons, Option.some.injEq, Resolved.mk.injEq, true_and]
          omega
    cases root with
    | true => exact hL
    | false =>
      simp only [Bool.not_false, if_true, Bool.false_eq_true, if_false]
      cases locals n with
      | some d => simp
      | none => exact hL

/-- What a candidate of a selection consists of: an enclosing namespace, the segments up to its index, and the field
selections after it. -/
theorem C38_path_candidate {segs path : List Name} {p : Name × Nat} :
    p ∈ pathCandidates segs path ↔
      p.2 < path.length ∧ ∃ ns, ns <+: segs ∧ p.1 = joinDot (ns ++ path.take (p.2 + 1)) := by
  unfold pathCandidates enclosing
  simp only [List.mem_flatMap, List.mem_map, List.mem_range]
  constructor
  · rintro ⟨ns, ⟨k, hk, rfl⟩, i, hi, rfl⟩
    refine ⟨by simp only []; omega, segs.take (segs.length - k), List.take_prefix _ _, ?_⟩
    simp only []
    rw [show path.length - i - 1 + 1 = path.length - i by omega]
  · rintro ⟨h1, ns, hns, h2⟩
    have hle := hns.length_le
    refine ⟨ns, ⟨segs.length - ns.length, by omega, ?_⟩, path.length - 1 - p.2, by omega, ?_⟩
    · rw [show segs.length - (segs.length - ns.length) = ns.length by omega]
      exact (List.prefix_iff_eq_take.1 hns).symm
    · have : path.length - (path.length - 1 - p.2) = p.2 + 1 := by omega
      rw [this]
      cases p
      simp only [] at h2 ⊢
      rw [h2]; simp

/-! ## Planning -/

theorem planPrefixes_foldl (segs : List Name) (hs : Segs segs) : ∀ (pre : Name) (acc : List Name),
    (segs.foldl (fun (st : Name × List Name) elem =>
      if elem = [] then st else (st.1 ++ elem ++ ['.'], (st.1 ++ elem ++ ['.']) :: st.2)) (pre, acc)).2
      = ((List.range segs.length).map (fun k => pre ++ (segs.take (segs.length - k)).flatMap (· ++ ['.']))) ++ acc := by
  induction segs with
  | nil => intro pre acc; simp
  | cons s l ih =>
    intro pre acc
    have hl : Segs l := fun x hx => hs x (List.mem_cons_of_mem _ hx)
    rw [List.foldl_cons]
    simp only [if_neg (hs s (by simp)).1]
    rw [ih hl]
    rw [List.length_cons, List.range_succ, List.map_append, List.append_assoc (List.map _ _)]
    congr 1
    · apply List.map_congr_left
      intro k hk
      rw [List.mem_range] at hk
      rw [show l.length + 1 - k = (l.length - k) + 1 by omega]
      simp
    · simp

theorem flatMap_dots {ns : List Name} (h : ns ≠ []) : ns.flatMap (· ++ ['.']) = joinDot ns ++ ['.'] := by
  induction ns with
  | nil => exact absurd rfl h
  | cons s l ih =>
    cases l with
    | nil => simp [joinDot]
    | cons a l => rw [List.flatMap_cons, ih (by simp), joinDot_cons (s := s) (l := a :: l) (by simp)]; simp

theorem flatMap_dots_append (ns : List Name) {path : List Name} (hp : path ≠ []) :
    ns.flatMap (· ++ ['.']) ++ joinDot path = joinDot (ns ++ path) := by
  by_cases hn : ns = []
  · subst hn; rfl
  · rw [flatMap_dots hn, joinDot_append hn hp]; simp

/-- **C38 (planning).** The planner's candidates are those of the specification. -/
theorem C38_plan_candidates {segs path : List Name} (hs : Idents segs) (hp : Idents path) (hne : path ≠ []) (root : Bool) :
    fullyQualifiedNames (joinDot segs) (written root path) = if root then [joinDot path] else nameCandidates segs path := by
  have hpl : planPrefixes (joinDot segs) = (enclosing segs).map (fun ns => ns.flatMap (· ++ ['.'])) := by
    unfold planPrefixes
    rw [enclosing_eq]
    by_cases hn : segs = []
    · subst hn; rfl
    · rw [splitDot_joinDot hs.segs hn, planPrefixes_foldl segs hs.segs [] [[]]]
      simp
  cases root with
  | true => simp [fullyQualifiedNames, prefixesFor, written]
  | false =>
    have hpf : prefixesFor (joinDot segs) (joinDot path) = (planPrefixes (joinDot segs), joinDot path) := by
      unfold prefixesFor
      split
      · rename_i r h; exact absurd h (joinDot_head hp.segs r)
      · rfl
    simp only [fullyQualifiedNames, written, Bool.false_eq_true, if_false, hpf, hpl, List.map_map, nameCandidates]
    apply List.map_congr_left
    intro ns _
    exact flatMap_dots_append ns hne

/-- **C38 (the two stages agree).** Without aliases the planner tries exactly the names the checker tried, in the same
order. -/
theorem C38_check_and_plan_agree {σ : Type} {c : Container} (hc : WellConfigured c) (hal : c.aliases = []) {path : List Name}
    (hp : Idents path) (hne : path ≠ []) (root : Bool) (cb : Callback Name σ) (s : σ) :
    c.simpleCandidates (written root path) cb s = (forUntil cb (fullyQualifiedNames c.container (written root path)) s).2 := by
  obtain ⟨segs, hs, hcont⟩ := hc.container
  cases hpath : path with
  | nil => exact absurd hpath hne
  | cons n rest =>
    rw [hpath] at hp hne
    rw [C38_simple_candidates hc hs hcont hp rfl root, hcont, C38_plan_candidates hs hp hne root]
    have : c.findAlias n = [] := by unfold Container.findAlias; rw [hal]; rfl
    rw [if_neg (by simp [this])]

theorem findOverloads_go {F : Type} (container name : Name) (registry : Name → List F) (ps : List Name) :
    findOverloads.go container name registry ps =
      ((ps.map (· ++ (prefixesFor container name).2)).map registry |>.find? (fun l => !l.isEmpty)).getD [] := by
  induction ps with
  | nil => rfl
  | cons p ps ih =>
    simp only [findOverloads.go, List.map_cons, List.find?_cons]
    cases h : registry (p ++ (prefixesFor container name).2) with
    | nil => simpa [h] using ih
    | cons x l => simp

/-- **C38 (functions).** A call is bound to the overloads of the first candidate that has any. -/
theorem C38_plan_overloads {F : Type} {segs path : List Name} (hs : Idents segs) (hp : Idents path) (hne : path ≠ [])
    (root : Bool) (registry : Name → List F) :
    findOverloads (joinDot segs) (written root path) registry =
      (((if root then [joinDot path] else nameCandidates segs path).map registry).find? (fun l => !l.isEmpty)).getD [] := by
  unfold findOverloads
  rw [findOverloads_go, ← C38_plan_candidates hs hp hne root]
  rfl

/-- Full statement for lazily bound functions: as `C38_plan_overloads`.  It is false: the planner asks the registry for
the name as written, so ... -/
def LazyOverloadsResolve : Prop :=
  ∀ (segs path : List Name), Idents segs → Idents path → path ≠ [] → ∀ registry : Name → List Nat,
    findLazyOverloads (joinDot segs) (joinDot path) registry =
      (((nameCandidates segs path).map registry).find? (fun l => !l.isEmpty)).getD []

/-- ... a lazily bound function is found only if it is registered under the unqualified name, ... -/
theorem C38_lazy_ignores_container {F : Type} (container : Name) {path : List Name} (hp : Idents path)
    (registry : Name → List F) :
    findLazyOverloads container (joinDot path) registry = registry (joinDot path) ∨
      findLazyOverloads container (joinDot path) registry = [] := by
  have hpf : (prefixesFor container (joinDot path)).2 = joinDot path := by
    unfold prefixesFor
    split
    · rename_i r h; exact absurd h (joinDot_head hp.segs r)
    · rfl
  unfold findLazyOverloads
  generalize (prefixesFor container (joinDot path)).1 = ps
  induction ps with
  | nil => right; rfl
  | cons p ps ih =>
    simp only [findLazyOverloads.go, hpf]
    by_cases h : registry (joinDot path) ≠ []
    · rw [if_pos h]; left; rfl
    · rw [if_neg h]; exact ih

/-- ... and one registered inside the container is not found by its short name. -/
theorem C38_lazy_resolution_fails : ¬ LazyOverloadsResolve := by
  intro h
  have := h ["com".toList] ["f".toList] (by intro x hx; simp at hx; subst hx; decide)
    (by intro x hx; simp at hx; subst hx; decide) (by simp)
    (fun n => if n = "com.f".toList then [1] else [])
  revert this
  decide

/-! ## Concrete cases -/

/-- Container `com.google` with the alias `foo` for `com.example`. -/
def exContainer : Container := [Op.setContainer "com.google".toList, Op.addAlias "foo".toList "com.example".toList].foldl Op.run {}

example : WellConfigured exContainer := C38_configuration ⟨_, rfl⟩

example : exContainer.container = "com.google".toList ∧ exContainer.findAlias "foo".toList = "com.example".toList := by decide

example : (exContainer.addAbbreviation " a.b.C".toList).map (·.findAlias "C".toList) = some "a.b.C".toList := by decide

example : (exContainer.addAlias "com".toList "x.y".toList) = none := rfl

/-- All the candidates, collected by a callback that never stops. -/
def collect {α : Type} : Callback α (List α) := fun a l => (true, l ++ [a])

example : exContainer.simpleCandidates "bar".toList collect [] = ["com.google.bar", "com.bar", "bar"].map String.toList := by decide
example : exContainer.simpleCandidates "foo".toList collect [] = ["com.example".toList] := by decide
example : exContainer.simpleCandidates ".bar".toList collect [] = ["bar".toList] := by decide
example : exContainer.qualifiedCandidates (["Foo", "bar"].map String.toList) collect [] =
    [("com.google.Foo.bar".toList, 1), ("com.google.Foo".toList, 0), ("com.Foo.bar".toList, 1), ("com.Foo".toList, 0),
     ("Foo.bar".toList, 1), ("Foo".toList, 0)] := by decide
example : exContainer.qualifiedCandidates (["foo", "bar"].map String.toList) collect [] =
    [("com.example.bar".toList, 1), ("com.example".toList, 0)] := by decide
example : pathCandidates (["com", "google"].map String.toList) (["Foo", "bar"].map String.toList) =
    [("com.google.Foo.bar".toList, 1), ("com.google.Foo".toList, 0), ("com.Foo.bar".toList, 1), ("com.Foo".toList, 0),
     ("Foo.bar".toList, 1), ("Foo".toList, 0)] := by decide

end Cel.Names
