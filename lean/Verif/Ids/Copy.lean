import Verif.Ids.Spec

set_option linter.unusedSimpArgs false
set_option linter.unusedVariables false

/-!
# `Copy`
-/

namespace Cel.Ids
open Cel Cel.Proto

/-- Only taken ids have a position, and it is a proper one. -/
structure Sane (s : St) : Prop where
  fresh : ∀ i, s.pos i ≠ none → i < s.next
  known : ∀ i r, s.pos i = some r → r.known = true

theorem rangeOf_some {s : St} {i : Int} {r : Range} (h : s.pos i = some r) : rangeOf s i = r := by
  simp [rangeOf, h]

theorem rangeOf_none {s : St} {i : Int} (h : s.pos i = none) : rangeOf s i = .unknown := by
  simp [rangeOf, h]

theorem unknown_known : Range.unknown.known = false := by decide

theorem insertPos_other {pos : Int → Option Range} {id i : Int} {r : Range} (h : i ≠ id) :
    insertPos pos id r i = pos i := by simp [insertPos, h]

theorem insertPos_self {pos : Int → Option Range} {id : Int} {r : Range} (h : pos id = none) :
    insertPos pos id r id = some r := by simp [insertPos, h]

theorem Sane.next_none {s : St} (hs : Sane s) : s.pos s.next = none := by
  cases h : s.pos s.next with
  | none => rfl
  | some r => have := hs.fresh s.next (by simp [h]); omega

theorem Sane.nextIdAt {s : St} (hs : Sane s) (r : Range) : Sane (nextIdAt r s).2 := by
  have hn := hs.next_none
  refine ⟨fun i hi => ?_, fun i r' hi => ?_⟩
  · simp only [Ids.nextIdAt] at hi ⊢
    by_cases hr : r.known = true
    · simp only [hr, if_true] at hi
      by_cases he : i = s.next
      · omega
      · rw [insertPos_other he] at hi
        have := hs.fresh i hi
        omega
    · simp only [hr, if_false, Bool.false_eq_true] at hi
      have := hs.fresh i hi
      omega
  · simp only [Ids.nextIdAt] at hi
    by_cases hr : r.known = true
    · simp only [hr, if_true] at hi
      by_cases he : i = s.next
      · subst he
        rw [insertPos_self hn] at hi
        injection hi with hi
        rw [← hi]; exact hr
      · rw [insertPos_other he] at hi
        exact hs.known i r' hi
    · simp only [hr, if_false, Bool.false_eq_true] at hi
      exact hs.known i r' hi

theorem nextIdAt_old {s : St} (r : Range) {i : Int} (h : i < s.next) : (nextIdAt r s).2.pos i = s.pos i := by
  simp only [nextIdAt]
  by_cases hr : r.known = true
  · simp only [hr, if_true]; exact insertPos_other (by omega)
  · simp [hr]

theorem nextIdAt_new {s : St} (hs : Sane s) {r : Range} (hr : r.known = true) :
    (nextIdAt r s).2.pos s.next = some r := by
  simp only [nextIdAt, hr, if_true]
  exact insertPos_self hs.next_none

theorem nextIdAt_new' {s : St} (hs : Sane s) {r : Range} (hr : r.known = false) :
    (nextIdAt r s).2.pos s.next = none := by
  simp only [nextIdAt, hr, Bool.false_eq_true, if_false]
  exact hs.next_none

theorem upFrom_append (i : Int) : ∀ (n m : Nat), upFrom i (n + m) = upFrom i n ++ upFrom (i + n) m
  | 0, m => by simp [upFrom]
  | n + 1, m => by
    have : n + 1 + m = (n + m) + 1 := by omega
    rw [this]
    simp only [upFrom, upFrom_append (i + 1) n m, List.cons_append]
    congr 2
    have : i + 1 + (n : Int) = i + ((n + 1 : Nat) : Int) := by push_cast; omega
    rw [this]

theorem upFrom_length (i : Int) : ∀ n, (upFrom i n).length = n
  | 0 => rfl
  | n + 1 => by simp [upFrom, upFrom_length (i + 1) n]

theorem mem_upFrom {i j : Int} : ∀ {n : Nat}, j ∈ upFrom i n ↔ i ≤ j ∧ j < i + n
  | 0 => by simp [upFrom]
  | n + 1 => by
    simp only [upFrom, List.mem_cons, mem_upFrom (n := n)]
    constructor
    · rintro (h | h) <;> push_cast <;> omega
    · rintro ⟨h1, h2⟩
      push_cast at h2
      omega

theorem upFrom_nodup (i : Int) : ∀ n, (upFrom i n).Nodup
  | 0 => by simp [upFrom]
  | n + 1 => by
    simp only [upFrom, List.nodup_cons]
    refine ⟨fun h => ?_, upFrom_nodup (i + 1) n⟩
    rw [mem_upFrom] at h
    omega

/-- `new` are the copies of the ids `old`, taken from `s` on. -/
structure Copied (s : St) (old new : List Int) (s' : St) : Prop where
  ids : new = upFrom s.next old.length
  next : s'.next = s.next + old.length
  pos : new.map s'.pos = old.map s.pos
  keep : ∀ i, i < s.next → s'.pos i = s.pos i
  sane : Sane s'
  macroPos : s'.macroPos = s.macroPos
  calls : s'.calls = s.calls

theorem Copied.nil {s : St} (hs : Sane s) : Copied s [] [] s :=
  ⟨rfl, by simp, rfl, fun _ _ => rfl, hs, rfl, rfl⟩

theorem Copied.append {s s1 s2 : St} {a a' b b' : List Int} (h1 : Copied s a a' s1) (h2 : Copied s1 b b' s2)
    (hb : ∀ i ∈ b, i < s.next) : Copied s (a ++ b) (a' ++ b') s2 := by
  have hl : a'.length = a.length := by rw [h1.ids, upFrom_length]
  refine ⟨?_, ?_, ?_, ?_, h2.sane, h2.macroPos.trans h1.macroPos, h2.calls.trans h1.calls⟩
  · rw [List.length_append, upFrom_append, ← h1.ids, ← h1.next, ← h2.ids]
  · rw [h2.next, h1.next, List.length_append]; push_cast; omega
  · rw [List.map_append, List.map_append]
    congr 1
    · rw [← h1.pos]
      apply List.map_congr_left
      intro i hi
      rw [h1.ids, mem_upFrom] at hi
      exact h2.keep i (by rw [h1.next]; omega)
    · rw [h2.pos]
      apply List.map_congr_left
      intro i hi
      exact h1.keep i (hb i hi)
  · intro i hi
    rw [h2.keep i (by rw [h1.next]; omega), h1.keep i hi]

/-- Ids that may be copied: taken and not 0. -/
def Old (s : St) (is : List Int) : Prop := ∀ i ∈ is, i ≠ 0 ∧ i < s.next

theorem Old.mono {s s1 : St} {is : List Int} (h : Old s is) (hn : s.next ≤ s1.next) : Old s1 is :=
  fun i hi => ⟨(h i hi).1, by have := (h i hi).2; omega⟩

theorem Copied.le {s s' : St} {a a' : List Int} (h : Copied s a a' s') : s.next ≤ s'.next := by
  rw [h.next]; omega

theorem copyId_spec {s : St} (hs : Sane s) {i : Int} (hi : i ≠ 0) (hlt : i < s.next) :
    Copied s [i] [(copyId i s).1] (copyId i s).2 := by
  have he : copyId i s = nextIdAt (rangeOf s i) s := by simp [copyId, hi]
  rw [he]
  refine ⟨rfl, rfl, ?_, fun j hj => nextIdAt_old _ hj, hs.nextIdAt _, rfl, rfl⟩
  simp only [List.map_cons, List.map_nil, List.cons.injEq, and_true]
  show (nextIdAt (rangeOf s i) s).2.pos s.next = s.pos i
  cases hp : s.pos i with
  | none => rw [rangeOf_none hp]; exact nextIdAt_new' hs unknown_known
  | some r => rw [rangeOf_some hp]; exact nextIdAt_new hs (hs.known i r hp)

theorem copyIds_spec : ∀ (is : List Int) {s : St} (hs : Sane s) (ho : Old s is),
    Copied s is (copyIds is s).1 (copyIds is s).2
  | [], s, hs, _ => Copied.nil hs
  | i :: is, s, hs, ho => by
    have h1 := copyId_spec hs (ho i (by simp)).1 (ho i (by simp)).2
    have ho' : Old s is := fun j hj => ho j (by simp [hj])
    have h2 := copyIds_spec is h1.sane (ho'.mono h1.le)
    exact h1.append h2 fun j hj => (ho' j hj).2

/-! ## Shapes -/

/-- New ids in the groups of the old ones. -/
def regroup : List (List Int) → List Int → List (List Int)
  | [], _ => []
  | g :: gs, is => is.take g.length :: regroup gs (is.drop g.length)

theorem regroup_flatten : ∀ (gs : List (List Int)) (is : List Int), is.length = gs.flatten.length →
    (regroup gs is).flatten = is
  | [], is, h => by
    have : is = [] := by simpa using h
    simp [regroup, this]
  | g :: gs, is, h => by
    simp only [regroup, List.flatten_cons, List.length_append] at h ⊢
    rw [regroup_flatten gs _ (by rw [List.length_drop]; omega), List.take_append_drop]

theorem groups_setFieldIds : ∀ (fs : List NField) (is : List Int), is.length = fs.length →
    (setFieldIds fs is).map (fun f => [f.id]) = regroup (fs.map fun f => [f.id]) is
  | [], [], _ => rfl
  | [], i :: is, h => by simp at h
  | f :: fs, [], h => by simp at h
  | f :: fs, i :: is, h => by
    simp only [setFieldIds, List.map_cons, regroup, List.length_cons, List.length_nil, List.take_succ_cons,
      List.take_zero, List.drop_succ_cons, List.drop_zero]
    rw [groups_setFieldIds fs is (by simpa using h)]

theorem groups_setEntryIds : ∀ (es : List NEntry) (is : List Int), is.length = es.length →
    (setEntryIds es is).flatMap (fun e => [[e.id], []]) = regroup (es.flatMap fun e => [[e.id], []]) is
  | [], [], _ => rfl
  | [], i :: is, h => by simp at h
  | e :: es, [], h => by simp at h
  | e :: es, i :: is, h => by
    simp only [setEntryIds, List.flatMap_cons, List.cons_append, List.nil_append, regroup, List.length_cons,
      List.length_nil, List.take_succ_cons, List.take_zero, List.drop_succ_cons, List.drop_zero]
    rw [groups_setEntryIds es is (by simpa using h)]

theorem entries_length : ∀ (es : List NEntry), (es.flatMap fun e => [[e.id], ([] : List Int)]).flatten.length = es.length
  | [] => rfl
  | e :: es => by
    have h := entries_length es
    simp only [List.flatMap_cons, List.cons_append, List.nil_append, List.flatten_cons, List.length_append,
      List.length_cons, List.length_nil, h]
    try omega

theorem fields_length (fs : List NField) : (fs.map fun f => [f.id]).flatten.length = fs.length := by
  induction fs with
  | nil => rfl
  | cons f fs ih =>
    simp only [List.map_cons, List.flatten_cons, List.length_append, List.length_cons, List.length_nil, ih]
    try omega

theorem groups_withIds (k : NKind) (is : List Int) (h : is.length = (groups k).flatten.length) :
    groups (withIds k is) = regroup (groups k) is := by
  cases k <;> try rfl
  case struct n fs => exact groups_setFieldIds fs is (by rw [h]; exact fields_length fs)
  case map es => exact groups_setEntryIds es is (by rw [h]; exact entries_length es)

theorem bare_setFieldIds : ∀ (fs : List NField) (is : List Int), is.length = fs.length →
    (setFieldIds fs is).map (fun f => (⟨0, f.name, f.optional⟩ : NField)) = fs.map fun f => ⟨0, f.name, f.optional⟩
  | [], [], _ => rfl
  | [], i :: is, h => by simp at h
  | f :: fs, [], h => by simp at h
  | f :: fs, i :: is, h => by
    simp only [setFieldIds, List.map_cons]
    rw [bare_setFieldIds fs is (by simpa using h)]

theorem bare_setEntryIds : ∀ (es : List NEntry) (is : List Int), is.length = es.length →
    (setEntryIds es is).map (fun e => (⟨0, e.optional⟩ : NEntry)) = es.map fun e => ⟨0, e.optional⟩
  | [], [], _ => rfl
  | [], i :: is, h => by simp at h
  | e :: es, [], h => by simp at h
  | e :: es, i :: is, h => by
    simp only [setEntryIds, List.map_cons]
    rw [bare_setEntryIds es is (by simpa using h)]

theorem bare_withIds (k : NKind) (is : List Int) (h : is.length = (groups k).flatten.length) :
    bareKind (withIds k is) = bareKind k := by
  cases k <;> try rfl
  case struct n fs =>
    show NKind.struct _ _ = NKind.struct _ _
    rw [bare_setFieldIds fs is (by rw [h]; exact fields_length fs)]
  case map es =>
    show NKind.map _ = NKind.map _
    rw [bare_setEntryIds es is (by rw [h]; exact entries_length es)]

theorem groups_oneVar (k : NKind) : groups (oneVar k) = groups k := by cases k <;> rfl
theorem isCall_oneVar (k : NKind) : isCall (oneVar k) = isCall k := by cases k <;> rfl
theorem isCall_withIds (k : NKind) (is : List Int) : isCall (withIds k is) = isCall k := by cases k <;> rfl

theorem present_of_complete {e : NExpr} (h : Complete e) : e.present = true := by
  cases e with
  | absent => simp [Complete] at h
  | node l ks => rfl

/-! ## The copy -/

theorem idsKids_cons (gs : List (List Int)) (k : NExpr) (ks : List NExpr) :
    idsKids gs (k :: ks) = gs.headD [] ++ (allIds k ++ idsKids gs.tail ks) := by rw [idsKids]

theorem idsKids_nil (gs : List (List Int)) : idsKids gs [] = gs.flatten := by rw [idsKids]

theorem headD_regroup (gs : List (List Int)) (a b : List Int) (h : a.length = (gs.headD []).length) :
    (regroup gs (a ++ b)).headD [] = a ∧ (regroup gs (a ++ b)).tail = regroup gs.tail b := by
  cases gs with
  | nil =>
    have : a = [] := by simpa using h
    subst this
    simp [regroup]
  | cons g gs =>
    have h' : g.length = a.length := by simpa using h.symm
    simp [regroup, h']

theorem flatten_headD (gs : List (List Int)) : gs.flatten = gs.headD [] ++ gs.tail.flatten := by
  cases gs <;> simp

mutual
theorem copy_spec : ∀ (e : NExpr) {s : St} (hs : Sane s) (ho : Old s (allIds e)) (hc : Complete e),
    Copied s (allIds e) (allIds (copy e s).1) (copy e s).2 ∧ bare (copy e s).1 = bare (dropSecond e) ∧
      Complete (copy e s).1
  | .absent, s, hs, ho, hc => by simp [Complete] at hc
  | .node l ks, s, hs, ho, hc => by
    rw [allIds] at ho
    have h1 := copyId_spec hs (ho l.id (by simp)).1 (ho l.id (by simp)).2
    have ho' : Old s (idsKids (groups l.kind) ks) := fun j hj => ho j (by simp [hj])
    obtain ⟨h2, hlen, hb, hcc⟩ := copyKids_spec (isCall l.kind) ks (groups l.kind) h1.sane (ho'.mono h1.le)
      (by simpa [Complete] using hc)
    have h3 := h1.append h2 fun j hj => (ho' j hj).2
    rw [copy]
    refine ⟨?_, ?_, ?_⟩
    · simp only [allIds]
      rw [groups_withIds _ _ (by rw [groups_oneVar]; exact hlen), groups_oneVar]
      exact h3
    · simp only [bare, dropSecond]
      rw [bare_withIds _ _ (by rw [groups_oneVar]; exact hlen), hb]
    · simp only [Complete, isCall_withIds, isCall_oneVar]
      exact hcc
theorem copyKids_spec (call : Bool) : ∀ (ks : List NExpr) (gs : List (List Int)) {s : St} (hs : Sane s)
    (ho : Old s (idsKids gs ks)) (hc : CompleteAll call ks),
    Copied s (idsKids gs ks) (idsKids (regroup gs (copyKids call gs ks s).1) (copyKids call gs ks s).2.1)
        (copyKids call gs ks s).2.2 ∧
      (copyKids call gs ks s).1.length = gs.flatten.length ∧
      bareAll (copyKids call gs ks s).2.1 = bareAll (dropSeconds ks) ∧
      CompleteAll call (copyKids call gs ks s).2.1
  | [], gs, s, hs, ho, hc => by
    rw [idsKids_nil] at ho
    have h := copyIds_spec gs.flatten hs ho
    have hl : (copyIds gs.flatten s).1.length = gs.flatten.length := by rw [h.ids, upFrom_length]
    rw [copyKids]
    refine ⟨?_, hl, rfl, trivial⟩
    rw [idsKids_nil, idsKids_nil, regroup_flatten _ _ hl]
    exact h
  | k :: ks, gs, s, hs, ho, hc => by
    rw [idsKids_cons] at ho
    have ho1 : Old s (gs.headD []) := fun j hj => ho j (List.mem_append_left _ hj)
    have ho2 : Old s (allIds k) := fun j hj => ho j (by simp [hj])
    have ho3 : Old s (idsKids gs.tail ks) := fun j hj => ho j (by simp [hj])
    have h1 := copyIds_spec (gs.headD []) hs ho1
    have hl1 : (copyIds (gs.headD []) s).1.length = (gs.headD []).length := by rw [h1.ids, upFrom_length]
    obtain ⟨hck, hcks⟩ : ((call = true ∧ k = .absent) ∨ Complete k) ∧ CompleteAll call ks := by
      simpa [CompleteAll] using hc
    have hq : ∀ q, q = (if call && !k.present then (Proto.Tree.absent, (copyIds (gs.headD []) s).2)
          else copy k (copyIds (gs.headD []) s).2) →
        Copied (copyIds (gs.headD []) s).2 (allIds k) (allIds q.1) q.2 ∧ bare q.1 = bare (dropSecond k) ∧
          ((call = true ∧ q.1 = .absent) ∨ Complete q.1) := by
      intro q hq
      rcases hck with ⟨hcall, rfl⟩ | hck
      · rw [if_pos (by simp [hcall, Tree.present])] at hq
        subst hq
        refine ⟨?_, by simp [dropSecond], .inl ⟨hcall, rfl⟩⟩
        simp only [allIds]
        exact Copied.nil h1.sane
      · rw [if_neg (by simp [present_of_complete hck])] at hq
        subst hq
        obtain ⟨a, b, c⟩ := copy_spec k h1.sane (ho2.mono h1.le) hck
        exact ⟨a, b, .inr c⟩
    rw [copyKids]
    generalize hqe : (if call && !k.present then (Proto.Tree.absent, (copyIds (gs.headD []) s).2)
          else copy k (copyIds (gs.headD []) s).2) = q
    obtain ⟨hq1, hq2, hq3⟩ := hq q hqe.symm
    obtain ⟨hr1, hr2, hr3, hr4⟩ := copyKids_spec call ks gs.tail hq1.sane
      ((ho3.mono h1.le).mono hq1.le) hcks
    simp only []
    refine ⟨?_, ?_, ?_, ?_⟩
    · rw [idsKids_cons, idsKids_cons]
      obtain ⟨e1, e2⟩ := headD_regroup gs (copyIds (gs.headD []) s).1 (copyKids call gs.tail ks q.2).1 hl1
      rw [e1, e2]
      refine h1.append (hq1.append hr1 fun j hj => ?_) fun j hj => ?_
      · exact (ho3.mono h1.le j hj).2
      · rcases List.mem_append.1 hj with hj | hj
        · exact (ho2 j hj).2
        · exact (ho3 j hj).2
    · rw [List.length_append, hl1, hr2, flatten_headD gs, List.length_append]
    · simp only [bareAll, dropSeconds, hq2, hr3]
    · simp only [CompleteAll]
      exact ⟨hq3, hr4⟩
end

mutual
theorem dropSecond_one : ∀ (e : NExpr), OneVariable e → dropSecond e = e
  | .absent, _ => by rw [dropSecond]
  | .node ⟨id, k⟩ ks, h => by
    simp only [OneVariable] at h
    rw [dropSecond, dropSeconds_one ks h.2]
    congr 2
    cases k <;> try rfl
    case comprehension v v2 a => simp [oneVar, h.1 v v2 a rfl]
theorem dropSeconds_one : ∀ (ks : List NExpr), OneVariables ks → dropSeconds ks = ks
  | [], _ => by rw [dropSeconds]
  | k :: ks, h => by
    simp only [OneVariables] at h
    rw [dropSeconds, dropSecond_one k h.1, dropSeconds_one ks h.2]
end

end Cel.Ids
