import Verif.Builder.Model
/-!
# What a builder heap stands for

A tree of subexpressions with its flattened code, the relation between a heap
and such a tree, and contexts (a tree with one subtree missing).
-/
set_option linter.unusedSimpArgs false
set_option linter.unusedVariables false

namespace Verif.Builder
section
variable {σ δ : Type}

mutual
/-- A subexpression with everything below it. -/
inductive T (σ δ : Type) : Type where
  | tree (i : Id) (es : Es σ δ)
  | flat (i : Id) (l : List (Out σ δ))
  | recur (i : Id) (d : δ) (k : Int)
/-- The elements of a tree plan. -/
inductive Es (σ δ : Type) : Type where
  | nil
  | step (s : σ) (r : Es σ δ)
  | sub (t : T σ δ) (r : Es σ δ)
end

def T.id : T σ δ → Id
  | .tree i _ => i
  | .flat i _ => i
  | .recur i _ _ => i

mutual
/-- The steps of a subexpression in order: the specification of flattening. -/
def T.code : T σ δ → List (Out σ δ)
  | .tree _ es => es.code
  | .flat _ l => l
  | .recur i d _ => [.wrapped d i]
def Es.code : Es σ δ → List (Out σ δ)
  | .nil => []
  | .step s r => .step s :: r.code
  | .sub t r => t.code ++ r.code
end

mutual
def T.ids : T σ δ → List Id
  | .tree i es => i :: es.ids
  | .flat i _ => [i]
  | .recur i _ _ => [i]
def Es.ids : Es σ δ → List Id
  | .nil => []
  | .step _ r => r.ids
  | .sub t r => t.ids ++ r.ids
end

/-- The element list of a tree plan. -/
def Es.shape : Es σ δ → List (Elem σ)
  | .nil => []
  | .step s r => .step s :: r.shape
  | .sub t r => .sub t.id :: r.shape

def T.prog : T σ δ → Prog σ δ
  | .tree _ es => .tree es.shape
  | .flat _ l => .flat l
  | .recur _ d k => .recur d k

/-- `parent_` of an entry. -/
def parentOf (h : Heap σ δ) (i : Id) : Option (Option Id) := (h i).map (·.parent)

/-- `program_` of an entry. -/
def progOf (h : Heap σ δ) (i : Id) : Option (Prog σ δ) := (h i).map (·.prog)

mutual
/-- The heap holds the tree. -/
def Rep (h : Heap σ δ) : T σ δ → Prop
  | .tree i es => progOf h i = some (.tree es.shape) ∧ RepEs h i es
  | .flat i l => progOf h i = some (.flat l)
  | .recur i d k => progOf h i = some (.recur d k)
def RepEs (h : Heap σ δ) (p : Id) : Es σ δ → Prop
  | .nil => True
  | .step _ r => RepEs h p r
  | .sub t r => Rep h t ∧ parentOf h t.id = some (some p) ∧ RepEs h p r
end

theorem T.id_mem (t : T σ δ) : t.id ∈ t.ids := by
  cases t <;> simp [T.id, T.ids]

theorem Rep.prog {h : Heap σ δ} {t : T σ δ} (r : Rep h t) : progOf h t.id = some t.prog := by
  cases t with
  | tree i es => rw [Rep] at r; exact r.1
  | flat i l => rw [Rep] at r; exact r
  | recur i d k => rw [Rep] at r; exact r

theorem progOf_some {h : Heap σ δ} {i : Id} {p : Prog σ δ} (e : progOf h i = some p) :
    ∃ q, h i = some ⟨p, q⟩ := by
  rw [progOf] at e
  cases hh : h i with
  | none => rw [hh] at e; exact nomatch e
  | some n =>
    rw [hh] at e
    obtain ⟨a, b⟩ := n
    simp at e
    exact ⟨b, by rw [e]⟩

mutual
theorem Rep.congr {h h' : Heap σ δ} : ∀ (t : T σ δ), (∀ i ∈ t.ids, h' i = h i) →
    Rep h t → Rep h' t
  | .tree i es, e, r => by
    rw [Rep] at r ⊢
    simp only [T.ids, List.mem_cons] at e
    refine ⟨?_, RepEs.congr es (fun j hj => e j (Or.inr hj)) r.2⟩
    rw [progOf, e i (Or.inl rfl)]; exact r.1
  | .flat i l, e, r => by
    rw [Rep] at r ⊢
    rw [progOf, e i (by simp [T.ids])]; exact r
  | .recur i d k, e, r => by
    rw [Rep] at r ⊢
    rw [progOf, e i (by simp [T.ids])]; exact r
theorem RepEs.congr {h h' : Heap σ δ} {p : Id} : ∀ (es : Es σ δ), (∀ i ∈ es.ids, h' i = h i) →
    RepEs h p es → RepEs h' p es
  | .nil, _, _ => by rw [RepEs]; trivial
  | .step s r, e, hr => by
    rw [RepEs] at hr ⊢
    exact RepEs.congr r (fun j hj => e j (by rw [Es.ids]; exact hj)) hr
  | .sub t r, e, hr => by
    rw [RepEs] at hr ⊢
    simp only [Es.ids, List.mem_append] at e
    refine ⟨Rep.congr t (fun j hj => e j (Or.inl hj)) hr.1, ?_,
      RepEs.congr r (fun j hj => e j (Or.inr hj)) hr.2.2⟩
    rw [parentOf, e t.id (Or.inl t.id_mem)]; exact hr.2.1
end

mutual
theorem Rep.dom {h : Heap σ δ} : ∀ (t : T σ δ), Rep h t → ∀ i ∈ t.ids, (h i).isSome = true
  | .tree i es, r => by
    rw [Rep] at r
    intro j hj
    rw [T.ids, List.mem_cons] at hj
    rcases hj with rfl | hj
    · obtain ⟨q, e⟩ := progOf_some r.1; rw [e]; rfl
    · exact RepEs.dom es r.2 j hj
  | .flat i l, r => by
    rw [Rep] at r
    intro j hj
    rw [T.ids, List.mem_singleton] at hj; subst hj
    obtain ⟨q, e⟩ := progOf_some r; rw [e]; rfl
  | .recur i d k, r => by
    rw [Rep] at r
    intro j hj
    rw [T.ids, List.mem_singleton] at hj; subst hj
    obtain ⟨q, e⟩ := progOf_some r; rw [e]; rfl
theorem RepEs.dom {h : Heap σ δ} {p : Id} : ∀ (es : Es σ δ), RepEs h p es →
    ∀ i ∈ es.ids, (h i).isSome = true
  | .nil, _ => by intro j hj; rw [Es.ids] at hj; exact nomatch hj
  | .step s r, hr => by
    rw [RepEs] at hr; rw [Es.ids]; exact RepEs.dom r hr
  | .sub t r, hr => by
    rw [RepEs] at hr
    intro j hj
    rw [Es.ids, List.mem_append] at hj
    rcases hj with hj | hj
    · exact Rep.dom t hr.1 j hj
    · exact RepEs.dom r hr.2.2 j hj
end

/-! ## Appending elements -/

def Es.app : Es σ δ → Es σ δ → Es σ δ
  | .nil, b => b
  | .step s r, b => .step s (r.app b)
  | .sub t r, b => .sub t (r.app b)

theorem Es.app_code (b : Es σ δ) : ∀ a : Es σ δ, (a.app b).code = a.code ++ b.code
  | .nil => by simp [Es.app, Es.code]
  | .step s r => by simp [Es.app, Es.code, Es.app_code b r]
  | .sub t r => by simp [Es.app, Es.code, Es.app_code b r]

theorem Es.app_ids (b : Es σ δ) : ∀ a : Es σ δ, (a.app b).ids = a.ids ++ b.ids
  | .nil => by simp [Es.app, Es.ids]
  | .step s r => by simp [Es.app, Es.ids, Es.app_ids b r]
  | .sub t r => by simp [Es.app, Es.ids, Es.app_ids b r]

theorem Es.app_shape (b : Es σ δ) : ∀ a : Es σ δ, (a.app b).shape = a.shape ++ b.shape
  | .nil => by simp [Es.app, Es.shape]
  | .step s r => by simp [Es.app, Es.shape, Es.app_shape b r]
  | .sub t r => by simp [Es.app, Es.shape, Es.app_shape b r]

theorem Es.app_rep {h : Heap σ δ} {p : Id} (b : Es σ δ) :
    ∀ a : Es σ δ, RepEs h p (a.app b) ↔ RepEs h p a ∧ RepEs h p b
  | .nil => by simp [Es.app, RepEs]
  | .step s r => by simp [Es.app, RepEs, Es.app_rep b r]
  | .sub t r => by simp [Es.app, RepEs, Es.app_rep b r, and_assoc]

/-! ## Contexts -/

/-- A tree with one subtree missing. -/
inductive Ctx (σ δ : Type) : Type where
  | hole
  | inn (p : Id) (pre : Es σ δ) (c : Ctx σ δ) (post : Es σ δ)

def Ctx.plug : Ctx σ δ → T σ δ → T σ δ
  | .hole, s => s
  | .inn p pre c post, s => .tree p (pre.app (.sub (c.plug s) post))

def Ctx.ids : Ctx σ δ → List Id
  | .hole => []
  | .inn p pre c post => p :: (pre.ids ++ (c.ids ++ post.ids))

def Ctx.pre : Ctx σ δ → List (Out σ δ)
  | .hole => []
  | .inn _ pre c _ => pre.code ++ c.pre

def Ctx.post : Ctx σ δ → List (Out σ δ)
  | .hole => []
  | .inn _ _ c post => c.post ++ post.code

theorem Ctx.plug_id {s s' : T σ δ} (e : s'.id = s.id) (C : Ctx σ δ) :
    (C.plug s').id = (C.plug s).id := by
  cases C with
  | hole => exact e
  | inn p pre c post => rfl

theorem Ctx.plug_code (s : T σ δ) : ∀ C : Ctx σ δ,
    (C.plug s).code = C.pre ++ s.code ++ C.post
  | .hole => by simp [Ctx.plug, Ctx.pre, Ctx.post]
  | .inn p pre c post => by
    simp [Ctx.plug, Ctx.pre, Ctx.post, T.code, Es.app_code, Es.code, Ctx.plug_code s c]

theorem Ctx.plug_ids (s : T σ δ) : ∀ C : Ctx σ δ,
    ((C.plug s).ids).Perm (C.ids ++ s.ids)
  | .hole => by simp [Ctx.plug, Ctx.ids]
  | .inn p pre c post => by
    simp only [Ctx.plug, Ctx.ids, T.ids, Es.app_ids, Es.ids, List.cons_append]
    refine List.Perm.cons _ ?_
    rw [List.append_assoc]
    refine List.Perm.append_left _ ?_
    refine ((Ctx.plug_ids s c).append_right _).trans ?_
    rw [List.append_assoc, List.append_assoc]
    exact List.Perm.append_left _ (List.perm_append_comm)

/-- The part of `Rep` about a context whose hole is filled by a tree with the
given identity; `p` is the parent demanded of the hole, if it is not at the top. -/
def Ctx.repAux (h : Heap σ δ) (i : Id) : Ctx σ δ → Prop
  | .hole => True
  | .inn p pre c post =>
    progOf h p = some (.tree (pre.shape ++
      (.sub (match c with | .hole => i | .inn q _ _ _ => q) :: post.shape))) ∧
    RepEs h p pre ∧ RepEs h p post ∧
    parentOf h (match c with | .hole => i | .inn q _ _ _ => q) = some (some p) ∧
    c.repAux h i

theorem Ctx.head_id (s : T σ δ) (C : Ctx σ δ) :
    (match C with | .hole => s.id | .inn q _ _ _ => q) = (C.plug s).id := by
  cases C <;> rfl

theorem Ctx.plug_rep {h : Heap σ δ} (s : T σ δ) : ∀ C : Ctx σ δ,
    Rep h (C.plug s) ↔ C.repAux h s.id ∧ Rep h s
  | .hole => by simp [Ctx.plug, Ctx.repAux]
  | .inn p pre c post => by
    simp only [Ctx.plug, Ctx.repAux, Rep, Es.app_shape, Es.app_rep, Es.shape, RepEs,
      Ctx.head_id s c, Ctx.plug_rep s c]
    constructor
    · rintro ⟨a, b, ⟨c1, c2⟩, d, e⟩
      exact ⟨⟨a, b, e, d, c1⟩, c2⟩
    · rintro ⟨⟨a, b, e, d, c1⟩, c2⟩
      exact ⟨a, b, ⟨c1, c2⟩, d, e⟩

theorem Ctx.repAux_congr {h h' : Heap σ δ} {i : Id} (hp : parentOf h' i = parentOf h i) :
    ∀ C : Ctx σ δ, (∀ j ∈ C.ids, h' j = h j) → C.repAux h i → C.repAux h' i
  | .hole, _, _ => trivial
  | .inn p pre c post, e, r => by
    simp only [Ctx.ids, List.mem_cons, List.mem_append] at e
    simp only [Ctx.repAux] at r ⊢
    obtain ⟨a, b, d, f, g⟩ := r
    refine ⟨by rw [progOf, e p (Or.inl rfl)]; exact a,
      RepEs.congr pre (fun j hj => e j (Or.inr (Or.inl hj))) b,
      RepEs.congr post (fun j hj => e j (Or.inr (Or.inr (Or.inr hj)))) d, ?_,
      Ctx.repAux_congr hp c (fun j hj => e j (Or.inr (Or.inr (Or.inl hj)))) g⟩
    cases c with
    | hole => simp only at f ⊢; rw [hp]; exact f
    | inn q x y z =>
      simp only at f ⊢
      rw [parentOf, e q (by simp [Ctx.ids])]; exact f

mutual
/-- Every identity of a tree is the root of a subtree. -/
theorem T.focus {i : Id} : ∀ t : T σ δ, i ∈ t.ids → ∃ C s, t = Ctx.plug C s ∧ s.id = i
  | .tree j es, hi => by
    rw [T.ids, List.mem_cons] at hi
    rcases hi with rfl | hi
    · exact ⟨.hole, .tree i es, rfl, rfl⟩
    · obtain ⟨pre, C, s, post, e, e'⟩ := Es.focus es hi
      exact ⟨.inn j pre C post, s, by rw [Ctx.plug, e], e'⟩
  | .flat j l, hi => by
    rw [T.ids, List.mem_singleton] at hi; subst hi
    exact ⟨.hole, .flat i l, rfl, rfl⟩
  | .recur j d k, hi => by
    rw [T.ids, List.mem_singleton] at hi; subst hi
    exact ⟨.hole, .recur i d k, rfl, rfl⟩
theorem Es.focus {i : Id} : ∀ es : Es σ δ, i ∈ es.ids →
    ∃ pre C s post, es = Es.app pre (.sub (Ctx.plug C s) post) ∧ s.id = i
  | .nil, hi => by rw [Es.ids] at hi; exact nomatch hi
  | .step x r, hi => by
    rw [Es.ids] at hi
    obtain ⟨pre, C, s, post, e, e'⟩ := Es.focus r hi
    exact ⟨.step x pre, C, s, post, by rw [Es.app, e], e'⟩
  | .sub t r, hi => by
    rw [Es.ids, List.mem_append] at hi
    rcases hi with hi | hi
    · obtain ⟨C, s, e, e'⟩ := T.focus t hi
      exact ⟨.nil, C, s, r, by rw [Es.app, e], e'⟩
    · obtain ⟨pre, C, s, post, e, e'⟩ := Es.focus r hi
      exact ⟨.sub t pre, C, s, post, by rw [Es.app, e], e'⟩
end

end
end Verif.Builder
