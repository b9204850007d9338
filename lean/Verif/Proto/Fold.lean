import Verif.Proto.Expr

set_option linter.unusedSimpArgs false
set_option linter.unusedVariables false

/-!
# What the three loops compute, by recursion on the source
-/

namespace Cel.Proto
open Cel Cel.Num

mutual
/-- The proto form of a native expression (an unset child read as an expression is the default
instance). -/
def toP : NExpr → Except Status PExpr
  | .absent => .ok (.node PNode.dflt [])
  | .node ⟨id, k⟩ ks =>
    match k with
    | .unspecified => .ok (.node ⟨id, .notSet⟩ [])
    | .const c =>
      match constToProto c with
      | .error e => .error e
      | .ok p => .ok (.node ⟨id, .const p⟩ [])
    | .ident n => .ok (.node ⟨id, .ident n⟩ [])
    | .select f t =>
      match toPs false ks with
      | .error e => .error e
      | .ok ps => .ok (.node ⟨id, .select f t⟩ ps)
    | .call fn =>
      match toPs false ks with
      | .error e => .error e
      | .ok ps => .ok (.node ⟨id, .call fn⟩ ps)
    | .list opt =>
      match toPs true ks with
      | .error e => .error e
      | .ok ps => .ok (.node ⟨id, .list (optIndices 0 opt)⟩ ps)
    | .struct name fields =>
      match toPFields ks with
      | .error e => .error e
      | .ok ps => .ok (.node ⟨id, .create name (fields.map fun f =>
          ⟨f.id, .field f.name, f.optional⟩)⟩ ps)
    | .map entries =>
      match toPs false ks with
      | .error e => .error e
      | .ok ps => .ok (.node ⟨id, .create "" (mapEntries entries ks)⟩ ps)
    | .comprehension v v2 a =>
      match toPs false ks with
      | .error e => .error e
      | .ok ps => .ok (.node ⟨id, .comprehension v v2 a⟩ ps)
/-- Children, the last one first; `d`: an unset child becomes a default one. -/
def toPs (d : Bool) : List NExpr → Except Status (List PExpr)
  | [] => .ok []
  | .absent :: ts =>
    match toPs d ts with
    | .error e => .error e
    | .ok ps => .ok ((if d then .node PNode.dflt [] else .absent) :: ps)
  | .node l ks :: ts =>
    match toPs d ts with
    | .error e => .error e
    | .ok ps =>
      match toP (.node l ks) with
      | .error e => .error e
      | .ok p => .ok (p :: ps)
/-- Field values, each behind an empty map-key slot. -/
def toPFields : List NExpr → Except Status (List PExpr)
  | [] => .ok []
  | .absent :: ts =>
    match toPFields ts with
    | .error e => .error e
    | .ok ps => .ok (.absent :: .absent :: ps)
  | .node l ks :: ts =>
    match toPFields ts with
    | .error e => .error e
    | .ok ps =>
      match toP (.node l ks) with
      | .error e => .error e
      | .ok p => .ok (.absent :: p :: ps)
end

mutual
/-- The native form of a proto expression. -/
def fromP : PExpr → Except Status NExpr
  | .absent => .ok (.node NNode.dflt [])
  | .node ⟨id, k⟩ ks =>
    match k with
    | .notSet => .ok (.node ⟨id, .unspecified⟩ [])
    | .const c => .ok (.node ⟨id, .const (constFromProto c)⟩ [])
    | .ident n => .ok (.node ⟨id, .ident n⟩ [])
    | .select f t =>
      match fromPs ks with
      | .error e => .error e
      | .ok es => .ok (.node ⟨id, .select f t⟩ es)
    | .call fn =>
      match fromPs ks with
      | .error e => .error e
      | .ok es => .ok (.node ⟨id, .call fn⟩ es)
    | .list idx =>
      match fromPs ks with
      | .error e => .error e
      | .ok es => .ok (.node ⟨id, .list (optFlags idx 0 ks.length)⟩ es)
    | .create name entries =>
      if name = "" then
        match mapFields entries with
        | .error e => .error e
        | .ok fs =>
          match fromPs ks with
          | .error e => .error e
          | .ok es => .ok (.node ⟨id, .map fs⟩ es)
      else
        match structFields entries with
        | .error e => .error e
        | .ok fs =>
          match fromPValues ks with
          | .error e => .error e
          | .ok es => .ok (.node ⟨id, .struct name fs⟩ es)
    | .comprehension v v2 a =>
      match fromPs ks with
      | .error e => .error e
      | .ok es => .ok (.node ⟨id, .comprehension v v2 a⟩ es)
def fromPs : List PExpr → Except Status (List NExpr)
  | [] => .ok []
  | .absent :: ts =>
    match fromPs ts with
    | .error e => .error e
    | .ok es => .ok (.absent :: es)
  | .node l ks :: ts =>
    match fromPs ts with
    | .error e => .error e
    | .ok es =>
      match fromP (.node l ks) with
      | .error e => .error e
      | .ok e => .ok (e :: es)
/-- The values of key/value pairs. -/
def fromPValues : List PExpr → Except Status (List NExpr)
  | [] => .ok []
  | [_] => .ok []
  | _ :: .absent :: ts =>
    match fromPValues ts with
    | .error e => .error e
    | .ok es => .ok (.absent :: es)
  | _ :: .node l ks :: ts =>
    match fromPValues ts with
    | .error e => .error e
    | .ok es =>
      match fromP (.node l ks) with
      | .error e => .error e
      | .ok e => .ok (e :: es)
end

mutual
/-- The copy of an expression: an unset list element, field value, map key or map value becomes a
default expression; everything else is the same. -/
def copyT : NExpr → NExpr
  | .absent => .node NNode.dflt []
  | .node ⟨id, k⟩ ks =>
    match k with
    | .unspecified => .node ⟨id, .unspecified⟩ []
    | .const c => .node ⟨id, .const c⟩ []
    | .ident n => .node ⟨id, .ident n⟩ []
    | .select f t => .node ⟨id, .select f t⟩ (copyTs false ks)
    | .call fn => .node ⟨id, .call fn⟩ (copyTs false ks)
    | .list opt => .node ⟨id, .list opt⟩ (copyTs true ks)
    | .struct name fields => .node ⟨id, .struct name fields⟩ (copyTs true ks)
    | .map entries => .node ⟨id, .map entries⟩ (copyTs true ks)
    | .comprehension v v2 a => .node ⟨id, .comprehension v v2 a⟩ (copyTs false ks)
def copyTs (d : Bool) : List NExpr → List NExpr
  | [] => []
  | .absent :: ts => (if d then .node NNode.dflt [] else .absent) :: copyTs d ts
  | .node l ks :: ts => copyT (.node l ks) :: copyTs d ts
end

/-! ## The loops compute these functions -/

theorem size_le_sizes {L : Type} : ∀ (ks : List (Tree L)) (t : Tree L), t ∈ ks →
    t.size ≤ Tree.sizes ks
  | [], t, h => by cases h
  | k :: ks, t, h => by
    simp only [Tree.sizes]
    rcases List.mem_cons.mp h with rfl | h
    · omega
    · have := size_le_sizes ks t h; omega

theorem size_pos {L : Type} (t : Tree L) : 1 ≤ t.size := by
  cases t <;> simp [Tree.size]

theorem maybe_ok {S L : Type} (d : L) (ks : List (Tree S)) :
    ∀ x ∈ ks.map (slotMaybe d), x.Ok d := by
  intro x hx
  obtain ⟨t, _, rfl⟩ := List.mem_map.mp hx
  intro a s h
  cases t with
  | absent => simp [slotMaybe] at h
  | node l ks => simp only [slotMaybe, Option.some.injEq, Prod.mk.injEq] at h ⊢; rw [← h.1]

theorem elem_ok {S L : Type} (d : L) (ks : List (Tree S)) :
    ∀ x ∈ ks.map (slotElem d), x.Ok d := by
  intro x hx
  obtain ⟨t, _, rfl⟩ := List.mem_map.mp hx
  intro a s h
  cases t with
  | absent => simp [slotElem] at h
  | node l ks => simp only [slotElem, Option.some.injEq, Prod.mk.injEq] at h ⊢; rw [← h.1]

theorem always_ok {S L : Type} (sd : S) (d : L) (ks : List (Tree S)) :
    ∀ x ∈ ks.map (slotAlways sd d), x.Ok d := by
  intro x hx
  obtain ⟨t, _, rfl⟩ := List.mem_map.mp hx
  intro a s h
  cases t with
  | absent => simp only [slotAlways, Option.some.injEq, Prod.mk.injEq] at h ⊢; rw [← h.1]
  | node l ks => simp only [slotAlways, Option.some.injEq, Prod.mk.injEq] at h ⊢; rw [← h.1]

/-- What a "maybe" slot pushes is the child itself. -/
theorem maybe_push {S L : Type} (d : L) (t : Tree S) (a : Nat) (s : Tree S)
    (h : (slotMaybe d t).push = some (a, s)) : s = t := by
  cases t with
  | absent => simp [slotMaybe] at h
  | node l ks => simp only [slotMaybe, Option.some.injEq, Prod.mk.injEq] at h; exact h.2.symm

theorem elem_push {S L : Type} (d : L) (t : Tree S) (a : Nat) (s : Tree S)
    (h : (slotElem d t).push = some (a, s)) : s = t := by
  cases t with
  | absent => simp [slotElem] at h
  | node l ks => simp only [slotElem, Option.some.injEq, Prod.mk.injEq] at h; exact h.2.symm

theorem maybe_size {S L : Type} (d : L) : ∀ ks : List (Tree S),
    pushedSize Tree.size (ks.map (slotMaybe (L := L) d)) ≤ Tree.sizes ks
  | [] => by simp [pushedSize, Tree.sizes]
  | t :: ts => by
    have := maybe_size d ts
    cases t <;> simp only [List.map_cons, pushedSize, slotMaybe, Tree.sizes] <;> omega

theorem elem_size {S L : Type} (d : L) : ∀ ks : List (Tree S),
    pushedSize Tree.size (ks.map (slotElem (L := L) d)) ≤ Tree.sizes ks
  | [] => by simp [pushedSize, Tree.sizes]
  | t :: ts => by
    have := elem_size d ts
    cases t <;> simp only [List.map_cons, pushedSize, slotElem, Tree.sizes] <;> omega

theorem always_size {S L : Type} (sd : S) (d : L) : ∀ ks : List (Tree S),
    pushedSize Tree.size (ks.map (slotAlways (L := L) sd d)) ≤ Tree.sizes ks
  | [] => by simp [pushedSize, Tree.sizes]
  | t :: ts => by
    have := always_size sd d ts
    cases t <;> simp only [List.map_cons, pushedSize, slotAlways, Tree.sizes, Tree.size] <;> omega

theorem toPs_maybe : ∀ ks : List NExpr,
    evalSlots toP (ks.map (slotMaybe PNode.dflt)) = toPs false ks
  | [] => by simp [evalSlots, toPs]
  | .absent :: ts => by
    simp only [List.map_cons, evalSlots, slotMaybe, toPs, toPs_maybe ts, forget]
    cases toPs false ts <;> rfl
  | .node l ks :: ts => by
    simp only [List.map_cons, evalSlots, slotMaybe, toPs, toPs_maybe ts]
    cases toPs false ts with
    | error e => rfl
    | ok ps =>
      simp only
      cases toP (.node l ks) <;> rfl

theorem toPs_elem : ∀ ks : List NExpr,
    evalSlots toP (ks.map (slotElem PNode.dflt)) = toPs true ks
  | [] => by simp [evalSlots, toPs]
  | .absent :: ts => by
    simp only [List.map_cons, evalSlots, slotElem, toPs, toPs_elem ts, forget, forgets]
    cases toPs true ts <;> rfl
  | .node l ks :: ts => by
    simp only [List.map_cons, evalSlots, slotElem, toPs, toPs_elem ts]
    cases toPs true ts with
    | error e => rfl
    | ok ps =>
      simp only
      cases toP (.node l ks) <;> rfl

theorem toPs_fields : ∀ ks : List NExpr, evalSlots toP (fieldSlots ks) = toPFields ks
  | [] => by simp [evalSlots, toPFields, fieldSlots]
  | .absent :: ts => by
    simp only [fieldSlots, evalSlots, slotMaybe, toPFields, toPs_fields ts, forget]
    cases toPFields ts <;> rfl
  | .node l ks :: ts => by
    simp only [fieldSlots, evalSlots, slotMaybe, toPFields, toPs_fields ts, forget]
    cases toPFields ts with
    | error e => rfl
    | ok ps =>
      simp only
      cases toP (.node l ks) <;> rfl

theorem fields_mem : ∀ (ks : List NExpr) (x), x ∈ fieldSlots ks →
    x = ⟨.absent, none⟩ ∨ ∃ t ∈ ks, x = slotMaybe PNode.dflt t
  | [], x, h => by simp [fieldSlots] at h
  | t :: ts, x, h => by
    simp only [fieldSlots, List.mem_cons] at h
    rcases h with h | h | h
    · exact .inl h
    · exact .inr ⟨t, by simp, h⟩
    · rcases fields_mem ts x h with h | ⟨u, hu, h⟩
      · exact .inl h
      · exact .inr ⟨u, by simp [hu], h⟩

theorem fields_size : ∀ ks : List NExpr,
    pushedSize Tree.size (fieldSlots ks) ≤ Tree.sizes ks
  | [] => by simp [pushedSize, Tree.sizes, fieldSlots]
  | t :: ts => by
    have := fields_size ts
    cases t <;> simp only [fieldSlots, pushedSize, slotMaybe, Tree.sizes, Tree.size] <;> omega

/-- `ExprToProto` computes `toP`, whatever the target held. -/
theorem toP_done : ∀ (n : Nat) (e : NExpr), e.size ≤ n →
    Done toStep toP Tree.size (fun _ _ => True) e
  | 0, e, h => by have := size_pos e; omega
  | n + 1, .absent, h =>
    slots_done (dflt := PNode.dflt) trivial PNode.dflt [] (by simp) (by simp)
      (fun _ _ _ => rfl) (by simp [toP, evalSlots]) (by simp [pushedSize, Tree.size])
  | n + 1, .node ⟨id, k⟩ ks, h => by
    have hks : ∀ t ∈ ks, Done toStep toP Tree.size (fun _ _ => True) t := by
      intro t ht
      have := size_le_sizes ks t ht
      simp only [Tree.size] at h
      exact toP_done n t (by omega)
    have hmaybe : ∀ x ∈ ks.map (slotMaybe (L := PNode) PNode.dflt), ∀ a t, x.push = some (a, t) →
        Done toStep toP Tree.size (fun _ _ => True) t := by
      intro x hx a t hp
      obtain ⟨u, hu, rfl⟩ := List.mem_map.mp hx
      rw [maybe_push _ _ _ _ hp]
      exact hks u hu
    have hsz := maybe_size (L := PNode) PNode.dflt ks
    cases k with
    | unspecified =>
      exact slots_done (dflt := PNode.dflt) trivial ⟨id, .notSet⟩ [] (by simp) (by simp)
        (fun _ _ _ => rfl) (by simp [toP, evalSlots]) (by simp [pushedSize, Tree.size])
    | const c =>
      cases hc : constToProto c with
      | error e =>
        exact err_done e (fun _ _ _ => by simp [toStep, hc]) (by simp [toP, hc]) (size_pos _)
      | ok p =>
        exact slots_done (dflt := PNode.dflt) trivial ⟨id, .const p⟩ [] (by simp) (by simp)
          (fun _ _ _ => by simp [toStep, hc]) (by simp [toP, evalSlots, hc])
          (by simp [pushedSize, Tree.size])
    | ident nm =>
      exact slots_done (dflt := PNode.dflt) trivial ⟨id, .ident nm⟩ [] (by simp) (by simp)
        (fun _ _ _ => rfl) (by simp [toP, evalSlots]) (by simp [pushedSize, Tree.size])
    | select f t =>
      exact slots_done (dflt := PNode.dflt) trivial ⟨id, .select f t⟩
        (ks.map (slotMaybe PNode.dflt)) (maybe_ok _ _) hmaybe (fun _ _ _ => rfl)
        (by simp only [toP, toPs_maybe]; cases toPs false ks <;> rfl) (by simp only [Tree.size]; omega)
    | call fn =>
      exact slots_done (dflt := PNode.dflt) trivial ⟨id, .call fn⟩
        (ks.map (slotMaybe PNode.dflt)) (maybe_ok _ _) hmaybe (fun _ _ _ => rfl)
        (by simp only [toP, toPs_maybe]; cases toPs false ks <;> rfl) (by simp only [Tree.size]; omega)
    | list opt =>
      refine slots_done (dflt := PNode.dflt) trivial ⟨id, .list (optIndices 0 opt)⟩
        (ks.map (slotElem PNode.dflt)) (elem_ok _ _) ?_ (fun _ _ _ => rfl)
        (by simp only [toP, toPs_elem]; cases toPs true ks <;> rfl) ?_
      · intro x hx a t hp
        obtain ⟨u, hu, rfl⟩ := List.mem_map.mp hx
        rw [elem_push _ _ _ _ hp]
        exact hks u hu
      · have := elem_size (L := PNode) PNode.dflt ks
        simp only [Tree.size]; omega
    | struct name fields =>
      refine slots_done (dflt := PNode.dflt) trivial _ (fieldSlots ks) ?_ ?_ (fun _ _ _ => rfl)
        (by simp only [toP, toPs_fields]; cases toPFields ks <;> rfl) ?_
      · intro x hx
        rcases fields_mem ks x hx with rfl | ⟨t, ht, rfl⟩
        · intro a s hp; simp at hp
        · exact maybe_ok PNode.dflt ks _ (List.mem_map.mpr ⟨t, ht, rfl⟩)
      · intro x hx a t hp
        rcases fields_mem ks x hx with rfl | ⟨u, hu, rfl⟩
        · simp at hp
        · rw [maybe_push _ _ _ _ hp]; exact hks u hu
      · have := fields_size ks
        simp only [Tree.size]; omega
    | map entries =>
      exact slots_done (dflt := PNode.dflt) trivial _
        (ks.map (slotMaybe PNode.dflt)) (maybe_ok _ _) hmaybe (fun _ _ _ => rfl)
        (by simp only [toP, toPs_maybe]; cases toPs false ks <;> rfl) (by simp only [Tree.size]; omega)
    | comprehension v v2 a =>
      exact slots_done (dflt := PNode.dflt) trivial _
        (ks.map (slotMaybe PNode.dflt)) (maybe_ok _ _) hmaybe (fun _ _ _ => rfl)
        (by simp only [toP, toPs_maybe]; cases toPs false ks <;> rfl) (by simp only [Tree.size]; omega)

/-! ### Proto to native -/

theorem fromPs_maybe : ∀ ks : List PExpr,
    evalSlots fromP (ks.map (slotMaybe NNode.dflt)) = fromPs ks
  | [] => by simp [evalSlots, fromPs]
  | .absent :: ts => by
    simp only [List.map_cons, evalSlots, slotMaybe, fromPs, fromPs_maybe ts, forget]
    cases fromPs ts <;> rfl
  | .node l ks :: ts => by
    simp only [List.map_cons, evalSlots, slotMaybe, fromPs, fromPs_maybe ts]
    cases fromPs ts with
    | error e => rfl
    | ok ps =>
      simp only
      cases fromP (.node l ks) <;> rfl

theorem fromPs_values : ∀ ks : List PExpr,
    evalSlots fromP ((values ks).map (slotMaybe NNode.dflt)) = fromPValues ks
  | [] => by simp [values, evalSlots, fromPValues]
  | [_] => by simp [values, evalSlots, fromPValues]
  | _ :: .absent :: ts => by
    simp only [values, List.map_cons, evalSlots, slotMaybe, fromPValues, fromPs_values ts, forget]
    cases fromPValues ts <;> rfl
  | _ :: .node l ks :: ts => by
    simp only [values, List.map_cons, evalSlots, slotMaybe, fromPValues, fromPs_values ts]
    cases fromPValues ts with
    | error e => rfl
    | ok ps =>
      simp only
      cases fromP (.node l ks) <;> rfl

theorem values_mem {L : Type} : ∀ (ks : List (Tree L)) (t), t ∈ values ks → t ∈ ks
  | [], t, h => by simp [values] at h
  | [_], t, h => by simp [values] at h
  | a :: v :: rest, t, h => by
    simp only [values, List.mem_cons] at h ⊢
    rcases h with h | h
    · exact .inr (.inl h)
    · exact .inr (.inr (values_mem rest t h))

theorem values_sizes {L : Type} : ∀ ks : List (Tree L), Tree.sizes (values ks) ≤ Tree.sizes ks
  | [] => by simp [values, Tree.sizes]
  | [_] => by simp [values, Tree.sizes]
  | a :: v :: rest => by
    have := values_sizes rest
    simp only [values, Tree.sizes]; omega

/-- A vector that was reserved does not move while it is filled. -/
theorem emplaceMany_stable : ∀ (n : Nat) (v : Vec), v.size + n ≤ v.cap →
    (v.emplaceMany n).1 = List.replicate n v.gen ∧ (v.emplaceMany n).2.gen = v.gen
  | 0, v, _ => by simp [Vec.emplaceMany]
  | n + 1, v, h => by
    have hb : v.emplaceBack = ⟨v.size + 1, v.cap, v.gen⟩ := by
      simp only [Vec.emplaceBack]; rw [if_pos (by omega)]
    have := emplaceMany_stable n ⟨v.size + 1, v.cap, v.gen⟩ (by simp only; omega)
    simp only [Vec.emplaceMany, hb, List.replicate_succ]
    exact ⟨by rw [this.1], this.2⟩

theorem reserve_room (n : Nat) : (Vec.empty.reserve n).size + n ≤ (Vec.empty.reserve n).cap := by
  by_cases h : Vec.empty.cap < n
  · simp only [Vec.reserve]; rw [if_pos h]; simp [Vec.empty]
  · simp only [Vec.reserve]; rw [if_neg h]
    simp only [Vec.empty] at h ⊢; omega

theorem vec_mem {S L : Type} (d : L) (g : Nat) : ∀ (n : Nat) (ts : List (Tree S)) (x),
    x ∈ slotsVec d g (List.replicate n g) ts → ts.length ≤ n →
    x = ⟨.absent, none⟩ ∨ ∃ l ks, .node l ks ∈ ts ∧ x = ⟨.node (g, d) [], some (g, .node l ks)⟩
  | _, [], x, h, _ => by simp [slotsVec] at h
  | 0, t :: ts, x, h, hl => by simp at hl
  | n + 1, .absent :: ts, x, h, hl => by
    simp only [slotsVec, List.replicate_succ, List.tail_cons, List.mem_cons] at h
    rcases h with h | h
    · exact .inl h
    · rcases vec_mem d g n ts x h (by simpa using hl) with h | ⟨l, ks, hm, h⟩
      · exact .inl h
      · exact .inr ⟨l, ks, by simp [hm], h⟩
  | n + 1, .node l ks :: ts, x, h, hl => by
    simp only [slotsVec, List.replicate_succ, List.tail_cons, List.headD_cons, List.mem_cons] at h
    rcases h with h | h
    · exact .inr ⟨l, ks, by simp, h⟩
    · rcases vec_mem d g n ts x h (by simpa using hl) with h | ⟨l', ks', hm, h⟩
      · exact .inl h
      · exact .inr ⟨l', ks', by simp [hm], h⟩

theorem vec_eval {S L : Type} (G : Tree S → Except Status (Tree L)) (d : L) (g : Nat) :
    ∀ (gs : List Nat) (ts : List (Tree S)),
    evalSlots G (slotsVec d g gs ts) = evalSlots G (ts.map (slotMaybe d))
  | _, [] => by simp [slotsVec, evalSlots]
  | gs, .absent :: ts => by
    simp only [slotsVec, evalSlots, List.map_cons, slotMaybe, vec_eval G d g gs.tail ts]
  | gs, .node l ks :: ts => by
    simp only [slotsVec, evalSlots, List.map_cons, slotMaybe, vec_eval G d g gs.tail ts]

theorem vec_size {S L : Type} (d : L) (g : Nat) : ∀ (gs : List Nat) (ts : List (Tree S)),
    pushedSize Tree.size (slotsVec d g gs ts) ≤ Tree.sizes ts
  | _, [] => by simp [slotsVec, pushedSize, Tree.sizes]
  | gs, .absent :: ts => by
    have := vec_size d g gs.tail ts
    simp only [slotsVec, pushedSize, Tree.sizes]; omega
  | gs, .node l ks :: ts => by
    have := vec_size d g gs.tail ts
    simp only [slotsVec, pushedSize, Tree.sizes]; omega

/-- What the slots of a call are: the target, then arguments whose pushed addresses are those of
the final storage. -/
theorem callSlots_eq (t : PExpr) (args : List PExpr) : ∃ g, callSlots (t :: args) =
    slotMaybe NNode.dflt t :: slotsVec NNode.dflt g (List.replicate args.length g) args := by
  have h := emplaceMany_stable args.length (Vec.empty.reserve args.length) (reserve_room _)
  refine ⟨((Vec.empty.reserve args.length).emplaceMany args.length).2.gen, ?_⟩
  simp only [callSlots]
  rw [h.1, h.2]

theorem callVec_done {L : Type} {st : Stepper (Tree L) NNode} {G : Tree L → Except Status NExpr}
    {Fresh : NNode → List (Cell NNode) → Prop} (t : Tree L) (args : List (Tree L)) (g : Nat)
    (hks : ∀ u ∈ t :: args, Done st G Tree.size Fresh u) :
    (∀ x ∈ slotMaybe NNode.dflt t :: slotsVec NNode.dflt g (List.replicate args.length g) args,
      x.Ok NNode.dflt) ∧
    (∀ x ∈ slotMaybe NNode.dflt t :: slotsVec NNode.dflt g (List.replicate args.length g) args,
      ∀ a u, x.push = some (a, u) → Done st G Tree.size Fresh u) := by
  constructor
  · intro x hx
    rcases List.mem_cons.mp hx with rfl | hx
    · exact maybe_ok NNode.dflt [t] _ (by simp)
    · rcases vec_mem _ _ _ _ _ hx (Nat.le_refl _) with rfl | ⟨l, kk, hm, rfl⟩
      · intro a s hp; simp at hp
      · intro a s hp
        simp only [Option.some.injEq, Prod.mk.injEq] at hp
        rw [hp.1]
  · intro x hx a u hp
    rcases List.mem_cons.mp hx with rfl | hx
    · rw [maybe_push _ _ _ _ hp]; exact hks t (by simp)
    · rcases vec_mem _ _ _ _ _ hx (Nat.le_refl _) with rfl | ⟨l, kk, hm, rfl⟩
      · simp at hp
      · simp only [Option.some.injEq, Prod.mk.injEq] at hp
        rw [← hp.2]
        exact hks _ (by simp [hm])

theorem fromPs_call (t : PExpr) (args : List PExpr) :
    evalSlots fromP (callSlots (t :: args)) = fromPs (t :: args) := by
  obtain ⟨g, hg⟩ := callSlots_eq t args
  rw [hg, ← fromPs_maybe]
  simp only [List.map_cons, evalSlots, vec_eval]

theorem callSlots_size (ks : List PExpr) :
    pushedSize Tree.size (callSlots ks) ≤ Tree.sizes ks := by
  cases ks with
  | nil => simp [callSlots, pushedSize, Tree.sizes]
  | cons t args =>
    obtain ⟨g, hg⟩ := callSlots_eq t args
    rw [hg]
    have := vec_size (L := NNode) NNode.dflt g (List.replicate args.length g) args
    cases t <;> simp only [pushedSize, slotMaybe, Tree.sizes] <;> omega

/-- `ExprFromProto` computes `fromP`, whatever the target held. -/
theorem fromP_done : ∀ (n : Nat) (e : PExpr), e.size ≤ n →
    Done fromStep fromP Tree.size (fun _ _ => True) e
  | 0, e, h => by have := size_pos e; omega
  | n + 1, .absent, h =>
    slots_done (dflt := NNode.dflt) trivial NNode.dflt [] (by simp) (by simp)
      (fun _ _ _ => rfl) (by simp [fromP, evalSlots]) (by simp [pushedSize, Tree.size])
  | n + 1, .node ⟨id, k⟩ ks, h => by
    have hks : ∀ t ∈ ks, Done fromStep fromP Tree.size (fun _ _ => True) t := by
      intro t ht
      have := size_le_sizes ks t ht
      simp only [Tree.size] at h
      exact fromP_done n t (by omega)
    have hmaybe : ∀ x ∈ ks.map (slotMaybe (L := NNode) NNode.dflt), ∀ a t, x.push = some (a, t) →
        Done fromStep fromP Tree.size (fun _ _ => True) t := by
      intro x hx a t hp
      obtain ⟨u, hu, rfl⟩ := List.mem_map.mp hx
      rw [maybe_push _ _ _ _ hp]
      exact hks u hu
    have hsz := maybe_size (L := NNode) NNode.dflt ks
    cases k with
    | notSet =>
      exact slots_done (dflt := NNode.dflt) trivial ⟨id, .unspecified⟩ [] (by simp) (by simp)
        (fun _ _ _ => rfl) (by simp [fromP, evalSlots]) (by simp [pushedSize, Tree.size])
    | const c =>
      exact slots_done (dflt := NNode.dflt) trivial ⟨id, .const (constFromProto c)⟩ [] (by simp)
        (by simp) (fun _ _ _ => rfl) (by simp [fromP, evalSlots]) (by simp [pushedSize, Tree.size])
    | ident nm =>
      exact slots_done (dflt := NNode.dflt) trivial ⟨id, .ident nm⟩ [] (by simp) (by simp)
        (fun _ _ _ => rfl) (by simp [fromP, evalSlots]) (by simp [pushedSize, Tree.size])
    | select f t =>
      exact slots_done (dflt := NNode.dflt) trivial ⟨id, .select f t⟩
        (ks.map (slotMaybe NNode.dflt)) (maybe_ok _ _) hmaybe (fun _ _ _ => rfl)
        (by simp only [fromP, fromPs_maybe]; cases fromPs ks <;> rfl) (by simp only [Tree.size]; omega)
    | call fn =>
      cases ks with
      | nil =>
        exact slots_done (dflt := NNode.dflt) trivial ⟨id, .call fn⟩ [] (by simp) (by simp)
          (fun _ _ _ => rfl) (by simp [fromP, fromPs, evalSlots])
          (by simp [pushedSize, Tree.size])
      | cons t args =>
        obtain ⟨g, hg⟩ := callSlots_eq t args
        have hd := callVec_done t args g hks
        refine slots_done (dflt := NNode.dflt) trivial ⟨id, .call fn⟩ (callSlots (t :: args)) ?_ ?_
          (fun _ _ _ => rfl) (by simp only [fromP, fromPs_call]; cases fromPs (t :: args) <;> rfl) ?_
        · rw [hg]; exact hd.1
        · rw [hg]; exact hd.2
        · have := callSlots_size (t :: args)
          simp only [Tree.size]; omega
    | list idx =>
      exact slots_done (dflt := NNode.dflt) trivial _
        (ks.map (slotMaybe NNode.dflt)) (maybe_ok _ _) hmaybe (fun _ _ _ => rfl)
        (by simp only [fromP, fromPs_maybe]; cases fromPs ks <;> rfl) (by simp only [Tree.size]; omega)
    | create name entries =>
      by_cases hn : name = ""
      · subst hn
        cases hm : mapFields entries with
        | error e =>
          exact err_done e (fun _ _ _ => by simp [fromStep, hm]) (by simp [fromP, hm]) (size_pos _)
        | ok fs =>
          exact slots_done (dflt := NNode.dflt) trivial ⟨id, .map fs⟩
            (ks.map (slotMaybe NNode.dflt)) (maybe_ok _ _) hmaybe
            (fun _ _ _ => by simp [fromStep, hm])
            (by simp only [fromP, fromPs_maybe, hm, if_true]; cases fromPs ks <;> rfl)
            (by simp only [Tree.size]; omega)
      · cases hm : structFields entries with
        | error e =>
          exact err_done e (fun _ _ _ => by simp [fromStep, hm, hn]) (by simp [fromP, hm, hn])
            (size_pos _)
        | ok fs =>
          refine slots_done (dflt := NNode.dflt) trivial ⟨id, .struct name fs⟩
            ((values ks).map (slotMaybe NNode.dflt)) (maybe_ok _ _) ?_
            (fun _ _ _ => by simp [fromStep, hm, hn])
            (by simp only [fromP, fromPs_values, hm, if_neg hn]; cases fromPValues ks <;> rfl) ?_
          · intro x hx a t hp
            obtain ⟨u, hu, rfl⟩ := List.mem_map.mp hx
            rw [maybe_push _ _ _ _ hp]
            exact hks u (values_mem _ _ hu)
          · have h1 := maybe_size (L := NNode) NNode.dflt (values ks)
            have h2 := values_sizes ks
            simp only [Tree.size]; omega
    | comprehension v v2 a =>
      exact slots_done (dflt := NNode.dflt) trivial _
        (ks.map (slotMaybe NNode.dflt)) (maybe_ok _ _) hmaybe (fun _ _ _ => rfl)
        (by simp only [fromP, fromPs_maybe]; cases fromPs ks <;> rfl) (by simp only [Tree.size]; omega)

/-! ### Copying -/

/-- The two pushes made last-but-n can be swapped: they fill different children. -/
theorem BigKids.swap {S L : Type} {st : Stepper S L} (a b : Push S) (hab : a.idx ≠ b.idx) :
    ∀ (ps : List (Push S)) (ks ks' : List (Cell L)) (n : Nat),
    BigKids st (ps ++ [a, b]) ks (.ok ks') n → BigKids st (ps ++ [b, a]) ks (.ok ks') n
  | [], ks, ks', n, h => by
    simp only [List.nil_append] at h ⊢
    cases h with
    | @cons _ _ _ la ka ca _ n1 m1 h1 h2 h3 =>
      cases h3 with
      | @cons _ _ _ lb kb cb _ n2 m2 g1 g2 g3 =>
        cases g3 with
        | nil =>
          rw [List.getElem?_set_ne hab] at g1
          have e1 : (ks.set b.idx cb)[a.idx]? = some (.node (a.addr, la) ka) := by
            rw [List.getElem?_set_ne (Ne.symm hab)]; exact h1
          have := BigKids.cons g1 g2 (BigKids.cons e1 h2 BigKids.nil)
          rw [List.set_comm _ _ (Ne.symm hab)] at this
          have hn : n1 + (n2 + 0) = n2 + (n1 + 0) := by omega
          rw [hn]
          exact this
  | p :: ps, ks, ks', n, h => by
    simp only [List.cons_append] at h ⊢
    cases h with
    | @cons _ _ _ la ka ca _ n1 m1 h1 h2 h3 =>
      exact BigKids.cons h1 h2 (BigKids.swap a b hab ps _ _ _ h3)

/-- `copyT` as a conversion that never fails. -/
def copyG (e : NExpr) : Except Status NExpr := .ok (copyT e)

/-- A default-constructed target. -/
def FreshN (l : NNode) (ks : List (Cell NNode)) : Prop := l = NNode.dflt ∧ ks = []

theorem copy_maybe : ∀ ks : List NExpr,
    evalSlots copyG (ks.map (slotMaybe NNode.dflt)) = .ok (copyTs false ks)
  | [] => by simp [evalSlots, copyTs]
  | .absent :: ts => by
    simp [List.map_cons, evalSlots, slotMaybe, copyTs, copy_maybe ts, forget]
  | .node l ks :: ts => by
    simp [List.map_cons, evalSlots, slotMaybe, copyTs, copy_maybe ts, copyG]

theorem copy_always : ∀ ks : List NExpr,
    evalSlots copyG (ks.map (slotAlways NNode.dflt NNode.dflt)) = .ok (copyTs true ks)
  | [] => by simp [evalSlots, copyTs]
  | .absent :: ts => by
    have hd : copyG (.node NNode.dflt []) = .ok (.node NNode.dflt []) := by
      simp [copyG, NNode.dflt, copyT]
    simp [List.map_cons, evalSlots, slotAlways, copyTs, copy_always ts, hd]
  | .node l ks :: ts => by
    simp [List.map_cons, evalSlots, slotAlways, copyTs, copy_always ts, copyG]

theorem copyCallSlots_eq (t : NExpr) (args : List NExpr) : ∃ g, copyCallSlots (t :: args) =
    slotMaybe NNode.dflt t :: slotsVec NNode.dflt g (List.replicate args.length g) args := by
  refine ⟨(Vec.empty.resize args.length).gen, ?_⟩
  simp only [copyCallSlots, List.map_const']

theorem copy_call (t : NExpr) (args : List NExpr) :
    evalSlots copyG (copyCallSlots (t :: args)) = .ok (copyTs false (t :: args)) := by
  obtain ⟨g, hg⟩ := copyCallSlots_eq t args
  rw [hg, ← copy_maybe]
  simp only [List.map_cons, evalSlots, vec_eval]

theorem dflt_done : Done copyStep copyG Tree.size FreshN (.node NNode.dflt []) :=
  slots_done (dflt := NNode.dflt) ⟨rfl, rfl⟩ NNode.dflt [] (by simp) (by simp)
    (fun l ks h => by rw [h.2]; rfl) (by simp [copyG, copyT, evalSlots, NNode.dflt])
    (by simp [pushedSize, Tree.size, Tree.sizes])

/-- `CloneImpl` into a default-constructed expression computes `copyT`. -/
theorem copy_done : ∀ (n : Nat) (e : NExpr), e.size ≤ n →
    Done copyStep copyG Tree.size FreshN e
  | 0, e, h => by have := size_pos e; omega
  | n + 1, .absent, h =>
    slots_done (dflt := NNode.dflt) ⟨rfl, rfl⟩ NNode.dflt [] (by simp) (by simp)
      (fun l ks h => by rw [h.2]; rfl) (by simp [copyG, copyT, evalSlots])
      (by simp [pushedSize, Tree.size])
  | n + 1, .node ⟨id, k⟩ ks, h => by
    have hks : ∀ t ∈ ks, Done copyStep copyG Tree.size FreshN t := by
      intro t ht
      have := size_le_sizes ks t ht
      simp only [Tree.size] at h
      exact copy_done n t (by omega)
    have hmaybe : ∀ x ∈ ks.map (slotMaybe (L := NNode) NNode.dflt), ∀ a t, x.push = some (a, t) →
        Done copyStep copyG Tree.size FreshN t := by
      intro x hx a t hp
      obtain ⟨u, hu, rfl⟩ := List.mem_map.mp hx
      rw [maybe_push _ _ _ _ hp]
      exact hks u hu
    have halways : ∀ x ∈ ks.map (slotAlways (L := NNode) NNode.dflt NNode.dflt), ∀ a t,
        x.push = some (a, t) → Done copyStep copyG Tree.size FreshN t := by
      intro x hx a t hp
      obtain ⟨u, hu, rfl⟩ := List.mem_map.mp hx
      cases u with
      | absent =>
        simp only [slotAlways, Option.some.injEq, Prod.mk.injEq] at hp
        rw [← hp.2]; exact dflt_done
      | node l kk =>
        simp only [slotAlways, Option.some.injEq, Prod.mk.injEq] at hp
        rw [← hp.2]; exact hks _ hu
    have hsz := maybe_size (L := NNode) NNode.dflt ks
    have hsa := always_size (L := NNode) NNode.dflt NNode.dflt ks
    cases k with
    | unspecified =>
      exact slots_done (dflt := NNode.dflt) ⟨rfl, rfl⟩ ⟨id, .unspecified⟩ [] (by simp) (by simp)
        (fun l ks h => by rw [h.2]; rfl) (by simp [copyG, copyT, evalSlots])
        (by simp [pushedSize, Tree.size])
    | const c =>
      exact slots_done (dflt := NNode.dflt) ⟨rfl, rfl⟩ ⟨id, .const c⟩ [] (by simp) (by simp)
        (fun l ks h => by rw [h.2]; rfl) (by simp [copyG, copyT, evalSlots])
        (by simp [pushedSize, Tree.size])
    | ident nm =>
      exact slots_done (dflt := NNode.dflt) ⟨rfl, rfl⟩ ⟨id, .ident nm⟩ [] (by simp) (by simp)
        (fun l ks h => by rw [h.2]; rfl) (by simp [copyG, copyT, evalSlots])
        (by simp [pushedSize, Tree.size])
    | select f t =>
      exact slots_done (dflt := NNode.dflt) ⟨rfl, rfl⟩ ⟨id, .select f t⟩
        (ks.map (slotMaybe NNode.dflt)) (maybe_ok _ _) hmaybe (fun l ks h => by rw [h.2]; rfl)
        (by rw [copy_maybe]; simp only [copyG, copyT]) (by simp only [Tree.size]; omega)
    | call fn =>
      cases ks with
      | nil =>
        exact slots_done (dflt := NNode.dflt) ⟨rfl, rfl⟩ ⟨id, .call fn⟩ [] (by simp) (by simp)
          (fun l ks h => by rw [h.2]; rfl) (by simp [copyG, copyT, copyTs, evalSlots])
          (by simp [pushedSize, Tree.size])
      | cons t args =>
        obtain ⟨g, hg⟩ := copyCallSlots_eq t args
        have hd := callVec_done t args g hks
        refine slots_done (dflt := NNode.dflt) ⟨rfl, rfl⟩ ⟨id, .call fn⟩
          (copyCallSlots (t :: args)) ?_ ?_ (fun l ks h => by rw [h.2]; rfl)
          (by rw [copy_call]; simp only [copyG, copyT]) ?_
        · rw [hg]; exact hd.1
        · rw [hg]; exact hd.2
        · rw [hg]
          have := vec_size (L := NNode) NNode.dflt g (List.replicate args.length g) args
          cases t <;> simp only [pushedSize, slotMaybe, Tree.sizes, Tree.size] <;> omega
    | list opt =>
      exact slots_done (dflt := NNode.dflt) ⟨rfl, rfl⟩ ⟨id, .list opt⟩
        (ks.map (slotAlways NNode.dflt NNode.dflt)) (always_ok _ _ _) halways
        (fun l ks h => by rw [h.2]; rfl)
        (by rw [copy_always]; simp only [copyG, copyT]) (by simp only [Tree.size]; omega)
    | struct name fields =>
      exact slots_done (dflt := NNode.dflt) ⟨rfl, rfl⟩ ⟨id, .struct name fields⟩
        (ks.map (slotAlways NNode.dflt NNode.dflt)) (always_ok _ _ _) halways
        (fun l ks h => by rw [h.2]; rfl)
        (by rw [copy_always]; simp only [copyG, copyT]) (by simp only [Tree.size]; omega)
    | map entries =>
      exact slots_done (dflt := NNode.dflt) ⟨rfl, rfl⟩ ⟨id, .map entries⟩
        (ks.map (slotAlways NNode.dflt NNode.dflt)) (always_ok _ _ _) halways
        (fun l ks h => by rw [h.2]; rfl)
        (by rw [copy_always]; simp only [copyG, copyT]) (by simp only [Tree.size]; omega)
    | comprehension v v2 a =>
      have plain : (∀ l kk, FreshN l kk →
          copyStep (.node ⟨id, .comprehension v v2 a⟩ ks) l kk =
            .ok (finish [] ⟨id, .comprehension v v2 a⟩ (ks.map (slotMaybe NNode.dflt)))) →
          Done copyStep copyG Tree.size FreshN (.node ⟨id, .comprehension v v2 a⟩ ks) := by
        intro hst
        exact slots_done (dflt := NNode.dflt) ⟨rfl, rfl⟩ _ (ks.map (slotMaybe NNode.dflt))
          (maybe_ok _ _) hmaybe hst (by rw [copy_maybe]; simp only [copyG, copyT]) (by simp only [Tree.size]; omega)
      by_cases hsh : ∃ lr kr li ki c s r, ks = [.node lr kr, .node li ki, c, s, r]
      · obtain ⟨lr, kr, li, ki, c, s, r, rfl⟩ := hsh
        intro ad l kk hf
        obtain ⟨rfl, rfl⟩ := hf
        obtain ⟨res, m, hb, hs, hn⟩ := slots_done_aux (st := copyStep) (Fresh := FreshN)
          (dflt := NNode.dflt) ⟨rfl, rfl⟩ 5 _ (by simp) (maybe_ok _ _) hmaybe []
        rw [copy_maybe] at hs
        cases res with
        | error e => exact hs.elim
        | ok cs =>
          obtain ⟨cs0, h1, h2⟩ := hs
          rw [List.append_nil] at h1
          refine ⟨_, m + 1, Big.ok (ks' := cs) (r := ⟨⟨id, .comprehension v v2 a⟩, _, _⟩) rfl ?_, ?_, ?_⟩
          · rw [List.append_nil] at hb
            have : (slotPushes 0 (List.map (slotMaybe (L := NNode) NNode.dflt)
                [.node lr kr, .node li ki, c, s, r])).reverse =
                (slotPushes 2 (List.map (slotMaybe (L := NNode) NNode.dflt) [c, s, r])).reverse ++
                [⟨1, 0, .node li ki⟩, ⟨0, 0, .node lr kr⟩] := by
              simp [slotPushes, slotMaybe]
            rw [this] at hb
            have := BigKids.swap _ _ (by simp) _ _ _ _ hb
            simpa [finish, slotPushes, slotMaybe] using this
          · simp [copyG, copyT, Sim, forget, h2, h1]
          · simp only [Tree.size] at hsz ⊢; omega
      · apply plain
        intro l kk hf
        obtain ⟨rfl, rfl⟩ := hf
        simp only [copyStep]
        split
        · rename_i lr kr li ki c s r
          exact absurd ⟨lr, kr, li, ki, c, s, r, rfl⟩ hsh
        · rfl

end Cel.Proto
