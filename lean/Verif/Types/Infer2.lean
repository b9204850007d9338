import Verif.Types.Infer1

/-!
# C60: accepted nodes are typed

`Ast.Ok`: the typing rules, on types without type variables.
-/

set_option linter.unusedSimpArgs false
set_option linter.unusedVariables false

namespace Cel.Types
open Cel Cel.Eval Cel.Checker Relation

/-! ## Typing rules -/

/-- The field `f` of a message or map of type `t` has type `a`. -/
def FieldOk (d : Decls) (f : String) (t a : Ty) : Prop :=
  (∃ s u, t = .con (.struct s) [] ∧ d.fields s f = some u ∧ (a = u ∨ (∃ e, u = .con (.enum e) []) ∧ a = .b .int)) ∨ ∃ k, t = .con .map [k, a]

def SelectOk (d : Decls) (f : String) (test : Bool) (t a : Ty) : Prop :=
  (test = true ∧ a = .b .bool) ∨
    (test = false ∧ ((optionalOf t = none ∧ FieldOk d f t a) ∨ ∃ h u, optionalOf t = some h ∧ a = optionalTy u ∧ FieldOk d f h u))

/-- What the arguments of a call are held against. -/
def paramsOf (o : Checker.Overload) (logical : Bool) (count : Nat) : List Ty :=
  if logical then List.replicate count (o.args.headD dyn) else o.args

def CallOk (d : Decls) (l : Bool) (fn : String) (recv : Bool) (as : List Ty) (a : Ty) : Prop :=
  ∃ fd o θ, d.funcs fn = some fd ∧ o ∈ fd.overloads ∧ o.member = recv ∧ hasShape fd recv as.length = true ∧
    Both Alike as ((paramsOf o (isLogicalOp fd.name as) as.length).map (subst θ)) ∧ a = subst θ o.result

mutual
def Ast.Ok (d : Decls) (l : Bool) : Scope → Ast Ty → Prop
  | _, .const a v => HasType a v
  | Γ, .ident a x abs =>
    (abs = false ∧ ∃ t, scopeGet Γ x = some t ∧ Alike t a) ∨ ((abs = true ∨ scopeGet Γ x = none) ∧ ∃ t, d.vars x = some t ∧ Alike t a)
  | Γ, .select a e f test => e.Ok d l Γ ∧ SelectOk d f test e.ann a
  | Γ, .call a fn recv args => args.Ok d l Γ ∧ CallOk d l fn recv args.anns a
  | Γ, .list a es => es.Ok d l Γ ∧ ∃ u, a = .con .list [u] ∧ ∀ f ∈ es.anns, Alike f u
  | Γ, .map a es => es.Ok d l Γ ∧ es.anns.length % 2 = 0 ∧
      ∃ k v, a = .con .map [k, v] ∧ (∀ f ∈ evens es.anns, Alike f k) ∧ ∀ f ∈ odds es.anns, Alike f v
  | Γ, .struct a name fs vs => vs.Ok d l Γ ∧ d.types name = some a ∧
      ∃ ts, Both (fun f u => d.fields name f = some u) fs ts ∧ Both Alike vs.anns ts
  | Γ, .comp a iter iter2 accu range init cnd stp res =>
    init.Ok d l Γ ∧ res.Ok d l ((accu, init.ann) :: Γ) ∧ a = res.ann ∧
      (isBind iter iter2 range cnd = true ∨ (range.Ok d l Γ ∧ cnd.Ok d l ((accu, init.ann) :: Γ) ∧
        ∃ ts, iterTys range.ann = some ts ∧ stp.Ok d l (iterScope iter iter2 ts ++ (accu, init.ann) :: Γ)))
def Asts.Ok (d : Decls) (l : Bool) : Scope → Asts Ty → Prop
  | _, .nil => True
  | Γ, .cons e es => e.Ok d l Γ ∧ es.Ok d l Γ
end

/-! ## Lists and maps -/

theorem inst_param (x : Name) (c : Ctx) : ∃ y, (inst (.param x) c).1 = .param y := by
  unfold inst
  dsimp only
  rw [instantiate]
  unfold instantiateParam
  split
  · exact ⟨_, rfl⟩
  · split <;> exact ⟨_, rfl⟩

theorem fit_var {l : Bool} {c : Ctx} (h : CtxOk l c) (x : String) (hx : isTypeVar (.other x) = false) : CtxOk l (inst (.param (.other x)) c).2 ∧
    Keeps c (inst (.param (.other x)) c).2 ∧ Fit l (inst (.param (.other x)) c).2 (inst (.param (.other x)) c).1 := by
  obtain ⟨h1, h2, h3, _⟩ := ok_inst h (t := .param (.other x)) (.param _) (fun y hy hv => by cases hy; rw [hx] at hv; exact nomatch hv)
  obtain ⟨y, e⟩ := inst_param (.other x) c
  exact ⟨h1, h2, h3, by rw [e]; exact .param y⟩

/-- The joint type of a session that is not `dyn`. -/
theorem join_ok {l : Bool} {c : Ctx} {n : Nat} {as : List Ty} {v : Ty × Ctx} (hv : v.2 = c) (ht : ∃ y, v.1 = .param y) (h : CtxOk l c) (hf : Fit l c v.1)
    (ha : ∀ a ∈ as, Fit l c a) {r : Ty × Pro} (hr : joinLoop c n as v.1 .empty = some r) (hd : r.1 ≠ dyn) :
    r.1 = v.1 ∧ r.1.is .dyn = false ∧ CtxOk l (c.update r.2) ∧ Keeps c (c.update r.2) ∧ ∀ a ∈ as, FitsIn l (c.update r.2).sub a v.1 := by
  rcases joinLoop_ok h hf _ _ _ hr (proOk_empty h) ha with e | ⟨e, h1, _, h3⟩
  · exact absurd e hd
  · have hl := later_session hr false
    obtain ⟨k1, k2⟩ := proOk_update h h1 hl
    obtain ⟨y, hy⟩ := ht
    refine ⟨e, by rw [e, hy]; rfl, k1, update_keeps _ _, fun a ha' => ?_⟩
    rw [k2]
    exact h3 a ha'

theorem alike_of_fits {l : Bool} {τ σ : Sub} (hle : Within σ τ) (hτ : CleanSub l τ) {a b s t : Ty} (h : FitsIn l σ a b) (ha : Clean l a) (hb : Clean l b)
    (hs : Full τ true a s) (ht : Full τ true b t) : Alike s t := fitsIn_alike hτ (fitsIn_mono hle h) ha hb s t hs ht

theorem list_ok {l : Bool} {c : Ctx} {n : Nat} {as : List Ty} {r : Ty × Ctx} (hr : listTy c n as = some r) (h : CtxOk l c) (ha : ∀ a ∈ as, Fit l c a)
    {τ : Sub} (hle : Within r.2.sub τ) (ht : TotalSub τ) {s : Ty} (hs : Full τ true r.1 s) (hst : Strict l s) :
    CtxOk l r.2 ∧ Keeps c r.2 ∧ Good r.2 r.1 ∧ (CleanSub l τ → ∀ fs, Both (Full τ true) as fs → ∃ u, s = .con .list [u] ∧ ∀ f ∈ fs, Alike f u) := by
  unfold listTy at hr
  obtain ⟨q, h1, h2⟩ := bind_some hr
  obtain ⟨t, h3, h4⟩ := bind_some h2
  injection h4 with h4
  subst h4
  have hs := full_before hle ht h3 hs
  obtain ⟨u, rfl, hu⟩ := full_list hs
  have hsu := strict_list hst
  unfold join at h1
  dsimp only at h1
  obtain ⟨j, g1, g2⟩ := bind_some h1
  have g2 : some (j.1, if j.1.is .dyn = true then (inst (.param (.other "E")) c).2 else (inst (.param (.other "E")) c).2.update j.2) = some q := g2
  injection g2 with g2
  obtain ⟨v1, v2, v3⟩ := fit_var h "E" rfl
  have hd : j.1 ≠ dyn := by
    intro e
    rw [← g2, e] at hu
    rw [full_base hu] at hsu
    exact strict_dyn hsu
  obtain ⟨e, ed, k1, k2, k3⟩ := join_ok rfl (inst_param _ _) v1 v3 (fun a h => (ha a h).keeps v2) g1 hd
  rw [ed, if_neg (by simp), e] at g2
  subst g2
  dsimp only at *
  have hg : Good ((inst (.param (.other "E")) c).2.update j.2) (.con .list [(inst (.param (.other "E")) c).1]) :=
    good_node rfl (fun p hp => by rw [List.mem_singleton] at hp; rw [hp]; exact good_keeps k2 v3.1)
  refine ⟨k1, keeps_trans v2 k2, full_good k1.proper _ _ _ h3 hg, fun hτ fs hb => ⟨u, rfl, fun f hf => ?_⟩⟩
  obtain ⟨a, ha', hfa⟩ := hb.right f hf
  exact alike_of_fits hle hτ (k3 a ha') (ha a ha').2 v3.2 hfa hu

/-- The empty list `cel.bind` iterates over. -/
theorem list_nil_ok {l : Bool} {c : Ctx} {n : Nat} {r : Ty × Ctx} (hr : listTy c n [] = some r) (h : CtxOk l c) :
    CtxOk l r.2 ∧ Keeps c r.2 ∧ Fit l r.2 r.1 := by
  unfold listTy at hr
  obtain ⟨q, h1, h2⟩ := bind_some hr
  obtain ⟨t, h3, h4⟩ := bind_some h2
  injection h4 with h4
  subst h4
  unfold join at h1
  dsimp only at h1
  obtain ⟨j, g1, g2⟩ := bind_some h1
  have g2 : some (j.1, if j.1.is .dyn = true then (inst (.param (.other "E")) c).2 else (inst (.param (.other "E")) c).2.update j.2) = some q := g2
  injection g2 with g2
  obtain ⟨v1, v2, v3⟩ := fit_var h "E" rfl
  have hj : j = ((inst (.param (.other "E")) c).1, .empty) := by
    rw [joinLoop] at g1
    injection g1 with g1
    exact g1.symm
  have hd : j.1 ≠ dyn := by
    obtain ⟨y, e⟩ := inst_param (.other "E") c
    rw [hj, e]
    intro e; exact nomatch e
  obtain ⟨e, ed, k1, k2, k3⟩ := join_ok rfl (inst_param _ _) v1 v3 (fun a h => absurd h (by simp)) g1 hd
  rw [ed, if_neg (by simp), e] at g2
  subst g2
  dsimp only at *
  have hg : Good ((inst (.param (.other "E")) c).2.update j.2) (.con .list [(inst (.param (.other "E")) c).1]) :=
    good_node rfl (fun p hp => by rw [List.mem_singleton] at hp; rw [hp]; exact good_keeps k2 v3.1)
  have hg' := full_good k1.proper _ _ _ h3 hg
  exact ⟨k1, keeps_trans v2 k2, hg', full_clean k1.clean (total_of_wf k1.wf true) _ _ _ h3 (.list v3.2) hg'.1⟩

theorem mem_evens {α : Type} {a : α} : ∀ as : List α, a ∈ evens as → a ∈ as
  | [], h => by rw [evens] at h; exact h; all_goals simp
  | [x], h => by rw [evens] at h; exact absurd h (by simp); all_goals simp
  | x :: y :: r, h => by
    rw [evens, List.mem_cons] at h
    rcases h with rfl | h
    · simp
    · simp [mem_evens r h]

theorem mem_odds {α : Type} {a : α} : ∀ as : List α, a ∈ odds as → a ∈ as
  | [], h => by rw [odds] at h; exact h; all_goals simp
  | [x], h => by rw [odds] at h; exact absurd h (by simp); all_goals simp
  | x :: y :: r, h => by
    rw [odds, List.mem_cons] at h
    rcases h with rfl | h
    · simp
    · simp [mem_odds r h]

theorem Both.evens {α β : Type} {R : α → β → Prop} : ∀ (as : List α) (bs : List β), Both R as bs → Both R (Types.evens as) (Types.evens bs)
  | [], _, h => by cases h; exact .nil
  | [x], _, h => by cases h with | cons _ h => cases h; exact .nil
  | x :: y :: r, _, h => by
    cases h with | cons h1 h => cases h with | cons h2 h => exact .cons h1 (Both.evens r _ h)

theorem Both.odds {α β : Type} {R : α → β → Prop} : ∀ (as : List α) (bs : List β), Both R as bs → Both R (Types.odds as) (Types.odds bs)
  | [], _, h => by cases h; exact .nil
  | [x], _, h => by cases h with | cons _ h => cases h; exact .nil
  | x :: y :: r, _, h => by
    cases h with | cons h1 h => cases h with | cons h2 h => exact .cons h2 (Both.odds r _ h)

theorem map_ok {l : Bool} {c : Ctx} {n : Nat} {as : List Ty} {r : Ty × Ctx} (hr : mapTy c n as = some r) (h : CtxOk l c) (ha : ∀ a ∈ as, Fit l c a)
    {τ : Sub} (hle : Within r.2.sub τ) (ht : TotalSub τ) {s : Ty} (hs : Full τ true r.1 s) (hst : Strict l s) :
    CtxOk l r.2 ∧ Keeps c r.2 ∧ Good r.2 r.1 ∧ (CleanSub l τ → ∀ fs, Both (Full τ true) as fs → fs.length % 2 = 0 ∧
      ∃ k v, s = .con .map [k, v] ∧ (∀ f ∈ evens fs, Alike f k) ∧ ∀ f ∈ odds fs, Alike f v) := by
  obtain ⟨hl, k, v, j, q, t, ek, ev, g1, g2, g3, rfl⟩ := mapTy_parts hr
  dsimp only at *
  have hs := full_before hle ht g3 hs
  obtain ⟨k', v', rfl, hk', hv'⟩ := full_map hs
  obtain ⟨sk, sv⟩ := strict_map hst
  obtain ⟨a1, a2, a3⟩ := fit_var h "K" rfl
  rw [← ek] at a1 a2 a3
  obtain ⟨b1, b2, b3⟩ := fit_var a1 "V" rfl
  rw [← ev] at b1 b2 b3
  have kv := keeps_trans a2 b2
  have hd : j.1 ≠ dyn := by
    intro e
    rw [e] at hk'
    have e := full_base hk'
    rw [e] at sk
    rcases sk with h | h | h | h <;> exact nomatch h
  obtain ⟨e, ed, k1, k2, k3⟩ := join_ok (v := (k.1, v.2)) rfl (by rw [ek]; exact inst_param _ _) b1 (a3.keeps b2)
    (fun a h => (ha a (mem_evens _ h)).keeps kv) g1 hd
  dsimp only at e
  rw [ed, if_neg (by simp)] at g2
  have hdv : q.1 ≠ dyn := by
    intro e
    rw [e] at hv'
    rw [full_base hv'] at sv
    exact strict_dyn sv
  rcases valuesLoop_ok _ _ _ g2 k1 (b3.keeps k2) (fun a h => (ha a (mem_odds _ h)).keeps (keeps_trans kv k2)) with e' | ⟨e', q1, q2, q3⟩
  · exact absurd e' hdv
  have hg : Good q.2 (.con .map [j.1, q.1]) := good_node rfl (fun p hp => by
    simp only [List.mem_cons, List.not_mem_nil, or_false] at hp
    rcases hp with rfl | rfl
    · rw [e]; exact good_keeps (keeps_trans b2 (keeps_trans k2 q2)) a3.1
    · rw [e']; exact good_keeps (keeps_trans k2 q2) b3.1)
  refine ⟨q1, keeps_trans kv (keeps_trans k2 q2), full_good q1.proper _ _ _ g3 hg, fun hτ fs hb => ⟨by rw [← hb.length]; exact hl, k', v', rfl, ?_, ?_⟩⟩
  · intro f hf
    obtain ⟨a, ha', hfa⟩ := (hb.evens _ _).right f hf
    rw [e] at hk'
    exact alike_of_fits (fun x t h => hle x t ((later_values _ _ _ _ g2).sub x t h)) hτ (k3 a ha') (ha a (mem_evens _ ha')).2 a3.2 hfa hk'
  · intro f hf
    obtain ⟨a, ha', hfa⟩ := (hb.odds _ _).right f hf
    rw [e'] at hv'
    exact alike_of_fits hle hτ (q3 a ha') (ha a (mem_odds _ ha')).2 b3.2 hfa hv'

end Cel.Types
