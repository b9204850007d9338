import Verif.Types.Steps

/-!
# C60: typed expressions evaluate to values of their types
-/

set_option linter.unusedSimpArgs false
set_option linter.unusedVariables false

namespace Cel.Types
open Cel Cel.Eval Cel.Data Cel.Direct Cel.Checker

/-! ## States and environments -/

/-- The memo cells hold what their types say. -/
def SOk {σ : Type} (u : Bool) (Ψ : List Ty) (s : SS σ) : Prop :=
  s.heap.length = Ψ.length ∧ ∀ (c : Nat) (x : VA) t, s.heap[c]? = some (some x) → Ψ[c]? = some t → Fine u t x.v

def OutOk {σ : Type} (u : Bool) (Ψ : List Ty) (t : Ty) : Out σ VA → Prop
  | .ok x s => Fine u t x.v ∧ SOk u Ψ s
  | .err e _ => ¬ TypeError e
  | .ub => False

def BindOk {σ : Type} (u : Bool) (Ψ : List Ty) (t : Ty) : Binding σ → Prop
  | .val x => Fine u t x.v
  | .delayed c th => Ψ[c]? = some t ∧ ∀ Ψ', Ψ <+: Ψ' → ∀ s, SOk u Ψ' s → OutOk u Ψ' t (th s)

def SameOk {σ : Type} (u : Bool) (Ψ : List Ty) : Option Ty → Option (Binding σ) → Prop
  | none, none => True
  | some t, some b => BindOk u Ψ t b
  | _, _ => False

/-- The variables named by `N` are bound as the scope says. -/
def EnvOk {σ : Type} (u : Bool) (Ψ : List Ty) (N : String → Bool) (Γ : Scope) (ρ : Env σ) : Prop :=
  ∀ x, N x = true → SameOk u Ψ (scopeGet Γ x) (envGet ρ x)

theorem prefix_get {α : Type} {a b : List α} {i : Nat} {x : α} (h : a <+: b) (hi : a[i]? = some x) : b[i]? = some x := by
  obtain ⟨c, rfl⟩ := h
  rw [List.getElem?_append_left (List.getElem?_eq_some_iff.mp hi).1, hi]

theorem BindOk.mono {σ : Type} {u : Bool} {Ψ Ψ' : List Ty} {t : Ty} {b : Binding σ} (h : BindOk u Ψ t b) (hp : Ψ <+: Ψ') : BindOk u Ψ' t b := by
  cases b with
  | val x => exact h
  | delayed c th => exact ⟨prefix_get hp h.1, fun Ψ'' h2 => h.2 Ψ'' (hp.trans h2)⟩

theorem EnvOk.mono {σ : Type} {u : Bool} {Ψ Ψ' : List Ty} {N : String → Bool} {Γ : Scope} {ρ : Env σ} (h : EnvOk u Ψ N Γ ρ) (hp : Ψ <+: Ψ') :
    EnvOk u Ψ' N Γ ρ := by
  intro x hx
  have := h x hx
  revert this
  cases scopeGet Γ x <;> cases envGet ρ x
  · exact id
  · exact id
  · exact id
  · exact fun h => BindOk.mono h hp

theorem EnvOk.sub {σ : Type} {u : Bool} {Ψ : List Ty} {N M : String → Bool} {Γ : Scope} {ρ : Env σ} (h : EnvOk u Ψ N Γ ρ) (hs : ∀ x, M x = true → N x = true) :
    EnvOk u Ψ M Γ ρ := fun x hx => h x (hs x hx)

theorem EnvOk.cons {σ : Type} {u : Bool} {Ψ : List Ty} {N : String → Bool} {Γ : Scope} {ρ : Env σ} (h : EnvOk u Ψ N Γ ρ) (y : String) {t : Ty}
    {b : Binding σ} (hb : BindOk u Ψ t b) : EnvOk u Ψ N ((y, t) :: Γ) ((y, b) :: ρ) := by
  intro x hx
  rw [scopeGet, envGet]
  by_cases e : x = y
  · rw [if_pos e, if_pos e]; exact hb
  · rw [if_neg e, if_neg e]; exact h x hx

/-- A binding of a name that is not used. -/
theorem EnvOk.skip {σ : Type} {u : Bool} {Ψ : List Ty} {N : String → Bool} {Γ : Scope} {ρ : Env σ} (h : EnvOk u Ψ N Γ ρ) (y : String) (hy : N y = false)
    (b : Binding σ) : EnvOk u Ψ N Γ ((y, b) :: ρ) := by
  intro x hx
  rw [envGet]
  by_cases e : x = y
  · rw [e, hy] at hx; exact nomatch hx
  · rw [if_neg e]; exact h x hx

theorem OutOk.bind {σ : Type} {u : Bool} {Ψ : List Ty} {t a : Ty} {o : Out σ VA} {f : VA → SS σ → Out σ VA} (h : OutOk u Ψ t o)
    (hf : ∀ x s, Fine u t x.v → SOk u Ψ s → OutOk u Ψ a (f x s)) : OutOk u Ψ a (o.bind f) := by
  cases o with
  | ok x s => exact hf x s h.1 h.2
  | err e s => exact h
  | ub => exact h

theorem OutOk.alike {σ : Type} {u : Bool} {Ψ : List Ty} {s t : Ty} {o : Out σ VA} (h : OutOk u Ψ s o) (ha : Alike s t) : OutOk u Ψ t o := by
  cases o with
  | ok x s => exact ⟨ha.fine h.1, h.2⟩
  | err e s => exact h
  | ub => exact h

theorem lift_ok {σ : Type} {u : Bool} {Ψ : List Ty} {t : Ty} {r : Res VA × σ} {s : SS σ} (h : FineRes u t r.1) (hs : SOk u Ψ s) :
    OutOk u Ψ t (lift r s) := by
  obtain ⟨r, k⟩ := r
  cases r with
  | ok x => exact ⟨h, hs⟩
  | err e => exact h
  | ub => exact h

/-- Reading a variable. -/
theorem read_ok {σ : Type} {u : Bool} {Ψ : List Ty} {t : Ty} {b : Binding σ} (h : BindOk u Ψ t b) {s : SS σ} (hs : SOk u Ψ s) :
    OutOk u Ψ t (readBinding b s) := by
  cases b with
  | val x => exact ⟨h, hs⟩
  | delayed c th =>
    rw [readBinding]
    split
    · rename_i x hx
      exact ⟨hs.2 c x t hx h.1, hs⟩
    · refine (h.2 Ψ (List.prefix_refl _) s hs).bind fun x s' hx hs' => ⟨hx, ?_, ?_⟩
      · show (s'.heap.set c (some x)).length = _
        rw [List.length_set]
        exact hs'.1
      · intro c' x' t' h1 h2
        have h1 : (s'.heap.set c (some x))[c']? = some (some x') := h1
        by_cases e : c = c'
        · subst e
          rw [h.1] at h2
          injection h2 with h2
          subst h2
          rw [List.getElem?_set_self'] at h1
          cases hq : s'.heap[c]? with
          | none => rw [hq] at h1; exact nomatch h1
          | some q => rw [hq] at h1; injection h1 with h1; injection h1 with h1; rw [← h1]; exact hx
        · rw [List.getElem?_set_ne e] at h1
          exact hs'.2 c' x' t' h1 h2
    · rename_i hn
      have := List.getElem?_eq_none_iff.mp hn
      have h2 := (List.getElem?_eq_some_iff.mp h.1).1
      rw [hs.1] at this
      omega

/-! ## Operands -/

/-- Each operand evaluates to what its type says. -/
def ArgsOk {σ : Type} (cfg : Cfg σ) (u : Bool) (ρ : Env σ) (Ψ : List Ty) : List Ty → Exprs σ → Prop
  | [], .nil => True
  | t :: ts, .cons e es => (∀ s, SOk u Ψ s → OutOk u Ψ t (den cfg e ρ s)) ∧ ArgsOk cfg u ρ Ψ ts es
  | _, _ => False

def OutsOk {σ : Type} (u : Bool) (Ψ : List Ty) (ts : List Ty) : Out σ (List VA) → Prop
  | .ok xs s => Both (fun t (x : VA) => Fine u t x.v) ts xs ∧ SOk u Ψ s
  | .err e _ => ¬ TypeError e
  | .ub => False

theorem args_ok {σ : Type} {cfg : Cfg σ} {u : Bool} {ρ : Env σ} {Ψ : List Ty} : ∀ (ts : List Ty) (es : Exprs σ), ArgsOk cfg u ρ Ψ ts es → ∀ s, SOk u Ψ s →
    OutsOk u Ψ ts (denArgs cfg es ρ s)
  | [], .nil, _, s, hs => by rw [denArgs]; exact ⟨.nil, hs⟩
  | t :: ts, .cons e es, h, s, hs => by
    rw [denArgs]
    have h1 := h.1 s hs
    revert h1
    cases den cfg e ρ s with
    | err e s => exact id
    | ub => exact id
    | ok x s =>
      intro h1
      show OutsOk u Ψ (t :: ts) ((denArgs cfg es ρ s).bind fun xs s => .ok (x :: xs) s)
      have h2 := args_ok ts es h.2 s h1.2
      revert h2
      cases denArgs cfg es ρ s with
      | err e s => exact id
      | ub => exact id
      | ok xs s => intro h2; exact ⟨.cons h1.1 h2.1, h2.2⟩

/-- A step whose operands are typed. -/
theorem op_ok {σ : Type} {cfg : Cfg σ} {u : Bool} {ρ : Env σ} {Ψ : List Ty} {ts : List Ty} {es : Exprs σ} (h : ArgsOk cfg u ρ Ψ ts es) {f : Op σ} {a : Ty}
    (hf : ∀ xs k, Both (fun t (x : VA) => Fine u t x.v) ts xs → FineRes u a (f xs k).1) {s : SS σ} (hs : SOk u Ψ s) :
    OutOk u Ψ a (den cfg (.op f es) ρ s) := by
  rw [den]
  have h1 := args_ok ts es h s hs
  revert h1
  cases denArgs cfg es ρ s with
  | err e s => exact id
  | ub => exact id
  | ok xs s => intro h1; exact lift_ok (hf xs s.host h1.1) h1.2

/-! ## Operators with jumps -/

theorem logic_ok {σ : Type} {cfg : Cfg σ} {ρ : Env σ} {Ψ : List Ty} {isOr : Bool} {a b : Expr σ}
    (ha : ∀ s, SOk cfg.unknowns Ψ s → OutOk cfg.unknowns Ψ (.b .bool) (den cfg a ρ s))
    (hb : ∀ s, SOk cfg.unknowns Ψ s → OutOk cfg.unknowns Ψ (.b .bool) (den cfg b ρ s)) (s : SS σ) (hs : SOk cfg.unknowns Ψ s) :
    OutOk cfg.unknowns Ψ (.b .bool) (den cfg (.logic isOr a b) ρ s) := by
  rw [den]
  refine (ha s hs).bind fun x s hx hs => ?_
  split
  · split
    · exact ⟨hx, hs⟩
    · exact (hb s hs).bind fun z s hz hs => ⟨calcLogic_fine hx hz, hs⟩
  · exact (hb s hs).bind fun z s hz hs => ⟨calcLogic_fine hx hz, hs⟩

theorem chain_ok {σ : Type} {cfg : Cfg σ} {ρ : Env σ} {Ψ : List Ty} {isOr : Bool} : ∀ (ts : List Ty) (es : Exprs σ) (e : Expr σ),
    (∀ s, SOk cfg.unknowns Ψ s → OutOk cfg.unknowns Ψ (.b .bool) (den cfg e ρ s)) → ArgsOk cfg cfg.unknowns ρ Ψ ts es → (∀ t ∈ ts, t = .b .bool) →
    ∀ s, SOk cfg.unknowns Ψ s → OutOk cfg.unknowns Ψ (.b .bool) (den cfg (chain isOr e es) ρ s)
  | [], .nil, e, h, _, _ => h
  | t :: ts, .cons f fs, e, h, ha, ht => by
    rw [chain]
    have := ha.1
    rw [ht t (by simp)] at this
    exact chain_ok ts fs _ (logic_ok h this) ha.2 (fun t h => ht t (by simp [h]))

theorem cond_ok {σ : Type} {cfg : Cfg σ} {ρ : Env σ} {Ψ : List Ty} {t : Ty} {c a b : Expr σ}
    (hc : ∀ s, SOk cfg.unknowns Ψ s → OutOk cfg.unknowns Ψ (.b .bool) (den cfg c ρ s))
    (ha : ∀ s, SOk cfg.unknowns Ψ s → OutOk cfg.unknowns Ψ t (den cfg a ρ s))
    (hb : ∀ s, SOk cfg.unknowns Ψ s → OutOk cfg.unknowns Ψ t (den cfg b ρ s)) (s : SS σ) (hs : SOk cfg.unknowns Ψ s) :
    OutOk cfg.unknowns Ψ t (den cfg (.cond c a b) ρ s) := by
  rw [den]
  refine (hc s hs).bind fun x s hx hs => ?_
  split
  · unfold ternOf
    rcases hx.bool_cases with ⟨v, e⟩ | ⟨w, e, hn⟩ | ⟨w, e, hu⟩
    · rw [e]
      cases v with
      | true => exact ha s hs
      | false => exact hb s hs
    · rw [e]
      refine ⟨?_, hs⟩
      rw [e]
      exact .error hn
    · rw [e]
      refine ⟨?_, hs⟩
      rw [e]
      exact .unknown _ hu
  · refine (ha s hs).bind fun y s hy hs => (hb s hs).bind fun z s hz hs => ⟨?_, hs⟩
    unfold ternaryStep
    rcases hx.bool_cases with ⟨v, e⟩ | ⟨w, e, hn⟩ | ⟨w, e, hu⟩
    · rw [e]
      cases v with
      | true => exact hy
      | false => exact hz
    · rw [e]
      dsimp only
      rw [e]
      exact .error hn
    · rw [e]
      dsimp only
      rw [if_pos hu, e]
      exact .unknown _ hu

/-! ## Comprehensions -/

/-- The parts of an item have the types of the iteration variables. -/
def ItemOk (ts : Ty × Ty × Ty) (it : Item) : Prop := HasType ts.1 it.one ∧ HasType ts.2.1 it.key ∧ HasType ts.2.2 it.val

theorem listItems_ok {t : Ty} : ∀ (l : List Value) (i : Int), (∀ v ∈ l, HasType t v) → ∀ it ∈ listItems i l, ItemOk (t, .b .int, t) it
  | [], _, _, it, h => nomatch h
  | v :: vs, i, hl, it, h => by
    rw [listItems] at h
    rcases List.mem_cons.mp h with rfl | h
    · exact ⟨hl v (by simp), .int i, hl v (by simp)⟩
    · exact listItems_ok vs (i + 1) (fun w hw => hl w (by simp [hw])) it h

theorem mapItems_ok {k t : Ty} : ∀ (m : List (Value × Value)), (∀ e ∈ m, HasType k e.1) → (∀ e ∈ m, HasType t e.2) → ∀ it ∈ mapItems m, ItemOk (k, k, t) it
  | [], _, _, it, h => nomatch h
  | (x, v) :: m, h1, h2, it, h => by
    rw [mapItems] at h
    rcases List.mem_cons.mp h with rfl | h
    · exact ⟨h1 (x, v) (by simp), h1 (x, v) (by simp), h2 (x, v) (by simp)⟩
    · exact mapItems_ok m (fun w hw => h1 w (by simp [hw])) (fun w hw => h2 w (by simp [hw])) it h

theorem range_ok {u l : Bool} {pats : List Pattern} {t : Ty} {ts : Ty × Ty × Ty} (hst : Strict l t) (ht : iterTys t = some ts) {x : VA} (hx : Fine u t x.v) :
    match rangeOf u pats x with
    | .items l => ∀ it ∈ l, ItemOk ts it
    | .stop y => ∀ a, Fine u a y.v := by
  unfold rangeOf
  rcases hx.cases3 with h | ⟨w, e, hn⟩ | ⟨w, e, hu⟩
  · unfold iterTys at ht
    split at ht
    · injection ht with ht
      subst ht
      obtain ⟨l, e, hl⟩ := h.list_inv
      rw [e]
      exact listItems_ok l 0 hl
    · injection ht with ht
      subst ht
      obtain ⟨m, e, h1, h2⟩ := h.map_inv
      rw [e]
      dsimp only
      split
      · rename_i hc
        split at hc
        · exact nomatch hc
        · injection hc with hc
          subst hc
          exact mapItems_ok m h1 h2
      · rename_i hc
        split at hc
        · rename_i hs
          split at hs
          · rename_i hu
            injection hc with hc
            subst hc
            exact fun a => .unknown _ hu.1
          · exact nomatch hs
        · exact nomatch hc
    · cases hst with | base hb => exact hb.elim
    · exact nomatch ht
  · rw [e]
    intro a
    rw [e]
    exact .error hn
  · rw [e]
    intro a
    rw [e]
    exact .unknown _ hu

theorem item1_ok {u : Bool} {pats : List Pattern} {tr : Trail} {ts : Ty × Ty × Ty} {it : Item} (h : ItemOk ts it) : Fine u ts.1 (item1 u pats tr it).v := by
  unfold item1
  dsimp only
  split
  · rename_i hu
    split
    · exact .unknown _ hu
    · exact .value h.1
  · exact .value h.1

theorem item2_ok {u : Bool} {pats : List Pattern} {tr : Trail} {ts : Ty × Ty × Ty} {it : Item} (h : ItemOk ts it) :
    Fine u ts.2.1 (item2 u pats tr it).1.v ∧ Fine u ts.2.2 (item2 u pats tr it).2.v := by
  unfold item2
  dsimp only
  split
  · rename_i hu
    split
    · exact ⟨.value h.2.1, .unknown _ hu⟩
    · exact ⟨.value h.2.1, .value h.2.2⟩
  · exact ⟨.value h.2.1, .value h.2.2⟩

theorem iter_env {σ : Type} {cfg : Cfg σ} {Ψ : List Ty} {N : String → Bool} {Γ : Scope} {ρ : Env σ} (h : EnvOk cfg.unknowns Ψ N Γ ρ) (iter : String)
    (iter2 : Option String) {tr : Trail} {ts : Ty × Ty × Ty} {it : Item} (hi : ItemOk ts it) :
    EnvOk cfg.unknowns Ψ N (iterScope iter iter2 ts ++ Γ) (iterBinds cfg iter iter2 tr it ++ ρ) := by
  unfold Types.iterScope iterBinds
  cases iter2 with
  | none => exact h.cons iter (item1_ok hi)
  | some y =>
    exact (h.cons y (b := .val (item2 cfg.unknowns cfg.pats tr it).2) (item2_ok hi).2).cons iter
      (b := .val (item2 cfg.unknowns cfg.pats tr it).1) (item2_ok hi).1

theorem iter_skip {σ : Type} {cfg : Cfg σ} {Ψ : List Ty} {N : String → Bool} {Γ : Scope} {ρ : Env σ} (h : EnvOk cfg.unknowns Ψ N Γ ρ) (iter : String)
    (iter2 : Option String) {tr : Trail} {it : Item} (h1 : N iter = false) (h2 : ∀ y, iter2 = some y → N y = false) :
    EnvOk cfg.unknowns Ψ N Γ (iterBinds cfg iter iter2 tr it ++ ρ) := by
  unfold iterBinds
  cases iter2 with
  | none => exact h.skip iter h1 _
  | some y => exact (h.skip y (h2 y rfl) _).skip iter h1 _

def LoopOk {σ : Type} (u : Bool) (Ψ : List Ty) (t : Ty) : Out σ LoopEnd → Prop
  | .ok (.accu x) s => Fine u t x.v ∧ SOk u Ψ s
  | .ok (.stop x) s => (∀ a, Fine u a x.v) ∧ SOk u Ψ s
  | .err e _ => ¬ TypeError e
  | .ub => False

theorem loop_ok {σ : Type} {cfg : Cfg σ} {Ψ : List Ty} {t : Ty} {P : Item → Prop} {condF stepF : Item → VA → SS σ → Out σ VA}
    (hc : ∀ it x s, P it → Fine cfg.unknowns t x.v → SOk cfg.unknowns Ψ s → OutOk cfg.unknowns Ψ (.b .bool) (condF it x s))
    (hst : ∀ it x s, P it → Fine cfg.unknowns t x.v → SOk cfg.unknowns Ψ s → OutOk cfg.unknowns Ψ t (stepF it x s)) :
    ∀ l, (∀ it ∈ l, P it) → ∀ x s, Fine cfg.unknowns t x.v → SOk cfg.unknowns Ψ s → LoopOk cfg.unknowns Ψ t (loop cfg condF stepF l x s) := by
  intro l
  induction l with
  | nil => intro _ x s hx hs; exact ⟨hx, hs⟩
  | cons it its ih =>
    intro hp x s hx hs
    rw [loop]
    split
    · exact ne_budget
    · rename_i n _
      have h1 := hc it x { s with count := n } (hp it (by simp)) hx hs
      revert h1
      cases condF it x _ with
      | err e s => exact id
      | ub => exact id
      | ok c s =>
        intro h1
        show LoopOk _ _ _ (match condOf cfg.shortCircuit c with
          | .stop x => .ok (.stop x) s
          | .brk => .ok (.accu x) s
          | .go => (stepF it x s).bind fun accu' s => loop cfg condF stepF its accu' s)
        have hgo : LoopOk cfg.unknowns Ψ t ((stepF it x s).bind fun accu' s => loop cfg condF stepF its accu' s) := by
          have h2 := hst it x s (hp it (by simp)) hx h1.2
          revert h2
          cases stepF it x s with
          | err e s => exact id
          | ub => exact id
          | ok y s => intro h2; exact ih (fun i hi => hp i (by simp [hi])) y s h2.1 h2.2
        unfold condOf
        rcases h1.1.bool_cases with ⟨v, e⟩ | ⟨w, e, hn⟩ | ⟨w, e, hu⟩
        · rw [e]
          dsimp only
          split
          · rename_i hh; split at hh <;> exact nomatch hh
          · exact ⟨hx, h1.2⟩
          · exact hgo
        · rw [e]
          refine ⟨fun a => ?_, h1.2⟩
          rw [e]
          exact .error hn
        · rw [e]
          refine ⟨fun a => ?_, h1.2⟩
          rw [e]
          exact .unknown _ hu

/-! ## Calls -/

theorem subst_bool (θ : Name → Ty) : subst θ (.b .bool) = .b .bool := by simp [Ty.b, subst, substAll]
theorem subst_int (θ : Name → Ty) : subst θ (.b .int) = .b .int := by simp [Ty.b, subst, substAll]
theorem subst_list (θ : Name → Ty) (t : Ty) : subst θ (listOf t) = listOf (subst θ t) := by simp [listOf, subst, substAll]
theorem subst_map (θ : Name → Ty) (k t : Ty) : subst θ (mapOf k t) = mapOf (subst θ k) (subst θ t) := by simp [mapOf, subst, substAll]
theorem subst_optional (θ : Name → Ty) (t : Ty) : subst θ (optionalTy t) = optionalTy (subst θ t) := by simp [optionalTy, subst, substAll]

/-- What is asked of every type in the type map. -/
def Usable {σ : Type} (l : Bool) (r : RCfg σ) (a : Ty) : Prop := Strict l a ∧ (optionalOf a = none ∨ r.c.optionals = true)

theorem logical_args {d : Decls} (hd : d.Ok) {l : Bool} {fn : String} (hfn : fn = "_&&_" ∨ fn = "_||_") {recv : Bool} {ts : List Ty} {a : Ty}
    (h : CallOk d l fn recv ts a) : recv = false ∧ a = .b .bool ∧ (∀ t ∈ ts, t = .b .bool) ∧ ts.length ≥ 2 := by
  obtain ⟨fd, o, θ, hf, ho, hm, hsh, hb, ha⟩ := h
  have hbi : fn ∈ builtins := by rcases hfn with rfl | rfl <;> decide
  obtain ⟨h1, h2⟩ := hd.ops fn fd o hbi hf ho
  have h2 : o.args = [.b .bool, .b .bool] ∧ o.result = .b .bool := by rcases hfn with rfl | rfl <;> simpa [standard] using h2
  have hl : ts.length ≥ 2 := by
    unfold hasShape at hsh
    obtain ⟨o', ho', hs⟩ := List.any_eq_true.mp hsh
    have h3 := (hd.ops fn fd o' hbi hf ho').2
    have h3 : o'.args = [.b .bool, .b .bool] ∧ o'.result = .b .bool := by rcases hfn with rfl | rfl <;> simpa [standard] using h3
    rw [h3.1] at hs
    simp only [Bool.and_eq_true, Bool.or_eq_true, decide_eq_true_eq, List.length_cons, List.length_nil] at hs
    rcases hs.2 with h | h
    · omega
    · exact h.2
  refine ⟨by rw [← hm, h1], by rw [ha, h2.2, subst_bool], fun t ht => ?_, hl⟩
  obtain ⟨b, hbm, hab⟩ := hb.left t ht
  have : b = .b .bool := by
    unfold paramsOf at hbm
    rw [h2.1] at hbm
    split at hbm
    · obtain ⟨p, hp, rfl⟩ := List.mem_map.mp hbm
      rw [List.eq_of_mem_replicate hp]
      exact subst_bool θ
    · obtain ⟨p, hp, rfl⟩ := List.mem_map.mp hbm
      have : p = .b .bool := by simpa using hp
      rw [this]
      exact subst_bool θ
  rw [this] at hab
  exact hab.symm.base

theorem args_two {σ : Type} {cfg : Cfg σ} {u : Bool} {ρ : Env σ} {Ψ : List Ty} : ∀ {ts : List Ty} {es : Exprs σ}, ArgsOk cfg u ρ Ψ ts es → ts.length ≥ 2 →
    ∃ t1 t2 ts' e1 e2 es', ts = t1 :: t2 :: ts' ∧ es = .cons e1 (.cons e2 es')
  | t1 :: t2 :: ts', .cons e1 (.cons e2 es'), _, _ => ⟨_, _, _, _, _, _, rfl, rfl⟩
  | [], _, _, h => absurd h (by simp)
  | [_], _, _, h => absurd h (by simp)
  | t1 :: t2 :: ts', .nil, h, _ => h.elim
  | t1 :: t2 :: ts', .cons e1 .nil, h, _ => h.2.elim

theorem both_one {α β : Type} {R : α → β → Prop} {as : List α} {b : β} (h : Both R as [b]) : ∃ a, as = [a] ∧ R a b := by
  cases h with | cons h1 h => cases h; exact ⟨_, rfl, h1⟩
theorem both_two {α β : Type} {R : α → β → Prop} {as : List α} {b c : β} (h : Both R as [b, c]) : ∃ x y, as = [x, y] ∧ R x b ∧ R y c := by
  cases h with | cons h1 h => obtain ⟨y, rfl, h2⟩ := both_one h; exact ⟨_, _, rfl, h1, h2⟩
theorem both_three {α β : Type} {R : α → β → Prop} {as : List α} {b c e : β} (h : Both R as [b, c, e]) :
    ∃ x y z, as = [x, y, z] ∧ R x b ∧ R y c ∧ R z e := by
  cases h with | cons h1 h => obtain ⟨y, z, rfl, h2, h3⟩ := both_two h; exact ⟨_, _, _, rfl, h1, h2, h3⟩

theorem not_logical {name : String} (h1 : name ≠ "_&&_") (h2 : name ≠ "_||_") (as : List Ty) : isLogicalOp name as = false := by
  unfold isLogicalOp
  rw [beq_eq_false_iff_ne.mpr h1, beq_eq_false_iff_ne.mpr h2]
  rfl

theorem index_ok {σ : Type} {l : Bool} {r : RCfg σ} {θ : Name → Ty} {args : List Ty} {result : Ty} {ts : List Ty}
    (hstd : (args, result) ∈ standard "_[_]") (hb : Both Alike ts (args.map (subst θ))) (hst : ∀ t ∈ ts, Usable l r t)
    (hreg : ∀ t ts', ts ≠ optionalTy (listOf t) :: ts') {xs : List VA} (hx : Both (fun t (x : VA) => Fine r.c.unknowns t x.v) ts xs) :
    FineRes r.c.unknowns (subst θ result) (indexStep r.c xs) := by
  have h : ∃ p q, args = [p, q] := by
    simp only [standard, List.mem_cons, List.not_mem_nil, or_false, Prod.mk.injEq] at hstd
    rcases hstd with ⟨h, _⟩ | ⟨h, _⟩ | ⟨h, _⟩ | ⟨h, _⟩ <;> exact ⟨_, _, h⟩
  obtain ⟨p, q, rfl⟩ := h
  obtain ⟨t1, t2, rfl, h1, h2⟩ := both_two hb
  obtain ⟨x, y, rfl, f1, f2⟩ := both_two hx.flip
  have f1 := h1.fine f1
  have f2 := h2.fine f2
  have s1 := h1.strict (hst t1 (by simp)).1
  simp only [standard, List.mem_cons, List.not_mem_nil, or_false, Prod.mk.injEq, List.cons.injEq, and_true] at hstd
  show Fine _ _ _
  rcases hstd with ⟨⟨rfl, rfl⟩, rfl⟩ | ⟨⟨rfl, rfl⟩, rfl⟩ | ⟨⟨rfl, rfl⟩, rfl⟩ | ⟨⟨rfl, rfl⟩, rfl⟩
  · rw [subst_list] at f1
    rw [subst_int] at f2
    exact index_list f1 f2
  · rw [subst_map] at f1 s1
    exact index_map (strict_map s1).1 f1 f2
  · rw [subst_optional, subst_list] at h1
    obtain ⟨w, e, hw⟩ := h1.symm.one (by simp)
    obtain ⟨v, e2, hv⟩ := hw.one (by simp)
    exact absurd (by rw [e, e2]; rfl) (hreg v [t2])
  · have ho : r.c.optionals = true := by
      rw [subst_optional] at h1
      obtain ⟨w, e, hw⟩ := h1.symm.one (by simp)
      rcases (hst t1 (by simp)).2 with h | h
      · rw [e] at h; exact nomatch h
      · exact h
    rw [subst_optional, subst_map] at f1 s1
    rw [subst_optional]
    exact index_optMap ho (strict_map (strict_optional s1)).1 f1 f2

theorem fine_params {u : Bool} {θ : Name → Ty} : ∀ (ps ts : List Ty) (xs : List VA), Both Alike ts (ps.map (subst θ)) →
    Both (fun t (x : VA) => Fine u t x.v) ts xs → Both (fun p (x : VA) => Fine u (subst θ p) x.v) ps xs
  | [], _, _, .nil, .nil => .nil
  | _ :: ps, _ :: ts, _ :: xs, .cons h1 hb, .cons f1 hx => .cons (h1.fine f1) (fine_params ps ts xs hb hx)

theorem call_sound {σ : Type} {d : Decls} (hd : d.Ok) {l : Bool} {r : RCfg σ} {m : Impl σ} (hc : Conforms d l r m) {fn : String} {recv : Bool} {ts : List Ty}
    {a : Ty} (h : CallOk d l fn recv ts a) (hst : ∀ t ∈ ts, Usable l r t)
    (hreg : fn = "_[_]" → recv = false → ∀ t ts', ts ≠ optionalTy (listOf t) :: ts') {ρ : Env σ} {Ψ : List Ty} {es : Exprs σ}
    (hargs : ArgsOk r.cfg r.c.unknowns ρ Ψ ts es) {s : SS σ} (hs : SOk r.c.unknowns Ψ s) :
    OutOk r.c.unknowns Ψ a (den r.cfg (planCall r m fn recv es) ρ s) := by
  by_cases hbi : fn ∈ builtins
  · have hrecv : recv = false := by
      obtain ⟨fd, o, θ, hf, ho, hm, _⟩ := h
      rw [← hm, (hd.ops fn fd o hbi hf ho).1]
    subst hrecv
    by_cases hlog : fn = "_&&_" ∨ fn = "_||_"
    · obtain ⟨_, rfl, hall, hlen⟩ := logical_args hd hlog h
      obtain ⟨t1, t2, ts', e1, e2, es', rfl, rfl⟩ := args_two hargs hlen
      have g1 := hargs.1
      have g2 := hargs.2.1
      rw [hall t1 (by simp)] at g1
      rw [hall t2 (by simp)] at g2
      unfold planCall
      rw [if_neg (by simp)]
      rcases hlog with rfl | rfl
      · rw [if_pos rfl]
        exact chain_ok ts' es' _ (logic_ok g1 g2) hargs.2.2 (fun t h => hall t (by simp [h])) s hs
      · rw [if_neg (by simp), if_pos rfl]
        exact chain_ok ts' es' _ (logic_ok g1 g2) hargs.2.2 (fun t h => hall t (by simp [h])) s hs
    · have hl1 : fn ≠ "_&&_" := fun e => hlog (.inl e)
      have hl2 : fn ≠ "_||_" := fun e => hlog (.inr e)
      obtain ⟨fd, o, θ, hf, ho, hm, hsh, hb, ha⟩ := h
      rw [not_logical (by rw [hd.names fn fd hf]; exact hl1) (by rw [hd.names fn fd hf]; exact hl2)] at hb
      have hb : Both Alike ts (o.args.map (subst θ)) := hb
      have hstd := (hd.ops fn fd o hbi hf ho).2
      subst ha
      unfold planCall
      rw [if_neg (by simp), if_neg hl1, if_neg hl2]
      simp only [builtins, List.mem_cons, List.not_mem_nil, or_false] at hbi
      rcases hbi with e | e | e | e | e | e | e | e | e
      · exact absurd e hl1
      · exact absurd e hl2
      · subst e
        rw [if_pos rfl]
        simp only [standard, List.mem_singleton, Prod.mk.injEq] at hstd
        rw [hstd.1] at hb
        rw [hstd.2]
        obtain ⟨t1, t2, t3, rfl, a1, a2, a3⟩ := both_three hb
        rw [subst_bool] at a1
        rw [a1.symm.base] at hargs
        match es, hargs with
        | .cons e1 (.cons e2 (.cons e3 .nil)), ha => exact cond_ok ha.1 (fun s hs => (ha.2.1 s hs).alike a2) (fun s hs => (ha.2.2.1 s hs).alike a3) s hs
        | .nil, ha => exact ha.elim
        | .cons _ .nil, ha => exact ha.2.elim
        | .cons _ (.cons _ .nil), ha => exact ha.2.2.elim
        | .cons _ (.cons _ (.cons _ (.cons _ _))), ha => exact ha.2.2.2.elim
      · subst e
        rw [if_neg (by simp), if_pos rfl]
        simp only [standard, List.mem_singleton, Prod.mk.injEq] at hstd
        rw [hstd.1] at hb
        rw [hstd.2, subst_bool]
        obtain ⟨t1, rfl, a1⟩ := both_one hb
        rw [subst_bool] at a1
        rw [a1.symm.base] at hargs
        refine op_ok hargs (fun xs k hx => ?_) hs
        obtain ⟨x, rfl, hv⟩ := both_one hx.flip
        exact not_fine hv
      · subst e
        rw [if_neg (by simp), if_neg (by simp), if_pos rfl]
        simp only [standard, List.mem_singleton, Prod.mk.injEq] at hstd
        rw [hstd.1] at hb
        rw [hstd.2, subst_bool]
        obtain ⟨t1, rfl, a1⟩ := both_one hb
        rw [subst_bool] at a1
        rw [a1.symm.base] at hargs
        refine op_ok hargs (fun xs k hx => ?_) hs
        obtain ⟨x, rfl, hv⟩ := both_one hx.flip
        exact nsf_fine hv
      · subst e
        rw [if_neg (by simp), if_neg (by simp), if_neg (by simp), if_pos rfl]
        simp only [standard, List.mem_singleton, Prod.mk.injEq] at hstd
        rw [hstd.1] at hb
        rw [hstd.2, subst_bool]
        obtain ⟨t1, t2, rfl, a1, a2⟩ := both_two hb
        refine op_ok hargs (fun xs k hx => ?_) hs
        obtain ⟨x, y, rfl, hx, hy⟩ := both_two hx.flip
        exact eq_fine hx hy (hst t1 (by simp)).1 (hst t2 (by simp)).1
      · subst e
        rw [if_neg (by simp), if_neg (by simp), if_neg (by simp), if_neg (by simp), if_pos rfl]
        simp only [standard, List.mem_singleton, Prod.mk.injEq] at hstd
        rw [hstd.1] at hb
        rw [hstd.2, subst_bool]
        obtain ⟨t1, t2, rfl, a1, a2⟩ := both_two hb
        refine op_ok hargs (fun xs k hx => ?_) hs
        obtain ⟨x, y, rfl, hx, hy⟩ := both_two hx.flip
        exact eq_fine hx hy (hst t1 (by simp)).1 (hst t2 (by simp)).1
      · subst e
        rw [if_neg (by simp), if_neg (by simp), if_neg (by simp), if_neg (by simp), if_neg (by simp), if_pos rfl]
        simp only [standard, List.mem_cons, List.not_mem_nil, or_false, Prod.mk.injEq] at hstd
        have hres : subst θ o.result = .b .bool := by rcases hstd with h | h <;> rw [h.2, subst_bool]
        rw [hres]
        rcases hstd with ⟨h, _⟩ | ⟨h, _⟩
        · rw [h] at hb
          obtain ⟨t1, t2, rfl, a1, a2⟩ := both_two hb
          rw [subst_list] at a2
          refine op_ok hargs (fun xs k hx => ?_) hs
          obtain ⟨x, y, rfl, hx, hy⟩ := both_two hx.flip
          exact in_fine hx (a2.fine hy) (.inl ⟨_, rfl⟩)
        · rw [h] at hb
          obtain ⟨t1, t2, rfl, a1, a2⟩ := both_two hb
          rw [subst_map] at a2
          have hk := (strict_map (a2.strict (hst t2 (by simp)).1)).1
          refine op_ok hargs (fun xs k hx => ?_) hs
          obtain ⟨x, y, rfl, hx, hy⟩ := both_two hx.flip
          exact in_fine (a1.fine hx) (a2.fine hy) (.inr ⟨_, hk, rfl⟩)
      · subst e
        rw [if_neg (by simp), if_neg (by simp), if_neg (by simp), if_neg (by simp), if_neg (by simp), if_neg (by simp), if_pos rfl]
        exact op_ok hargs (fun xs k hx => index_ok hstd hb hst (hreg rfl rfl) hx) hs
  · obtain ⟨fd, o, θ, hf, ho, hm, hsh, hb, ha⟩ := h
    have hne : ∀ b ∈ builtins, fn ≠ b := fun b hb e => hbi (e ▸ hb)
    rw [not_logical (by rw [hd.names fn fd hf]; exact hne _ (by decide)) (by rw [hd.names fn fd hf]; exact hne _ (by decide))] at hb
    have hb : Both Alike ts (o.args.map (subst θ)) := hb
    have hp : planCall r m fn recv es = .op (m.call fn recv) es := by
      unfold planCall
      cases recv with
      | true => rfl
      | false =>
        rw [if_neg (by simp), if_neg (hne _ (by decide)), if_neg (hne _ (by decide)), if_neg (hne _ (by decide)), if_neg (hne _ (by decide)),
          if_neg (hne _ (by decide)), if_neg (hne _ (by decide)), if_neg (hne _ (by decide)), if_neg (hne _ (by decide)), if_neg (hne _ (by decide))]
    rw [hp, ha, ← hm]
    refine op_ok hargs (fun xs k hx => ?_) hs
    refine hc.funcs fn fd o hf ho hbi θ xs k (fun p hp => ?_) ?_
    · obtain ⟨t, ht, hta⟩ := hb.right _ (List.mem_map.mpr ⟨p, hp, rfl⟩)
      exact hta.strict (hst t ht).1
    · exact fine_params o.args ts xs hb hx

/-! ## Expressions -/

theorem Conforms.reads {σ : Type} {d : Decls} {l : Bool} {r : RCfg σ} {m : Impl σ} (h : Conforms d l r m) : Reads d l r.c := ⟨h.get, h.has⟩

theorem fine_all {u : Bool} {ts : List Ty} {xs : List VA} {t : Ty} (hx : Both (fun t (x : VA) => Fine u t x.v) ts xs) (ha : ∀ f ∈ ts, Alike f t) :
    ∀ x ∈ xs, Fine u t x.v := by
  intro x h
  obtain ⟨f, hf, hv⟩ := hx.right x h
  exact (ha f hf).fine hv

theorem fine_alike {u : Bool} : ∀ {ts : List Ty} {us : List Ty} {xs : List VA}, Both Alike ts us → Both (fun t (x : VA) => Fine u t x.v) ts xs →
    Both (fun t (x : VA) => Fine u t x.v) us xs
  | [], [], _, .nil, .nil => .nil
  | _ :: _, _ :: _, _ :: _, .cons h hs, .cons g gs => .cons (h.fine g) (fine_alike hs gs)

theorem select_sound {d : Decls} {l : Bool} {c : StepCfg} (hr : Reads d l c) {f : String} {test : Bool} {t a : Ty} (h : SelectOk d f test t a)
    (ht : Strict l t) (ho : optionalOf t = none ∨ c.optionals = true) (ha : Strict l a)
    (hreg : test = true → Selectable t ∨ ∃ u, optionalOf t = some u ∧ Selectable u) {x : VA} (hx : Fine c.unknowns t x.v) :
    FineRes c.unknowns a (selectEval c f test x) := by
  rcases h with ⟨rfl, rfl⟩ | ⟨rfl, h⟩
  · rcases hreg rfl with h | ⟨v, hv, h⟩
    · exact select_test hr hx h ht
    · rw [hv] at ho
      have e := optionalOf_some hv
      rw [e] at hx ht
      exact select_optTest hr (ho.resolve_left nofun) hx h (strict_optional ht)
  · rcases h with ⟨_, h⟩ | ⟨v, w, hv, rfl, h⟩
    · exact select_value hr hx h ha
    · rw [hv] at ho
      have e := optionalOf_some hv
      rw [e] at hx
      exact select_optional hr (ho.resolve_left nofun) hx h (strict_optional ha)

theorem bind_sound {σ : Type} {cfg : Cfg σ} {u : Bool} {Ψ : List Ty} {t a : Ty} {x : String} {init body : Expr σ} {ρ : Env σ} {N : String → Bool} {Γ : Scope}
    (henv : EnvOk u Ψ N Γ ρ) (hi : ∀ Ψ', Ψ <+: Ψ' → ∀ s, SOk u Ψ' s → OutOk u Ψ' t (den cfg init ρ s))
    (hb : ∀ Ψ' ρ', EnvOk u Ψ' N ((x, t) :: Γ) ρ' → ∀ s, SOk u Ψ' s → OutOk u Ψ' a (den cfg body ρ' s)) {s : SS σ} (hs : SOk u Ψ s) :
    OutOk u Ψ a (den cfg (.bind x init body) ρ s) := by
  rw [den]
  have hp : Ψ <+: Ψ ++ [t] := List.prefix_append _ _
  have henv' : EnvOk u (Ψ ++ [t]) N ((x, t) :: Γ) ((x, .delayed s.heap.length (fun s => den cfg init ρ s)) :: ρ) := by
    refine (henv.mono hp).cons x ⟨?_, fun Ψ' h s hs => hi Ψ' (hp.trans h) s hs⟩
    rw [hs.1, List.getElem?_append_right (Nat.le_refl _)]
    simp
  have hs' : SOk u (Ψ ++ [t]) { s with heap := s.heap ++ [none] } := by
    refine ⟨?_, fun c y v h1 h2 => ?_⟩
    · show (s.heap ++ [none]).length = _
      simp [hs.1]
    · have h1 : (s.heap ++ [none])[c]? = some (some y) := h1
      by_cases hc : c < s.heap.length
      · rw [List.getElem?_append_left hc] at h1
        rw [List.getElem?_append_left (by rw [← hs.1]; exact hc)] at h2
        exact hs.2 c y v h1 h2
      · rw [List.getElem?_append_right (by omega)] at h1
        cases hq : c - s.heap.length with
        | zero => rw [hq] at h1; exact nomatch h1
        | succ n => rw [hq] at h1; exact nomatch h1
  have h := hb _ _ henv' _ hs'
  revert h
  cases den cfg body _ { s with heap := s.heap ++ [none] } with
  | err e s => exact id
  | ub => exact id
  | ok y s' =>
    intro h
    refine ⟨h.1, ?_, fun c y v h1 h2 => ?_⟩
    · show (s'.heap.take s.heap.length).length = _
      rw [List.length_take, h.2.1, hs.1]
      simp
    · have h1 : (s'.heap.take s.heap.length)[c]? = some (some y) := h1
      rw [List.getElem?_take] at h1
      split at h1
      · exact h.2.2 c y v h1 (prefix_get hp h2)
      · exact nomatch h1

mutual
theorem sound {σ : Type} {d : Decls} (hd : d.Ok) {l : Bool} {r : RCfg σ} {m : Impl σ} (hc : Conforms d l r m) : ∀ (te : Ast Ty) (Γ : Scope) (ρ : Env σ)
    (Ψ : List Ty), te.Ok d l Γ → te.Every (Usable l r) → te.Regular → EnvOk r.c.unknowns Ψ (fun x => te.mentions x) Γ ρ → ∀ s, SOk r.c.unknowns Ψ s →
    OutOk r.c.unknowns Ψ te.ann (den r.cfg (plan r m te) ρ s)
  | .const a v, Γ, ρ, Ψ, hok, _, _, _, s, hs => by
    rw [plan, den]
    exact ⟨.value hok, hs⟩
  | .ident a x abs, Γ, ρ, Ψ, hok, _, _, henv, s, hs => by
    rw [plan, den]
    rcases hok with ⟨rfl, t, h1, h2⟩ | ⟨h1, t, h2, h3⟩
    · have h := henv x (by simp [Ast.mentions])
      rw [h1] at h
      rw [if_neg (by simp)]
      revert h
      cases envGet ρ x with
      | none => exact fun h => h.elim
      | some b => intro h; exact (read_ok h hs).alike h2
    · have hn : (if abs = true then none else envGet ρ x) = none := by
        rcases h1 with h | h
        · rw [if_pos h]
        · cases abs with
          | true => rfl
          | false =>
            have hx := henv x (by simp [Ast.mentions])
            rw [h] at hx
            rw [if_neg (by simp)]
            revert hx
            cases envGet ρ x with
            | none => exact fun _ => rfl
            | some b => exact fun h => h.elim
      rw [hn]
      exact (lift_ok (hc.vars x t s.host h2) hs).alike h3
  | .select a e f test, Γ, ρ, Ψ, hok, hev, hreg, henv, s, hs => by
    rw [plan]
    have ih := sound hd hc e Γ ρ Ψ hok.1 hev.2 hreg.2 (henv.sub fun x hx => hx)
    have hu := every_ann hev.2
    have hargs : ArgsOk r.cfg r.c.unknowns ρ Ψ [e.ann] (.cons (plan r m e) .nil) := ⟨ih, trivial⟩
    refine op_ok hargs (fun xs k hx => ?_) hs
    obtain ⟨x, rfl, hv⟩ := both_one hx.flip
    exact select_sound hc.reads hok.2 hu.1 hu.2 hev.1.1 hreg.1 hv
  | .call a fn recv args, Γ, ρ, Ψ, hok, hev, hreg, henv, s, hs => by
    rw [plan]
    have ih := soundAll hd hc args Γ ρ Ψ hok.1 hev.2 hreg.2 (henv.sub fun x hx => hx)
    exact call_sound hd hc hok.2 (every_anns args hev.2) hreg.1 ih hs
  | .list a es, Γ, ρ, Ψ, hok, hev, hreg, henv, s, hs => by
    rw [plan]
    have ih := soundAll hd hc es Γ ρ Ψ hok.1 hev.2 hreg (henv.sub fun x hx => hx)
    obtain ⟨u, rfl, hu⟩ := hok.2
    exact op_ok ih (fun xs k hx => list_fine (fine_all hx hu)) hs
  | .map a es, Γ, ρ, Ψ, hok, hev, hreg, henv, s, hs => by
    rw [plan]
    have ih := soundAll hd hc es Γ ρ Ψ hok.1 hev.2 hreg (henv.sub fun x hx => hx)
    obtain ⟨_, k, v, rfl, hk, hv⟩ := hok.2
    refine op_ok ih (fun xs h hx => ?_) hs
    refine map_fine (strict_map hev.1.1).1 (fun x h => ?_) (fine_all hx.evens hk) (fine_all hx.odds hv)
    obtain ⟨t, _, ht⟩ := hx.right x h
    exact ⟨t, ht⟩
  | .struct a name fs vs, Γ, ρ, Ψ, hok, hev, hreg, henv, s, hs => by
    rw [plan]
    have ih := soundAll hd hc vs Γ ρ Ψ hok.1 hev.2 hreg (henv.sub fun x hx => hx)
    obtain ⟨ht, ts, h1, h2⟩ := hok.2
    exact op_ok ih (fun xs h hx => hc.create name a fs ts xs h ht h1 (fine_alike h2 hx)) hs
  | .comp a iter iter2 accu range init cnd stp res, Γ, ρ, Ψ, hok, hev, hreg, henv, s, hs => by
    obtain ⟨oi, ores, rfl, hor⟩ := hok
    obtain ⟨_, ev1, ev2, ev3, ev4, ev5⟩ := hev
    obtain ⟨rg, rg1, rg2, rg3, rg4, rg5⟩ := hreg
    have sub1 : ∀ x, range.mentions x = true → (Ast.comp res.ann iter iter2 accu range init cnd stp res).mentions x = true := by
      intro x h; simp [Ast.mentions, h]
    have sub2 : ∀ x, init.mentions x = true → (Ast.comp res.ann iter iter2 accu range init cnd stp res).mentions x = true := by
      intro x h; simp [Ast.mentions, h]
    have sub3 : ∀ x, cnd.mentions x = true → (Ast.comp res.ann iter iter2 accu range init cnd stp res).mentions x = true := by
      intro x h; simp [Ast.mentions, h]
    have sub4 : ∀ x, stp.mentions x = true → (Ast.comp res.ann iter iter2 accu range init cnd stp res).mentions x = true := by
      intro x h; simp [Ast.mentions, h]
    have sub5 : ∀ x, res.mentions x = true → (Ast.comp res.ann iter iter2 accu range init cnd stp res).mentions x = true := by
      intro x h; simp [Ast.mentions, h]
    rw [plan]
    show OutOk r.c.unknowns Ψ res.ann _
    by_cases hbind : isBind iter iter2 range cnd = true
    · rw [if_pos hbind]
      exact bind_sound henv
        (fun Ψ' hp s hs => sound hd hc init Γ ρ Ψ' oi ev2 rg2 ((henv.mono hp).sub sub2) s hs)
        (fun Ψ' ρ' he s hs => sound hd hc res _ ρ' Ψ' ores ev5 rg5 (he.sub sub5) s hs) hs
    · rw [if_neg hbind]
      obtain ⟨or1, or2, ts, hts, or3⟩ := hor.resolve_left hbind
      have ev1 := ev1.resolve_left hbind
      obtain ⟨g1, g2, g3, g4⟩ := rg.resolve_left hbind
      rw [den]
      refine (sound hd hc range Γ ρ Ψ or1 ev1 rg1 (henv.sub sub1) s hs).bind fun x s hx hs => ?_
      have hrange := range_ok (pats := r.cfg.pats) (every_ann ev1).1 hts hx
      have hrange : match rangeOf r.cfg.unknowns r.cfg.pats x with
        | .items l => ∀ it ∈ l, ItemOk ts it
        | .stop y => ∀ a, Fine r.c.unknowns a y.v := hrange
      revert hrange
      cases rangeOf r.cfg.unknowns r.cfg.pats x with
      | stop y => intro h; exact ⟨h _, hs⟩
      | items its =>
        intro hits
        dsimp only
        refine (sound hd hc init Γ ρ Ψ oi ev2 rg2 (henv.sub sub2) s hs).bind fun acc s hacc hs => ?_
        have hl := loop_ok (cfg := r.cfg) (Ψ := Ψ) (t := init.ann) (P := ItemOk ts)
          (condF := fun it a s => den r.cfg (plan r m cnd) (iterBinds r.cfg iter iter2 x.t it ++ (accu, .val a) :: ρ) s)
          (stepF := fun it a s => den r.cfg (plan r m stp) (iterBinds r.cfg iter iter2 x.t it ++ (accu, .val a) :: ρ) s)
          (fun it y s hit hy hs => by
            rw [← g1]
            refine sound hd hc cnd _ _ Ψ or2 ev3 rg3 ?_ s hs
            exact iter_skip ((henv.sub sub3).cons accu (b := .val y) hy) iter iter2 g3 g4)
          (fun it y s hit hy hs => by
            rw [← g2]
            refine sound hd hc stp _ _ Ψ or3 ev4 rg4 ?_ s hs
            exact iter_env ((henv.sub sub4).cons accu (b := .val y) hy) iter iter2 hit)
          its hits acc s hacc hs
        revert hl
        cases loop r.cfg _ _ its acc s with
        | err e s => exact id
        | ub => exact id
        | ok e s =>
          cases e with
          | stop y => intro h; exact ⟨h.1 _, h.2⟩
          | accu y =>
            intro h
            exact sound hd hc res _ _ Ψ ores ev5 rg5 ((henv.sub sub5).cons accu (b := .val y) h.1) s h.2
theorem soundAll {σ : Type} {d : Decls} (hd : d.Ok) {l : Bool} {r : RCfg σ} {m : Impl σ} (hc : Conforms d l r m) : ∀ (es : Asts Ty) (Γ : Scope) (ρ : Env σ)
    (Ψ : List Ty), es.Ok d l Γ → es.Every (Usable l r) → es.Regular → EnvOk r.c.unknowns Ψ (fun x => es.mentions x) Γ ρ →
    ArgsOk r.cfg r.c.unknowns ρ Ψ es.anns (planAll r m es)
  | .nil, _, _, _, _, _, _, _ => trivial
  | .cons e es, Γ, ρ, Ψ, hok, hev, hreg, henv => by
    rw [planAll]
    exact ⟨sound hd hc e Γ ρ Ψ hok.1 hev.1 hreg.1 (henv.sub fun x hx => by simp [Asts.mentions, hx]),
      soundAll hd hc es Γ ρ Ψ hok.2 hev.2 hreg.2 (henv.sub fun x hx => by simp [Asts.mentions, hx])⟩
end

mutual
theorem Ast.Every.both {α : Type} {p q : α → Prop} : ∀ e : Ast α, e.Every p → e.Every q → e.Every (fun a => p a ∧ q a)
  | .const _ _, h, g => ⟨h, g⟩
  | .ident _ _ _, h, g => ⟨h, g⟩
  | .select _ e _ _, h, g => ⟨⟨h.1, g.1⟩, Ast.Every.both e h.2 g.2⟩
  | .call _ _ _ es, h, g => ⟨⟨h.1, g.1⟩, Asts.Every.both es h.2 g.2⟩
  | .list _ es, h, g => ⟨⟨h.1, g.1⟩, Asts.Every.both es h.2 g.2⟩
  | .map _ es, h, g => ⟨⟨h.1, g.1⟩, Asts.Every.both es h.2 g.2⟩
  | .struct _ _ _ es, h, g => ⟨⟨h.1, g.1⟩, Asts.Every.both es h.2 g.2⟩
  | .comp _ _ _ _ range init cnd stp res, h, g => by
    obtain ⟨h1, h2, h3, h4, h5, h6⟩ := h
    obtain ⟨g1, g2, g3, g4, g5, g6⟩ := g
    refine ⟨⟨h1, g1⟩, ?_, Ast.Every.both init h3 g3, Ast.Every.both cnd h4 g4, Ast.Every.both stp h5 g5, Ast.Every.both res h6 g6⟩
    rcases h2 with h | h
    · exact .inl h
    · rcases g2 with g | g
      · exact .inl g
      · exact .inr (Ast.Every.both range h g)
theorem Asts.Every.both {α : Type} {p q : α → Prop} : ∀ e : Asts α, e.Every p → e.Every q → e.Every (fun a => p a ∧ q a)
  | .nil, _, _ => trivial
  | .cons e es, h, g => ⟨Ast.Every.both e h.1 g.1, Asts.Every.both es h.2 g.2⟩
end

/-- **C60.** If the checker accepts an expression, nothing in its type map is dynamic, and the runtime keeps to the declarations, then
evaluating it gives a value of the type the checker reports, an error that is no type error, or an unknown; it never ends with a type
error or in undefined behaviour. -/
theorem C60_sound_partial {σ : Type} {d : Decls} (hd : d.Ok) {l : Bool} {expected : Option Ty}
    (hx : ∀ t, expected = some t → Shaped t ∧ Ground t ∧ Strict l t) {n : Nat} {e : Ast Unit} {te : Ast Ty} (h : check d l expected n e = some te)
    (hs : te.Every (Strict l)) (hu : e.Uses d l) (hreg : te.Regular) {r : RCfg σ} {m : Impl σ} (hc : Conforms d l r m)
    (ho : te.Every fun a => optionalOf a = none ∨ r.c.optionals = true) (k : σ) :
    FineFinal r.c.unknowns te.ann (meaning r.cfg (plan r m te) k) ∧
      ∀ t, expected = some t → FineFinal r.c.unknowns t (meaning r.cfg (plan r m te) k) := by
  obtain ⟨h1, h2⟩ := check_ok hd hx h hs hu
  have h3 := sound hd hc te [] [] [] h1 (Ast.Every.both te hs ho) hreg (fun x _ => trivial) ⟨k, 0, []⟩ ⟨rfl, fun c x t h => nomatch h⟩
  have key : ∀ t, Alike te.ann t → FineFinal r.c.unknowns t (meaning r.cfg (plan r m te) k) := by
    intro t ht
    have h4 := h3.alike ht
    unfold meaning
    revert h4
    cases den r.cfg (plan r m te) [] ⟨k, 0, []⟩ with
    | ok x s => intro h; exact h.1
    | err e s => exact id
    | ub => exact id
  exact ⟨key _ (Alike.refl _), fun t ht => key t (h2 t ht)⟩

end Cel.Types
