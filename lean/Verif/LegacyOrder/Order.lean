import Verif.LegacyOrder.Model

set_option linter.unusedSimpArgs false
set_option linter.unusedVariables false

/-!
# The comparison is a strict weak order
-/

namespace Cel.LegacyOrder
open Cel Cel.Num

mutual
/-- No NaN and no error inside; maps have as many keys as values. -/
def ok : V → Bool
  | .double d => !d.isNaN
  | .error _ _ => false
  | .list es => okAll es
  | .map ks vs => decide (ks.length = vs.length) && okAll vs
  | _ => true
def okAll : List V → Bool
  | [] => true
  | v :: vs => ok v && okAll vs
end

/-- `c` behaves like an order at `x`, for elements with `p`. -/
structure At {X : Type} (c : X → X → Int) (p : X → Prop) (x : X) : Prop where
  flip : ∀ y, p y → c y x = - c x y
  eqL : ∀ y z, p y → p z → c x y = 0 → c x z = c y z
  eqR : ∀ y z, p y → p z → c y z = 0 → c x y = c x z
  trans : ∀ y z, p y → p z → c x y < 0 → c y z < 0 → c x z < 0

theorem lcmp_neg {α : Type} [LinearOrder α] {a b : α} : lcmp a b < 0 ↔ a < b := by
  unfold lcmp
  split
  · simp [*]
  · split <;> simp [*]

theorem lcmp_zero {α : Type} [LinearOrder α] {a b : α} : lcmp a b = 0 ↔ a = b := by
  unfold lcmp
  rcases lt_trichotomy a b with h | h | h
  · simp [h, h.ne]
  · simp [h]
  · simp [h, h.not_gt, h.ne']

theorem lcmp_flip {α : Type} [LinearOrder α] (a b : α) : lcmp b a = - lcmp a b := by
  unfold lcmp
  rcases lt_trichotomy a b with h | h | h
  · simp [h, h.not_gt]
  · simp [h]
  · simp [h, h.not_gt]

theorem lcmp_at {α : Type} [LinearOrder α] (p : α → Prop) (a : α) : At lcmp p a where
  flip b _ := lcmp_flip a b
  eqL b c _ _ h := by rw [lcmp_zero.1 h]
  eqR b c _ _ h := by rw [lcmp_zero.1 h]
  trans b c _ _ h1 h2 := lcmp_neg.2 (lt_trans (lcmp_neg.1 h1) (lcmp_neg.1 h2))

/-- Doubles in order. -/
def rank : Dbl → Int × Int
  | .nan => (0, 0)
  | .inf a => (if a then -1 else 1, 0)
  | .fin a m => (0, Dbl.sval a m)

def rlt (a b : Int × Int) : Prop := a.1 < b.1 ∨ (a.1 = b.1 ∧ a.2 < b.2)

theorem dcmp_rank {a b : Dbl} (ha : a.isNaN = false) (hb : b.isNaN = false) :
    (rlt (rank a) (rank b) ∧ dcmp a b = -1) ∨ (rank a = rank b ∧ dcmp a b = 0) ∨ (rlt (rank b) (rank a) ∧ dcmp a b = 1) := by
  cases a with
  | nan => cases ha
  | inf x =>
    cases b with
    | nan => cases hb
    | inf y => cases x <;> cases y <;> simp [dcmp, Dbl.lt, Dbl.gt, Dbl.cmp, rank, rlt]
    | fin y n => cases x <;> simp [dcmp, Dbl.lt, Dbl.gt, Dbl.cmp, rank, rlt]
  | fin x m =>
    cases b with
    | nan => cases hb
    | inf y => cases y <;> simp [dcmp, Dbl.lt, Dbl.gt, Dbl.cmp, rank, rlt]
    | fin y n =>
      simp only [dcmp, Dbl.lt, Dbl.gt, Dbl.cmp, rank, rlt]
      rcases lt_trichotomy (Dbl.sval x m) (Dbl.sval y n) with h | h | h
      · left; simp [h, compare_lt_iff_lt.2 h]
      · right; left; simp [h]
      · right; right; simp [h, compare_gt_iff_gt.2 h]

theorem dcmp_at (a : Dbl) (ha : a.isNaN = false) : At dcmp (fun d => d.isNaN = false) a where
  flip b hb := by
    rcases dcmp_rank ha hb with ⟨h, e⟩ | ⟨h, e⟩ | ⟨h, e⟩ <;> rcases dcmp_rank hb ha with ⟨h', e'⟩ | ⟨h', e'⟩ | ⟨h', e'⟩ <;>
      rw [e, e'] <;> first | rfl | (exfalso; first | (rw [h] at h'; revert h'; simp [rlt]; done) | (rw [h'] at h; revert h; simp [rlt]; done) |
        (simp only [rlt] at h h'; omega))
  eqL b c hb hc h0 := by
    have e1 : rank a = rank b := by
      rcases dcmp_rank ha hb with ⟨h, e⟩ | ⟨h, e⟩ | ⟨h, e⟩
      · rw [e] at h0; cases h0
      · exact h
      · rw [e] at h0; cases h0
    rcases dcmp_rank ha hc with ⟨h, e⟩ | ⟨h, e⟩ | ⟨h, e⟩ <;> rcases dcmp_rank hb hc with ⟨h', e'⟩ | ⟨h', e'⟩ | ⟨h', e'⟩ <;>
      rw [e, e'] <;> (exfalso; rw [e1] at h; first | (rw [h] at h'; revert h'; simp [rlt]; done) | (rw [h'] at h; revert h; simp [rlt]; done) |
        (simp only [rlt] at h h'; omega))
  eqR b c hb hc h0 := by
    have e1 : rank b = rank c := by
      rcases dcmp_rank hb hc with ⟨h, e⟩ | ⟨h, e⟩ | ⟨h, e⟩
      · rw [e] at h0; cases h0
      · exact h
      · rw [e] at h0; cases h0
    rcases dcmp_rank ha hb with ⟨h, e⟩ | ⟨h, e⟩ | ⟨h, e⟩ <;> rcases dcmp_rank ha hc with ⟨h', e'⟩ | ⟨h', e'⟩ | ⟨h', e'⟩ <;>
      rw [e, e'] <;> (exfalso; rw [e1] at h; first | (rw [h] at h'; revert h'; simp [rlt]; done) | (rw [h'] at h; revert h; simp [rlt]; done) |
        (simp only [rlt] at h h'; omega))
  trans b c hb hc h1 h2 := by
    have e1 : rlt (rank a) (rank b) := by
      rcases dcmp_rank ha hb with ⟨h, e⟩ | ⟨h, e⟩ | ⟨h, e⟩
      · exact h
      · rw [e] at h1; omega
      · rw [e] at h1; omega
    have e2 : rlt (rank b) (rank c) := by
      rcases dcmp_rank hb hc with ⟨h, e⟩ | ⟨h, e⟩ | ⟨h, e⟩
      · exact h
      · rw [e] at h2; omega
      · rw [e] at h2; omega
    have e3 : rlt (rank a) (rank c) := by simp only [rlt] at *; omega
    rcases dcmp_rank ha hc with ⟨h, e⟩ | ⟨h, e⟩ | ⟨h, e⟩
    · rw [e]; decide
    · exfalso; rw [h] at e3; simp only [rlt] at e3; omega
    · exfalso; simp only [rlt] at h e3; omega

/-- Keys: a linear order. -/
theorem keyCmp_at (k : Key) : At keyCmp (fun _ => True) k where
  flip l _ := by cases k <;> cases l <;> simp only [keyCmp] <;> first | exact lcmp_flip _ _ | rfl
  eqL l m _ _ h := by
    cases k <;> cases l <;> simp only [keyCmp] at h <;> first | (rw [lcmp_zero.1 h]; done) | omega
  eqR l m _ _ h := by
    cases l <;> cases m <;> simp only [keyCmp] at h <;> first | (rw [lcmp_zero.1 h]; done) | omega
  trans l m _ _ h1 h2 := by
    cases k <;> cases l <;> simp only [keyCmp] at h1 <;> first | omega | skip
    all_goals cases m <;> simp only [keyCmp] at h2 ⊢ <;> first | omega | skip
    all_goals exact lcmp_neg.2 (lt_trans (lcmp_neg.1 h1) (lcmp_neg.1 h2))

theorem keyCmp_zero {k l : Key} (h : keyCmp k l = 0) : k = l := by
  cases k <;> cases l <;> simp only [keyCmp] at h <;> first | (rw [lcmp_zero.1 h]; done) | omega

/-- First a grade, then the order inside the grade. -/
theorem grade_at {X : Type} {g : X → Nat} {c : X → X → Int} {q : X → Prop} {x : X}
    (h : At c (fun y => g y = g x ∧ q y) x) : At (fun a b => if g a = g b then c a b else lcmp (g a) (g b)) q x where
  flip y hy := by
    by_cases h1 : g x = g y
    · rw [if_pos h1, if_pos h1.symm]; exact h.flip y ⟨h1.symm, hy⟩
    · rw [if_neg h1, if_neg (Ne.symm h1)]; exact lcmp_flip _ _
  eqL y z hy hz h0 := by
    by_cases h1 : g x = g y
    · rw [if_pos h1] at h0
      by_cases h2 : g x = g z
      · rw [if_pos h2, if_pos (h1.symm.trans h2)]; exact h.eqL y z ⟨h1.symm, hy⟩ ⟨h2.symm, hz⟩ h0
      · rw [if_neg h2, if_neg (h1 ▸ h2), h1]
    · rw [if_neg h1] at h0; exact absurd (lcmp_zero.1 h0) h1
  eqR y z hy hz h0 := by
    by_cases h1 : g y = g z
    · rw [if_pos h1] at h0
      by_cases h2 : g x = g y
      · rw [if_pos h2, if_pos (h2.trans h1)]; exact h.eqR y z ⟨h2.symm, hy⟩ ⟨(h2.trans h1).symm, hz⟩ h0
      · rw [if_neg h2, if_neg (h1 ▸ h2), h1]
    · rw [if_neg h1] at h0; exact absurd (lcmp_zero.1 h0) h1
  trans y z hy hz h1 h2 := by
    by_cases e1 : g x = g y
    · rw [if_pos e1] at h1
      by_cases e2 : g y = g z
      · rw [if_pos e2] at h2
        rw [if_pos (e1.trans e2)]
        exact h.trans y z ⟨e1.symm, hy⟩ ⟨(e1.trans e2).symm, hz⟩ h1 h2
      · rw [if_neg e2] at h2
        rw [if_neg (e1 ▸ e2), e1]
        exact h2
    · rw [if_neg e1] at h1
      by_cases e2 : g y = g z
      · rw [if_neg (e2 ▸ e1), ← e2]
        exact h1
      · rw [if_neg e2] at h2
        have h3 := lt_trans (lcmp_neg.1 h1) (lcmp_neg.1 h2)
        rw [if_neg (Nat.ne_of_lt h3)]
        exact lcmp_neg.2 h3

/-- Scalars. -/
theorem at_scalar {α : Type} {C : α → V} {f : α → α → Int} {p : α → Prop} {a : α}
    (hform : ∀ y, ty y = ty (C a) → ∃ b, y = C b) (hs : ∀ b c, same (C b) (C c) = f b c)
    (hok : ∀ b, ok (C b) = true → p b) (h : At f p a) : At same (fun y => ty y = ty (C a) ∧ ok y = true) (C a) where
  flip y hy := by
    obtain ⟨b, rfl⟩ := hform y hy.1
    rw [hs, hs]; exact h.flip b (hok b hy.2)
  eqL y z hy hz := by
    obtain ⟨b, rfl⟩ := hform y hy.1
    obtain ⟨c, rfl⟩ := hform z hz.1
    rw [hs, hs, hs]; exact h.eqL b c (hok b hy.2) (hok c hz.2)
  eqR y z hy hz := by
    obtain ⟨b, rfl⟩ := hform y hy.1
    obtain ⟨c, rfl⟩ := hform z hz.1
    rw [hs, hs, hs]; exact h.eqR b c (hok b hy.2) (hok c hz.2)
  trans y z hy hz := by
    obtain ⟨b, rfl⟩ := hform y hy.1
    obtain ⟨c, rfl⟩ := hform z hz.1
    rw [hs, hs, hs]; exact h.trans b c (hok b hy.2) (hok c hz.2)

/-- First `c`, then `d`. -/
def lex (c d : Int) : Int := if c ≠ 0 then c else d

theorem lex_at {X Y : Type} {c : X → X → Int} {d : Y → Y → Int} {p : X → Prop} {q : Y → Prop} {x : X} {y : Y}
    (h : At c p x) (h' : At d q y) :
    At (fun a b : X × Y => lex (c a.1 b.1) (d a.2 b.2)) (fun a => p a.1 ∧ q a.2) (x, y) where
  flip b hb := by
    have e1 := h.flip b.1 hb.1
    have e2 := h'.flip b.2 hb.2
    simp only [lex]
    split <;> split <;> omega
  eqL b c hb hc h0 := by
    simp only [lex] at *
    split at h0
    · contradiction
    · rename_i h1
      rw [not_not] at h1
      rw [h.eqL b.1 c.1 hb.1 hc.1 h1, h'.eqL b.2 c.2 hb.2 hc.2 h0]
  eqR b c hb hc h0 := by
    simp only [lex] at *
    split at h0
    · contradiction
    · rename_i h1
      rw [not_not] at h1
      rw [h.eqR b.1 c.1 hb.1 hc.1 h1, h'.eqR b.2 c.2 hb.2 hc.2 h0]
  trans b e hb he h1 h2 := by
    simp only [lex] at *
    by_cases e1 : c x b.1 = 0
    · have e3 := h.eqL b.1 e.1 hb.1 he.1 e1
      rw [e3]
      by_cases e2 : c b.1 e.1 = 0
      · rw [if_neg (by rw [not_not]; exact e1)] at h1
        rw [if_neg (by rw [not_not]; exact e2)] at h2 ⊢
        exact h'.trans b.2 e.2 hb.2 he.2 h1 h2
      · rw [if_pos e2] at h2 ⊢
        exact h2
    · rw [if_pos e1] at h1
      by_cases e2 : c b.1 e.1 = 0
      · have e3 := h.eqR b.1 e.1 hb.1 he.1 e2
        rw [← e3, if_pos e1]
        exact h1
      · rw [if_pos e2] at h2
        have := h.trans b.1 e.1 hb.1 he.1 h1 h2
        rw [if_pos (by omega)]
        exact this

theorem At.mono {X : Type} {c : X → X → Int} {p q : X → Prop} {x : X} (h : At c p x) (hq : ∀ y, q y → p y) : At c q x :=
  ⟨fun y hy => h.flip y (hq y hy), fun y z hy hz => h.eqL y z (hq y hy) (hq z hz),
    fun y z hy hz => h.eqR y z (hq y hy) (hq z hz), fun y z hy hz => h.trans y z (hq y hy) (hq z hz)⟩


/-- Two lists of one length: the first elements that differ. -/
def cmpList {X : Type} (c : X → X → Int) : List X → List X → Int
  | x :: xs, y :: ys => lex (c x y) (cmpList c xs ys)
  | _, _ => 0

theorem cmpList_at {X : Type} {c : X → X → Int} {p : X → Prop} : ∀ (xs : List X) (h : ∀ x ∈ xs, At c p x),
    At (cmpList c) (fun ys => ys.length = xs.length ∧ ∀ y ∈ ys, p y) xs
  | [], h => by
    have e : ∀ ws, cmpList c [] ws = 0 := fun ws => by simp [cmpList]
    have e' : ∀ ws ws' : List X, ws.length = 0 → cmpList c ws ws' = 0 := fun ws ws' hw => by
      rw [List.length_eq_zero_iff.1 hw]; exact e _
    exact ⟨fun y hy => by rw [e, e' _ _ hy.1]; rfl, fun y z hy hz _ => by rw [e, e' _ _ hy.1],
      fun y z hy hz _ => by rw [e, e], fun y z hy hz h1 => by rw [e] at h1; omega⟩
  | v :: vs, h => by
    have ih := cmpList_at vs fun w hw => h w (by simp [hw])
    have hl := lex_at (h v (by simp)) ih
    have e : ∀ a as b bs, cmpList c (a :: as) (b :: bs) = lex (c a b) (cmpList c as bs) := fun a as b bs => by
      simp only [cmpList]
    have form : ∀ ws : List X, (ws.length = (v :: vs).length ∧ ∀ y ∈ ws, p y) → ∃ b bs, ws = b :: bs ∧ p b ∧
        bs.length = vs.length ∧ ∀ y ∈ bs, p y := by
      intro ws hw
      cases ws with
      | nil => simp at hw
      | cons b bs =>
        refine ⟨b, bs, rfl, hw.2 b (by simp), by simpa using hw.1, fun y hy => hw.2 y (by simp [hy])⟩
    refine ⟨?_, ?_, ?_, ?_⟩
    · intro y hy
      obtain ⟨b, bs, rfl, h1, h2⟩ := form y hy
      rw [e, e]
      exact hl.flip (b, bs) ⟨h1, h2⟩
    · intro y z hy hz
      obtain ⟨b, bs, rfl, h1, h2⟩ := form y hy
      obtain ⟨d, ds, rfl, h3, h4⟩ := form z hz
      rw [e, e, e]
      exact hl.eqL (b, bs) (d, ds) ⟨h1, h2⟩ ⟨h3, h4⟩
    · intro y z hy hz
      obtain ⟨b, bs, rfl, h1, h2⟩ := form y hy
      obtain ⟨d, ds, rfl, h3, h4⟩ := form z hz
      rw [e, e, e]
      exact hl.eqR (b, bs) (d, ds) ⟨h1, h2⟩ ⟨h3, h4⟩
    · intro y z hy hz
      obtain ⟨b, bs, rfl, h1, h2⟩ := form y hy
      obtain ⟨d, ds, rfl, h3, h4⟩ := form z hz
      rw [e, e, e]
      exact hl.trans (b, bs) (d, ds) ⟨h1, h2⟩ ⟨h3, h4⟩

/-- First the lengths. -/
def cmpLen {X : Type} (c : X → X → Int) (xs ys : List X) : Int :=
  if xs.length = ys.length then cmpList c xs ys else lcmp xs.length ys.length

theorem cmpLen_at {X : Type} {c : X → X → Int} {p : X → Prop} (xs : List X) (h : ∀ x ∈ xs, At c p x) :
    At (cmpLen c) (fun ys => ∀ y ∈ ys, p y) xs :=
  grade_at (g := List.length) (cmpList_at xs h)

theorem cmpAll_eq : ∀ vs ws, cmpAll vs ws = cmpList cmpN vs ws
  | [], _ => by simp [cmpAll, cmpList]
  | _ :: _, [] => by simp [cmpAll, cmpList]
  | v :: vs, w :: ws => by simp only [cmpAll, cmpList, lex, cmpN, cmpAll_eq vs ws]; rfl

/-- Entries: key, then value. -/
def entryCmp (a b : Key × V) : Int := lex (keyCmp a.1 b.1) (cmpN a.2 b.2)

theorem cmpEntries_eq : ∀ ks vs ls ws, cmpEntries ks vs ls ws = cmpList entryCmp (ks.zip vs) (ls.zip ws)
  | [], _, _, _ => by simp [cmpEntries, cmpList]
  | _ :: _, [], _, _ => by simp [cmpEntries, cmpList]
  | _ :: _, _ :: _, [], _ => by simp [cmpEntries, cmpList]
  | _ :: _, _ :: _, _ :: _, [] => by simp [cmpEntries, cmpList]
  | k :: ks, v :: vs, l :: ls, w :: ws => by
    simp only [cmpEntries, cmpList, lex, cmpN, entryCmp, cmpEntries_eq ks vs ls ws, List.zip_cons_cons]
    by_cases h : keyCmp k l = 0 <;> simp [h]

theorem len_form (a b : Nat) (c : Int) : (if lcmp a b ≠ 0 then lcmp a b else c) = if a = b then c else lcmp a b := by
  by_cases h : a = b
  · rw [if_neg (by rw [not_not]; exact lcmp_zero.2 h), if_pos h]
  · rw [if_pos (fun e => h (lcmp_zero.1 e)), if_neg h]

theorem same_list (es fs : List V) : same (.list es) (.list fs) = cmpLen cmpN es fs := by
  rw [same, len_form, cmpAll_eq]; rfl

theorem same_map {ks ls : List Key} {vs ws : List V} (h : ks.length = vs.length) (h' : ls.length = ws.length) :
    same (.map ks vs) (.map ls ws) = cmpLen entryCmp (ks.zip vs) (ls.zip ws) := by
  rw [same, len_form, cmpEntries_eq]
  simp only [cmpLen, List.length_zip, h, h', Nat.min_self]

theorem okAll_mem : ∀ {vs : List V}, okAll vs = true ↔ ∀ v ∈ vs, ok v = true
  | [] => by simp [okAll]
  | v :: vs => by simp [okAll, okAll_mem (vs := vs)]

theorem ok_map {ks : List Key} {vs : List V} : ok (.map ks vs) = true ↔ ks.length = vs.length ∧ ∀ v ∈ vs, ok v = true := by
  simp [ok, okAll_mem]

mutual
theorem at_all : ∀ (x : V), ok x = true → At cmpN (fun y => ok y = true) x
  | .null, _ => grade_at (g := ty) (c := same) (by
      have e : ∀ y, ty y = ty V.null ∧ ok y = true → y = .null := by rintro y ⟨h, _⟩; cases y <;> simp [ty] at h; rfl
      refine ⟨fun y hy => ?_, fun y z hy hz _ => ?_, fun y z hy hz _ => ?_, fun y z hy hz h => ?_⟩
      · rw [e y hy]; rfl
      · rw [e y hy]
      · rw [e y hy, e z hz]
      · rw [e y hy] at h; simp [same] at h)
  | .bool a, _ => grade_at (g := ty) (c := same) (at_scalar (C := .bool) (f := lcmp) (p := fun _ => True) (by rintro y h; cases y <;> simp [ty] at h; exact ⟨_, rfl⟩) (fun _ _ => by simp only [same]) (fun _ _ => trivial) (lcmp_at _ a))
  | .int a, _ => grade_at (g := ty) (c := same) (at_scalar (C := .int) (f := lcmp) (p := fun _ => True) (by rintro y h; cases y <;> simp [ty] at h; exact ⟨_, rfl⟩) (fun _ _ => by simp only [same]) (fun _ _ => trivial) (lcmp_at _ a))
  | .uint a, _ => grade_at (g := ty) (c := same) (at_scalar (C := .uint) (f := lcmp) (p := fun _ => True) (by rintro y h; cases y <;> simp [ty] at h; exact ⟨_, rfl⟩) (fun _ _ => by simp only [same]) (fun _ _ => trivial) (lcmp_at _ a))
  | .double a, h => grade_at (g := ty) (c := same) (at_scalar (C := .double) (f := dcmp) (p := fun d => d.isNaN = false) (by rintro y h; cases y <;> simp [ty] at h; exact ⟨_, rfl⟩) (fun _ _ => by simp only [same]) (fun _ h => by simpa [ok] using h) (dcmp_at a (by simpa [ok] using h)))
  | .string a, _ => grade_at (g := ty) (c := same) (at_scalar (C := .string) (f := lcmp) (p := fun _ => True) (by rintro y h; cases y <;> simp [ty] at h; exact ⟨_, rfl⟩) (fun _ _ => by simp only [same]) (fun _ _ => trivial) (lcmp_at _ a))
  | .bytes a, _ => grade_at (g := ty) (c := same) (at_scalar (C := .bytes) (f := lcmp) (p := fun _ => True) (by rintro y h; cases y <;> simp [ty] at h; exact ⟨_, rfl⟩) (fun _ _ => by simp only [same]) (fun _ _ => trivial) (lcmp_at _ a))
  | .message a, _ => grade_at (g := ty) (c := same) (at_scalar (C := .message) (f := lcmp) (p := fun _ => True) (by rintro y h; cases y <;> simp [ty] at h; exact ⟨_, rfl⟩) (fun _ _ => by simp only [same]) (fun _ _ => trivial) (lcmp_at _ a))
  | .duration a, _ => grade_at (g := ty) (c := same) (at_scalar (C := .duration) (f := lcmp) (p := fun _ => True) (by rintro y h; cases y <;> simp [ty] at h; exact ⟨_, rfl⟩) (fun _ _ => by simp only [same]) (fun _ _ => trivial) (lcmp_at _ a))
  | .timestamp a, _ => grade_at (g := ty) (c := same) (at_scalar (C := .timestamp) (f := lcmp) (p := fun _ => True) (by rintro y h; cases y <;> simp [ty] at h; exact ⟨_, rfl⟩) (fun _ _ => by simp only [same]) (fun _ _ => trivial) (lcmp_at _ a))
  | .unknown a, _ => grade_at (g := ty) (c := same) (at_scalar (C := .unknown) (f := lcmp) (p := fun _ => True) (by rintro y h; cases y <;> simp [ty] at h; exact ⟨_, rfl⟩) (fun _ _ => by simp only [same]) (fun _ _ => trivial) (lcmp_at _ a))
  | .type a, _ => grade_at (g := ty) (c := same) (at_scalar (C := .type) (f := lcmp) (p := fun _ => True) (by rintro y h; cases y <;> simp [ty] at h; exact ⟨_, rfl⟩) (fun _ _ => by simp only [same]) (fun _ _ => trivial) (lcmp_at _ a))
  | .error _ _, h => by simp [ok] at h
  | .list es, h => grade_at (g := ty) (c := same) (at_scalar (C := .list) (f := cmpLen cmpN) (p := fun ys => ∀ y ∈ ys, ok y = true) (by rintro y h; cases y <;> simp [ty] at h; exact ⟨_, rfl⟩) same_list (fun _ h => by rw [ok, okAll_mem] at h; exact h)
      (cmpLen_at es (at_alls es (by simpa [ok] using h))))
  | .map ks vs, h => grade_at (g := ty) (c := same) (by
      have hvs := at_alls vs (by simp only [ok, Bool.and_eq_true] at h; exact h.2)
      have hm := ok_map.1 h
      have hL : At (cmpLen entryCmp) (fun ys => ∀ y ∈ ys, ok y.2 = true) (ks.zip vs) := cmpLen_at _ (fun x hx =>
        (lex_at (keyCmp_at x.1) (hvs x.2 (List.of_mem_zip hx).2)).mono fun y hy => ⟨trivial, hy⟩)
      have form : ∀ y, ty y = ty (V.map ks vs) ∧ ok y = true → ∃ ls ws, y = .map ls ws ∧ ls.length = ws.length ∧
          ∀ e ∈ ls.zip ws, ok e.2 = true := by
        rintro y ⟨h1, h2⟩
        cases y <;> simp [ty] at h1
        rename_i ls ws
        have := ok_map.1 h2
        exact ⟨ls, ws, rfl, this.1, fun e he => this.2 _ (List.of_mem_zip he).2⟩
      refine ⟨?_, ?_, ?_, ?_⟩
      · intro y hy
        obtain ⟨ls, ws, rfl, h1, h2⟩ := form y hy
        rw [same_map hm.1 h1, same_map h1 hm.1]
        exact hL.flip _ h2
      · intro y z hy hz
        obtain ⟨ls, ws, rfl, h1, h2⟩ := form y hy
        obtain ⟨ls', ws', rfl, h1', h2'⟩ := form z hz
        rw [same_map hm.1 h1, same_map hm.1 h1', same_map h1 h1']
        exact hL.eqL _ _ h2 h2'
      · intro y z hy hz
        obtain ⟨ls, ws, rfl, h1, h2⟩ := form y hy
        obtain ⟨ls', ws', rfl, h1', h2'⟩ := form z hz
        rw [same_map hm.1 h1, same_map hm.1 h1', same_map h1 h1']
        exact hL.eqR _ _ h2 h2'
      · intro y z hy hz
        obtain ⟨ls, ws, rfl, h1, h2⟩ := form y hy
        obtain ⟨ls', ws', rfl, h1', h2'⟩ := form z hz
        rw [same_map hm.1 h1, same_map hm.1 h1', same_map h1 h1']
        exact hL.trans _ _ h2 h2')
theorem at_alls : ∀ (xs : List V), okAll xs = true → ∀ x ∈ xs, At cmpN (fun y => ok y = true) x
  | [], _, x, hx => by simp at hx
  | v :: vs, h, x, hx => by
    simp only [okAll, Bool.and_eq_true] at h
    rcases List.mem_cons.1 hx with e | e
    · exact e ▸ at_all v h.1
    · exact at_alls vs h.2 x e
end

end Cel.LegacyOrder
