import Verif.Text.Utf8Lemmas

set_option linter.unusedSimpArgs false
set_option linter.unusedVariables false

/-! Simulation of the readers and the loops against the specification. -/

namespace Cel.Text
open Cel Spec

/-- `R`'s state `s` stands for the unread bytes `bs`. -/
structure Sim {σ : Type} (R : Reader σ) (Good : σ → List Nat → Prop) : Prop where
  rem : ∀ {s bs}, Good s bs → R.remaining s = bs.length
  read : ∀ {s b r}, Good s (b :: r) → ∃ s', R.read s = .ok (b, s') ∧ Good s' r
  peekAdv : ∀ {s bs n}, Good s bs → 1 ≤ n → n ≤ bs.length →
    ∃ s1 s2, R.peek s n = .ok (bs.take n, s1) ∧ R.advance s1 n = .ok s2 ∧ Good s2 (bs.drop n)

theorem sim_string : Sim stringReader (fun s bs => s = bs) where
  rem := by rintro s bs rfl; rfl
  read := by rintro s b r rfl; exact ⟨r, rfl, rfl⟩
  peekAdv := by
    rintro s bs n rfl h1 h2
    exact ⟨s, s.drop n, by simp [stringReader, h2], by simp [stringReader, h2], rfl⟩

/-- Between operations of the validating loops the temporary buffer is empty. -/
def CordGood (s : CordSt) (bs : List Nat) : Prop :=
  s.buffer = [] ∧ s.index = 0 ∧ s.input = bs ∧ s.size = bs.length

theorem cord_peek (s : CordSt) (bs : List Nat) (n : Nat) (h : CordGood s bs) (h1 : 1 ≤ n)
    (h2 : n ≤ bs.length) :
    ∃ cap, s.peek n = .ok (bs.take n, ⟨bs.drop n, bs.length, bs.take n, 0, cap⟩) := by
  obtain ⟨i, sz, bf, ix, cp⟩ := s
  unfold CordGood at h
  simp only at h
  obtain ⟨rfl, rfl, rfl, rfl⟩ := h
  refine ⟨max cp (max n kUtf8Max), ?_⟩
  unfold CordSt.peek
  rw [if_neg (by omega)]
  simp only [List.length_nil, Nat.sub_self, List.drop_zero]
  rw [if_neg (by omega), if_neg (by omega)]
  simp only [ne_eq, not_true_eq_false, and_false, if_false, ite_self, List.length_nil, Nat.zero_add,
    Nat.sub_zero]
  rw [if_neg (by omega), if_pos (by simp; omega)]
  simp [List.take_take]

theorem cord_adv (bs : List Nat) (n cap : Nat) (h1 : 1 ≤ n) (h2 : n ≤ bs.length) :
    CordSt.advance ⟨bs.drop n, bs.length, bs.take n, 0, cap⟩ n =
      .ok ⟨bs.drop n, (bs.drop n).length, [], 0, cap⟩ := by
  unfold CordSt.advance
  rw [if_neg (by omega)]
  have : (bs.take n).length = n := by simp; omega
  simp only [this]
  rw [if_pos (by omega)]
  simp only [Nat.sub_zero, Nat.min_self, Nat.zero_add, Nat.lt_irrefl, if_false, Nat.sub_self,
    Nat.zero_le, if_true, List.drop_zero, List.length_drop]

theorem sim_cord : Sim cordReader CordGood where
  rem := by rintro s bs ⟨_, _, _, h⟩; exact h
  read := by
    intro s b r h
    obtain ⟨cap, hp⟩ := cord_peek s (b :: r) 1 h (by omega) (by simp)
    have ha := cord_adv (b :: r) 1 cap (by omega) (by simp)
    refine ⟨⟨r, r.length, [], 0, cap⟩, ?_, ?_⟩
    · show CordSt.read s = _
      unfold CordSt.read
      rw [hp]
      simp only [Res.mbind_ok, List.take_succ_cons, List.take_zero] at ha ⊢
      rw [ha]; rfl
    · exact ⟨rfl, rfl, by simp, by simp⟩
  peekAdv := by
    intro s bs n h h1 h2
    obtain ⟨cap, hp⟩ := cord_peek s bs n h h1 h2
    exact ⟨_, _, hp, cord_adv bs n cap h1 h2, ⟨rfl, rfl, rfl, rfl⟩⟩

/-- The head of a non-empty byte string is an ASCII byte, accepted or rejected. -/
theorem head_cases (b : Nat) (r : List Nat) (hb : b < 256) :
    (b < 0x80 ∧ IsScalar b ∧ enc b = [b]) ∨ (0x80 ≤ b ∧ Accepts b r) ∨ (0x80 ≤ b ∧ Rejects b r) := by
  by_cases h : b < 0x80
  · exact .inl ⟨h, .inl (by omega), enc_ascii h⟩
  · rcases accepts_or_rejects b r hb (by omega) with k | k
    · exact .inr (.inl ⟨by omega, k⟩)
    · exact .inr (.inr ⟨by omega, k⟩)

theorem bytes_tail {b : Nat} {r : List Nat} (h : Bytes (b :: r)) : b < 256 ∧ Bytes r :=
  ⟨h b (by simp), fun x hx => h x (by simp [hx])⟩
theorem bytes_drop {bs : List Nat} (n : Nat) (h : Bytes bs) : Bytes (bs.drop n) :=
  fun x hx => h x (List.mem_of_mem_drop hx)

theorem wf_nil : WellFormed [] := ⟨[], by simp [Scalars], rfl⟩
theorem wf_cons {c : Nat} {r : List Nat} (hc : IsScalar c) :
    WellFormed (enc c ++ r) ↔ WellFormed r := by
  constructor
  · rintro ⟨cs, hcs, e⟩
    cases cs with
    | nil => simp [encAll] at e; exact absurd e.1 (enc_ne_nil c)
    | cons d ds =>
      have hd := hcs d (by simp)
      have e' : enc c ++ r = enc d ++ encAll ds := by rw [e]; simp [encAll]
      obtain ⟨rfl, rfl⟩ := enc_inj hc hd e'
      exact ⟨ds, fun x hx => hcs x (by simp [hx]), rfl⟩
  · rintro ⟨cs, hcs, rfl⟩
    refine ⟨c :: cs, ?_, by simp [encAll]⟩
    intro x hx
    simp at hx
    rcases hx with rfl | hx
    · exact hc
    · exact hcs x hx
theorem not_wf_of_noPrefix {bs : List Nat} (hne : bs ≠ []) (h : NoPrefix bs) : ¬ WellFormed bs := by
  rintro ⟨cs, hcs, e⟩
  cases cs with
  | nil => exact hne e
  | cons d ds => exact h d (hcs d (by simp)) ⟨encAll ds, by rw [e]; simp [encAll]⟩

/-- After an accepted lead byte, the bytes split as the encoding and the rest. -/
theorem accepts_split {b c n : Nat} {r : List Nat} (he : enc c = b :: r.take n) :
    b :: r = enc c ++ r.drop n := by rw [he]; simp

section loops
variable {σ : Type} {R : Reader σ} {Good : σ → List Nat → Prop} (S : Sim R Good)
include S

theorem isValid_spec : ∀ fuel s bs, Good s bs → bs.length < fuel → Bytes bs →
    ∃ v, isValidImpl R fuel s = .ok v ∧ (v = true ↔ WellFormed bs) := by
  intro fuel
  induction fuel with
  | zero => intro s bs _ h; omega
  | succ fuel ih =>
    intro s bs hg hl hb
    cases bs with
    | nil => exact ⟨true, by unfold isValidImpl; rw [S.rem hg]; rfl, by simp [wf_nil]⟩
    | cons b r =>
      obtain ⟨hb0, hbr⟩ := bytes_tail hb
      obtain ⟨s1, hr, hg1⟩ := S.read hg
      simp only [List.length_cons] at hl
      unfold isValidImpl
      rw [S.rem hg, hr, if_neg (by simp)]
      simp only [Res.mbind_ok, kUtf8RuneSelf]
      rcases head_cases b r hb0 with ⟨h, hs, he⟩ | ⟨h, c, hc, hx, hle, h1, h3, hok, he, -⟩ | ⟨h, hno, hrej⟩
      · rw [if_pos h]
        obtain ⟨v, hv, hw⟩ := ih s1 r hg1 (by omega) hbr
        refine ⟨v, hv, hw.trans ?_⟩
        have := wf_cons (r := r) hs
        rw [he] at this
        exact this.symm
      · rw [if_neg (by omega : ¬ b < 0x80), if_neg hx, S.rem hg1, if_neg (by omega)]
        obtain ⟨s2, s3, hp, ha, hg3⟩ := S.peekAdv hg1 h1 hle
        rw [hp]
        simp only [Res.mbind_ok, hok, if_true, ha]
        obtain ⟨v, hv, hw⟩ := ih s3 _ hg3 (by simp; omega) (bytes_drop _ hbr)
        refine ⟨v, hv, hw.trans ?_⟩
        rw [accepts_split he]
        exact (wf_cons hc).symm
      · have hn := not_wf_of_noPrefix (by simp) hno
        refine ⟨false, ?_, by simp [hn]⟩
        rw [if_neg (by omega : ¬ b < 0x80)]
        rcases hrej with hx | ⟨hx, hgt⟩ | ⟨hx, hle, h3, h1, hok, -⟩
        · rw [if_pos hx]
        · rw [if_neg hx, S.rem hg1, if_pos hgt]
        · obtain ⟨s2, s3, hp, -, -⟩ := S.peekAdv hg1 h1 hle
          rw [if_neg hx, S.rem hg1, if_neg (by omega), hp]
          simp only [Res.mbind_ok, hok]; rfl

theorem validate_spec : ∀ fuel count s bs, Good s bs → bs.length < fuel → Bytes bs →
    ∃ cs rest, validateImpl R fuel count s = .ok (count + cs.length, decide (rest = [])) ∧
      Scalars cs ∧ bs = encAll cs ++ rest ∧ (rest ≠ [] → NoPrefix rest) := by
  intro fuel
  induction fuel with
  | zero => intro _ s bs _ h; omega
  | succ fuel ih =>
    intro count s bs hg hl hb
    cases bs with
    | nil =>
      exact ⟨[], [], by unfold validateImpl; rw [S.rem hg]; rfl, by simp [Scalars], rfl, by simp⟩
    | cons b r =>
      obtain ⟨hb0, hbr⟩ := bytes_tail hb
      obtain ⟨s1, hr, hg1⟩ := S.read hg
      simp only [List.length_cons] at hl
      unfold validateImpl
      rw [S.rem hg, hr, if_neg (by simp)]
      simp only [Res.mbind_ok, kUtf8RuneSelf]
      rcases head_cases b r hb0 with ⟨h, hs, he⟩ | ⟨h, c, hc, hx, hle, h1, h3, hok, he, -⟩ | ⟨h, hno, hrej⟩
      · rw [if_pos h]
        obtain ⟨cs, rest, hv, hsc, e, hn⟩ := ih (count + 1) s1 r hg1 (by omega) hbr
        refine ⟨b :: cs, rest, ?_, ?_, ?_, hn⟩
        · rw [hv, List.length_cons]; congr 2; omega
        · intro x hx; simp at hx; rcases hx with hx | hx
          · rw [hx]; exact hs
          · exact hsc x hx
        · simp [encAll, he, e]
      · rw [if_neg (by omega : ¬ b < 0x80), if_neg hx, S.rem hg1, if_neg (by omega)]
        obtain ⟨s2, s3, hp, ha, hg3⟩ := S.peekAdv hg1 h1 hle
        rw [hp]
        simp only [Res.mbind_ok, hok, if_true, ha]
        obtain ⟨cs, rest, hv, hsc, e, hn⟩ := ih (count + 1) s3 _ hg3 (by simp; omega) (bytes_drop _ hbr)
        refine ⟨c :: cs, rest, ?_, ?_, ?_, hn⟩
        · rw [hv, List.length_cons]; congr 2; omega
        · intro x hx; simp at hx; rcases hx with hx | hx
          · rw [hx]; exact hc
          · exact hsc x hx
        · rw [accepts_split he, e]; simp [encAll]
      · refine ⟨[], b :: r, ?_, by simp [Scalars], by simp [encAll], fun _ => hno⟩
        rw [if_neg (by omega : ¬ b < 0x80)]
        simp only [List.length_nil, Nat.add_zero, reduceCtorEq, decide_false]
        rcases hrej with hx | ⟨hx, hgt⟩ | ⟨hx, hle, h3, h1, hok, -⟩
        · rw [if_pos hx]
        · rw [if_neg hx, S.rem hg1, if_pos hgt]
        · obtain ⟨s2, s3, hp, -, -⟩ := S.peekAdv hg1 h1 hle
          rw [if_neg hx, S.rem hg1, if_neg (by omega), hp]
          simp only [Res.mbind_ok, hok]; rfl

/-- Counting well-formed input, for any reader. -/
theorem count_wf_spec : ∀ fuel count s cs, Scalars cs → Good s (encAll cs) →
    (encAll cs).length < fuel → countImpl R fuel count s = .ok (count + cs.length) := by
  intro fuel
  induction fuel with
  | zero => intro _ s cs _ _ h; omega
  | succ fuel ih =>
    intro count s cs hcs hg hl
    cases cs with
    | nil => unfold countImpl; rw [S.rem hg]; rfl
    | cons c cs =>
      have hc := hcs c (by simp)
      have hcs' : Scalars cs := fun x hx => hcs x (by simp [hx])
      have hbytes : Bytes (encAll (c :: cs)) := by
        intro x hx
        simp only [encAll, List.mem_flatMap] at hx
        obtain ⟨d, hd, hxd⟩ := hx
        exact enc_bytes (hcs d hd) x hxd
      have hcons : encAll (c :: cs) = enc c ++ encAll cs := by simp [encAll]
      obtain ⟨b, r, hbr⟩ : ∃ b r, encAll (c :: cs) = b :: r := by
        rw [hcons]
        cases hh : enc c with
        | nil => exact absurd hh (enc_ne_nil c)
        | cons x y => exact ⟨x, y ++ encAll cs, rfl⟩
      rw [hbr] at hg hl hbytes
      obtain ⟨hb0, hbr'⟩ := bytes_tail hbytes
      obtain ⟨s1, hr, hg1⟩ := S.read hg
      simp only [List.length_cons] at hl
      unfold countImpl
      rw [S.rem hg, hr, if_neg (by simp)]
      simp only [Res.mbind_ok, kUtf8RuneSelf]
      have hsplit := hcons.symm.trans hbr
      rcases head_cases b r hb0 with ⟨h, hs, he⟩ | ⟨h, d, hd, hx, hle, h1, h3, hok, he, -⟩ | ⟨h, hno, hrej⟩
      · rw [if_pos h]
        have e2 : enc c ++ encAll cs = enc b ++ r := by rw [hsplit, he]; rfl
        obtain ⟨e3, e4⟩ := enc_inj hc hs e2
        rw [← e4] at hg1 hl
        rw [ih (count + 1) s1 cs hcs' hg1 (by omega)]
        simp only [List.length_cons]; congr 1; omega
      · rw [if_neg (by omega : ¬ b < 0x80), if_neg hx, S.rem hg1, if_neg (by omega)]
        obtain ⟨s2, s3, hp, ha, hg3⟩ := S.peekAdv hg1 h1 hle
        rw [hp]
        simp only [Res.mbind_ok, hok, if_true, ha]
        have e2 : enc c ++ encAll cs = enc d ++ r.drop ((kLeading b &&& 7) - 1) := by
          rw [hsplit, accepts_split he]
        obtain ⟨e3, e4⟩ := enc_inj hc hd e2
        rw [← e4] at hg3
        have hlen : (encAll cs).length ≤ r.length := by rw [e4]; simp
        rw [ih (count + 1) s3 cs hcs' hg3 (by omega)]
        simp only [List.length_cons]; congr 1; omega
      · exact absurd ⟨encAll cs, hsplit⟩ (hno c hc)

end loops

/-- Counting arbitrary bytes with the string reader. -/
theorem count_spec : ∀ fuel count bs, bs.length < fuel → Bytes bs →
    ∃ n, countImpl stringReader fuel count bs = .ok (count + n) ∧ Segments bs n := by
  intro fuel
  induction fuel with
  | zero => intro _ bs h; omega
  | succ fuel ih =>
    intro count bs hl hb
    cases bs with
    | nil => exact ⟨0, rfl, .nil⟩
    | cons b r =>
      obtain ⟨hb0, hbr⟩ := bytes_tail hb
      simp only [List.length_cons] at hl
      have hread : stringReader.read (b :: r) = .ok (b, r) := rfl
      have hrem : ∀ x : List Nat, stringReader.remaining x = x.length := fun _ => rfl
      unfold countImpl
      rw [hrem, hread, if_neg (by simp)]
      simp only [Res.mbind_ok, kUtf8RuneSelf, hrem]
      have skip : NoPrefix (b :: r) → ∃ n, countImpl stringReader fuel (count + 1) r = .ok (count + n) ∧
          Segments (b :: r) n := by
        intro hno
        obtain ⟨n, hv, hsg⟩ := ih (count + 1) r (by omega) hbr
        refine ⟨n + 1, ?_, .bad hno hsg⟩
        rw [hv]; congr 1; omega
      rcases head_cases b r hb0 with ⟨h, hs, he⟩ | ⟨h, c, hc, hx, hle, h1, h3, hok, he, -⟩ | ⟨h, hno, hrej⟩
      · rw [if_pos h]
        obtain ⟨n, hv, hsg⟩ := ih (count + 1) r (by omega) hbr
        refine ⟨n + 1, ?_, ?_⟩
        · rw [hv]; congr 1; omega
        · have := Segments.scalar hs hsg; rw [he] at this; exact this
      · rw [if_neg (by omega), if_neg hx, if_neg (by omega)]
        have hp : stringReader.peek r ((kLeading b &&& 7) - 1) =
            .ok (r.take ((kLeading b &&& 7) - 1), r) := by simp [stringReader, hle]
        have ha : stringReader.advance r ((kLeading b &&& 7) - 1) =
            .ok (r.drop ((kLeading b &&& 7) - 1)) := by simp [stringReader, hle]
        rw [hp]
        simp only [Res.mbind_ok, hok, if_true, ha]
        obtain ⟨n, hv, hsg⟩ := ih (count + 1) _ (by simp; omega) (bytes_drop ((kLeading b &&& 7) - 1) hbr)
        refine ⟨n + 1, ?_, ?_⟩
        · rw [hv]; congr 1; omega
        · rw [accepts_split he]; exact .scalar hc hsg
      · rw [if_neg (by omega : ¬ b < 0x80)]
        rcases hrej with hx | ⟨hx, hgt⟩ | ⟨hx, hle, h3, h1, hok, -⟩
        · rw [if_pos hx]; exact skip hno
        · rw [if_neg hx, if_pos hgt]; exact skip hno
        · rw [if_neg hx, if_neg (by omega)]
          have hp : stringReader.peek r ((kLeading b &&& 7) - 1) =
            .ok (r.take ((kLeading b &&& 7) - 1), r) := by simp [stringReader, hle]
          have ha : stringReader.advance r 0 = .ok r := by simp [stringReader]
          rw [hp]
          simp only [Res.mbind_ok, hok, Bool.false_eq_true, if_false, ha]
          exact skip hno

/-- Segmentation is deterministic. -/
theorem segments_unique {bs : List Nat} {m n : Nat} (h : Segments bs m) (h' : Segments bs n) :
    m = n := by
  induction h generalizing n with
  | nil =>
    generalize hx : ([] : List Nat) = x at h'
    cases h' with
    | nil => rfl
    | @scalar c' _ _ hc _ =>
      have := enc_ne_nil c'
      cases hh : enc c' <;> simp_all
    | bad _ _ => cases hx
  | @scalar c r k hc hs ih =>
    generalize hx : enc c ++ r = x at h'
    cases h' with
    | nil => simp [enc_ne_nil] at hx
    | scalar hd hs' =>
      obtain ⟨rfl, rfl⟩ := enc_inj hc hd hx
      rw [ih hs']
    | bad hno _ => exact absurd ⟨r, hx⟩ (hno c hc)
  | @bad b r k hno hs ih =>
    generalize hx : b :: r = x at h'
    cases h' with
    | nil => cases hx
    | scalar hd hs' => exact absurd ⟨_, hx.symm⟩ (hno _ hd)
    | bad _ hs' => cases hx; rw [ih hs']

end Cel.Text
