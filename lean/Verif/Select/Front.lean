import Verif.Select.Sim

/-! # The traversal of a path, one step at the end at a time -/

set_option linter.unusedSimpArgs false
set_option linter.unusedVariables false

namespace Cel.Select
open Cel

inductive Front where
  | next (s : QS)
  | result (v : Val) (rest : List SQ)
  | status (s : Status)

def front (L : Lib) : QS → List SQ → Front
  | s, [] => .next s
  | s, q :: p =>
    match applySelectQualifier L s q with
    | .status e => .status e
    | .result v => .result v p
    | .next s' => front L s' p

def frontSnoc (L : Lib) (r : Front) (q : SQ) : Front :=
  match r with
  | .status e => .status e
  | .result v rest => .result v (rest ++ [q])
  | .next s =>
    match applySelectQualifier L s q with
    | .status e => .status e
    | .result v => .result v []
    | .next s' => .next s'

theorem front_snoc (L : Lib) (p : List SQ) (q : SQ) (s : QS) :
    front L s (p ++ [q]) = frontSnoc L (front L s p) q := by
  induction p generalizing s with
  | nil =>
    simp only [List.nil_append, front, frontSnoc]
  | cons a p ih =>
    simp only [List.cons_append, front]
    rcases applySelectQualifier L s a with s' | v | e
    · exact ih s'
    · rfl
    · rfl

def fbFold (L : Lib) : Val → List SQ → Val
  | v, [] => v
  | v, q :: p =>
    match applyQualifier L v q with
    | .error s => .error s
    | w => fbFold L w p

theorem fbFold_cons_err {L : Lib} {v : Val} {q : SQ} {p : List SQ}
    (h : isError (applyQualifier L v q) = true) : fbFold L v (q :: p) = applyQualifier L v q := by
  rw [fbFold]
  cases ha : applyQualifier L v q <;> simp_all [isError]

theorem fbFold_cons_ok {L : Lib} {v : Val} {q : SQ} {p : List SQ}
    (h : isError (applyQualifier L v q) = false) :
    fbFold L v (q :: p) = fbFold L (applyQualifier L v q) p := by
  rw [fbFold]
  cases ha : applyQualifier L v q <;> simp_all [isError]

theorem fbFold_snoc (L : Lib) (p : List SQ) (q : SQ) (v : Val) (hv : isError v = false) :
    (isError (fbFold L v p) = true → fbFold L v (p ++ [q]) = fbFold L v p) ∧
    (isError (fbFold L v p) = false → fbFold L v (p ++ [q]) = applyQualifier L (fbFold L v p) q) := by
  induction p generalizing v with
  | nil =>
    refine ⟨fun h => ?_, fun _ => ?_⟩
    · simp [fbFold, hv] at h
    · rw [List.nil_append]
      rcases h : isError (applyQualifier L v q) with _ | _
      · rw [fbFold_cons_ok h]; rfl
      · rw [fbFold_cons_err h]; rfl
  | cons a p ih =>
    rw [List.cons_append]
    rcases h : isError (applyQualifier L v a) with _ | _
    · rw [fbFold_cons_ok h, fbFold_cons_ok h]
      exact ih _ h
    · rw [fbFold_cons_err h, fbFold_cons_err h]
      exact ⟨fun _ => rfl, fun h' => by simp [h] at h'⟩

def fbLast (L : Lib) (test : Bool) (v : Val) (q : SQ) : Res Val :=
  if test then fallbackHas L v q else .ok (applyQualifier L v q)

theorem fallback_snoc (L : Lib) (test : Bool) (p : List SQ) (q : SQ) (v : Val) (hv : isError v = false) :
    (isError (fbFold L v p) = true → fallback L test v (p ++ [q]) = .ok (fbFold L v p)) ∧
    (isError (fbFold L v p) = false → fallback L test v (p ++ [q]) = fbLast L test (fbFold L v p) q) := by
  induction p generalizing v with
  | nil =>
    refine ⟨fun h => ?_, fun _ => rfl⟩
    simp [fbFold, hv] at h
  | cons a p ih =>
    have hne : ∃ b l, p ++ [q] = b :: l := by cases p <;> simp
    obtain ⟨b, l, hbl⟩ := hne
    rw [List.cons_append, hbl]
    have hf : fallback L test v (a :: b :: l) =
        match applyQualifier L v a with
        | .error s => .ok (.error s)
        | w => fallback L test w (b :: l) := rfl
    rw [hf, ← hbl]
    rcases h : isError (applyQualifier L v a) with _ | _
    · rw [fbFold_cons_ok h]
      have := ih (applyQualifier L v a) h
      generalize applyQualifier L v a = w at *
      cases w <;> first | exact this | simp [isError] at h
    · rw [fbFold_cons_err h]
      refine ⟨fun _ => ?_, fun h' => by simp [h] at h'⟩
      generalize applyQualifier L v a = w at *
      cases w <;> first | rfl | simp [isError] at h

/-- `Qualify` along a path. -/
def qLast (L : Lib) (test : Bool) (s : QS) (q : SQ) : Res Val :=
  if test then lastHas L s q else lastGet L s q

def loopResult (L : Lib) (test : Bool) (i n : Nat) (q : SQ) : Front → Res (Val × Int)
  | .status e => .err e
  | .next s => (qLast L test s q).bind fun v => .ok (v, -1)
  | .result v rest => .ok (v, if isError v then -1 else ((i + (n - rest.length) : Nat) : Int))

theorem front_rest {L : Lib} {s : QS} {p : List SQ} {v : Val} {rest : List SQ}
    (h : front L s p = .result v rest) : ∃ n, rest = p.drop n ∧ n ≤ p.length ∧ 0 < n := by
  induction p generalizing s with
  | nil => simp [front] at h
  | cons a p ih =>
    rw [front] at h
    rcases ha : applySelectQualifier L s a with s' | r | e
    · rw [ha] at h
      obtain ⟨n, h1, h2, h3⟩ := ih h
      exact ⟨n + 1, by simp [h1], by simp; omega, by omega⟩
    · rw [ha] at h
      simp only [Front.result.injEq] at h
      exact ⟨1, by simp [h.2], by simp, by omega⟩
    · rw [ha] at h; cases h

theorem loop_snoc (L : Lib) (test : Bool) (p : List SQ) (q : SQ) (s : QS) (i : Nat) :
    qualifyLoop L test s i (p ++ [q]) = loopResult L test i p.length q (front L s p) := by
  induction p generalizing s i with
  | nil => rfl
  | cons a p ih =>
    have hne : ∃ b l, p ++ [q] = b :: l := by cases p <;> simp
    obtain ⟨b, l, hbl⟩ := hne
    rw [List.cons_append, hbl]
    have hf : qualifyLoop L test s i (a :: b :: l) =
        match applySelectQualifier L s a with
        | .status e => .err e
        | .result v => .ok (v, if isError v then -1 else (i : Int) + 1)
        | .next s' => qualifyLoop L test s' (i + 1) (b :: l) := rfl
    rw [hf, ← hbl, front]
    rcases ha : applySelectQualifier L s a with s' | r | e
    · simp only []
      rw [ih]
      rcases hfr : front L s' p with s'' | ⟨v, rest⟩ | e
      · rfl
      · obtain ⟨n, h1, h2, h3⟩ := front_rest hfr
        simp only [loopResult, List.length_cons]
        have : rest.length ≤ p.length := by rw [h1]; simp
        have h4 : i + 1 + (p.length - rest.length) = i + (p.length + 1 - rest.length) := by omega
        rw [h4]
      · rfl
    · simp only [loopResult, List.length_cons]
      have h4 : i + (p.length + 1 - p.length) = i + 1 := by omega
      rw [h4]
      rfl
    · rfl

/-- The result of the optimized step, from that of the traversal. -/
def finish (L : Lib) (test : Bool) (m : Msg) (p : List SQ) (q : SQ) : Front → Res Val
  | .status e => if e.code = .unimplemented then fallback L test (.msg m) (p ++ [q]) else .err e
  | .next s =>
    match qLast L test s q with
    | .ok v => .ok v
    | .err e => if e.code = .unimplemented then fallback L test (.msg m) (p ++ [q]) else .err e
    | .ub => .ub
  | .result v rest => if isError v then .ok v else fallback L test v (rest ++ [q])

theorem applySelect_snoc (L : Lib) (m : Msg) (p : List SQ) (q : SQ) (test : Bool) :
    applySelect L false m (p ++ [q]) test = finish L test m p q (front L ⟨m, none⟩ p) := by
  rw [applySelect]
  simp only [Bool.false_eq_true, if_false]
  rw [loop_snoc]
  rcases hfr : front L ⟨m, none⟩ p with s | ⟨v, rest⟩ | e
  · simp only [loopResult, finish]
    rcases qLast L test s q with v | e | _
    · simp
    · simp
    · simp
  · simp only [loopResult, finish]
    rcases hv : isError v with _ | _
    · simp only [Bool.false_eq_true, if_false]
      obtain ⟨n, h1, h2, h3⟩ := front_rest hfr
      have hlen : p.length - rest.length = n := by rw [h1]; simp; omega
      rw [Nat.zero_add, hlen, if_neg (by simp; omega), h1]
      congr 1
      rw [Int.toNat_natCast, List.drop_append_of_le_length h2]
    · simp
  · simp only [loopResult, finish]

theorem applySelect_force (L : Lib) (m : Msg) (p : List SQ) (test : Bool) :
    applySelect L true m p test = fallback L test (.msg m) p := by
  simp [applySelect, forcedFallback]

end Cel.Select
