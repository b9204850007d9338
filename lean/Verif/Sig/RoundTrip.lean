import Verif.Sig.Flow

/-!
# Reading back what was written

`readBack t` is, constructor by constructor, what the parser makes of the text written for `t`.
No assumption is made about names here: a name that is reserved, empty or contains `..` is
classified as the parser classifies it.
-/

namespace Cel.Sig

set_option linter.unusedSimpArgs false
set_option linter.unusedVariables false

theorem parseAll_congr {f g : Text → Option TypeSpec} : ∀ {l : List Text},
    (∀ s ∈ l, f s = g s) → parseAll f l = parseAll g l
  | [], _ => rfl
  | s :: r, h => by
    rw [parseAll, parseAll, h s (by simp), parseAll_congr (fun x hx => h x (by simp [hx]))]

theorem escape_head (dot : Bool) : ∀ s r c, escape dot s = c :: r → c ≠ '~'
  | [], r, c, h => by simp [escape] at h
  | d :: s, r, c, h => by
    rw [escape] at h
    by_cases hc : (special d || (d == '.' && dot)) = true
    · rw [if_pos hc] at h
      injection h with h1 h2
      rw [← h1]; decide
    · rw [if_neg hc] at h
      injection h with h1 h2
      rintro rfl
      rw [h1] at hc
      exact hc (by simp [special])

theorem escape_eq_nil {dot s} (h : escape dot s = []) : s = [] := by
  cases s with
  | nil => rfl
  | cons c r =>
    rw [escape] at h
    split at h <;> simp at h

theorem find_less_name (k : Text) : findTopLevel (escape false k) '<' false = some none := by
  have := (flow_escape (tgt := '<') (n := 0) (dot := false) (.inl (by decide)) k).1 false 0 none []
  rw [List.append_nil] at this
  rw [findTopLevel, this, findTop.eq_1, if_pos rfl]

theorem find_less_bracket (k : Text) {s r} (h : ∀ x ∈ s :: r, Sealed x) :
    findTopLevel (escape false k ++ bracket (s :: r)) '<' false =
      some (some (escape false k).length) := by
  rw [findTopLevel,
    (flow_escape (tgt := '<') (n := 0) (dot := false) (.inl (by decide)) k).1, bracket,
    findTop.eq_3, if_neg (by decide)]
  dsimp only
  rw [if_pos (show '<' = '<' from rfl), if_pos (show '<' = '<' ∧ 0 = 0 from ⟨rfl, rfl⟩),
    if_pos (show (false || (none : Option Nat).isNone) = true from rfl), (flow_joinComma h).1, findTop.eq_3,
    if_neg (by decide)]
  dsimp only
  rw [if_neg (show ¬ '>' = '<' by decide), if_pos rfl, if_neg (show ¬ 0 + 1 = 0 by omega),
    if_neg (show ¬ ('>' = '<' ∧ 0 + 1 = 0) by omega), findTop.eq_1, if_pos rfl]
  simp

theorem parseNamed_bracket (f) (k : Text) {s r} (h : ∀ x ∈ s :: r, Sealed x) :
    parseNamed f (escape false k ++ bracket (s :: r)) =
      (parseAll f (s :: r)).bind (classify k) := by
  rw [parseNamed, find_less_bracket k h]
  dsimp only
  rw [if_neg (show ¬ (escape false k ++ bracket (s :: r)).getLast? ≠ some '>' by
    rw [bracket, ← List.cons_append, ← List.append_assoc, List.getLast?_concat]; simp)]
  have e1 : ((escape false k ++ bracket (s :: r)).drop ((escape false k).length + 1)).take
      ((escape false k ++ bracket (s :: r)).length - (escape false k).length - 2) =
      joinComma (s :: r) := by
    rw [bracket, ← List.drop_drop, List.drop_left, List.drop_one, List.tail_cons]
    rw [List.take_append_of_le_length (by simp), List.take_of_length_le (by simp)]
  have e2 : (escape false k ++ bracket (s :: r)).take (escape false k).length = escape false k :=
    List.take_left
  rw [e1, e2, splitTypeList_joinComma (by simp) h, Option.bind_some, unescape_escape]

theorem parseFuel_named (n : Nat) (k : Text) (ss : List Text) (h : ∀ s ∈ ss, Sealed s) :
    parseFuel (n + 1) (escape false k ++ bracket ss) =
      (parseAll (parseFuel n) ss).bind (classify k) := by
  cases ss with
  | nil =>
    rw [bracket, List.append_nil, parseAll, Option.bind_some]
    cases he : escape false k with
    | nil =>
      rw [escape_eq_nil he]; rfl
    | cons c r =>
      rw [parseFuel, if_neg (escape_head _ _ _ _ he), ← he, parseNamed, find_less_name]
      dsimp only
      rw [unescape_escape]
  | cons s r =>
    have key : ∀ c t, escape false k ++ bracket (s :: r) = c :: t → c ≠ '~' := by
      intro c t he
      cases hk : escape false k with
      | nil =>
        rw [hk, bracket, List.nil_append] at he
        injection he with h1 _
        rw [← h1]; decide
      | cons d u =>
        rw [hk, List.cons_append] at he
        injection he with h1 _
        rw [← h1]
        exact escape_head _ _ _ _ hk
    cases he : escape false k ++ bracket (s :: r) with
    | nil => simp [bracket] at he
    | cons c t =>
      rw [parseFuel, if_neg (key c t he), ← he, parseNamed_bracket _ _ h]

theorem parseParam_escape (n : Text) :
    parseParam (escape true n) = if n = [] then none else some (.param n) := by
  rw [parseParam]
  by_cases hn : n = []
  · subst hn; rfl
  · rw [if_neg hn, if_neg (by
      rw [List.isEmpty_iff]; exact fun h => hn (escape_eq_nil h))]
    have f1 := (flow_escape (tgt := '<') (n := 0) (dot := true) (.inl (by decide)) n).1 false 0
      none []
    have f2 := (flow_escape (tgt := ',') (n := 0) (dot := true) (.inl (by decide)) n).1 false 0
      none []
    rw [List.append_nil] at f1 f2
    rw [findTopLevel, findTopLevel, f1, f2, findTop.eq_1, findTop.eq_1, if_pos rfl]
    dsimp only
    rw [unescape_escape]

/-- What reading an inner type gives when "unspecified" was written as `dyn`. -/
def dynIfUnspec (t : TypeSpec) (r : Option TypeSpec) : Option TypeSpec :=
  match t with
  | .unspec => some .dyn
  | _ => r

mutual
/-- What the parser makes of the text written for a type. -/
def readBack : TypeSpec → Option TypeSpec
  | .unspec => none
  | .error => none
  | .null => some .null
  | .dyn => some .dyn
  | .prim p => some (.prim p)
  | .wk w => some (.wk w)
  | .wrap p => some (.wrap p)
  | .list t => (dynIfUnspec t (readBack t)).map .list
  | .map k v => (dynIfUnspec k (readBack k)).bind fun a => (dynIfUnspec v (readBack v)).map (.map a)
  | .func r args => (dynIfUnspec r (readBack r)).bind fun a => (readBacks args).map (.func a)
  | .type t => (readBack t).map .type
  | .param n => if n = [] then none else some (.param n)
  | .abstract n ps => (readBacks ps).bind (classify n)
  | .message n => classify n []
/-- `readBack` on a list. -/
def readBacks : List TypeSpec → Option (List TypeSpec)
  | [] => some []
  | t :: r => (readBack t).bind fun a => (readBacks r).map (a :: ·)
end

theorem sealed_kw {k : Text} (h : escape false k = k) : Sealed k := h ▸ sealed_escape false k

theorem bracket_mem_length : ∀ {l : List Text} {s}, s ∈ l → s.length < (bracket l).length := by
  have : ∀ {l : List Text} {s}, s ∈ l → s.length ≤ (joinComma l).length := by
    intro l
    induction l with
    | nil => intro s h; simp at h
    | cons a r ih =>
      intro s h
      cases r with
      | nil => simp at h; subst h; simp [joinComma]
      | cons b r =>
        rw [joinComma]
        rcases List.mem_cons.mp h with h | h
        · subst h; simp
        · have := ih h; simp; omega
  intro l s h
  cases l with
  | nil => simp at h
  | cons a r => have := this h; simp [bracket]; omega

/-- The written text of the inner type together with what is read back from it. -/
structure Reads (s : Text) (r : Option TypeSpec) : Prop where
  isSealed : Sealed s
  parses : ∀ n, s.length < n → parseFuel n s = r

theorem reads_named {k : Text} {ss : List Text} {rs : List (Option TypeSpec)}
    (h : List.Forall₂ Reads ss rs) {res} (hres : ((rs.mapM id).bind (classify k)) = res) :
    Reads (escape false k ++ bracket ss) res := by
  have hs : ∀ s ∈ ss, Sealed s := by
    clear hres
    induction h with
    | nil => intro s hs; simp at hs
    | cons h _ ih =>
      intro s hs
      rcases List.mem_cons.mp hs with hs | hs
      · subst hs; exact h.isSealed
      · exact ih s hs
  refine ⟨sealed_append (sealed_escape _ _) (sealed_bracket hs), ?_⟩
  intro n hn
  cases n with
  | zero => omega
  | succ n =>
    rw [parseFuel_named n k ss hs, ← hres]
    have hlen : ∀ s ∈ ss, s.length < n := by
      intro s hs
      have := bracket_mem_length hs
      simp at hn; omega
    clear hn hs hres
    congr 1
    induction h with
    | nil => rfl
    | @cons a b l1 l2 hab _ ih =>
      rw [parseAll, hab.parses n (hlen a (by simp)), ih (fun s hs => hlen s (by simp [hs]))]
      cases b <;> simp [List.mapM_cons]
      cases l2.mapM id <;> simp

theorem reads_keyword {k : Text} (hk : escape false k = k) {res} (hres : classify k [] = res) :
    Reads k res := by
  have := reads_named (k := k) (ss := []) (rs := []) .nil (res := res) (by simpa using hres)
  simpa [bracket, hk] using this

theorem classify_list (t) : classify kwList [t] = some (.list t) := by rfl
theorem classify_map (k v) : classify kwMap [k, v] = some (.map k v) := by rfl
theorem classify_func (r l) : classify kwFunction (r :: l) = some (.func r l) := by rfl
theorem classify_type (t) : classify kwType [t] = some (.type t) := by rfl

theorem reads_dyn : Reads kwDyn (some .dyn) := reads_keyword (by rfl) (by rfl)

theorem reads_orDyn {t s r} (h : ∀ s, showT t = some s → Reads s r) (hs : orDyn t (showT t) = some s) :
    Reads s (dynIfUnspec t r) := by
  cases t <;> simp only [orDyn, dynIfUnspec] at hs ⊢
  case unspec => injection hs with hs; subst hs; exact reads_dyn
  all_goals exact h s hs

mutual
theorem reads_show : ∀ (t : TypeSpec) (s : Text), showT t = some s → Reads s (readBack t)
  | .unspec, s, h => by simp [showT] at h
  | .error, s, h => by simp [showT] at h
  | .null, s, h => by
    rw [showT] at h; injection h with h; subst h
    exact reads_keyword (by rfl) (by rfl)
  | .dyn, s, h => by
    rw [showT] at h; injection h with h; subst h
    exact reads_dyn
  | .prim p, s, h => by
    rw [showT] at h
    cases p <;> rw [primName] at h
    case other => cases h
    all_goals
      injection h with h; subst h
      exact reads_keyword (by rfl) (by rfl)
  | .wk p, s, h => by
    rw [showT] at h
    cases p <;> rw [wkName] at h
    case other => cases h
    all_goals
      injection h with h; subst h
      exact reads_keyword (by rfl) (by rfl)
  | .wrap p, s, h => by
    rw [showT] at h
    cases p <;> rw [wrapName] at h
    case other => cases h
    all_goals
      injection h with h; subst h
      exact reads_keyword (by rfl) (by rfl)
  | .list t, s, h => by
    rw [showT] at h
    cases ht : orDyn t (showT t) with
    | none => rw [ht] at h; simp at h
    | some a =>
      rw [ht] at h; injection h with h; subst h
      have ih := reads_orDyn (reads_show t) ht
      have := reads_named (k := kwList) (ss := [a]) (.cons ih .nil) rfl
      rw [show escape false kwList = kwList from rfl] at this
      convert this using 1
      rw [readBack]
      cases dynIfUnspec t (readBack t) with
      | none => rfl
      | some x => simp [classify_list]
  | .map k v, s, h => by
    rw [showT] at h
    cases hk : orDyn k (showT k) with
    | none => rw [hk] at h; simp at h
    | some a =>
      cases hv : orDyn v (showT v) with
      | none => rw [hk, hv] at h; simp at h
      | some b =>
        rw [hk, hv] at h; injection h with h; subst h
        have ih1 := reads_orDyn (reads_show k) hk
        have ih2 := reads_orDyn (reads_show v) hv
        have := reads_named (k := kwMap) (ss := [a, b]) (.cons ih1 (.cons ih2 .nil)) rfl
        rw [show escape false kwMap = kwMap from rfl] at this
        convert this using 1
        rw [readBack]
        cases dynIfUnspec k (readBack k) with
        | none => rfl
        | some x =>
          cases dynIfUnspec v (readBack v) with
          | none => rfl
          | some y => simp [classify_map]
  | .func r args, s, h => by
    rw [showT] at h
    cases hr : orDyn r (showT r) with
    | none => rw [hr] at h; simp at h
    | some a =>
      cases hl : showTs args with
      | none => rw [hr, hl] at h; simp at h
      | some l =>
        rw [hr, hl] at h; injection h with h; subst h
        have ih1 := reads_orDyn (reads_show r) hr
        obtain ⟨rs, ih2, he⟩ := reads_shows args l hl
        have := reads_named (k := kwFunction) (ss := a :: l) (.cons ih1 ih2) rfl
        rw [show escape false kwFunction = kwFunction from rfl] at this
        convert this using 1
        rw [readBack, ← he]
        cases dynIfUnspec r (readBack r) with
        | none => rfl
        | some x =>
          simp only [List.mapM_cons, id, Option.bind_eq_bind, Option.bind_some, Option.pure_def]
          cases rs.mapM id with
          | none => rfl
          | some y => simp [classify_func]
  | .type t, s, h => by
    rw [showT] at h
    cases ht : showT t with
    | none => rw [ht] at h; simp at h
    | some a =>
      rw [ht] at h; injection h with h; subst h
      have ih := reads_show t a ht
      have := reads_named (k := kwType) (ss := [a]) (.cons ih .nil) rfl
      rw [show escape false kwType = kwType from rfl] at this
      convert this using 1
      rw [readBack]
      cases readBack t with
      | none => rfl
      | some x => simp [classify_type]
  | .param n, s, h => by
    rw [showT] at h; injection h with h; subst h
    refine ⟨sealed_append (a := ['~']) ⟨?_, ?_, fun _ _ => ?_⟩ (sealed_escape _ _), ?_⟩
    · exact flow_plain (by decide) (by decide) (by decide) (.inl (by decide))
    · exact flow_plain (by decide) (by decide) (by decide) (.inl (by decide))
    · exact flow_plain (by decide) (by decide) (by decide) (.inr (by omega))
    · intro m hm
      cases m with
      | zero => omega
      | succ m => rw [parseFuel, if_pos rfl, parseParam_escape, readBack]
  | .abstract n ps, s, h => by
    rw [showT] at h
    cases hl : showTs ps with
    | none => rw [hl] at h; simp at h
    | some l =>
      rw [hl] at h; injection h with h; subst h
      obtain ⟨rs, ih, he⟩ := reads_shows ps l hl
      exact reads_named ih (by rw [readBack, he])
  | .message n, s, h => by
    rw [showT] at h; injection h with h; subst h
    have := reads_named (k := n) (ss := []) .nil rfl
    simpa [bracket, readBack] using this
theorem reads_shows : ∀ (l : List TypeSpec) (ss : List Text), showTs l = some ss →
    ∃ rs, List.Forall₂ Reads ss rs ∧ rs.mapM id = readBacks l
  | [], ss, h => by
    rw [showTs] at h; injection h with h; subst h
    exact ⟨[], .nil, rfl⟩
  | t :: r, ss, h => by
    rw [showTs] at h
    cases ht : showT t with
    | none => rw [ht] at h; simp at h
    | some a =>
      cases hr : showTs r with
      | none => rw [ht, hr] at h; simp at h
      | some l =>
        rw [ht, hr] at h; injection h with h; subst h
        obtain ⟨rs, h1, h2⟩ := reads_shows r l hr
        refine ⟨readBack t :: rs, .cons (reads_show t a ht) h1, ?_⟩
        rw [readBacks, ← h2]
        simp only [List.mapM_cons, id, Option.bind_eq_bind, Option.pure_def]
        cases readBack t <;> simp
        cases rs.mapM id <;> simp
end

/-- Parsing the text written for a type gives `readBack`. -/
theorem parseType_show {t s} (h : showT t = some s) : parseType s = readBack t :=
  (reads_show t s h).parses _ (by omega)

end Cel.Sig
