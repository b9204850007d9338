import Verif.Syntax.Reads

/-
How texts compose: one lemma per form of expression.
-/

set_option linter.unusedVariables false
set_option linter.unusedSimpArgs false
set_option linter.unusedTactic false

namespace Cel.Syntax

variable {cfg : Cfg}

/-! ### Operators -/

theorem RMul.bin {ta tb : List Tok} {xa xb : Ex} {t : Tok} {o : Op} (ht : mulOp t = some o)
    (ha : RMul cfg ta xa) (hb : RUn cfg tb xb) : RMul cfg (ta ++ t :: tb) (.op2 o xa xb) := by
  intro rest hr
  have hs : stops 2 (t :: (tb ++ rest)) := by
    cases t <;> simp [mulOp] at ht <;> simp [stops, rank]
  have e : ta ++ t :: tb ++ rest = ta ++ t :: (tb ++ rest) := by simp
  rw [e, ha _ hs, mulLoop]
  simp only [ht]
  rw [hb rest hr]; rfl

theorem RAdd.bin {ta tb : List Tok} {xa xb : Ex} {t : Tok} {o : Op} (ht : addOp t = some o)
    (ha : RAdd cfg ta xa) (hb : RMul cfg tb xb) : RAdd cfg (ta ++ t :: tb) (.op2 o xa xb) := by
  intro rest hr
  have hs : stops 3 (t :: (tb ++ rest)) := by
    cases t <;> simp [addOp] at ht <;> simp [stops, rank]
  have e : ta ++ t :: tb ++ rest = ta ++ t :: (tb ++ rest) := by simp
  rw [e, ha _ hs, addLoop]
  simp only [ht]
  rw [hb rest (hr.mono (by decide)), mulLoop_stop hr]; rfl

theorem RRel.bin {ta tb : List Tok} {xa xb : Ex} {t : Tok} {o : Op} (ht : relOp t = some o)
    (ha : RRel cfg ta xa) (hb : RAdd cfg tb xb) : RRel cfg (ta ++ t :: tb) (.op2 o xa xb) := by
  intro rest hr
  have hs : stops 4 (t :: (tb ++ rest)) := by
    cases t <;> simp [relOp] at ht <;> simp [stops, rank]
  have e : ta ++ t :: tb ++ rest = ta ++ t :: (tb ++ rest) := by simp
  rw [e, ha _ hs, relLoop]
  simp only [ht]
  rw [hb rest (hr.mono (by decide)), addLoop_stop hr]; rfl

theorem RAnd.append {ta tb : List Tok} {xs ys : List Ex} (ha : RAnd cfg ta xs) (hb : RAnd cfg tb ys) :
    RAnd cfg (ta ++ .and :: tb) (xs ++ ys) := by
  intro acc rest hr
  have e : ta ++ .and :: tb ++ rest = ta ++ .and :: (tb ++ rest) := by simp
  rw [e, ha acc _ (by simp [stops, rank]), andLoop, hb _ rest hr, List.append_assoc]

theorem ROr.append {ta tb : List Tok} {xs ys : List Ex} (ha : ROr cfg ta xs) (hb : ROr cfg tb ys) :
    ROr cfg (ta ++ .or :: tb) (xs ++ ys) := by
  intro acc rest hr
  have e : ta ++ .or :: tb ++ rest = ta ++ .or :: (tb ++ rest) := by simp
  rw [e, ha acc _ (by simp [stops, rank]), orLoop, hb _ rest hr, List.append_assoc]

theorem REx.cond {ta tb tc : List Tok} {xa xb xc : Ex} {la lb : Nat}
    (ha : Reads cfg la ta xa) (hla : la ≤ 7) (hb : Reads cfg lb tb xb) (hlb : lb ≤ 7)
    (hc : REx cfg tc xc) : REx cfg (ta ++ .quest :: tb ++ .colon :: tc) (.op3 .cond xa xb xc) := by
  intro rest hr
  obtain ⟨as, ha, hxa⟩ := ha.orAny hla
  obtain ⟨bs, hb, hxb⟩ := hb.orAny hlb
  have e : ta ++ .quest :: tb ++ .colon :: tc ++ rest =
      ta ++ .quest :: (tb ++ .colon :: (tc ++ rest)) := by simp
  rw [e, parseExpr, ha [] _ (by simp [stops, rank]), List.nil_append,
    orLoop_stop (by simp [stops, rank]), hxa]
  show (parseOr cfg [] (tb ++ .colon :: (tc ++ rest)) >>= _) = _
  rw [hb [] _ (by simp [stops, rank]), List.nil_append, orLoop_stop (by simp [stops, rank]), hxb]
  show (parseExpr cfg (tc ++ rest) >>= _) = _
  rw [hc rest hr]; rfl

/-! ### Members -/

theorem MemHead.append {ts : List Tok} (h : MemHead ts) (r : List Tok) : MemHead (ts ++ r) := by
  rcases h with h | ⟨t, s, rfl, h1, h2⟩
  · exact .inl (signedLiteral_append h r)
  · exact .inr ⟨t, s ++ r, rfl, h1, h2⟩

theorem RUn.not {ts : List Tok} {x : Ex} (hh : MemHead ts) (h : RMem cfg ts x) :
    RUn cfg (.excl :: ts) (.op1 .not x) := by
  intro rest hr
  have hr := hr.mono (show 1 ≤ 2 by decide)
  have hc : countOps .excl (ts ++ rest) = (0, ts ++ rest) := by
    rcases hh with hh | ⟨t, s, rfl, h1, h2⟩
    · match ts, hh with
      | .minus :: _, _ => simp [countOps]
    · simp [countOps, h1]
  rw [parseUnary]
  have e : countOps .excl (.excl :: ts ++ rest) = (1, ts ++ rest) := by
    rw [List.cons_append, countOps, if_pos rfl, hc]
  rw [e, if_neg (by simp [signedLiteral]), if_pos (by simp), h rest (memOk_of_stops hr),
    memberLoop_stop hr]
  rfl

/-- The text does not begin with a number or an operator. -/
def plainHead : List Tok → Bool
  | [] => false
  | .int _ :: _ | .float _ :: _ | .minus :: _ | .excl :: _ => false
  | _ => true

theorem plainHead.append {ts : List Tok} (h : plainHead ts = true) (r : List Tok) :
    plainHead (ts ++ r) = true := by
  match ts, h with
  | t :: ts, h => cases t <;> first | rfl | (revert h; simp [plainHead])

theorem RUn.neg {ts : List Tok} {x : Ex} (hh : plainHead ts = true) (h : RMem cfg ts x) :
    RUn cfg (.minus :: ts) (.op1 .neg x) := by
  intro rest hr
  have hr := hr.mono (show 1 ≤ 2 by decide)
  have hc : countOps .minus (ts ++ rest) = (0, ts ++ rest) := by
    match ts, hh with
    | t :: ts, h => cases t <;> first | (simp [countOps]; done) | (revert h; simp [plainHead])
  have hs : signedLiteral (.minus :: ts ++ rest) = false := by
    match ts, hh with
    | t :: ts, h => cases t <;> first | rfl | (revert h; simp [plainHead])
  rw [parseUnary]
  have e : countOps .minus (.minus :: ts ++ rest) = (1, ts ++ rest) := by
    rw [List.cons_append, countOps, if_pos rfl, hc]
  have e' : (countOps .excl (.minus :: ts ++ rest)).1 = 0 := by simp [countOps]
  rw [e, e', hs, if_neg (by simp), if_neg (by simp), if_pos (by simp), h rest (memOk_of_stops hr),
    memberLoop_stop hr]
  rfl

theorem fieldOf_cases {t : Tok} {f : String} (h : fieldOf cfg t = some f) :
    t = .id f ∨ t = .esc f := by
  cases t <;> simp [fieldOf] at h <;> simp [h]

theorem RMem.select {ts : List Tok} {x : Ex} {t : Tok} {f : String} (h : RMem cfg ts x)
    (ht : fieldOf cfg t = some f) : RMem cfg (ts ++ [.dot, t]) (.select x f false) := by
  intro rest ⟨hr1, hr2⟩
  have e : ts ++ [.dot, t] ++ rest = ts ++ .dot :: t :: rest := by simp
  rcases fieldOf_cases ht with rfl | rfl
  · rw [e, h _ ⟨by simp [messageName, hr1], by simp⟩, memberLoop]
    · simp only [ht]
    · intro t r h; cases h
    · intro f' r _
      exact hr2 _
  · rw [e, h _ ⟨by simp [messageName], by simp⟩, memberLoop]
    · simp only [ht]
    · intro t r h; cases h
    · intro f r h; cases h

theorem RMem.optSelect {ts : List Tok} {x : Ex} {t : Tok} {f : String} (ho : cfg.optionals = true)
    (h : RMem cfg ts x) (ht : fieldOf cfg t = some f) :
    RMem cfg (ts ++ [.dot, .quest, t]) (.op2 .optSelect x (.const (.str f))) := by
  intro rest ⟨hr1, hr2⟩
  have e : ts ++ [.dot, .quest, t] ++ rest = ts ++ .dot :: .quest :: t :: rest := by simp
  rw [e, h _ ⟨by simp [messageName], by simp⟩, memberLoop]
  simp only [ht, ho, if_true]

theorem RMem.index {ts ti : List Tok} {x i : Ex} (h : RMem cfg ts x) (hi : REx cfg ti i) :
    RMem cfg (ts ++ .lbracket :: ti ++ [.rbracket]) (.op2 .index x i) := by
  intro rest ⟨hr1, hr2⟩
  have e : ts ++ .lbracket :: ti ++ [.rbracket] ++ rest = ts ++ .lbracket :: (ti ++ .rbracket :: rest) := by
    simp
  rw [e, h _ ⟨by simp [messageName], by simp⟩, memberLoop, optMark_ok (hi.head_append _),
    hi _ (by simp [stops, rank])]
  rfl

theorem RMem.optIndex {ts ti : List Tok} {x i : Ex} (ho : cfg.optionals = true)
    (h : RMem cfg ts x) (hi : REx cfg ti i) :
    RMem cfg (ts ++ .lbracket :: .quest :: ti ++ [.rbracket]) (.op2 .optIndex x i) := by
  intro rest ⟨hr1, hr2⟩
  have e : ts ++ .lbracket :: .quest :: ti ++ [.rbracket] ++ rest =
      ts ++ .lbracket :: .quest :: (ti ++ .rbracket :: rest) := by simp
  have e' : optMark (.quest :: (ti ++ .rbracket :: rest)) = (true, ti ++ .rbracket :: rest) := rfl
  rw [e, h _ ⟨by simp [messageName], by simp⟩, memberLoop, e', hi _ (by simp [stops, rank])]
  simp only [Option.bind_eq_bind, Option.bind_some, if_true, ho]

/-! ### Lists of expressions -/

/-- Texts of arguments. -/
def ArgsRead (cfg : Cfg) : List (List Tok) → Exs → Prop
  | [], .nil => True
  | t :: ts, .cons x r => REx cfg t x ∧ ArgsRead cfg ts r
  | _, _ => False

theorem ArgsRead.parse1 : ∀ {ts : List (List Tok)} {xs : Exs}, ArgsRead cfg ts xs → ts ≠ [] → ∀ rest,
    parseArgs1 cfg (sepBy .comma ts ++ .rparen :: rest) = some (xs, rest)
  | [], _, _, hne, _ => absurd rfl hne
  | [t], .cons x .nil, h, _, rest => by
    rw [sepBy, parseArgs1, h.1 _ (by simp [stops, rank])]; rfl
  | [t], .cons x (.cons _ _), h, _, rest => by simp [ArgsRead] at h
  | t :: t' :: ts, .cons x .nil, h, _, rest => by simp [ArgsRead] at h
  | t :: t' :: ts, .cons x (.cons y r), h, _, rest => by
    have ih := ArgsRead.parse1 (ts := t' :: ts) (xs := .cons y r) h.2 (by simp) rest
    have e : sepBy .comma (t :: t' :: ts) ++ .rparen :: rest =
        t ++ .comma :: (sepBy .comma (t' :: ts) ++ .rparen :: rest) := by simp [sepBy]
    rw [e, parseArgs1, h.1 _ (by simp [stops, rank])]
    show (parseArgs1 cfg (sepBy .comma (t' :: ts) ++ .rparen :: rest) >>= _) = _
    rw [ih]; rfl

theorem sepBy_head {t : List Tok} {ts : List (List Tok)} {s : Tok} (h : badHead t = false) (r : List Tok) :
    badHead (sepBy s (t :: ts) ++ r) = false := by
  match t, h with
  | a :: t, h =>
    cases ts <;> (simp only [sepBy, List.cons_append, List.append_assoc]) <;>
      cases a <;> first | rfl | (revert h; simp [badHead])

theorem ArgsRead.parse {ts : List (List Tok)} {xs : Exs} (h : ArgsRead cfg ts xs) (rest : List Tok) :
    parseArgs cfg (sepBy .comma ts ++ .rparen :: rest) = some (xs, rest) := by
  match ts, xs, h with
  | [], .nil, _ => rw [sepBy, List.nil_append, parseArgs]
  | t :: ts, .cons x r, h =>
    rw [parseArgs, ArgsRead.parse1 h (by simp) rest]
    intro r e
    have := sepBy_head (ts := ts) (s := .comma) h.1.head (.rparen :: rest)
    rw [e] at this
    simp [badHead] at this

theorem RMem.mcall {ts : List Tok} {x x' : Ex} {f : String} {ta : List (List Tok)} {args : Exs}
    (h : RMem cfg ts x) (ha : ArgsRead cfg ta args) (hx : memberCall x f args = some x') :
    RMem cfg (ts ++ .dot :: .id f :: .lparen :: sepBy .comma ta ++ [.rparen]) x' := by
  intro rest ⟨hr1, hr2⟩
  have e : ts ++ .dot :: .id f :: .lparen :: sepBy .comma ta ++ [.rparen] ++ rest =
      ts ++ .dot :: .id f :: .lparen :: (sepBy .comma ta ++ .rparen :: rest) := by simp
  rw [e, h _ ⟨by simp [messageName], by simp⟩, memberLoop, ha.parse]
  simp only [Option.bind_eq_bind, Option.bind_some, hx]

/-- Texts of list elements. -/
def ElsRead (cfg : Cfg) : List (List Tok) → Els → Prop
  | [], .nil => True
  | t :: ts, .cons o x r => (∃ t', t = optToks o t' ∧ REx cfg t' x) ∧ (o = true → cfg.optionals = true) ∧
      ElsRead cfg ts r
  | _, _ => False

theorem optToks_append (o : Bool) (t r : List Tok) : optToks o t ++ r = optToks o (t ++ r) := by
  cases o <;> rfl

theorem optToks_ne {o : Bool} {t : List Tok} (h : badHead t = false) {s : Tok} (hs : badHead [s] = true)
    (hq : s ≠ .quest) (r : List Tok) : optToks o t ≠ s :: r := by
  cases o
  · intro e
    simp only [optToks, Bool.false_eq_true, if_false] at e
    subst e
    cases s <;> simp [badHead] at h hs
  · intro e
    simp only [optToks, if_true] at e
    cases e
    exact hq rfl

theorem optOk {o : Bool} (h : o = true → cfg.optionals = true) : (o && !cfg.optionals) = false := by
  cases o
  · rfl
  · simp [h rfl]

theorem sepBy_cons (s : Tok) (t t' : List Tok) (ts : List (List Tok)) (r : List Tok) :
    sepBy s (t :: t' :: ts) ++ r = t ++ s :: (sepBy s (t' :: ts) ++ r) := by simp [sepBy]

theorem sepBy_opt (s : Tok) (o : Bool) (t : List Tok) (ts : List (List Tok)) (r : List Tok) :
    ∃ r', sepBy s (optToks o t :: ts) ++ r = optToks o (t ++ r') := by
  cases ts with
  | nil => exact ⟨r, optToks_append ..⟩
  | cons t' ts => exact ⟨_, (sepBy_cons ..).trans (optToks_append ..)⟩

theorem ElsRead.parse1 : ∀ {ts : List (List Tok)} {xs : Els}, ElsRead cfg ts xs → ts ≠ [] → ∀ rest,
    parseEls1 cfg (sepBy .comma ts ++ .rbracket :: rest) = some (xs, rest)
  | [], _, _, hne, _ => absurd rfl hne
  | [t], .cons o x .nil, ⟨⟨t', ht, hx⟩, ho, _⟩, _, rest => by
    rw [ht, sepBy, optToks_append, parseEls1, optMark_optToks (hx.head_append _), optOk ho,
      hx _ (by simp [stops, rank])]; rfl
  | [t], .cons o x (.cons _ _ _), h, _, rest => by simp [ElsRead] at h
  | t :: t' :: ts, .cons o x .nil, h, _, rest => by simp [ElsRead] at h
  | t :: t' :: ts, .cons o x (.cons o' y r), ⟨⟨u, hu, hx⟩, ho, h2⟩, _, rest => by
    have ih := ElsRead.parse1 (ts := t' :: ts) (xs := .cons o' y r) h2 (by simp) rest
    obtain ⟨⟨u', hu', hx'⟩, _⟩ := h2
    obtain ⟨w, hw⟩ := sepBy_opt .comma o' u' ts (.rbracket :: rest)
    rw [← hu'] at hw
    have hne : ∀ z, sepBy .comma (t' :: ts) ++ .rbracket :: rest ≠ .rbracket :: z := fun z => by
      rw [hw]; exact optToks_ne (hx'.head_append w) rfl (by decide) z
    rw [sepBy_cons, hu, optToks_append, parseEls1, optMark_optToks (hx.head_append _), optOk ho,
      hx _ (by simp [stops, rank])]
    generalize hg : sepBy .comma (t' :: ts) ++ .rbracket :: rest = g at ih hne ⊢
    simp only [Bool.false_eq_true, if_false, Option.bind_eq_bind, Option.bind_some]
    rw [ih]; rfl

theorem ElsRead.parse {ts : List (List Tok)} {xs : Els} (h : ElsRead cfg ts xs) (rest : List Tok) :
    parseEls cfg (sepBy .comma ts ++ .rbracket :: rest) = some (xs, rest) := by
  match ts, xs, h with
  | [], .nil, _ => rw [sepBy, List.nil_append, parseEls]
  | t :: ts, .cons o x r, h =>
    have ⟨⟨t', ht, hx⟩, _⟩ := h
    obtain ⟨w, hw⟩ := sepBy_opt .comma o t' ts (.rbracket :: rest)
    rw [← ht] at hw
    rw [parseEls, ElsRead.parse1 h (by simp) rest]
    · rw [hw]; exact fun z => optToks_ne (hx.head_append w) rfl (by decide) z
    · rw [hw]; exact fun z => optToks_ne (hx.head_append w) rfl (by decide) _

/-- Texts of fields. -/
def FldsRead (cfg : Cfg) : List (List Tok) → Flds → Prop
  | [], .nil => True
  | t :: ts, .cons o f x r => (∃ a t', t = optToks o (a :: .colon :: t') ∧ fieldOf cfg a = some f ∧
      REx cfg t' x) ∧ (o = true → cfg.optionals = true) ∧ FldsRead cfg ts r
  | _, _ => False

theorem field_head {a : Tok} {f : String} (h : fieldOf cfg a = some f) (r : List Tok) :
    badHead (a :: r) = false := by
  rcases fieldOf_cases h with rfl | rfl <;> rfl

theorem FldsRead.parse1 : ∀ {ts : List (List Tok)} {xs : Flds}, FldsRead cfg ts xs → ts ≠ [] → ∀ rest,
    parseFlds1 cfg (sepBy .comma ts ++ .rbrace :: rest) = some (xs, rest)
  | [], _, _, hne, _ => absurd rfl hne
  | [t], .cons o f x .nil, ⟨⟨a, t', ht, ha, hx⟩, ho, _⟩, _, rest => by
    rw [ht, sepBy, optToks_append, parseFlds1, List.cons_append, List.cons_append,
      optMark_optToks (field_head ha _), optOk ho]
    simp only [Bool.false_eq_true, if_false, ha]
    rw [hx _ (by simp [stops, rank])]; rfl
  | [t], .cons o f x (.cons _ _ _ _), h, _, rest => by simp [FldsRead] at h
  | t :: t' :: ts, .cons o f x .nil, h, _, rest => by simp [FldsRead] at h
  | t :: t' :: ts, .cons o f x (.cons o' f' y r), ⟨⟨a, u, hu, ha, hx⟩, ho, h2⟩, _, rest => by
    have ih := FldsRead.parse1 (ts := t' :: ts) (xs := .cons o' f' y r) h2 (by simp) rest
    obtain ⟨⟨a', u', hu', ha', hx'⟩, _⟩ := h2
    obtain ⟨w, hw⟩ := sepBy_opt .comma o' (a' :: .colon :: u') ts (.rbrace :: rest)
    rw [← hu'] at hw
    have hne : ∀ z, sepBy .comma (t' :: ts) ++ .rbrace :: rest ≠ .rbrace :: z := fun z => by
      rw [hw]; exact optToks_ne (field_head ha' _) rfl (by decide) z
    rw [sepBy_cons, hu, optToks_append, parseFlds1, List.cons_append, List.cons_append,
      optMark_optToks (field_head ha _), optOk ho]
    simp only [Bool.false_eq_true, if_false, ha]
    rw [hx _ (by simp [stops, rank])]
    generalize hg : sepBy .comma (t' :: ts) ++ .rbrace :: rest = g at ih hne ⊢
    simp only [Option.bind_eq_bind, Option.bind_some]
    rw [ih]; rfl

theorem FldsRead.parse {ts : List (List Tok)} {xs : Flds} (h : FldsRead cfg ts xs) (rest : List Tok) :
    parseFlds cfg (sepBy .comma ts ++ .rbrace :: rest) = some (xs, rest) := by
  match ts, xs, h with
  | [], .nil, _ => rw [sepBy, List.nil_append, parseFlds]
  | t :: ts, .cons o f x r, h =>
    have ⟨⟨a, t', ht, ha, hx⟩, _⟩ := h
    obtain ⟨w, hw⟩ := sepBy_opt .comma o (a :: .colon :: t') ts (.rbrace :: rest)
    rw [← ht] at hw
    rw [parseFlds, FldsRead.parse1 h (by simp) rest]
    · rw [hw]; exact fun z => optToks_ne (field_head ha _) rfl (by decide) z
    · rw [hw]; exact fun z => optToks_ne (field_head ha _) rfl (by decide) _

/-- Texts of map entries. -/
def EntsRead (cfg : Cfg) : List (List Tok) → Ents → Prop
  | [], .nil => True
  | t :: ts, .cons o k v r => (∃ a b, t = optToks o (a ++ .colon :: b) ∧ REx cfg a k ∧
      REx cfg b v) ∧ (o = true → cfg.optionals = true) ∧ EntsRead cfg ts r
  | _, _ => False

theorem EntsRead.parse1 : ∀ {ts : List (List Tok)} {xs : Ents}, EntsRead cfg ts xs → ts ≠ [] → ∀ rest,
    parseEnts1 cfg (sepBy .comma ts ++ .rbrace :: rest) = some (xs, rest)
  | [], _, _, hne, _ => absurd rfl hne
  | [t], .cons o k v .nil, ⟨⟨a, b, ht, ha, hb⟩, ho, _⟩, _, rest => by
    rw [ht, sepBy, optToks_append, parseEnts1, List.append_assoc, List.cons_append,
      optMark_optToks (ha.head_append _), optOk ho, ha _ (by simp [stops, rank])]
    simp only [Bool.false_eq_true, if_false, Option.bind_eq_bind, Option.bind_some]
    rw [hb _ (by simp [stops, rank])]; rfl
  | [t], .cons o k v (.cons _ _ _ _), h, _, rest => by simp [EntsRead] at h
  | t :: t' :: ts, .cons o k v .nil, h, _, rest => by simp [EntsRead] at h
  | t :: t' :: ts, .cons o k v (.cons o' k' v' r), ⟨⟨a, b, hu, ha, hb⟩, ho, h2⟩, _, rest => by
    have ih := EntsRead.parse1 (ts := t' :: ts) (xs := .cons o' k' v' r) h2 (by simp) rest
    obtain ⟨⟨a', b', hu', ha', hb'⟩, _⟩ := h2
    obtain ⟨w, hw⟩ := sepBy_opt .comma o' (a' ++ .colon :: b') ts (.rbrace :: rest)
    rw [← hu', List.append_assoc] at hw
    have hne : ∀ z, sepBy .comma (t' :: ts) ++ .rbrace :: rest ≠ .rbrace :: z := fun z => by
      rw [hw]; exact optToks_ne (ha'.head_append _) rfl (by decide) z
    rw [sepBy_cons, hu, optToks_append, parseEnts1, List.append_assoc, List.cons_append,
      optMark_optToks (ha.head_append _), optOk ho, ha _ (by simp [stops, rank])]
    simp only [Bool.false_eq_true, if_false, Option.bind_eq_bind, Option.bind_some]
    rw [hb _ (by simp [stops, rank])]
    generalize hg : sepBy .comma (t' :: ts) ++ .rbrace :: rest = g at ih hne ⊢
    simp only [Option.bind_eq_bind, Option.bind_some]
    rw [ih]; rfl

theorem EntsRead.parse {ts : List (List Tok)} {xs : Ents} (h : EntsRead cfg ts xs) (rest : List Tok) :
    parseEnts cfg (sepBy .comma ts ++ .rbrace :: rest) = some (xs, rest) := by
  match ts, xs, h with
  | [], .nil, _ => rw [sepBy, List.nil_append, parseEnts]
  | t :: ts, .cons o k v r, h =>
    have ⟨⟨a, b, ht, ha, hb⟩, _⟩ := h
    obtain ⟨w, hw⟩ := sepBy_opt .comma o (a ++ .colon :: b) ts (.rbrace :: rest)
    rw [← ht, List.append_assoc] at hw
    rw [parseEnts, EntsRead.parse1 h (by simp) rest]
    · rw [hw]; exact fun z => optToks_ne (ha.head_append _) rfl (by decide) z
    · rw [hw]; exact fun z => optToks_ne (ha.head_append _) rfl (by decide) _

/-! ### Primaries -/

theorem Reads.list {ts : List (List Tok)} {xs : Els} (h : ElsRead cfg ts xs) :
    Reads cfg 1 (.lbracket :: sepBy .comma ts ++ [.rbracket]) (.list xs) := by
  refine ⟨.inr ⟨_, _, rfl, by decide, by decide⟩, fun rest _ => ?_⟩
  have e : .lbracket :: sepBy .comma ts ++ [.rbracket] ++ rest =
      .lbracket :: (sepBy .comma ts ++ .rbracket :: rest) := by simp
  rw [e, parseMember, parsePrimary, h.parse]; rfl

theorem Reads.map {ts : List (List Tok)} {xs : Ents} (h : EntsRead cfg ts xs) :
    Reads cfg 1 (.lbrace :: sepBy .comma ts ++ [.rbrace]) (.map xs) := by
  refine ⟨.inr ⟨_, _, rfl, by decide, by decide⟩, fun rest _ => ?_⟩
  have e : .lbrace :: sepBy .comma ts ++ [.rbrace] ++ rest =
      .lbrace :: (sepBy .comma ts ++ .rbrace :: rest) := by simp
  rw [e, parseMember, parsePrimary, h.parse]; rfl

theorem parsePrimary_named (d : Bool) (s : String) (r : List Tok) :
    parsePrimary cfg ((if d then [.dot, .id s] else [.id s]) ++ r) = parseNamed cfg d s r := by
  cases d
  · show parsePrimary cfg (.id s :: r) = _
    rw [parsePrimary]
  · show parsePrimary cfg (.dot :: .id s :: r) = _
    rw [parsePrimary]

theorem memHead_named (d : Bool) (s : String) (r : List Tok) :
    MemHead ((if d then [.dot, .id s] else [.id s]) ++ r) := by
  cases d
  · exact .inr ⟨_, _, rfl, by simp, by simp⟩
  · exact .inr ⟨_, _, rfl, by simp, by simp⟩

theorem Reads.ident {d : Bool} {s : String} (h : s ∉ reserved) :
    Reads cfg 1 (if d then [.dot, .id s] else [.id s]) (.ident ⟨d, s⟩) := by
  refine ⟨by have := memHead_named d s []; rwa [List.append_nil] at this, fun rest ⟨h1, h2⟩ => ?_⟩
  have e : parseNamed cfg d s rest = some (.ident ⟨d, s⟩, rest) := by
    rw [parseNamed.eq_def, h1]
    simp only
    rw [if_neg h]
  rw [parseMember, parsePrimary_named, e]; rfl

theorem Reads.gcall {d : Bool} {s : String} {ts : List (List Tok)} {xs : Exs} {x : Ex} (h : s ∉ reserved)
    (ha : ArgsRead cfg ts xs) (hx : globalCall ⟨d, s⟩ xs = some x) :
    Reads cfg 1 ((if d then [.dot, .id s] else [.id s]) ++ .lparen :: sepBy .comma ts ++ [.rparen]) x := by
  refine ⟨by rw [List.append_assoc]; exact memHead_named d s _, fun rest _ => ?_⟩
  have e : (if d then [.dot, .id s] else [.id s]) ++ .lparen :: sepBy .comma ts ++ [.rparen] ++ rest =
      (if d then [.dot, .id s] else [.id s]) ++ .lparen :: (sepBy .comma ts ++ .rparen :: rest) := by simp
  have e' : parseNamed cfg d s (.lparen :: (sepBy .comma ts ++ .rparen :: rest)) = some (x, rest) := by
    rw [parseNamed.eq_def]
    simp only [messageName]
    rw [if_neg h, ha.parse]
    simp only [Option.bind_eq_bind, Option.bind_some, hx, Option.map_some]
  rw [e, parseMember, parsePrimary_named, e']; rfl

theorem messageName_names (ns : List String) (r : List Tok) :
    messageName (ns.flatMap (fun s => [.dot, .id s]) ++ .lbrace :: r) = some (ns, r) := by
  induction ns with
  | nil => rfl
  | cons n ns ih =>
    show messageName (.dot :: .id n :: (ns.flatMap (fun s => [.dot, .id s]) ++ .lbrace :: r)) = _
    rw [messageName, ih]; rfl

theorem Reads.struct {d : Bool} {s : String} {ns : List String} {ts : List (List Tok)} {xs : Flds}
    (h : FldsRead cfg ts xs) :
    Reads cfg 1 ((if d then [.dot, .id s] else [.id s]) ++ ns.flatMap (fun s => [.dot, .id s]) ++
      .lbrace :: sepBy .comma ts ++ [.rbrace]) (.struct d (s :: ns) xs) := by
  refine ⟨by rw [List.append_assoc, List.append_assoc]; exact memHead_named d s _, fun rest _ => ?_⟩
  have e : (if d then [.dot, .id s] else [.id s]) ++ ns.flatMap (fun s => [.dot, .id s]) ++
      .lbrace :: sepBy .comma ts ++ [.rbrace] ++ rest = (if d then [.dot, .id s] else [.id s]) ++
      (ns.flatMap (fun s => [.dot, .id s]) ++ .lbrace :: (sepBy .comma ts ++ .rbrace :: rest)) := by simp
  rw [e, parseMember, parsePrimary_named, parseNamed.eq_def, messageName_names]
  simp only
  rw [h.parse]; rfl

theorem Reads.literal {ts : List Tok} {x : Ex} (hh : MemHead ts) (hp : ∀ r, parsePrimary cfg (ts ++ r) =
    some (x, r)) : Reads cfg 1 ts x := by
  refine ⟨hh, fun rest _ => ?_⟩
  rw [parseMember, hp]; rfl

theorem Reads.const {c : Const} (h : goodConst cfg c = true) :
    Reads cfg 1 (constToks cfg c) (.const c) := by
  cases c with
  | null =>
    exact .literal (.inr ⟨_, _, rfl, by decide, by decide⟩) fun r => by
      show parsePrimary cfg (.null_ :: r) = _
      rw [parsePrimary] <;> first | rfl | simp
  | bool b => 
    cases b
    · exact .literal (.inr ⟨_, _, rfl, by decide, by decide⟩) fun r => by
        show parsePrimary cfg (.false_ :: r) = _
        rw [parsePrimary] <;> first | rfl | simp
    · exact .literal (.inr ⟨_, _, rfl, by decide, by decide⟩) fun r => by
        show parsePrimary cfg (.true_ :: r) = _
        rw [parsePrimary] <;> first | rfl | simp
  | int i =>
    simp only [goodConst, Bool.and_eq_true, decide_eq_true_eq] at h
    by_cases hi : i < 0
    · simp only [constToks, hi, if_true]
      refine .literal (.inl rfl) fun r => ?_
      show parsePrimary cfg (.minus :: .int i.natAbs :: r) = _
      rw [parsePrimary] <;> try (simp; done)
      rw [Syntax.literal, if_pos (by omega)]
      congr 4
      omega
    · simp only [constToks, hi, if_false]
      refine .literal (.inr ⟨_, _, rfl, by simp, by simp⟩) fun r => ?_
      show parsePrimary cfg (.int i.natAbs :: r) = _
      rw [parsePrimary] <;> try (simp; done)
      rw [Syntax.literal, if_pos (by omega)]
      congr 4
      omega
  | uint n =>
    simp only [goodConst, decide_eq_true_eq] at h
    refine .literal (.inr ⟨_, _, rfl, by simp, by simp⟩) fun r => ?_
    show parsePrimary cfg (.uint n :: r) = _
    rw [parsePrimary] <;> try (simp; done)
    rw [Syntax.literal, if_pos (by omega)]
  | dbl neg m =>
    simp only [goodConst, decide_eq_true_eq] at h
    cases neg
    · simp only [constToks, h]
      refine .literal (.inr ⟨_, _, rfl, by simp, by simp⟩) fun r => ?_
      show parsePrimary cfg (.float m :: r) = _
      rw [parsePrimary] <;> try (simp; done)
      rfl
    · simp only [constToks, h]
      refine .literal (.inl rfl) fun r => ?_
      show parsePrimary cfg (.minus :: .float m :: r) = _
      rw [parsePrimary] <;> try (simp; done)
      rfl
  | str s =>
    refine .literal (.inr ⟨_, _, rfl, by simp, by simp⟩) fun r => ?_
    show parsePrimary cfg (.str s :: r) = _
    rw [parsePrimary] <;> try (simp; done)
    rfl
  | bytes s =>
    refine .literal (.inr ⟨_, _, rfl, by simp, by simp⟩) fun r => ?_
    show parsePrimary cfg (.bytes s :: r) = _
    rw [parsePrimary] <;> try (simp; done)
    rfl

end Cel.Syntax
