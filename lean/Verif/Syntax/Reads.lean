import Verif.Syntax.Spec

/-
How the rules of the grammar read a piece of text that stands for a given
expression, whatever follows.
-/

set_option linter.unusedVariables false
set_option linter.unusedSimpArgs false

namespace Cel.Syntax

variable {cfg : Cfg}

/-! ### What may follow -/

/-- How tightly a token binds to an expression before it. -/
def rank : Tok → Nat
  | .dot | .lbracket | .lparen | .lbrace => 1
  | .star | .slash | .percent => 3
  | .plus | .minus => 4
  | .lt | .le | .ge | .gt | .eq | .ne | .in_ => 5
  | .and => 6
  | .or => 7
  | .quest => 8
  | _ => 100

/-- What follows does not continue an expression of level `L`. -/
def stops (L : Nat) : List Tok → Prop
  | [] => True
  | t :: _ => L < rank t

theorem stops.mono {L M : Nat} (h : M ≤ L) : ∀ {r : List Tok}, stops L r → stops M r
  | [], _ => trivial
  | _ :: _, hs => Nat.lt_of_le_of_lt h hs

/-- What follows does not turn a name into a call or a message. -/
def memOk (r : List Tok) : Prop := messageName r = none ∧ ∀ r', r ≠ .lparen :: r'

theorem memOk_of_stops : ∀ {r : List Tok}, stops 1 r → memOk r
  | [], _ => ⟨rfl, fun _ h => by cases h⟩
  | t :: r, h => by
    cases t <;> first
      | (exfalso; revert h; simp [stops, rank]; done)
      | exact ⟨rfl, fun _ h => by cases h⟩

theorem memberLoop_stop {x : Ex} : ∀ {r : List Tok}, stops 1 r → memberLoop cfg x r = some (x, r)
  | [], _ => by rw [memberLoop] <;> simp
  | t :: r, h => by
    cases t <;> first
      | (exfalso; revert h; simp [stops, rank]; done)
      | (rw [memberLoop] <;> simp)

theorem mulLoop_stop {x : Ex} : ∀ {r : List Tok}, stops 3 r → mulLoop cfg x r = some (x, r)
  | [], _ => by rw [mulLoop]
  | t :: r, h => by
    cases t <;> first
      | (rw [mulLoop]; rfl)
      | (exfalso; revert h; simp [stops, rank])

theorem addLoop_stop {x : Ex} : ∀ {r : List Tok}, stops 4 r → addLoop cfg x r = some (x, r)
  | [], _ => by rw [addLoop]
  | t :: r, h => by
    cases t <;> first
      | (rw [addLoop]; rfl)
      | (exfalso; revert h; simp [stops, rank])

theorem relLoop_stop {x : Ex} : ∀ {r : List Tok}, stops 5 r → relLoop cfg x r = some (x, r)
  | [], _ => by rw [relLoop]
  | t :: r, h => by
    cases t <;> first
      | (rw [relLoop]; rfl)
      | (exfalso; revert h; simp [stops, rank])

theorem andLoop_stop {l : List Ex} : ∀ {r : List Tok}, stops 6 r →
    andLoop cfg l r = (logicTree cfg.variadic .and l).map fun e => (e, r)
  | [], _ => by rw [andLoop]; simp
  | t :: r, h => by
    rw [andLoop]
    rintro r' ⟨⟩
    revert h; simp [stops, rank]

theorem orLoop_stop {l : List Ex} : ∀ {r : List Tok}, stops 7 r →
    orLoop cfg l r = (logicTree cfg.variadic .or l).map fun e => (e, r)
  | [], _ => by rw [orLoop]; simp
  | t :: r, h => by
    rw [orLoop]
    rintro r' ⟨⟩
    revert h; simp [stops, rank]

/-! ### Reading at each level -/

/-- The text begins as a `member` does. -/
def MemHead (ts : List Tok) : Prop :=
  signedLiteral ts = true ∨ ∃ t r, ts = t :: r ∧ t ≠ .excl ∧ t ≠ .minus

def RMem (cfg : Cfg) (ts : List Tok) (x : Ex) : Prop :=
  ∀ rest, memOk rest → parseMember cfg (ts ++ rest) = memberLoop cfg x rest
def RUn (cfg : Cfg) (ts : List Tok) (x : Ex) : Prop :=
  ∀ rest, stops 2 rest → parseUnary cfg (ts ++ rest) = some (x, rest)
def RMul (cfg : Cfg) (ts : List Tok) (x : Ex) : Prop :=
  ∀ rest, stops 2 rest → parseMul cfg (ts ++ rest) = mulLoop cfg x rest
def RAdd (cfg : Cfg) (ts : List Tok) (x : Ex) : Prop :=
  ∀ rest, stops 3 rest → parseAdd cfg (ts ++ rest) = addLoop cfg x rest
def RRel (cfg : Cfg) (ts : List Tok) (x : Ex) : Prop :=
  ∀ rest, stops 4 rest → parseRel cfg (ts ++ rest) = relLoop cfg x rest
def RAnd (cfg : Cfg) (ts : List Tok) (xs : List Ex) : Prop :=
  ∀ acc rest, stops 5 rest → parseAnd cfg acc (ts ++ rest) = andLoop cfg (acc ++ xs) rest
def ROr (cfg : Cfg) (ts : List Tok) (xs : List Ex) : Prop :=
  ∀ acc rest, stops 6 rest → parseOr cfg acc (ts ++ rest) = orLoop cfg (acc ++ xs) rest
def REx (cfg : Cfg) (ts : List Tok) (x : Ex) : Prop :=
  ∀ rest, stops 8 rest → parseExpr cfg (ts ++ rest) = some (x, rest)

theorem signedLiteral_append {ts : List Tok} (h : signedLiteral ts = true) (rest : List Tok) :
    signedLiteral (ts ++ rest) = true := by
  match ts, h with
  | .minus :: .int _ :: _, _ => rfl
  | .minus :: .float _ :: _, _ => rfl

theorem parseUnary_mem {ts : List Tok} (h : MemHead ts) (rest : List Tok) :
    parseUnary cfg (ts ++ rest) = parseMember cfg (ts ++ rest) := by
  rw [parseUnary]
  rcases h with h | ⟨t, r, rfl, h1, h2⟩
  · rw [if_pos (signedLiteral_append h rest)]
  · have e1 : (countOps .excl (t :: r ++ rest)).1 = 0 := by
      simp [countOps, h1]
    have e2 : (countOps .minus (t :: r ++ rest)).1 = 0 := by
      simp [countOps, h2]
    rw [e1, e2]
    simp

theorem RUn.of_mem {ts : List Tok} {x : Ex} (hh : MemHead ts) (h : RMem cfg ts x) : RUn cfg ts x := by
  intro rest hr
  have hr := hr.mono (show 1 ≤ 2 by decide)
  rw [parseUnary_mem hh, h rest (memOk_of_stops hr), memberLoop_stop hr]

theorem RMul.of_un {ts : List Tok} {x : Ex} (h : RUn cfg ts x) : RMul cfg ts x := by
  intro rest hr
  rw [parseMul, h rest hr]; rfl

theorem RAdd.of_mul {ts : List Tok} {x : Ex} (h : RMul cfg ts x) : RAdd cfg ts x := by
  intro rest hr
  rw [parseAdd, h rest (hr.mono (by decide)), mulLoop_stop hr]; rfl

theorem RRel.of_add {ts : List Tok} {x : Ex} (h : RAdd cfg ts x) : RRel cfg ts x := by
  intro rest hr
  rw [parseRel, h rest (hr.mono (by decide)), addLoop_stop hr]; rfl

theorem RAnd.of_rel {ts : List Tok} {x : Ex} (h : RRel cfg ts x) : RAnd cfg ts [x] := by
  intro acc rest hr
  rw [parseAnd, h rest (hr.mono (by decide)), relLoop_stop hr]; rfl

theorem ROr.of_and {ts : List Tok} {xs : List Ex} {x : Ex} (h : RAnd cfg ts xs)
    (hx : logicTree cfg.variadic .and xs = some x) : ROr cfg ts [x] := by
  intro acc rest hr
  rw [parseOr, h [] rest (hr.mono (by decide)), List.nil_append, andLoop_stop hr, hx]; rfl

theorem REx.of_or {ts : List Tok} {xs : List Ex} {x : Ex} (h : ROr cfg ts xs)
    (hx : logicTree cfg.variadic .or xs = some x) : REx cfg ts x := by
  intro rest hr
  rw [parseExpr, h [] rest (hr.mono (by decide)), List.nil_append,
    orLoop_stop (hr.mono (by decide)), hx]
  match rest with
  | [] => rfl
  | t :: r =>
    cases t <;> first
      | rfl
      | (exfalso; revert hr; simp [stops, rank])

theorem logicTree_one (v : Bool) (o : Op) (x : Ex) : logicTree v o [x] = some x := by
  simp [logicTree, Parser.balance, treeEx]

theorem ROr.of_rel {ts : List Tok} {x : Ex} (h : RRel cfg ts x) : ROr cfg ts [x] :=
  .of_and (.of_rel h) (logicTree_one _ _ _)

/-- A text read at level `L`. -/
def Reads (cfg : Cfg) (L : Nat) (ts : List Tok) (x : Ex) : Prop :=
  match L with
  | 0 | 1 => MemHead ts ∧ RMem cfg ts x
  | 2 => RUn cfg ts x
  | 3 => RMul cfg ts x
  | 4 => RAdd cfg ts x
  | 5 => RRel cfg ts x
  | 6 => RAnd cfg ts (leaves .and x) ∧ logicTree cfg.variadic .and (leaves .and x) = some x
  | 7 => ROr cfg ts (leaves .or x) ∧ logicTree cfg.variadic .or (leaves .or x) = some x
  | _ => REx cfg ts x

namespace Reads
variable {L : Nat} {ts : List Tok} {x : Ex}

theorem un (h : Reads cfg L ts x) (hL : L ≤ 2) : RUn cfg ts x := by
  match L, hL with
  | 0, _ | 1, _ => exact .of_mem h.1 h.2
  | 2, _ => exact h

theorem mul (h : Reads cfg L ts x) (hL : L ≤ 3) : RMul cfg ts x := by
  rcases Nat.lt_or_ge L 3 with h' | h'
  · exact .of_un (h.un (by omega))
  · obtain rfl : L = 3 := by omega
    exact h

theorem add (h : Reads cfg L ts x) (hL : L ≤ 4) : RAdd cfg ts x := by
  rcases Nat.lt_or_ge L 4 with h' | h'
  · exact .of_mul (h.mul (by omega))
  · obtain rfl : L = 4 := by omega
    exact h

theorem rel (h : Reads cfg L ts x) (hL : L ≤ 5) : RRel cfg ts x := by
  rcases Nat.lt_or_ge L 5 with h' | h'
  · exact .of_add (h.add (by omega))
  · obtain rfl : L = 5 := by omega
    exact h

theorem or (h : Reads cfg L ts x) (hL : L ≤ 6) : ROr cfg ts [x] := by
  rcases Nat.lt_or_ge L 6 with h' | h'
  · exact .of_rel (h.rel (by omega))
  · obtain rfl : L = 6 := by omega
    exact .of_and h.1 h.2

theorem orAny (h : Reads cfg L ts x) (hL : L ≤ 7) :
    ∃ xs, ROr cfg ts xs ∧ logicTree cfg.variadic .or xs = some x := by
  rcases Nat.lt_or_ge L 7 with h' | h'
  · exact ⟨_, h.or (by omega), logicTree_one _ _ _⟩
  · obtain rfl : L = 7 := by omega
    exact ⟨_, h⟩

theorem ex (h : Reads cfg L ts x) : REx cfg ts x := by
  rcases Nat.lt_or_ge L 8 with h' | h'
  · obtain ⟨xs, h1, h2⟩ := h.orAny (by omega)
    exact .of_or h1 h2
  · match L, h' with
    | L + 8, _ => exact h

end Reads

/-- Any text in parentheses. -/
theorem REx.paren {ts : List Tok} {x : Ex} (h : REx cfg ts x) :
    Reads cfg 1 (nested true ts) x := by
  refine ⟨.inr ⟨.lparen, ts ++ [.rparen], rfl, by decide, by decide⟩, ?_⟩
  intro rest _
  have e : nested true ts ++ rest = .lparen :: (ts ++ .rparen :: rest) := by simp [nested]
  rw [e, parseMember, parsePrimary, h _ (by simp [stops, rank])]
  rfl

/-! ### The first token of an expression -/

/-- Tokens that begin no expression. -/
def badHead : List Tok → Bool
  | [] => true
  | .rparen :: _ | .rbracket :: _ | .rbrace :: _ | .comma :: _ | .quest :: _ | .colon :: _ => true
  | _ => false

theorem parseExpr_bad {ts : List Tok} (h : badHead ts = true) : parseExpr cfg ts = none := by
  have hp : parsePrimary cfg ts = none := by
    match ts, h with
    | [], _ => rw [parsePrimary] <;> simp [literal]
    | t :: r, h =>
      cases t <;> first
        | (exfalso; revert h; simp [badHead]; done)
        | (rw [parsePrimary] <;> simp [literal])
  have hm : parseMember cfg ts = none := by rw [parseMember, hp]; rfl
  have hu : parseUnary cfg ts = none := by
    rw [parseUnary, hm]
    match ts, h with
    | [], _ => simp [signedLiteral, countOps]
    | t :: r, h =>
      cases t <;> first
        | (exfalso; revert h; simp [badHead]; done)
        | simp [signedLiteral, countOps]
  rw [parseExpr, parseOr, parseAnd, parseRel, parseAdd, parseMul, hu]
  rfl

theorem REx.head {ts : List Tok} {x : Ex} (h : REx cfg ts x) : badHead ts = false := by
  by_contra hb
  have hb : badHead ts = true := by simpa using hb
  have := h [] trivial
  rw [List.append_nil, parseExpr_bad hb] at this
  cases this

theorem REx.head_append {ts : List Tok} {x : Ex} (h : REx cfg ts x) (r : List Tok) :
    badHead (ts ++ r) = false := by
  have := h.head
  match ts, this with
  | t :: ts, h => cases t <;> first | rfl | (revert h; simp [badHead])

theorem optMark_ok {ts : List Tok} (h : badHead ts = false) : optMark ts = (false, ts) := by
  match ts, h with
  | t :: r, h => cases t <;> first | rfl | (revert h; simp [badHead])

theorem optMark_optToks {ts : List Tok} (h : badHead ts = false) (o : Bool) :
    optMark (optToks o ts) = (o, ts) := by
  cases o
  · exact optMark_ok h
  · rfl

end Cel.Syntax
