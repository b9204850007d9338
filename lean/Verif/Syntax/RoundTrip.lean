import Verif.Syntax.Chain

/-
C54: what the unparser prints reads back as the expression it printed.
-/

set_option linter.unusedVariables false
set_option linter.unusedSimpArgs false
set_option linter.unusedTactic false

namespace Cel.Syntax

variable {cfg : Cfg}

/-- The level of the grammar rule that an expression belongs to. -/
def lev : Ex → Nat
  | .call (.op o) _ => max 1 (prec o)
  | _ => 1

/-! ### Names -/

theorem rawTok_lexId {s : String} (h : lexId s = true) : rawTok s = .id s := by
  simp only [lexId, Bool.and_eq_true, Bool.not_eq_true', List.contains_eq_mem, decide_eq_false_iff_not,
    List.mem_cons, List.not_mem_nil, or_false, not_or] at h
  obtain ⟨_, h1, h2, h3, h4⟩ := h
  simp [rawTok, h1, h2, h3, h4]

theorem varId_lexId {s : String} (h : varId s = true) : lexId s = true := by
  simp only [varId, Bool.and_eq_true] at h; exact h.1

theorem varId_reserved {s : String} (h : varId s = true) : s ∉ reserved := by
  simp only [varId, Bool.and_eq_true, Bool.not_eq_true', List.contains_eq_mem,
    decide_eq_false_iff_not] at h
  exact h.2

theorem fieldOf_fieldTok {f : String} (h : fieldId cfg f = true) :
    fieldOf cfg (fieldTok f) = some f := by
  simp only [fieldId, Bool.or_eq_true] at h
  rcases h with h | h
  · have h' := h
    simp only [lexId, Bool.and_eq_true, Bool.not_eq_true', List.contains_eq_mem, decide_eq_false_iff_not,
      List.mem_cons, List.not_mem_nil, or_false, not_or] at h'
    rw [fieldTok, if_neg (by simp [h'.1, h'.2.2.2.2]), rawTok_lexId h]; rfl
  · simp only [Bool.and_eq_true, Bool.or_eq_true, decide_eq_true_eq, Bool.not_eq_true'] at h
    rw [fieldTok, if_pos (by simp only [Bool.or_eq_true, decide_eq_true_eq, Bool.not_eq_true']; exact h.2)]
    simp [fieldOf, h.1.1]

theorem nameToks_var {d : Bool} {s : String} (h : varId s = true) :
    nameToks ⟨d, s⟩ = if d then [.dot, .id s] else [.id s] := by
  simp only [nameToks, rawTok_lexId (varId_lexId h)]

theorem messageToks_eq {d : Bool} {s : String} {ns : List String} (h : ∀ n ∈ s :: ns, lexId n = true) :
    messageToks d (s :: ns) =
      (if d then [.dot, .id s] else [.id s]) ++ ns.flatMap (fun s => [.dot, .id s]) := by
  have key : ∀ (ns : List String) (s : String), (∀ n ∈ s :: ns, lexId n = true) →
      sepBy .dot ((s :: ns).map fun s => [rawTok s]) = .id s :: ns.flatMap (fun s => [.dot, .id s]) := by
    intro ns
    induction ns with
    | nil => intro s h; simp [sepBy, rawTok_lexId (h s (by simp))]
    | cons n ns ih =>
      intro s h
      have := ih n fun m hm => h m (List.mem_cons_of_mem _ hm)
      simp only [List.map_cons] at this ⊢
      rw [sepBy, this, rawTok_lexId (h s (by simp))]
      · simp
      · simp
  rw [messageToks, key ns s h]
  cases d <;> simp

/-! ### Levels -/

theorem Good.simple {e : Ex} (h : Good cfg e) (hc : isComplex e = false) : lev e ≤ 2 := by
  cases h <;> simp_all [isComplex, lev, prec, Ex.op1, Ex.op2, Ex.op3, Exs.length, allEx, existsEx, existsOneEx,
    map2Ex, map3Ex]

theorem lev_le {e : Ex} (h : Good cfg e) {o : Op} (ho : 2 ≤ prec o) (hc : complexWrt (.op o) e = false) :
    lev e ≤ prec o := by
  simp only [complexWrt, Bool.and_eq_false_iff] at hc
  rcases hc with hc | hc
  · exact Nat.le_trans (h.simple hc) ho
  · cases e with
    | call fn args =>
      cases fn with
      | op o' =>
        simp only [lowerPrec] at hc
        simp only [lev]
        have : prec o' ≤ prec o := Nat.not_lt.1 (of_decide_eq_false hc)
        omega
      | name n => simp only [lev]; omega
    | _ => simp only [lev]; omega

theorem lev_lt {e : Ex} (h : Good cfg e) {o : Op} (ho : 3 ≤ prec o) (hc : complexWrt (.op o) e = false)
    (hs : samePrec (prec o) e = false) : lev e ≤ prec o - 1 := by
  have h1 := lev_le h (by omega) hc
  rcases Nat.lt_or_ge (lev e) (prec o) with h2 | h2
  · omega
  · cases e with
    | call fn args =>
      cases fn with
      | op o' =>
        simp only [samePrec, Fn.prec, beq_eq_false_iff_ne, ne_eq] at hs
        simp only [lev] at h1 h2 ⊢
        omega
      | name n => simp only [lev] at h1 h2 ⊢; omega
    | _ => simp only [lev] at h1 h2 ⊢; omega

/-- An operand of a postfix operator that is not put in parentheses. -/
theorem Good.post {e : Ex} (h : Good cfg e) (hu : isUnary e = false) (hb : isBinTern e = false) :
    lev e = 1 := by
  cases h <;> simp_all [isBinTern, isComplex, lev, prec, Ex.op1, Ex.op2, Ex.op3, Exs.length, allEx, existsEx,
    existsOneEx, map2Ex, map3Ex, isUnary, samePrec, callFn, Fn.prec]
  · rename_i o a b ho ha hb'
    cases o <;> simp_all [isArith, binaryTok, prec]
  · rename_i o args ho hl ha
    rcases ho with rfl | rfl <;> simp_all [binaryTok]

theorem Good.post' {e : Ex} (h : Good cfg e) (hu : isUnary e = false) (hb : isComplex e = false) :
    lev e = 1 := h.post hu (by simp [isBinTern, hb])

theorem Good.operator {e : Ex} (h : Good cfg e) (hu : isOperator e = false) : lev e = 1 := by
  cases h <;> simp_all [lev, prec, Ex.op1, Ex.op2, Ex.op3, allEx, existsEx, existsOneEx, map2Ex, map3Ex,
    isOperator]
  · rename_i o a b ho ha hb'
    cases o <;> simp_all [isArith, prec]
  · rename_i o args ho hl ha
    rcases ho with rfl | rfl <;> simp_all

/-! ### Parts -/

theorem Reads.nested {L : Nat} {ts : List Tok} {x : Ex} (h : Reads cfg L ts x) (b : Bool) :
    Reads cfg (if b then 1 else L) (Syntax.nested b ts) x := by
  cases b
  · exact h
  · exact h.ex.paren

/-- An operand of a postfix operator. -/
theorem Reads.target {e x : Ex} {ts : List Tok} {b : Bool} (h : Reads cfg (lev e) ts x)
    (hb : b = false → lev e = 1) : MemHead (Syntax.nested b ts) ∧ RMem cfg (Syntax.nested b ts) x := by
  have := h.nested b
  cases b
  · rw [if_neg (by simp), hb rfl] at this; exact this
  · exact this

theorem plainHead_nested {b : Bool} {ts : List Tok} (h : b = false → plainHead ts = true) :
    plainHead (nested b ts) = true := by
  cases b
  · exact h rfl
  · rfl

/-! ### The induction -/

/-- What is shown of every expression. -/
def Prints (cfg : Cfg) (e : Ex) : Prop :=
  ∃ ts, unparse cfg e = some ts ∧ Reads cfg (lev e) ts (norm cfg e) ∧
    callFn (norm cfg e) = callFn e ∧ (lev e = 1 → numeral e = false → plainHead ts = true)

theorem args_print : ∀ {args : Exs}, (∀ e ∈ args.toList, Prints cfg e) →
    ∃ ts, unparseArgs cfg args = some ts ∧ ArgsRead cfg ts (normArgs cfg args)
  | .nil, _ => ⟨[], by rw [unparseArgs], by simp [ArgsRead, normArgs]⟩
  | .cons e r, h => by
    obtain ⟨t, h1, h2, _⟩ := h e (by simp [Exs.toList])
    obtain ⟨ts, h3, h4⟩ := args_print (args := r) fun e he => h e (by simp [Exs.toList, he])
    exact ⟨t :: ts, by simp [unparseArgs, h1, h3], h2.ex, h4⟩

theorem els_print : ∀ {els : Els}, (∀ x ∈ els.toList, Prints cfg x.2) →
    (∀ x ∈ els.toList, x.1 = true → cfg.optionals = true) →
    ∃ ts, unparseEls cfg els = some ts ∧ ElsRead cfg ts (normEls cfg els)
  | .nil, _, _ => ⟨[], by rw [unparseEls], by simp [ElsRead, normEls]⟩
  | .cons o e r, h, ho => by
    obtain ⟨t, h1, h2, _⟩ := h (o, e) (by simp [Els.toList])
    obtain ⟨ts, h3, h4⟩ := els_print (els := r) (fun e he => h e (by simp [Els.toList, he]))
      (fun e he => ho e (by simp [Els.toList, he]))
    exact ⟨optToks o t :: ts, by simp [unparseEls, h1, h3], ⟨t, rfl, h2.ex⟩,
      ho (o, e) (by simp [Els.toList]), h4⟩

theorem flds_print : ∀ {fs : Flds}, (∀ x ∈ fs.toList, Prints cfg x.2.2) →
    (∀ x ∈ fs.toList, fieldId cfg x.2.1 = true) → (∀ x ∈ fs.toList, x.1 = true → cfg.optionals = true) →
    ∃ ts, unparseFlds cfg fs = some ts ∧ FldsRead cfg ts (normFlds cfg fs)
  | .nil, _, _, _ => ⟨[], by rw [unparseFlds], by simp [FldsRead, normFlds]⟩
  | .cons o f e r, h, hf, ho => by
    obtain ⟨t, h1, h2, _⟩ := h (o, f, e) (by simp [Flds.toList])
    obtain ⟨ts, h3, h4⟩ := flds_print (fs := r) (fun e he => h e (by simp [Flds.toList, he]))
      (fun e he => hf e (by simp [Flds.toList, he])) (fun e he => ho e (by simp [Flds.toList, he]))
    exact ⟨optToks o (fieldTok f :: .colon :: t) :: ts, by simp [unparseFlds, h1, h3],
      ⟨_, t, rfl, fieldOf_fieldTok (hf (o, f, e) (by simp [Flds.toList])), h2.ex⟩,
      ho (o, f, e) (by simp [Flds.toList]), h4⟩

theorem ents_print : ∀ {es : Ents}, (∀ x ∈ es.toList, Prints cfg x.2.1) → (∀ x ∈ es.toList, Prints cfg x.2.2) →
    (∀ x ∈ es.toList, x.1 = true → cfg.optionals = true) →
    ∃ ts, unparseEnts cfg es = some ts ∧ EntsRead cfg ts (normEnts cfg es)
  | .nil, _, _, _ => ⟨[], by rw [unparseEnts], by simp [EntsRead, normEnts]⟩
  | .cons o k v r, h, hf, ho => by
    obtain ⟨t, h1, h2, _⟩ := h (o, k, v) (by simp [Ents.toList])
    obtain ⟨u, h5, h6, _⟩ := hf (o, k, v) (by simp [Ents.toList])
    obtain ⟨ts, h3, h4⟩ := ents_print (es := r) (fun e he => h e (by simp [Ents.toList, he]))
      (fun e he => hf e (by simp [Ents.toList, he])) (fun e he => ho e (by simp [Ents.toList, he]))
    exact ⟨optToks o (t ++ .colon :: u) :: ts, by simp [unparseEnts, h1, h3, h5],
      ⟨t, u, rfl, h2.ex, h6.ex⟩, ho (o, k, v) (by simp [Ents.toList]), h4⟩

/-- One operand of `&&`. -/
theorem and_part {e : Ex} {ts : List Tok} (hg : Good cfg e) (h : Reads cfg (lev e) ts (norm cfg e))
    (hf : callFn (norm cfg e) = callFn e) :
    RAnd cfg (nested (complexWrt (.op .and) e) ts) (leaves .and (norm cfg e)) := by
  have hn := h.nested (complexWrt (.op .and) e)
  cases hc : complexWrt (.op .and) e with
  | true =>
    rw [hc] at hn
    have hne : callFn (norm cfg e) ≠ some (.op .and) := by
      rw [hf]
      intro he
      cases e <;> simp [callFn] at he
      subst he
      simp [complexWrt, lowerPrec] at hc
    rw [leaves_of_ne hne]
    exact .of_rel (hn.rel (by simp))
  | false =>
    rw [hc] at hn
    have hl := lev_le hg (o := .and) (by decide) hc
    rw [show prec .and = 6 from rfl] at hl
    simp only [Bool.false_eq_true, if_false] at hn
    by_cases h6 : lev e = 6
    · rw [h6] at hn; exact hn.1
    · have hne : callFn (norm cfg e) ≠ some (.op .and) := by
        rw [hf]
        intro he
        cases e <;> simp [callFn] at he
        subst he
        exact h6 rfl
      rw [leaves_of_ne hne]
      exact .of_rel (hn.rel (by omega))

/-- One operand of `||`. -/
theorem or_part {e : Ex} {ts : List Tok} (hg : Good cfg e) (h : Reads cfg (lev e) ts (norm cfg e))
    (hf : callFn (norm cfg e) = callFn e) :
    ROr cfg (nested (complexWrt (.op .or) e) ts) (leaves .or (norm cfg e)) := by
  have hn := h.nested (complexWrt (.op .or) e)
  cases hc : complexWrt (.op .or) e with
  | true =>
    rw [hc] at hn
    have hne : callFn (norm cfg e) ≠ some (.op .or) := by
      rw [hf]
      intro he
      cases e <;> simp [callFn] at he
      subst he
      simp [complexWrt, lowerPrec] at hc
    rw [leaves_of_ne hne]
    exact hn.or (by simp)
  | false =>
    rw [hc] at hn
    have hl := lev_le hg (o := .or) (by decide) hc
    rw [show prec .or = 7 from rfl] at hl
    simp only [Bool.false_eq_true, if_false] at hn
    by_cases h6 : lev e = 7
    · rw [h6] at hn; exact hn.1
    · have hne : callFn (norm cfg e) ≠ some (.op .or) := by
        rw [hf]
        intro he
        cases e <;> simp [callFn] at he
        subst he
        exact h6 rfl
      rw [leaves_of_ne hne]
      exact hn.or (by omega)

theorem and_print : ∀ {args : Exs}, 1 ≤ args.length → (∀ e ∈ args.toList, Good cfg e) →
    (∀ e ∈ args.toList, Prints cfg e) →
    ∃ ts, unparseArgs cfg args = some ts ∧
      RAnd cfg (sepBy .and (logicParts (.op .and) args ts)) (leavesArgs .and (normArgs cfg args))
  | .nil, hl, _, _ => by simp [Exs.length] at hl
  | .cons e .nil, _, hg, h => by
    obtain ⟨t, h1, h2, h3, _⟩ := h e (by simp [Exs.toList])
    refine ⟨[t], by simp [unparseArgs, h1], ?_⟩
    simp only [logicParts, sepBy, normArgs, leavesArgs, List.append_nil]
    exact and_part (hg e (by simp [Exs.toList])) h2 h3
  | .cons e (.cons e' r), _, hg, h => by
    obtain ⟨t, h1, h2, h3, _⟩ := h e (by simp [Exs.toList])
    obtain ⟨ts, h4, h5⟩ := and_print (args := .cons e' r) (by simp [Exs.length])
      (fun e he => hg e (by simp only [Exs.toList, List.mem_cons] at he ⊢; tauto))
      (fun e he => h e (by simp only [Exs.toList, List.mem_cons] at he ⊢; tauto))
    have hp := and_part (hg e (by simp [Exs.toList])) h2 h3
    match ts, h4 with
    | [], h4 =>
      simp only [unparseArgs] at h4
      split at h4 <;> cases h4
    | t' :: ts, h4 =>
      refine ⟨t :: t' :: ts, by rw [unparseArgs, h1, h4], ?_⟩
      rw [normArgs, leavesArgs]
      exact RAnd.append hp h5

theorem or_print : ∀ {args : Exs}, 1 ≤ args.length → (∀ e ∈ args.toList, Good cfg e) →
    (∀ e ∈ args.toList, Prints cfg e) →
    ∃ ts, unparseArgs cfg args = some ts ∧
      ROr cfg (sepBy .or (logicParts (.op .or) args ts)) (leavesArgs .or (normArgs cfg args))
  | .nil, hl, _, _ => by simp [Exs.length] at hl
  | .cons e .nil, _, hg, h => by
    obtain ⟨t, h1, h2, h3, _⟩ := h e (by simp [Exs.toList])
    refine ⟨[t], by simp [unparseArgs, h1], ?_⟩
    simp only [logicParts, sepBy, normArgs, leavesArgs, List.append_nil]
    exact or_part (hg e (by simp [Exs.toList])) h2 h3
  | .cons e (.cons e' r), _, hg, h => by
    obtain ⟨t, h1, h2, h3, _⟩ := h e (by simp [Exs.toList])
    obtain ⟨ts, h4, h5⟩ := or_print (args := .cons e' r) (by simp [Exs.length])
      (fun e he => hg e (by simp only [Exs.toList, List.mem_cons] at he ⊢; tauto))
      (fun e he => h e (by simp only [Exs.toList, List.mem_cons] at he ⊢; tauto))
    have hp := or_part (hg e (by simp [Exs.toList])) h2 h3
    match ts, h4 with
    | [], h4 =>
      simp only [unparseArgs] at h4
      split at h4 <;> cases h4
    | t' :: ts, h4 =>
      refine ⟨t :: t' :: ts, by rw [unparseArgs, h1, h4], ?_⟩
      rw [normArgs, leavesArgs]
      exact ROr.append hp h5

theorem normArgs_length : ∀ args : Exs, (normArgs cfg args).length = args.length
  | .nil => by rw [normArgs]
  | .cons e r => by rw [normArgs, Exs.length, Exs.length, normArgs_length r]

/-- A part of `?:`. -/
theorem cond_part {e x : Ex} {ts : List Tok} (hg : Good cfg e) (h : Reads cfg (lev e) ts x) :
    ∃ L ≤ 7, Reads cfg L (nested (condNested e) ts) x := by
  refine ⟨_, ?_, h.nested _⟩
  split
  · decide
  · rename_i hc
    simp only [condNested, Bool.or_eq_true, not_or, Bool.not_eq_true] at hc
    exact Nat.le_trans (hg.simple hc.2) (by decide)

/-- The binary operators. -/
theorem bin_print {o : Op} {a b : Ex} (ho : isArith o = true) (ga : Good cfg a) (gb : Good cfg b)
    (ha : Prints cfg a) (hb : Prints cfg b) : Prints cfg (.op2 o a b) := by
  obtain ⟨ta, ha1, ha2, _⟩ := ha
  obtain ⟨tb, hb1, hb2, _⟩ := hb
  have hargs : unparseArgs cfg (.cons a (.cons b .nil)) = some [ta, tb] := by
    simp [unparseArgs, ha1, hb1]
  have na := ha2.nested (complexWrt (.op o) a)
  have nb := hb2.nested (complexWrt (.op o) b || samePrec (prec o) b)
  have hla : (if complexWrt (.op o) a then 1 else lev a) ≤ prec o := by
    split
    · cases o <;> simp_all [isArith, prec]
    · rename_i hc
      exact lev_le ga (by cases o <;> simp_all [isArith, prec]) (by simpa using hc)
  have hlb : (if (complexWrt (.op o) b || samePrec (prec o) b) then 1 else lev b) ≤ prec o - 1 := by
    split
    · cases o <;> simp_all [isArith, prec]
    · rename_i hc
      simp only [Bool.or_eq_true, not_or, Bool.not_eq_true] at hc
      exact lev_lt gb (by cases o <;> simp_all [isArith, prec]) hc.1 hc.2
  cases o <;> simp only [isArith] at ho <;> try (cases ho; done)
  all_goals
    refine ⟨_, by rw [Ex.op2, unparse, hargs]; rfl, ?_, by rfl, fun h => by cases h⟩
    first
      | exact RRel.bin (cfg := cfg) rfl (na.rel hla) (nb.add hlb)
      | exact RAdd.bin (cfg := cfg) rfl (na.add hla) (nb.mul hlb)
      | exact RMul.bin (cfg := cfg) rfl (na.mul hla) (nb.un hlb)

theorem varArg {v : String} (hv : varId v = true) : REx cfg [rawTok v] (.ident ⟨false, v⟩) := by
  rw [rawTok_lexId (varId_lexId hv)]
  exact (Reads.ident (cfg := cfg) (d := false) (varId_reserved hv)).ex

theorem macroVar_ok {v : String} (hv : varId v = true) (hv' : v ≠ oldAccuVar) :
    macroVar (.ident ⟨false, v⟩) = some v := by
  have : v ≠ "" := by rintro rfl; revert hv; decide
  simp [macroVar, this, hv']

theorem macroToks_eq (f v : String) (ts : List (List Tok)) (t : List Tok) :
    t ++ .dot :: macroToks f v ts =
      t ++ .dot :: .id f :: .lparen :: sepBy .comma ([rawTok v] :: ts) ++ [.rparen] := by
  simp [macroToks]

/-- The macros. -/
theorem macro_print {r x : Ex} {f v : String} {ts tr : List Tok} {ta : List (List Tok)} {args : Exs}
    (gr : Good cfg r) (hu : isUnary r = false) (hv : varId v = true)
    (hr : Reads cfg (lev r) tr (norm cfg r)) (hp : lev r = 1 → numeral r = false → plainHead tr = true)
    (ha : ArgsRead cfg ta args)
    (hx : memberCall (norm cfg r) f (.cons (.ident ⟨false, v⟩) args) = some x)
    (hts : ts = nested (isComplex r) tr ++ .dot :: macroToks f v ta) :
    Reads cfg 1 ts x ∧ (numeral r = false → plainHead ts = true) := by
  subst hts
  have ht := hr.target (b := isComplex r) (fun h => gr.post' hu h)
  rw [macroToks_eq]
  refine ⟨⟨?_, ht.2.mcall (ta := [rawTok v] :: ta) (args := .cons (.ident ⟨false, v⟩) args) ⟨varArg hv, ha⟩ hx⟩, fun hn => ?_⟩
  · rw [List.append_assoc]; exact ht.1.append _
  · rw [List.append_assoc]
    exact plainHead.append (plainHead_nested fun h => hp (gr.post' hu h) hn) _

theorem prints {e : Ex} (h : Good cfg e) : Prints cfg e := by
  induction h with
  | const hc =>
    rename_i c
    refine ⟨_, by rw [unparse], by rw [norm]; exact Reads.const hc, by rw [norm], fun _ hn => ?_⟩
    cases c with
    | bool b => cases b <;> rfl
    | int => simp [numeral] at hn
    | dbl => simp [numeral] at hn
    | _ => rfl
  | ident hs =>
    rename_i d s
    refine ⟨_, by rw [unparse, nameToks_var hs], by rw [norm]; exact Reads.ident (varId_reserved hs), by rw [norm], fun _ _ => ?_⟩
    cases d <;> rfl
  | select he hu hf ih =>
    rename_i e f
    obtain ⟨t, h1, h2, h3, h4⟩ := ih
    have ht := h2.target (b := isBinTern e) (fun h => he.post hu h)
    refine ⟨_, by rw [unparse, h1]; simp only [Bool.false_eq_true, if_false]; rfl, ?_, by rw [norm]; rfl, fun _ hn => ?_⟩
    · rw [norm]
      exact ⟨ht.1.append _, ht.2.select (fieldOf_fieldTok hf)⟩
    · exact plainHead.append (plainHead_nested fun h => h4 (he.post hu h) (by rw [numeral] at hn; exact hn)) _
  | has he hu hf ih =>
    rename_i e f
    obtain ⟨t, h1, h2, h3, h4⟩ := ih
    rw [he.operator hu] at h2
    have hs : Reads cfg 1 (t ++ [.dot, fieldTok f]) (.select (norm cfg e) f false) :=
      ⟨h2.1.append _, h2.2.select (fieldOf_fieldTok hf)⟩
    refine ⟨_, by rw [unparse, h1]; simp only [if_true]; rfl, ?_, by rw [norm]; rfl, fun _ _ => rfl⟩
    rw [norm]
    have := Reads.gcall (cfg := cfg) (d := false) (s := "has") (ts := [t ++ [.dot, fieldTok f]])
      (xs := .cons (.select (norm cfg e) f false) .nil) (x := .select (norm cfg e) f true) (by decide)
      ⟨hs.ex, trivial⟩ (by simp [globalCall, Exs.length])
    simpa [sepBy, lev] using this
  | not he hu ih =>
    rename_i e
    obtain ⟨t, h1, h2, h3, h4⟩ := ih
    have ht := h2.target (b := isComplex e) (fun h => he.post' hu h)
    refine ⟨_, by rw [Ex.op1, unparse, unparseArgs, unparseArgs, h1]; rfl, ?_, by rfl, fun h => by cases h⟩
    exact RUn.not ht.1 ht.2
  | neg he hu hn ih =>
    rename_i e
    obtain ⟨t, h1, h2, h3, h4⟩ := ih
    have ht := h2.target (b := isComplex e) (fun h => he.post' hu h)
    refine ⟨_, by rw [Ex.op1, unparse, unparseArgs, unparseArgs, h1]; rfl, ?_, by rfl, fun h => by cases h⟩
    refine RUn.neg (plainHead_nested fun hc => h4 (he.post' hu hc) ?_) ht.2
    rcases hn with hn | hn
    · rw [hc] at hn; cases hn
    · exact hn
  | bin ho ga gb iha ihb => exact bin_print ho ga gb iha ihb
  | logic ho hl ga ih =>
    rename_i o args
    have hl' : 2 ≤ (normArgs cfg args).length := by rw [normArgs_length]; exact hl
    rcases ho with rfl | rfl
    · obtain ⟨ts, h1, h2⟩ := and_print (by omega) ga ih
      obtain ⟨c1, c2, c3⟩ := chain_spec cfg .and (normArgs cfg args) hl'
      refine ⟨sepBy .and (logicParts (.op .and) args ts), ?_, ?_, ?_, fun h => by cases h⟩
      · rw [unparse, h1]
        show printBinary (.op .and) .and args ts = _
        rw [printBinary.eq_def, if_neg (by omega), if_pos (Or.inl rfl)]
      · rw [norm]
        show RAnd _ _ _ ∧ _
        rw [c2]
        exact ⟨h2, c1⟩
      · rw [norm]; exact c3
    · obtain ⟨ts, h1, h2⟩ := or_print (by omega) ga ih
      obtain ⟨c1, c2, c3⟩ := chain_spec cfg .or (normArgs cfg args) hl'
      refine ⟨sepBy .or (logicParts (.op .or) args ts), ?_, ?_, ?_, fun h => by cases h⟩
      · rw [unparse, h1]
        show printBinary (.op .or) .or args ts = _
        rw [printBinary.eq_def, if_neg (by omega), if_pos (Or.inr rfl)]
      · rw [norm]
        show ROr _ _ _ ∧ _
        rw [c2]
        exact ⟨h2, c1⟩
      · rw [norm]; exact c3
  | cond ga gb gc iha ihb ihc =>
    rename_i a b c
    obtain ⟨ta, ha1, ha2, _⟩ := iha
    obtain ⟨tb, hb1, hb2, _⟩ := ihb
    obtain ⟨tc, hc1, hc2, _⟩ := ihc
    obtain ⟨la, hla, ra⟩ := cond_part ga ha2
    obtain ⟨lb, hlb, rb⟩ := cond_part gb hb2
    obtain ⟨lc, hlc, rc⟩ := cond_part gc hc2
    refine ⟨_, by rw [Ex.op3, unparse, unparseArgs, unparseArgs, unparseArgs, unparseArgs, ha1, hb1, hc1]; rfl, ?_, by rfl, fun h => by cases h⟩
    exact REx.cond ra hla rb hlb rc.ex
  | index ga hu gb iha ihb =>
    rename_i a b
    obtain ⟨ta, ha1, ha2, _, ha4⟩ := iha
    obtain ⟨tb, hb1, hb2, _⟩ := ihb
    have ht := ha2.target (b := isBinTern a) (fun h => ga.post hu h)
    refine ⟨_, by rw [Ex.op2, unparse, unparseArgs, unparseArgs, unparseArgs, ha1, hb1]; rfl, ?_, by rfl, fun _ hn => ?_⟩
    · refine ⟨?_, ht.2.index hb2.ex⟩
      rw [List.append_assoc]; exact ht.1.append _
    · simp only [Ex.op2, numeral] at hn
      rw [List.append_assoc]
      exact plainHead.append (plainHead_nested fun h => ha4 (ga.post hu h) hn) _
  | optIndex hopt ga hu gb iha ihb =>
    rename_i a b
    obtain ⟨ta, ha1, ha2, _, ha4⟩ := iha
    obtain ⟨tb, hb1, hb2, _⟩ := ihb
    have ht := ha2.target (b := isBinTern a) (fun h => ga.post hu h)
    refine ⟨_, by rw [Ex.op2, unparse, unparseArgs, unparseArgs, unparseArgs, ha1, hb1]; rfl, ?_, by rfl, fun _ hn => ?_⟩
    · refine ⟨?_, ht.2.optIndex hopt hb2.ex⟩
      rw [List.append_assoc]; exact ht.1.append _
    · simp only [Ex.op2, numeral] at hn
      rw [List.append_assoc]
      exact plainHead.append (plainHead_nested fun h => ha4 (ga.post hu h) hn) _
  | optSelect hopt ga hu hf iha =>
    rename_i a f
    obtain ⟨ta, ha1, ha2, _, ha4⟩ := iha
    have ht := ha2.target (b := isBinTern a) (fun h => ga.post hu h)
    refine ⟨_, by rw [Ex.op2, unparse, unparseArgs, unparseArgs, unparseArgs, ha1, unparse]; rfl, ?_, by rfl, fun _ hn => ?_⟩
    · exact ⟨ht.1.append _, ht.2.optSelect hopt (fieldOf_fieldTok hf)⟩
    · simp only [Ex.op2, numeral] at hn
      exact plainHead.append (plainHead_nested fun h => ha4 (ga.post hu h) hn) _
  | call hs hm ga ih =>
    rename_i d s args
    obtain ⟨ts, h1, h2⟩ := args_print ih
    refine ⟨_, by rw [unparse, h1]; exact congrArg some rfl, ?_, by rfl, fun _ _ => ?_⟩
    · rw [nameToks_var hs]
      have hg : globalCall ⟨d, s⟩ (normArgs cfg args) = some (.call (.name ⟨d, s⟩) (normArgs cfg args)) := by
        rw [globalCall.eq_def, if_neg]
        rw [normArgs_length]
        rintro ⟨h3, h4⟩
        cases h3
        exact hm ⟨rfl, rfl, h4⟩
      exact Reads.gcall (varId_reserved hs) h2 hg
    · rw [nameToks_var hs]
      cases d <;> rfl
  | mcall he hu hf hm ga ihe ih =>
    rename_i e f args
    obtain ⟨t, h1, h2, h3, h4⟩ := ihe
    obtain ⟨ts, h5, h6⟩ := args_print ih
    have ht := h2.target (b := isBinTern e) (fun h => he.post hu h)
    refine ⟨_, by rw [unparse, h1, h5], ?_, by rw [norm]; rfl, fun _ hn => ?_⟩
    · rw [rawTok_lexId hf, norm]
      refine ⟨?_, ht.2.mcall h6 ?_⟩
      · rw [List.append_assoc]; exact ht.1.append _
      · rw [memberCall.eq_def, normArgs_length, if_neg (by simp [hm])]
    · rw [numeral] at hn
      rw [List.append_assoc]
      exact plainHead.append (plainHead_nested fun h => h4 (he.post hu h) hn) _
  | list ga ho ih =>
    obtain ⟨ts, h1, h2⟩ := els_print ih ho
    exact ⟨_, by rw [unparse, h1], by rw [norm]; exact Reads.list h2, by rw [norm]; rfl, fun _ _ => rfl⟩
  | struct hn ga hf ho ih =>
    rename_i d s ns fs
    obtain ⟨ts, h1, h2⟩ := flds_print ih hf ho
    refine ⟨_, by rw [unparse, h1, messageToks_eq hn], by rw [norm]; exact Reads.struct h2, by rw [norm]; rfl, fun _ _ => ?_⟩
    cases d <;> rfl
  | map gk gv ho ihk ihv =>
    obtain ⟨ts, h1, h2⟩ := ents_print ihk ihv ho
    exact ⟨_, by rw [unparse, h1], by rw [norm]; exact Reads.map h2, by rw [norm]; rfl, fun _ _ => rfl⟩
  | all gr hu hv hv' gp ihr ihp =>
    rename_i r v p
    obtain ⟨tr, hr1, hr2, _, hr4⟩ := ihr
    obtain ⟨tp, hp1, hp2, _⟩ := ihp
    have key := macro_print (f := "all") (x := allEx (norm cfg r) v (norm cfg p)) (ta := [tp])
      (args := .cons (norm cfg p) .nil) gr hu hv hr2 hr4 ⟨hp2.ex, trivial⟩
      (by simp [memberCall, isMacro, Exs.length, macroVar_ok hv hv']) rfl
    exact ⟨_, by simp [unparse, unparseStep, allEx, Ex.op2, hr1, hp1], key.1, by rfl, fun _ hn => key.2 hn⟩
  | «exists» gr hu hv hv' gp ihr ihp =>
    rename_i r v p
    obtain ⟨tr, hr1, hr2, _, hr4⟩ := ihr
    obtain ⟨tp, hp1, hp2, _⟩ := ihp
    have key := macro_print (f := "exists") (x := existsEx (norm cfg r) v (norm cfg p)) (ta := [tp])
      (args := .cons (norm cfg p) .nil) gr hu hv hr2 hr4 ⟨hp2.ex, trivial⟩
      (by simp [memberCall, isMacro, Exs.length, macroVar_ok hv hv']) rfl
    exact ⟨_, by simp [unparse, unparseStep, existsEx, Ex.op2, hr1, hp1], key.1, by rfl, fun _ hn => key.2 hn⟩
  | existsOne gr hu hv hv' gp ihr ihp =>
    rename_i r v p
    obtain ⟨tr, hr1, hr2, _, hr4⟩ := ihr
    obtain ⟨tp, hp1, hp2, _⟩ := ihp
    have key := macro_print (f := "exists_one") (x := existsOneEx (norm cfg r) v (norm cfg p)) (ta := [tp])
      (args := .cons (norm cfg p) .nil) gr hu hv hr2 hr4 ⟨hp2.ex, trivial⟩
      (by simp [memberCall, isMacro, Exs.length, macroVar_ok hv hv']) rfl
    exact ⟨_, by simp [unparse, unparseStep, existsOneEx, Ex.op2, Ex.op3, isCall, hr1, hp1], key.1, by rfl, fun _ hn => key.2 hn⟩
  | map2 gr hu hv hv' gp ihr ihp =>
    rename_i r v p
    obtain ⟨tr, hr1, hr2, _, hr4⟩ := ihr
    obtain ⟨tp, hp1, hp2, _⟩ := ihp
    have key := macro_print (f := "map") (x := map2Ex (norm cfg r) v (norm cfg p)) (ta := [tp])
      (args := .cons (norm cfg p) .nil) gr hu hv hr2 hr4 ⟨hp2.ex, trivial⟩
      (by simp [memberCall, isMacro, Exs.length, macroVar_ok hv hv']) rfl
    exact ⟨_, by simp [unparse, unparseStep, map2Ex, Ex.op2, Ex.op3, isCall, accu, hr1, hp1], key.1, by rfl, fun _ hn => key.2 hn⟩
  | map3 gr hu hv hv' gp gt ihr ihp iht =>
    rename_i r v p t
    obtain ⟨tr, hr1, hr2, _, hr4⟩ := ihr
    obtain ⟨tp, hp1, hp2, _⟩ := ihp
    obtain ⟨tt, ht1, ht2, _⟩ := iht
    have key := macro_print (f := "map") (x := map3Ex (norm cfg r) v (norm cfg p) (norm cfg t)) (ta := [tp, tt])
      (args := .cons (norm cfg p) (.cons (norm cfg t) .nil)) gr hu hv hr2 hr4 ⟨hp2.ex, ht2.ex, trivial⟩
      (by simp [memberCall, isMacro, Exs.length, macroVar_ok hv hv']) rfl
    exact ⟨_, by simp [unparse, unparseStep, unparseAppended, map3Ex, Ex.op2, Ex.op3, isCall, accu, hr1, hp1, ht1], key.1, by rfl, fun _ hn => key.2 hn⟩

/-- **C54 (round trip), partial.** What is printed for an expression covered by
`Good` parses, and parses to the same expression up to the association of `&&`
and `||` chains.  Missing: the expressions that `Good` leaves out, whose text is
wrong or that no text denotes. -/
theorem C54_roundtrip_partial (cfg : Cfg) (e : Ex) (h : Good cfg e) :
    ∃ ts, unparse cfg e = some ts ∧ parse cfg ts = some (norm cfg e) := by
  obtain ⟨ts, h1, h2, _⟩ := prints h
  refine ⟨ts, h1, ?_⟩
  have := h2.ex [] trivial
  rw [List.append_nil] at this
  rw [parse, this]

end Cel.Syntax
