import Verif.Proto.Ast
import Verif.Proto.EraseOk

set_option linter.unusedSimpArgs false
set_option linter.unusedVariables false

/-!
# C61: ASTs survive the trip through their protos; C62: copy, comparison and destruction of
expressions
-/

namespace Cel.Proto
open Cel Cel.Num

/-! ## C61: the conversion loops -/

/-- An expression with no unset list element. -/
def NoGap (e : NExpr) : Prop := fillE e = e

/-- **C61.**  Native → proto → native, through the two explicit-stack loops of the library, into a
proto `target` and an expression `target'` that may hold anything before: both loops end within one
iteration per node, use no dangling pointer, report no error, and the expression that comes back is
the original – with an unset list element read back as an empty expression, which `==` does not
distinguish. -/
theorem C61_expression_round_trip (l : NNode) (ks : List NExpr) (h : WFN (.node l ks))
    (a : Nat) (pl : PNode) (pk : List (Cell PNode)) (a' : Nat) (nl : NNode)
    (nk : List (Cell NNode)) :
    ∃ c c', exprToProto (.node l ks) (.node (a, pl) pk) = some (.ok c) ∧
      exprFromProto (forget c) (.node (a', nl) nk) = some (.ok c') ∧
      forget c' = fillE (.node l ks) ∧ (NoGap (.node l ks) → forget c' = .node l ks) ∧
      (NoNan (.node l ks) → exprEq (.node l ks) (forget c') = true) := by
  obtain ⟨rl, rks, h1, h2⟩ := round l ks h
  have g1 := run_done (toP_done _ (.node l ks) (Nat.le_refl _)) a pl pk trivial _ (Nat.le_refl _)
  rw [h1] at g1
  obtain ⟨c, e1, e2⟩ := g1
  have g2 := run_done (fromP_done _ (.node rl rks) (Nat.le_refl _)) a' nl nk trivial _
    (Nat.le_refl _)
  rw [h2] at g2
  obtain ⟨c', f1, f2⟩ := g2
  refine ⟨c, c', e1, by rw [e2]; exact f1, f2, fun hg => by rw [f2]; exact hg, ?_⟩
  intro hn
  rw [exprEq_iff, f2, seen_fill]
  exact ⟨rfl, hn⟩

/-- A pathological expression through the trip: `[?x, <unset>].f(dur)` as call, list, select and
constant, into targets that already hold something. -/
def sampleE : NExpr :=
  .node ⟨7, .call "f"⟩ [.node ⟨1, .list [true, false]⟩ [.node ⟨2, .ident "x"⟩ [], .absent],
    .node ⟨3, .const (.duration (.fin (-6000000000)))⟩ [],
    .node ⟨4, .struct "m.T" [⟨5, "a", true⟩]⟩ [.node ⟨6, .map [⟨8, false⟩]⟩
      [.node ⟨9, .const (.string "k")⟩ [], .node ⟨10, .select "g" true⟩ [.absent]]]]

theorem sampleE_wf : WFN sampleE := by
  refine ⟨⟨_, _, rfl, by simp [Tree.present]⟩, ?_⟩
  simp only [WFNs, WFN, NShape, Encodable, and_true, true_and]
  refine ⟨rfl, ⟨-6000000000, rfl, by decide, by decide, by decide⟩, ⟨by decide, rfl⟩, rfl, rfl⟩

example : NoNan sampleE := by simp [sampleE, NoNan, NoNans, kindNum]

/-- The error a proto is rejected with, and nothing else. -/
theorem C61_accepted_protos (l : PNode) (ks : List PExpr) (h : WFP (.node l ks)) (a : Nat)
    (nl : NNode) (nk : List (Cell NNode)) :
    (Consistent (.node l ks) ∧ ∃ c, exprFromProto (.node l ks) (.node (a, nl) nk) = some (.ok c)) ∨
    (¬ Consistent (.node l ks) ∧ ∃ e, KeyError e ∧
      exprFromProto (.node l ks) (.node (a, nl) nk) = some (.err e)) := by
  have g := run_done (fromP_done _ (.node l ks) (Nat.le_refl _)) a nl nk trivial _ (Nat.le_refl _)
  rcases verdict l ks h with ⟨h1, t, h2⟩ | ⟨h1, e, h2, h3⟩
  · rw [h2] at g
    obtain ⟨c, e1, _⟩ := g
    exact .inl ⟨h1, c, e1⟩
  · rw [h3] at g
    exact .inr ⟨h1, e, h2, g⟩

/-- Both sides occur: a map with a field key is rejected, an empty one is not. -/
example : ¬ Consistent (.node ⟨1, .create "" [⟨2, .field "f", false⟩]⟩ [.absent, .absent]) ∧
    Consistent (.node ⟨1, .create "" []⟩ []) := by
  simp [Consistent, Consistents]

/-- Proto → native → proto: an accepted proto comes back in normal form (optional indices sorted,
without duplicates and without indices outside the list; a message entry without a field name gets
the empty name), and a proto in normal form comes back unchanged. -/
theorem C61_proto_round_trip (l : PNode) (ks : List PExpr) (h : WFP (.node l ks))
    (hc : Consistent (.node l ks)) (hn : CanonicalP (.node l ks)) (a : Nat) (nl : NNode)
    (nk : List (Cell NNode)) (a' : Nat) (pl : PNode) (pk : List (Cell PNode)) :
    ∃ c c', exprFromProto (.node l ks) (.node (a, nl) nk) = some (.ok c) ∧
      exprToProto (forget c) (.node (a', pl) pk) = some (.ok c') ∧
      forget c' = normP (.node l ks) := by
  obtain ⟨rl, rks, h1, h2, _⟩ := back l ks h hc hn
  have g1 := run_done (fromP_done _ (.node l ks) (Nat.le_refl _)) a nl nk trivial _ (Nat.le_refl _)
  rw [h1] at g1
  obtain ⟨c, e1, e2⟩ := g1
  have g2 := run_done (toP_done _ (.node rl rks) (Nat.le_refl _)) a' pl pk trivial _
    (Nat.le_refl _)
  rw [h2] at g2
  obtain ⟨c', f1, f2⟩ := g2
  exact ⟨c, c', e1, by rw [e2]; exact f1, f2⟩

/-- The normal form is not the identity: `[x, y]` with optional indices 1, 0, 1, 9. -/
example : normP (.node ⟨1, .list [1, 0, 1, 9]⟩ [.node ⟨2, .ident "x"⟩ [], .node ⟨3, .ident "y"⟩ []])
    = .node ⟨1, .list [0, 1]⟩ [.node ⟨2, .ident "x"⟩ [], .node ⟨3, .ident "y"⟩ []] := by
  simp [normP, normPs, normIdx, List.range, List.range.loop]

/-! ## Constants -/

/-- Any in-range duration and timestamp constant: the former comes back truncated toward zero, the
latter rounded down, to whole nanoseconds; everything out of range or infinite is refused. -/
theorem C61_time_constants (t : Int) :
    (minDurTicks ≤ t ∧ t ≤ maxDurTicks → ∃ p, constToProto (.duration (.fin t)) = .ok p ∧
      constFromProto p = .duration (.fin (t - Int.tmod t tpn))) ∧
    (minTmTicks ≤ t ∧ t ≤ maxTmTicks → ∃ p, constToProto (.timestamp (.fin t)) = .ok p ∧
      constFromProto p = .timestamp (.fin (t - t % tpn))) ∧
    (¬ (minDurTicks ≤ t ∧ t ≤ maxDurTicks) → ∃ e, constToProto (.duration (.fin t)) = .error e) ∧
    (¬ (minTmTicks ≤ t ∧ t ≤ maxTmTicks) → ∃ e, constToProto (.timestamp (.fin t)) = .error e) ∧
    (∀ b, ∃ e, constToProto (.duration (.inf b)) = .error e) ∧
    (∀ b, ∃ e, constToProto (.timestamp (.inf b)) = .error e) := by
  refine ⟨?_, ?_, ?_, ?_, ?_, ?_⟩
  · rintro ⟨h1, h2⟩
    obtain ⟨s, n, e1, e2, _⟩ := duration_comes_back t h1 h2
    exact ⟨.duration s n, by simp [constToProto, e1], by simp [constFromProto, e2]⟩
  · rintro ⟨h1, h2⟩
    obtain ⟨s, n, e1, e2, _⟩ := timestamp_comes_back t h1 h2
    exact ⟨.timestamp s n, by simp [constToProto, e1], by simp [constFromProto, e2]⟩
  · intro h
    simp only [constToProto, encodeDuration]
    by_cases h1 : t < minDurTicks
    · rw [if_pos h1]; exact ⟨_, rfl⟩
    · rw [if_neg h1, if_pos (by omega)]; exact ⟨_, rfl⟩
  · intro h
    simp only [constToProto, encodeTime]
    by_cases h1 : t < minTmTicks
    · rw [if_pos h1]; exact ⟨_, rfl⟩
    · rw [if_neg h1, if_pos (by omega)]; exact ⟨_, rfl⟩
  · intro b; cases b <;> exact ⟨_, rfl⟩
  · intro b; cases b <;> exact ⟨_, rfl⟩

/-- **Finding.**  A duration of half a nanosecond (two ticks) comes back as zero. -/
theorem C61_finding_subnanosecond :
    ∃ p, constToProto (.duration (.fin 2)) = .ok p ∧ constFromProto p = .duration (.fin 0) :=
  ⟨.duration 0 0, by decide +kernel, by decide +kernel⟩

/-! ## Types -/

/-- Every type comes back, except that `type(⟨unset⟩)` comes back as `type(⟨null pointer⟩)`;
without such a part it comes back exactly; and a proto type is accepted exactly if all its enum
values are declared ones, and then it survives the trip unchanged. -/
theorem C61_types :
    (∀ t : TypeSpec, typeFromProto (typeToProto t .notSet) = .ok t.norm) ∧
    (∀ t : TypeSpec, t.Plain → typeFromProto (typeToProto t .notSet) = .ok t) ∧
    (∀ p : PType, (p.Known ∧ ∃ t, typeFromProto p = .ok t ∧ typeToProto t .notSet = p) ∨
      (¬ p.Known ∧ ∃ e, typeFromProto p = .error e)) :=
  ⟨type_round, fun t h => by rw [type_round, norm_plain t h], ptype_round⟩

/-- Non-trivial: a plain type with every composite. -/
example : TypeSpec.Plain (.function (.map (.primitive .string) (.typeOf (.list .dyn)))
    [.abstract "optional" [.wrapper .int64], .wellKnown .any]) := by
  simp [TypeSpec.Plain, TypeSpec.Plains]

/-- **Finding.**  `type(⟨unset⟩)` does not come back. -/
theorem C61_finding_type_of_unset :
    typeFromProto (typeToProto (.typeOf .unset) .notSet) = .ok .typeNull ∧
    TypeSpec.typeOf .unset ≠ .typeNull := ⟨rfl, by simp⟩

/-! ## Whole ASTs -/

/-- What a well-formed AST is: hash maps with distinct keys, well-formed expressions, constants
that have a proto form. -/
structure AstWF (a : Ast) : Prop where
  root : a.root.present = true ∧ WFN a.root
  positions : Keys a.info.positions
  macros : Keys a.info.macroCalls ∧
    ∀ k e, get a.info.macroCalls k = some e → e.present = true ∧ WFN e
  references : Keys a.references ∧
    ∀ k r, get a.references k = some r → ∀ c, r.value = some c → Encodable c
  types : Keys a.types

theorem putExpr_ok (e : NExpr) (h : e.present = true) (hw : WFN e) :
    ∃ p, toP e = .ok p ∧ (∀ old, putExpr e old = .ok p) ∧ getExpr p = .ok (fillE e) := by
  cases e with
  | absent => cases h
  | node l ks =>
    obtain ⟨pl, pks, h1, h2⟩ := round l ks hw
    refine ⟨_, h1, fun old => by rw [putExpr_eq, h1]; rfl, by rw [getExpr_eq, h2]; rfl⟩

theorem compRound (c : Component) : compFromProto (compToProto c) = c := by
  cases c <;> rfl

/-- What it means that the source info `i'` is what `i` comes back as. -/
structure InfoBack (i i' : SourceInfo) : Prop where
  syntaxVersion : i'.syntaxVersion = i.syntaxVersion
  location : i'.location = i.location
  lineOffsets : i'.lineOffsets = i.lineOffsets
  positions : ∀ k, get i'.positions k = get i.positions k
  macroCalls : ∀ k, get i'.macroCalls k = (get i.macroCalls k).map fillE
  extensions : i'.extensions = i.extensions

/-- What source info is written as: appended to the repeated fields of `out`, merged into its
maps. -/
theorem infoToProto_ok (i : SourceInfo) (out : PSourceInfo) (hp : Keys i.positions)
    (hm : Keys i.macroCalls)
    (hw : ∀ k e, get i.macroCalls k = some e → e.present = true ∧ WFN e) :
    ∃ p, infoToProto i out = .ok p ∧
      p.syntaxVersion = i.syntaxVersion ∧ p.location = i.location ∧
      p.lineOffsets = out.lineOffsets ++ i.lineOffsets ∧
      (∀ k, get p.positions k = match get i.positions k with
        | some v => some v | none => get out.positions k) ∧
      (∀ k, match get i.macroCalls k with
        | some e => ∃ q, get p.macroCalls k = some q ∧ toP e = .ok q
        | none => get p.macroCalls k = get out.macroCalls k) ∧
      p.extensions = out.extensions ++ i.extensions.map (fun x =>
        ⟨x.id, x.major, x.minor, x.components.map compToProto⟩) ∧
      (Keys out.positions → Keys p.positions) ∧ (Keys out.macroCalls → Keys p.macroCalls) := by
  obtain ⟨r1, h1, h2⟩ := fillMap_ok (fun (v : Int) (_ : Option Int) => Res.ok v) (fun v _ => v)
    i.positions out.positions hp (fun _ _ _ _ => rfl)
  obtain ⟨r2, h3, h4⟩ := fillMap_ok putExpr
    (fun e _ => match toP e with | .ok p => p | .error _ => .absent)
    i.macroCalls out.macroCalls hm (by
      intro k e hk o
      obtain ⟨p, g1, g2, _⟩ := putExpr_ok e (hw k e hk).1 (hw k e hk).2
      simp only [g1, g2])
  refine ⟨⟨i.syntaxVersion, i.location, out.lineOffsets ++ i.lineOffsets, r1, r2, _⟩,
    by simp only [infoToProto, h1, h3], rfl, rfl, rfl, ?_, ?_, rfl, ?_, ?_⟩
  · intro k
    simp only [h2 k]
    cases get i.positions k <;> rfl
  · intro k
    have := h4 k
    cases hk : get i.macroCalls k with
    | none => rw [hk] at this; simpa using this
    | some e =>
      rw [hk] at this
      obtain ⟨p, g1, _⟩ := putExpr_ok e (hw k e hk).1 (hw k e hk).2
      simp only [g1] at this
      exact ⟨p, this, g1⟩
  · intro hk; exact fillMap_keys _ _ _ _ hk h1
  · intro hk; exact fillMap_keys _ _ _ _ hk h3

theorem info_round (i : SourceInfo) (hp : Keys i.positions) (hm : Keys i.macroCalls)
    (hw : ∀ k e, get i.macroCalls k = some e → e.present = true ∧ WFN e) :
    ∃ p i', infoToProto i .empty = .ok p ∧ infoFromProto p = .ok i' ∧ InfoBack i i' := by
  obtain ⟨p, h0, h1, h2, h3, h4, h5, h6, _, h8⟩ := infoToProto_ok i .empty hp hm hw
  have hk : Keys p.macroCalls := h8 (by simp [PSourceInfo.empty, Keys])
  obtain ⟨r, g1, g2⟩ := emplaceMap_ok getExpr
    (fun q => match fromP q with | .ok e => e | .error _ => .absent) p.macroCalls [] (by
      intro x hx
      have hg := mem_get _ hk x hx
      have := h5 x.1
      cases hm' : get i.macroCalls x.1 with
      | none => rw [hm', hg] at this; simp [PSourceInfo.empty, get_nil] at this
      | some e =>
        rw [hm'] at this
        obtain ⟨q, e1, e2⟩ := this
        rw [hg] at e1
        simp only [Option.some.injEq] at e1
        obtain ⟨q', f1, _, f3⟩ := putExpr_ok e (hw _ e hm').1 (hw _ e hm').2
        rw [e2] at f1
        simp only [Except.ok.injEq] at f1
        subst f1
        rw [e1, f3]
        rw [getExpr_eq] at f3
        cases hf : fromP q with
        | ok y => rw [hf] at f3; simp only [liftE, Res.ok.injEq] at f3; simp [f3]
        | error y => rw [hf] at f3; simp [liftE] at f3)
  refine ⟨p, ⟨p.syntaxVersion, p.location, p.lineOffsets, p.positions, r, _⟩, h0,
    by simp only [infoFromProto, g1]; rfl, h1, h2, by rw [h3]; simp [PSourceInfo.empty], ?_, ?_, ?_⟩
  · intro k
    simp only [h4 k]
    cases get i.positions k <;> simp [PSourceInfo.empty, get_nil]
  · intro k
    simp only [g2 k, get_nil]
    have := h5 k
    cases hm' : get i.macroCalls k with
    | none => rw [hm'] at this; rw [this]; simp [PSourceInfo.empty, get_nil]
    | some e =>
      rw [hm'] at this
      obtain ⟨q, e1, e2⟩ := this
      obtain ⟨q', f1, _, f3⟩ := putExpr_ok e (hw _ e hm').1 (hw _ e hm').2
      rw [e2] at f1
      simp only [Except.ok.injEq] at f1
      subst f1
      rw [e1]
      rw [getExpr_eq] at f3
      cases hf : fromP q with
      | ok y => rw [hf] at f3; simp only [liftE, Res.ok.injEq] at f3; simp [hf, f3]
      | error y => rw [hf] at f3; simp [liftE] at f3
  · simp only [h6, PSourceInfo.empty, List.nil_append, List.map_map]
    conv => rhs; rw [← List.map_id i.extensions]
    refine List.map_congr_left ?_
    intro x _
    obtain ⟨a, b, c, d⟩ := x
    simp only [Function.comp, id, List.map_map, Extension.mk.injEq, true_and]
    conv => rhs; rw [← List.map_id d]
    exact List.map_congr_left fun c _ => compRound c

theorem ref_round (r : Reference) (h : ∀ c, r.value = some c → Encodable c) :
    ∃ p, refToProto r = .ok p ∧ refFromProto p = r := by
  obtain ⟨n, o, v⟩ := r
  cases v with
  | none => exact ⟨_, rfl, rfl⟩
  | some c =>
    obtain ⟨p, h1, h2, _⟩ := const_round c (h c rfl)
    exact ⟨⟨n, o, some p⟩, by simp [refToProto, h1], by simp [refFromProto, h2]⟩

/-- **C61, whole checked ASTs.**  A type-checked AST written into an empty `CheckedExpr` and read
back is the same AST: same expression, same source info, same references, same types (where
`type(⟨unset⟩)` is as in `C61_types`), same version. -/
theorem C61_checked_ast_round_trip (a : Ast) (h : AstWF a) (hc : a.checked = true) :
    ∃ p a', astToChecked a .empty = .ok p ∧ astFromChecked p = .ok a' ∧
      a'.root = fillE a.root ∧ (NoNan a.root → exprEq a.root a'.root = true) ∧
      InfoBack a.info a'.info ∧
      (∀ k, get a'.references k = get a.references k) ∧
      (∀ k, get a'.types k = (get a.types k).map TypeSpec.norm) ∧
      a'.version = a.version ∧ a'.checked = true := by
  obtain ⟨q, e1, e2, e3⟩ := putExpr_ok a.root h.root.1 h.root.2
  obtain ⟨pi, i', i1, i2, i3⟩ := info_round a.info h.positions h.macros.1 h.macros.2
  obtain ⟨pr, r1, r2⟩ := fillMap_ok (fun r (_ : Option PReference) => refToProto r)
    (fun r _ => match refToProto r with | .ok p => p | _ => ⟨"", [], none⟩)
    a.references [] h.references.1 (by
      intro k r hk o
      obtain ⟨p, g1, _⟩ := ref_round r (h.references.2 k r hk)
      simp only [g1])
  obtain ⟨pt, t1, t2⟩ := fillMap_ok
    (fun t (old : Option PType) => Res.ok (typeToProto t (old.getD .notSet)))
    (fun t old => typeToProto t (old.getD .notSet)) a.types [] h.types (fun _ _ _ _ => rfl)
  have kr : Keys pr := fillMap_keys _ _ _ _ (by simp [Keys]) r1
  have kt : Keys pt := fillMap_keys _ _ _ _ (by simp [Keys]) t1
  obtain ⟨nr, s1, s2⟩ := emplaceMap_ok (fun r => Res.ok (refFromProto r)) refFromProto pr []
    (fun _ _ => rfl)
  obtain ⟨nt, u1, u2⟩ := emplaceMap_ok (fun t => liftE (typeFromProto t))
    (fun t => match typeFromProto t with | .ok t => t | .error _ => .unset) pt [] (by
      intro x hx
      have hg := mem_get _ kt x hx
      have := t2 x.1
      cases hm : get a.types x.1 with
      | none => rw [hm, hg] at this; simp [get_nil] at this
      | some t =>
        rw [hm, hg] at this
        simp only [Option.some.injEq, get_nil, Option.getD_none] at this
        rw [this, type_round t]
        rfl)
  refine ⟨⟨q, pi, pr, pt, a.version⟩, ⟨fillE a.root, i', nr, nt, a.version, true⟩, ?_, ?_, rfl, ?_,
    i3, ?_, ?_, rfl, rfl⟩
  · simp only [astToChecked, hc, if_true, CheckedExpr.empty, e2, i1, r1, t1]
  · simp only [astFromChecked, e3, i2, s1, u1]
  · intro hn
    rw [exprEq_iff, seen_fill]
    exact ⟨rfl, hn⟩
  · intro k
    simp only [s2 k, get_nil, r2 k]
    cases hk : get a.references k with
    | none => rfl
    | some r =>
      obtain ⟨p, g1, g2⟩ := ref_round r (h.references.2 k r hk)
      simp [g1, g2]
  · intro k
    simp only [u2 k, get_nil, t2 k]
    cases hk : get a.types k with
    | none => rfl
    | some t => simp [type_round]

/-- **C61, parsed ASTs.** -/
theorem C61_parsed_ast_round_trip (a : Ast) (h : AstWF a) :
    ∃ p a', astToParsed a .empty = .ok p ∧ astFromParsed p = .ok a' ∧
      a'.root = fillE a.root ∧ (NoNan a.root → exprEq a.root a'.root = true) ∧
      InfoBack a.info a'.info ∧ a'.checked = false ∧ a'.references = [] ∧ a'.types = [] := by
  obtain ⟨q, e1, e2, e3⟩ := putExpr_ok a.root h.root.1 h.root.2
  obtain ⟨pi, i', i1, i2, i3⟩ := info_round a.info h.positions h.macros.1 h.macros.2
  refine ⟨⟨q, pi⟩, ⟨fillE a.root, i', [], [], "", false⟩, ?_, ?_, rfl, ?_, i3, rfl, rfl, rfl⟩
  · simp only [astToParsed, ParsedExpr.empty, e2, i1]
  · simp only [astFromParsed, e3, i2]
  · intro hn
    rw [exprEq_iff, seen_fill]
    exact ⟨rfl, hn⟩

/-- An unchecked AST is refused. -/
theorem C61_unchecked_refused (a : Ast) (out : CheckedExpr) (h : a.checked = false) :
    astToChecked a out = .err (invalid "AST is not type-checked") := by
  simp [astToChecked, h]

/-- A checked AST with macro calls, positions, a constant reference and types. -/
def sampleAst : Ast :=
  ⟨sampleE, ⟨"cel1", "<input>", [3, 9], [(7, 0), (1, 2)], [(7, sampleE)],
    [⟨"cel_block", 1, 2, [.runtime, .parser]⟩]⟩,
    [(2, ⟨"x", [], some (.int 4)⟩), (7, ⟨"", ["f_list"], none⟩)],
    [(2, .primitive .int64), (1, .list (.typeOf .dyn))], "v1", true⟩

theorem sampleAst_wf : AstWF sampleAst := by
  refine ⟨⟨rfl, sampleE_wf⟩, ?_, ⟨?_, ?_⟩, ⟨?_, ?_⟩, ?_⟩
  · simp [Keys, sampleAst]
  · simp [Keys, sampleAst]
  · intro k e hk
    have := get_mem _ _ _ hk
    simp only [sampleAst, List.mem_singleton, Prod.mk.injEq] at this
    rw [this.2]
    exact ⟨rfl, sampleE_wf⟩
  · simp [Keys, sampleAst]
  · intro k r hk c hc
    have := get_mem _ _ _ hk
    simp only [sampleAst, List.mem_cons, Prod.mk.injEq, List.not_mem_nil, or_false] at this
    rcases this with ⟨_, rfl⟩ | ⟨_, rfl⟩
    · simp only [Option.some.injEq] at hc; subst hc; trivial
    · cases hc
  · simp [Keys, sampleAst]

/-- **Finding: the output message is not cleared.**  Written into a `CheckedExpr` that already holds
something, the result has the old line offsets and extensions in front of the new ones, keeps every
old position, macro call, reference and type whose id the new AST does not use, and a function or
opaque type keeps its old arguments in front of the new ones. -/
theorem C61_finding_output_not_cleared (a : Ast) (h : AstWF a) (hc : a.checked = true)
    (out : CheckedExpr) :
    ∃ p, astToChecked a out = .ok p ∧ toP a.root = .ok p.expr ∧ p.version = a.version ∧
      p.info.lineOffsets = out.info.lineOffsets ++ a.info.lineOffsets ∧
      (∀ k, get a.info.positions k = none → get p.info.positions k = get out.info.positions k) ∧
      (∀ k, get a.info.macroCalls k = none → get p.info.macroCalls k = get out.info.macroCalls k) ∧
      (∀ k, get a.references k = none → get p.references k = get out.references k) ∧
      (∀ k, get p.types k = match get a.types k with
        | some t => some (typeToProto t ((get out.types k).getD .notSet))
        | none => get out.types k) := by
  obtain ⟨q, e1, e2, e3⟩ := putExpr_ok a.root h.root.1 h.root.2
  obtain ⟨pi, h0, h1, h2, h3, h4, h5, h6, _, _⟩ :=
    infoToProto_ok a.info out.info h.positions h.macros.1 h.macros.2
  obtain ⟨pr, r1, r2⟩ := fillMap_ok (fun r (_ : Option PReference) => refToProto r)
    (fun r _ => match refToProto r with | .ok p => p | _ => ⟨"", [], none⟩)
    a.references out.references h.references.1 (by
      intro k r hk o
      obtain ⟨p, g1, _⟩ := ref_round r (h.references.2 k r hk)
      simp only [g1])
  obtain ⟨pt, t1, t2⟩ := fillMap_ok
    (fun t (old : Option PType) => Res.ok (typeToProto t (old.getD .notSet)))
    (fun t old => typeToProto t (old.getD .notSet)) a.types out.types h.types (fun _ _ _ _ => rfl)
  refine ⟨⟨q, pi, pr, pt, a.version⟩, ?_, e1, rfl, h3, ?_, ?_, ?_, ?_⟩
  · simp only [astToChecked, hc, if_true, e2, h0, r1, t1]
  · intro k hk
    have := h4 k
    rw [hk] at this
    exact this
  · intro k hk
    have := h5 k
    rw [hk] at this
    exact this
  · intro k hk
    have := r2 k
    rw [hk] at this
    exact this
  · intro k
    show get pt k = _
    rw [t2 k]
    cases get a.types k <;> rfl

example : typeToProto (.function .dyn [.null]) (.function .null [.dyn]) =
    .function .dyn [.dyn, .null] := rfl

/-- **Finding: a struct without a name is not a struct.**  An empty message name is how a map is
written, so a native struct expression with an empty name and fields is written without an error
and refused when it is read. -/
theorem C61_finding_nameless_struct (id : Int) (f : NField) (fs : List NField) (ks : List NExpr)
    (p : PExpr) (h : toP (.node ⟨id, .struct "" (f :: fs)⟩ ks) = .ok p) :
    fromP p = .error (invalid "encountered struct field in map") := by
  simp only [toP] at h
  split at h
  · cases h
  · simp only [Except.ok.injEq] at h
    subst h
    simp [fromP, mapFields]

/-! ## C62: copying, comparing and destroying -/

/-- **C62, copying.**  The copy of an expression: the loop ends within one iteration per node and
uses no dangling pointer; the copy has at every node the same id and the same data, `iter_var2`
included, and `==` finds it equal (as it finds the original equal to itself). -/
theorem C62_copy (l : NNode) (ks : List NExpr) :
    ∃ c, cloneExpr (.node l ks) = some (.ok c) ∧ forget c = copyT (.node l ks) ∧
      (WFC (.node l ks) → NoNan (.node l ks) → exprEq (.node l ks) (forget c) = true) := by
  have g := run_done (copy_done _ (.node l ks) (Nat.le_refl _)) 0 NNode.dflt [] ⟨rfl, rfl⟩ _
    (Nat.le_refl _)
  simp only [copyG] at g
  obtain ⟨c, h1, h2⟩ := g
  refine ⟨c, h1, h2, ?_⟩
  intro hw hn
  rw [exprEq_iff, h2]
  exact ⟨(seen_copy _ hw).symm, hn⟩

mutual
/-- No unset list element, field value, map key or map value anywhere. -/
def Solid : NExpr → Prop
  | .absent => True
  | .node l ks =>
    (match l.kind with
      | .list _ | .struct _ _ | .map _ => ∀ k ∈ ks, k.present = true
      | _ => True) ∧ Solids ks
def Solids : List NExpr → Prop
  | [] => True
  | t :: ts => Solid t ∧ Solids ts
end

mutual
theorem copy_solid : ∀ (l : NNode) (ks : List NExpr), WFC (.node l ks) → Solid (.node l ks) →
    copyT (.node l ks) = .node l ks
  | ⟨id, k⟩, ks, w, s => by
    simp only [WFC] at w
    simp only [Solid] at s
    cases k with
    | unspecified => have := w.1; simp only [CShape] at this; simp [copyT, this]
    | const c => have := w.1; simp only [CShape] at this; simp [copyT, this]
    | ident n => have := w.1; simp only [CShape] at this; simp [copyT, this]
    | select f t => simp only [copyT, copy_solids false ks w.2 s.2 (fun h => by cases h)]
    | call fn => simp only [copyT, copy_solids false ks w.2 s.2 (fun h => by cases h)]
    | list opt => simp only [copyT, copy_solids true ks w.2 s.2 (fun _ => s.1)]
    | struct name fields => simp only [copyT, copy_solids true ks w.2 s.2 (fun _ => s.1)]
    | map entries => simp only [copyT, copy_solids true ks w.2 s.2 (fun _ => s.1)]
    | comprehension v v2 a =>
      simp only [copyT, copy_solids false ks w.2 s.2 (fun h => by cases h)]
theorem copy_solids : ∀ (d : Bool) (ks : List NExpr), WFCs ks → Solids ks →
    (d = true → ∀ k ∈ ks, k.present = true) → copyTs d ks = ks
  | d, [], _, _, _ => by simp [copyTs]
  | d, .absent :: ts, w, s, h => by
    simp only [WFCs] at w
    simp only [Solids] at s
    cases d with
    | true => have := h rfl .absent (by simp); cases this
    | false =>
      simp [copyTs, copy_solids false ts w.2 s.2 (fun h => by cases h)]
  | d, .node l ks :: ts, w, s, h => by
    simp only [WFCs] at w
    simp only [Solids] at s
    simp only [copyTs, copy_solid l ks w.1 s.1,
      copy_solids d ts w.2 s.2 (fun hd k hk => h hd k (by simp [hk]))]
end

/-- **C62, exact copies.**  Without unset list elements, field values, map keys and map values the
copy is the same expression in every respect. -/
theorem C62_copy_exact (l : NNode) (ks : List NExpr) (hw : WFC (.node l ks))
    (hs : Solid (.node l ks)) : ∃ c, cloneExpr (.node l ks) = some (.ok c) ∧
      forget c = .node l ks := by
  obtain ⟨c, h1, h2, _⟩ := C62_copy l ks
  exact ⟨c, h1, by rw [h2, copy_solid l ks hw hs]⟩

/-- A two-variable comprehension. -/
def sampleC (v2 : String) : NExpr :=
  .node ⟨1, .comprehension "i" v2 "@result"⟩ [.node ⟨2, .ident "xs"⟩ [],
    .node ⟨3, .const (.double 0)⟩ [], .node ⟨4, .const (.bool true)⟩ [], .absent,
    .node ⟨5, .map [⟨6, true⟩]⟩ [.node ⟨7, .ident "i"⟩ [], .node ⟨8, .ident "v"⟩ []]]

theorem sampleC_ok (v : String) : WFC (sampleC v) ∧ Solid (sampleC v) ∧ NoNan (sampleC v) := by
  simp [sampleC, WFC, WFCs, CShape, Solid, Solids, NoNan, NoNans, kindNum, dblNan, Tree.present]

/-- **C62, comparing.**  What `==` decides: two expressions are equal iff they are the same up to
unset children (read as empty expressions), the sign of zero, and the second iteration variable of
comprehensions – and no constant is NaN. -/
theorem C62_equality (a b : NExpr) : exprEq a b = true ↔ seen a = seen b ∧ NoNan a :=
  exprEq_iff a b

/-- `==` is symmetric and transitive; it is reflexive exactly on the expressions without NaN. -/
theorem C62_equality_laws :
    (∀ a b : NExpr, exprEq a b = true → exprEq b a = true) ∧
    (∀ a b c : NExpr, exprEq a b = true → exprEq b c = true → exprEq a c = true) ∧
    (∀ a : NExpr, exprEq a a = true ↔ NoNan a) := by
  refine ⟨?_, ?_, ?_⟩
  · intro a b h
    have h' := (exprEq_iff a b).mp h
    exact (exprEq_iff b a).mpr ⟨h'.1.symm, noNan_seen a b h'.1 h'.2⟩
  · intro a b c h1 h2
    rw [exprEq_iff] at *
    exact ⟨h1.1.trans h2.1, h1.2⟩
  · intro a
    rw [exprEq_iff]
    exact ⟨fun h => h.2, fun h => ⟨rfl, h⟩⟩

/-- **Finding: `==` does not look at `iter_var2`** (`common/expr.h:858-866`): two comprehensions
that bind different second variables compare equal. -/
theorem C62_finding_iter_var2 (id : Int) (v w w' a : String) (ks : List NExpr)
    (h : NoNans ks) : exprEq (.node ⟨id, .comprehension v w a⟩ ks)
      (.node ⟨id, .comprehension v w' a⟩ ks) = true := by
  rw [exprEq_iff]
  simp [seen, seenKind, NoNan, kindNum, h]

example : sampleC "v" ≠ sampleC "w" ∧ exprEq (sampleC "v") (sampleC "w") = true := by
  refine ⟨by simp [sampleC], C62_finding_iter_var2 _ _ _ _ _ _ ?_⟩
  simp [NoNan, NoNans, kindNum, dblNan]

/-- **C62, destroying.**  `FlattenedErase` on any expression: both loops end; no destroyed node is
read; what is left is the default expression; every node is cleared exactly once, and none before a
node below it; and whenever a node is cleared its children have no children left, so the nesting of
destructors does not grow with the depth of the expression. -/
theorem C62_erase (l : NNode) (ks : List NExpr) (hw : WFC (.node l ks))
    (ids : Addr → Option Addr) :
    ∃ N order, (∀ fuel, N ≤ fuel →
        flattenedErase fuel ids (.node l ks) = some (.node NNode.dflt [], order, true)) ∧
      order.Nodup ∧ (∀ p n, nodeAt p (.node l ks) = some n → p ∈ order) ∧
      order.Pairwise fun a b => ¬ (a <+: b) := erase_ok l ks hw ids

/-- Concretely: the order for the sample (children of the root last-linked first). -/
example : (flattenedErase 20 (fun _ => some [5]) (sampleC "v")).map (fun r => (r.2.1, r.2.2)) =
    some ([[4, 1], [4, 0], [4], [2], [0], [1], []], true) := by decide +kernel

end Cel.Proto
