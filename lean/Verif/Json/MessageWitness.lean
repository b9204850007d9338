import Verif.Json.MessageLossless

set_option linter.dupNamespace false
set_option linter.unusedSimpArgs false
set_option linter.unusedVariables false

namespace Cel.Json.Message
open Cel Cel.Num Cel.Eval Cel.Data Cel.Json Cel.Json.Spec Cel.Json.Message.Spec

/-! ## The hypotheses can be met -/

def color : EnumType := ⟨"Color", fun n => if n = 0 then some "RED" else if n = 1 then some "BLUE" else none⟩

/-- A message with a scalar, a repeated field, a map field with integer keys, a nested message and a
field mask. -/
def sampleMsg : Msg :=
  .plain "pkg.M" [("fooBar", .one (.scalar (.i64 (2 ^ 60)))),
    ("tags", .rep [.scalar (.str "a"), .scalar (.str "b")]),
    ("byId", .map [(.int 1, .scalar (.enm color 0)), (.int 2, .scalar (.enm color 1))]),
    ("sub", .one (.msg (.plain "pkg.N" [("mask", .one (.msg (.fieldMask ["foo_bar", "x"])))])))]

/-- Injective stand-ins for the library functions. -/
def sampleLib : MLib where
  base64 := fun l => String.ofList (l.map Char.ofNat)
  durText := fun _ => ""
  tsText := fun _ => ""
  message := fun _ _ _ => .ub
  durationText := fun s n => decimal (s * 2 ^ 40 + n)
  timestampText := fun s n => decimal (s * 2 ^ 40 + n)
  unknownEnum := fun t n => "UNKNOWN_ENUM_VALUE_" ++ t ++ "_" ++ decimal n

theorem sampleLib_lossless : Lossless sampleLib where
  base64 := by
    intro a
    have hn : ∀ n, n < 256 → (Char.ofNat n).toNat = n := by
      intro n hn
      unfold Char.ofNat
      rw [dif_pos (Or.inl (by omega))]
      rfl
    induction a with
    | nil =>
      intro b _ _ h
      have := String.ofList_injective h
      cases b with
      | nil => rfl
      | cons y b => simp at this
    | cons x a ih =>
      intro b ha hb h
      have h2 := String.ofList_injective h
      cases b with
      | nil => simp at h2
      | cons y b =>
        simp only [List.map_cons, List.cons.injEq] at h2
        have hxy : x = y := by
          rw [← hn x (ha x List.mem_cons_self), ← hn y (hb y List.mem_cons_self), h2.1]
        rw [hxy, ih b (fun z hz => ha z (List.mem_cons_of_mem _ hz))
          (fun z hz => hb z (List.mem_cons_of_mem _ hz)) (by
            show String.ofList _ = String.ofList _
            rw [h2.2])]
  base64_nonempty := by
    intro a ha h
    have h2 := congrArg String.toList h
    cases a with
    | nil => exact ha rfl
    | cons x a =>
      change (String.ofList _).toList = _ at h2
      rw [String.toList_ofList] at h2
      simp at h2
  duration := by
    intro s n s' n' h h' he
    have := decimal_inj he
    unfold ValidDuration at h h'
    omega
  timestamp := by
    intro s n s' n' h h' he
    have := decimal_inj he
    unfold ValidTimestamp at h h'
    omega

theorem sample_wf : WFM sampleMsg := by
  simp [sampleMsg, WFM, WFFields, WFField, WFElem, WFElems, WFEntries, ScalarWF, SameKey]

theorem sample_faithful : Faithful sampleMsg := by
  have hi : ∀ a b s, color.names a = some s → color.names b = some s → a = b := by
    intro a b s ha hb
    simp only [color] at ha hb
    split at ha <;> split at hb <;> (try split at ha) <;> (try split at hb) <;> simp_all
    · subst ha; simp at hb
    · subst ha; simp at hb
  simp only [sampleMsg, Faithful, FaithfulFields, FaithfulField, FaithfulElem, FaithfulElems,
    FaithfulEntries, FaithfulScalar, and_true, true_and]
  exact ⟨⟨⟨⟨"RED", rfl⟩, hi⟩, ⟨"BLUE", rfl⟩, hi⟩, by decide⟩

theorem good_foo : GoodPath "foo_bar" ∧ GoodPath "x" ∧ ¬ GoodPath "foo_" ∧ ¬ GoodPath "fooBar" ∧
    ¬ GoodPath "foo_1" := by
  simp only [← (C78_paths _).1]
  refine ⟨⟨"fooBar", rfl⟩, ⟨"x", rfl⟩, ?_, ?_, ?_⟩ <;> (rintro ⟨s, h⟩; cases h)

/-- The JSON form of the sample. -/
theorem C78_witness_sample (O : MLib) :
    Convertible sampleMsg ∧
    toJson O sampleMsg .unset = .ok (.obj
      [("fooBar", .str "1152921504606846976"),
       ("tags", .arr [.str "a", .str "b"]),
       ("byId", .obj [("1", .str "RED"), ("2", .str "BLUE")]),
       ("sub", .obj [("mask", .str "fooBar,x")])]) := by
  have h : toJson O sampleMsg .unset = .ok (.obj
      [("fooBar", .str "1152921504606846976"),
       ("tags", .arr [.str "a", .str "b"]),
       ("byId", .obj [("1", .str "RED"), ("2", .str "BLUE")]),
       ("sub", .obj [("mask", .str "fooBar,x")])]) := by
    rfl
  exact ⟨(C78_converts_iff O sampleMsg .unset).1 ⟨_, h⟩, h⟩

/-! ## What does not hold -/

/-- The target of a message conversion is not cleared: a second conversion into the same target
doubles every repeated field (native lists and maps are cleared, `C76_target_irrelevant`). -/
theorem C78_witness_target (O : MLib) :
    let m : Msg := .plain "pkg.M" [("tags", .rep [.scalar (.str "a")])]
    messageConvert O m .unset = .ok (.obj [("tags", .arr [.str "a"])]) ∧
    messageConvert O m (.obj [("tags", .arr [.str "a"])]) =
      .ok (.obj [("tags", .arr [.str "a", .str "a"])]) := ⟨rfl, rfl⟩

/-- A map field serializes as the empty list, whatever it holds. -/
theorem C78_witness_serialize_map (O : MLib) (m : List (Key × Elem)) (h : ConvertibleEntries m) :
    serialized O (.map m) = .ok (.arr []) := by
  obtain ⟨f, hf⟩ := (mapJson_ok O m []).2 h
  unfold serialized
  rw [fieldJson, show objOf .unset = [] from rfl, hf]
  rfl

/-- A repeated field serializes as its JSON array. -/
theorem C78_serialize_list (O : MLib) (l : List Elem) (j : Json) :
    serialized O (.rep l) = .ok j ↔ fieldConvert O (.rep l) .unset = .ok j := by
  unfold serialized fieldConvert
  rw [fieldJson]
  cases repJson O l (arrOf .unset) <;> simp [Res.bind, arrOf]

/-- An enum field becomes a name, but the value selected from it a number; a number without a name
becomes a made-up name in a singular field and a number in a map. -/
theorem C78_witness_enum (O : MLib) (p : Json) :
    scalarJson O (.enm color 1) = .str "BLUE" ∧
    convert O.toLib (scalarValue (.enm color 1)) p = .ok (.num (Dbl.ofInt 1)) ∧
    scalarJson O (.enm color 7) = .str (O.unknownEnum "Color" 7) ∧
    mapScalarJson O (.enm color 7) = .num (Dbl.ofInt 7) := ⟨rfl, rfl, rfl, rfl⟩

/-- A field mask that is a value of its own becomes an object and never fails; inside a message it
becomes a string, or fails. -/
theorem C78_witness_mask (O : MLib) :
    messageConvert O (.fieldMask ["foo_bar", "x"]) .unset =
      .ok (.obj [("paths", .arr [.str "foo_bar", .str "x"])]) ∧
    toJson O (.fieldMask ["foo_bar", "x"]) .unset = .ok (.str "fooBar,x") ∧
    (∃ j, messageConvert O (.fieldMask ["fooBar"]) .unset = .ok j) ∧
    ∃ e, toJson O (.fieldMask ["fooBar"]) .unset = .err e :=
  ⟨rfl, rfl, ⟨_, rfl⟩, ⟨_, rfl⟩⟩

/-- Two field masks with the same JSON form. -/
theorem C78_witness_comma (O : MLib) :
    toJson O (.fieldMask ["a,b"]) .unset = toJson O (.fieldMask ["a", "b"]) .unset := rfl

/-- An `Any` in an `Any` has the JSON form of the inner one. -/
theorem C78_witness_any (O : MLib) (m : Msg) (p : Json) :
    toJson O (.any (.any m)) p = toJson O (.any m) p := by rw [toJson]

/-- A map field with integer keys converts, a map value with integer keys does not. -/
theorem C78_witness_int_keys (O : MLib) :
    fieldConvert O (.map [(.int 1, .scalar (.bool true))]) .unset = .ok (.obj [("1", .bool true)]) ∧
    ∃ e, convert O.toLib (.map [(.int 1, .bool true)]) .unset = .err e := ⟨rfl, ⟨_, rfl⟩⟩

end Cel.Json.Message
