import Verif.Refs.Main

set_option linter.unusedSimpArgs false
set_option linter.unusedVariables false

/-! # C84 – witnesses -/

namespace Cel.Refs
open Cel Cel.Proto Cel.Walk Cel.Rewrite Cel.Runtime

/-! ## Witnesses -/

/-- A registry of functions without receiver: names and numbers of arguments; each function is its
name. -/
def reg (l : List (String × Nat)) : Registry String := fun n =>
  match l.find? (fun p => p.1 == n) with
  | none => none
  | some p => some ⟨[(⟨p.1, false, List.replicate p.2 kAny, true⟩, p.1)], []⟩

/-- In the container `a`, the functions `a.f` and `a.a.f`. -/
def doubled : Env String := ⟨"a", reg [("a.f", 0), ("a.a.f", 0)], fun _ => none⟩

/-- In the container `a`, only the function `a.a.f`. -/
def onlyDoubled : Env String := ⟨"a", reg [("a.a.f", 0)], fun _ => none⟩

/-- `f()` -/
def callF : NExpr := .node ⟨1, .call "f"⟩ [.absent]

/-- Without `NotDoubled`: names are qualified with the container twice, once here and once by the
planner.  `f()` in the container `a` is resolved to `a.f` and then planned as `a.a.f`, although `a.f`
exists; and it is planned as `a.a.f` without a warning when only that exists, although it is none of
the names `f` stands for. -/
theorem C84_boundary_doubled :
    (resolveReferences doubled false callF 10 = some ([], .node ⟨1, .call "a.f"⟩ [.absent], .ok true) ∧
      planned doubled "a.f" false 0 = ([], [(⟨"a.a.f", false, [], true⟩, "a.a.f")])) ∧
    (resolveReferences onlyDoubled true callF 10 = some ([], .node ⟨1, .call "a.f"⟩ [.absent], .ok true) ∧
      planned onlyDoubled "a.f" false 0 = ([], [(⟨"a.a.f", false, [], true⟩, "a.a.f")]) ∧
      "a.a.f" ∉ names onlyDoubled "f") := by
  refine ⟨⟨rfl, rfl⟩, rfl, rfl, by decide⟩

/-- The variable `x`, which the checker recorded under its own name, and a function `x.f`. -/
def sameName : Env String :=
  ⟨"", reg [("x.f", 1)], fun i => if i = 2 then some ⟨"x", [], none⟩ else none⟩

/-- `x.f(1)` -/
def callXF : NExpr := .node ⟨1, .call "f"⟩ [.node ⟨2, .ident "x"⟩ [], .node ⟨3, .const (.int 1)⟩ []]

theorem rw_node {F : Type} {env : Env F} {strict : Bool} {a : Addr} {n : NExpr} {s s1 s2 s3 : State}
    {l l' : NNode} {ks ks1 ks' : List NExpr} {b1 b2 b3 : Bool}
    (hpre : preVisit env strict n s = (s1, .node l ks, b1))
    (hk : RwKids (resolver env strict) false a l [] (touchKids l.kind ks) s1 ks1 s2 b2)
    (hpost : postVisit env strict (.node l ks1) s2 = (s3, .node l' ks', b3)) :
    Rw (resolver env strict) false a n s (.node l' ks') s3 (b1 || b2 || b3) :=
  Rw.node (R := resolver env strict) (s := s) (s3 := s3) hpre (by rw [visits_id]; exact hk)
    (by rw [visits_id]; exact hpost)

theorem rw_kid {F : Type} {env : Env F} {strict : Bool} {a : Addr} {l : NNode} {done cs ks : List NExpr}
    {c c' : NExpr} {s s1 s' : State} {b1 b2 : Bool} (hp : c.present = true)
    (h1 : Rw (resolver env strict) false (a ++ [done.length]) c s c' s1 b1)
    (h2 : RwKids (resolver env strict) false a l (done ++ [c']) cs s1 ks s' b2) :
    RwKids (resolver env strict) false a l done (c :: cs) s ks s' (b1 || b2) :=
  RwKids.kid hp (by rw [visits_id]; exact h1) (by rw [visits_id]; exact h2)

theorem resolve_of_rw {F : Type} {env : Env F} {strict : Bool} {t t' : NExpr} {s' : State} {b : Bool}
    (hp : t.present = true) (hw : WFC t)
    (h : Rw (resolver env strict) false [] t ⟨[], [], none⟩ t' s' b) :
    ∃ N, ∀ fuel, N ≤ fuel → resolveReferences env strict t fuel =
      some (s'.issues, t', match s'.status with | some i => .error i | none => .ok b) := by
  obtain ⟨N, hN⟩ := C83_rewrite_complete _ (resolver_sound env strict) false t hp hw _ _ _ _ h
  exact ⟨N, fun fuel hf => by
    rw [resolveReferences, hN fuel hf]
    obtain ⟨r, i, st⟩ := s'
    cases st <;> rfl⟩

/-- A variable the checker recorded under the name it is written with is not protected: `x.f(1)`
loses its target if some function is registered as `x.f`. -/
theorem C84_boundary_same_name : ∃ N, ∀ fuel, N ≤ fuel →
    resolveReferences sameName false callXF fuel =
      some ([], .node ⟨1, .call "x.f"⟩ [.absent, .node ⟨3, .const (.int 1)⟩ []], .ok true) := by
  refine resolve_of_rw (s' := ⟨[], [], none⟩) rfl ?_ ?_
  · simp [callXF, WFC, WFCs, CShape, Tree.present]
  · have hx : Rw (resolver sameName false) false [0] (.node ⟨2, .ident "x"⟩ []) ⟨[], [], none⟩
        (.node ⟨2, .ident "x"⟩ []) ⟨[], [], none⟩ false :=
      rw_node (s1 := ⟨[], [], none⟩) (l := ⟨2, .ident "x"⟩) (ks := []) (b1 := false) rfl .nil rfl
    have h1 : Rw (resolver sameName false) false [1] (.node ⟨3, .const (.int 1)⟩ []) ⟨[], [], none⟩
        (.node ⟨3, .const (.int 1)⟩ []) ⟨[], [], none⟩ false :=
      rw_node (s1 := ⟨[], [], none⟩) (l := ⟨3, .const (.int 1)⟩) (ks := []) (b1 := false) rfl .nil rfl
    exact rw_node (s1 := ⟨[], [], none⟩) (s2 := ⟨[], [], none⟩) (l := ⟨1, .call "f"⟩)
      (ks := [.node ⟨2, .ident "x"⟩ [], .node ⟨3, .const (.int 1)⟩ []])
      (ks1 := [.node ⟨2, .ident "x"⟩ [], .node ⟨3, .const (.int 1)⟩ []])
      (b1 := false) (b2 := false) (b3 := true) rfl
      (rw_kid (done := []) (b1 := false) (b2 := false) rfl hx
        (rw_kid (b1 := false) (b2 := false) rfl h1 .nil)) rfl

/-- In the container `p`: `p.q.g` with one argument, the variable `p.v`, the enum constant `E.A`. -/
def sampleEnv : Env String :=
  ⟨"p", reg [("p.q.g", 1), ("_+_", 2)], fun i =>
    if i = 4 then some ⟨"p.v", [], none⟩ else if i = 6 then some ⟨"E.A", [], some (.int 7)⟩ else none⟩

/-- `q.g(v) + E.A` -/
def sampleExpr : NExpr :=
  .node ⟨1, .call "_+_"⟩ [.absent,
    .node ⟨2, .call "g"⟩ [.node ⟨3, .ident "q"⟩ [], .node ⟨4, .ident "v"⟩ []],
    .node ⟨6, .select "A" false⟩ [.node ⟨5, .ident "E"⟩ []]]

/-- The hypotheses of `C84_resolves` hold for `q.g(v) + E.A`, which becomes `p.q.g(p.v) + 7`. -/
theorem C84_example :
    sampleExpr.present = true ∧ WFC sampleExpr ∧ DistinctIds sampleExpr ∧
    ∃ N, ∀ fuel, N ≤ fuel → resolveReferences sampleEnv true sampleExpr fuel = some ([],
      .node ⟨1, .call "_+_"⟩ [.absent,
        .node ⟨2, .call "p.q.g"⟩ [.absent, .node ⟨4, .ident "p.v"⟩ []],
        .node ⟨6, .const (.int 7)⟩ []], .ok true) := by
  have hw : WFC sampleExpr := by simp [sampleExpr, WFC, WFCs, CShape, Tree.present]
  refine ⟨rfl, hw, ?_, ?_⟩
  · simp [DistinctIds, sampleExpr, ids, idsKids]
  · refine resolve_of_rw (s' := ⟨[4], [], none⟩) rfl hw ?_
    have hq : Rw (resolver sampleEnv true) false [1, 0] (.node ⟨3, .ident "q"⟩ []) ⟨[], [], none⟩
        (.node ⟨3, .ident "q"⟩ []) ⟨[], [], none⟩ false :=
      rw_node (s1 := ⟨[], [], none⟩) (l := ⟨3, .ident "q"⟩) (ks := []) (b1 := false) rfl .nil rfl
    have hv : Rw (resolver sampleEnv true) false [1, 1] (.node ⟨4, .ident "v"⟩ []) ⟨[], [], none⟩
        (.node ⟨4, .ident "p.v"⟩ []) ⟨[4], [], none⟩ true :=
      rw_node (s1 := ⟨[4], [], none⟩) (l := ⟨4, .ident "p.v"⟩) (ks := []) (b1 := true) rfl .nil rfl
    have hg : Rw (resolver sampleEnv true) false [1]
        (.node ⟨2, .call "g"⟩ [.node ⟨3, .ident "q"⟩ [], .node ⟨4, .ident "v"⟩ []]) ⟨[], [], none⟩
        (.node ⟨2, .call "p.q.g"⟩ [.absent, .node ⟨4, .ident "p.v"⟩ []]) ⟨[4], [], none⟩ true :=
      rw_node (s1 := ⟨[], [], none⟩) (s2 := ⟨[4], [], none⟩) (l := ⟨2, .call "g"⟩)
        (ks := [.node ⟨3, .ident "q"⟩ [], .node ⟨4, .ident "v"⟩ []])
        (ks1 := [.node ⟨3, .ident "q"⟩ [], .node ⟨4, .ident "p.v"⟩ []])
        (b1 := false) (b2 := true) (b3 := true) rfl
        (rw_kid (done := []) (b1 := false) (b2 := true) rfl hq
          (rw_kid (b1 := true) (b2 := false) rfl hv .nil)) rfl
    have he : Rw (resolver sampleEnv true) false [2]
        (.node ⟨6, .select "A" false⟩ [.node ⟨5, .ident "E"⟩ []]) ⟨[4], [], none⟩
        (.node ⟨6, .const (.int 7)⟩ []) ⟨[4], [], none⟩ true :=
      rw_node (s1 := ⟨[4], [], none⟩) (l := ⟨6, .const (.int 7)⟩) (ks := []) (b1 := true) rfl .nil rfl
    exact rw_node (s1 := ⟨[], [], none⟩) (s2 := ⟨[4], [], none⟩) (l := ⟨1, .call "_+_"⟩)
      (ks := [.absent, .node ⟨2, .call "g"⟩ [.node ⟨3, .ident "q"⟩ [], .node ⟨4, .ident "v"⟩ []],
        .node ⟨6, .select "A" false⟩ [.node ⟨5, .ident "E"⟩ []]])
      (ks1 := [.absent, .node ⟨2, .call "p.q.g"⟩ [.absent, .node ⟨4, .ident "p.v"⟩ []],
        .node ⟨6, .const (.int 7)⟩ []])
      (b1 := false) (b2 := true) (b3 := false) rfl
      (.unset (rw_kid (b1 := true) (b2 := true) rfl hg (rw_kid (b1 := true) (b2 := false) rfl he .nil))) rfl

/-- The hypotheses of `C84_planned` hold for `q.g` in that container. -/
theorem C84_planned_example :
    isSpecialFunction "q.g" = false ∧ "q.g".toList.head? ≠ some '.' ∧ NotDoubled sampleEnv "q.g" 1 ∧
    functionFor sampleEnv "q.g" 1 = some "p.q.g" := by
  refine ⟨rfl, by decide, ?_, ?_⟩
  · intro n hn m hm hne ho
    have hn : n ∈ ["p.q.g", "q.g"] := hn
    simp only [List.mem_cons, List.not_mem_nil, or_false] at hn
    rcases hn with rfl | rfl
    · have hm : m ∈ ["p.p.q.g", "p.q.g"] := hm
      simp only [List.mem_cons, List.not_mem_nil, or_false] at hm
      rcases hm with rfl | rfl
      · rcases ho with ⟨d, f, h⟩ | ⟨d, h⟩
        · have h : (d, f) ∈ ([] : List (Desc × String)) := h; simp at h
        · have h : d ∈ ([] : List Desc) := h; simp at h
      · exact hne (by decide)
    · exact hne hm
  · rw [← best_eq]; rfl

end Cel.Refs
