import Verif.Growth.Model

/-!
# The check looks at every comprehension
-/

set_option linter.unusedVariables false

namespace Cel.Growth

mutual
/-- `s` is a part of the expression. -/
inductive Part (s : X) : X → Prop
  | here : Part s s
  | select {e f t} : Part s e → Part s (.select e f t)
  | target {fn t args} : PartAny s t → Part s (.call fn t args)
  | arg {fn t args} : PartAny s args → Part s (.call fn t args)
  | elem {es} : PartAny s es → Part s (.list es)
  | field {ty vs} : PartAny s vs → Part s (.struct ty vs)
  | key {ks vs} : PartAny s ks → Part s (.map ks vs)
  | value {ks vs} : PartAny s vs → Part s (.map ks vs)
  | range {i j a r n c t v} : Part s r → Part s (.comp i j a r n c t v)
  | init {i j a r n c t v} : Part s n → Part s (.comp i j a r n c t v)
  | cond {i j a r n c t v} : Part s c → Part s (.comp i j a r n c t v)
  | step {i j a r n c t v} : Part s t → Part s (.comp i j a r n c t v)
  | result {i j a r n c t v} : Part s v → Part s (.comp i j a r n c t v)
inductive PartAny (s : X) : Xs → Prop
  | head {e es} : Part s e → PartAny s (.cons e es)
  | tail {e es} : PartAny s es → PartAny s (.cons e es)
end

/-- A loop the check objects to. -/
def Bad (s : X) : Prop := ∃ i j a r n c t v, s = .comp i j a r n c t v ∧ refs a t ≥ 2

mutual
theorem passes_sound {s : X} : ∀ {e : X}, Part s e → passes e = true → ¬ Bad s
  | _, .here, h => by
      rintro ⟨i, j, a, r, n, c, t, v, rfl, hb⟩
      simp [passes, vulnerable] at h
      omega
  | _, .select p, h => passes_sound p (by simpa [passes] using h)
  | _, .target p, h => passesAll_sound p (by simp [passes] at h; exact h.1)
  | _, .arg p, h => passesAll_sound p (by simp [passes] at h; exact h.2)
  | _, .elem p, h => passesAll_sound p (by simpa [passes] using h)
  | _, .field p, h => passesAll_sound p (by simpa [passes] using h)
  | _, .key p, h => passesAll_sound p (by simp [passes] at h; exact h.1)
  | _, .value p, h => passesAll_sound p (by simp [passes] at h; exact h.2)
  | _, .range p, h => passes_sound p (by simp [passes] at h; simp [h])
  | _, .init p, h => passes_sound p (by simp [passes] at h; simp [h])
  | _, .cond p, h => passes_sound p (by simp [passes] at h; simp [h])
  | _, .step p, h => passes_sound p (by simp [passes] at h; simp [h])
  | _, .result p, h => passes_sound p (by simp [passes] at h; simp [h])
theorem passesAll_sound {s : X} : ∀ {es : Xs}, PartAny s es → passesAll es = true → ¬ Bad s
  | _, .head p, h => passes_sound p (by simp [passesAll] at h; exact h.1)
  | _, .tail p, h => passesAll_sound p (by simp [passesAll] at h; exact h.2)
end

mutual
theorem passes_complete : ∀ (e : X), (∀ s, Part s e → ¬ Bad s) → passes e = true
  | .unspecified, _ => rfl
  | .const _, _ => rfl
  | .ident _, _ => rfl
  | .select e f t, h => by rw [passes]; exact passes_complete e fun s p => h s (.select p)
  | .call fn t args, h => by
      rw [passes, passesAll_complete t fun s p => h s (.target p), passesAll_complete args fun s p => h s (.arg p)]
      rfl
  | .list es, h => by rw [passes]; exact passesAll_complete es fun s p => h s (.elem p)
  | .struct ty vs, h => by rw [passes]; exact passesAll_complete vs fun s p => h s (.field p)
  | .map ks vs, h => by
      rw [passes, passesAll_complete ks fun s p => h s (.key p), passesAll_complete vs fun s p => h s (.value p)]
      rfl
  | .comp i j a r n c t v, h => by
      rw [passes, passes_complete r fun s p => h s (.range p), passes_complete n fun s p => h s (.init p),
        passes_complete c fun s p => h s (.cond p), passes_complete t fun s p => h s (.step p),
        passes_complete v fun s p => h s (.result p)]
      have hb := h _ .here
      have : ¬ refs a t ≥ 2 := fun hge => hb ⟨i, j, a, r, n, c, t, v, rfl, hge⟩
      simp [vulnerable]
      omega
theorem passesAll_complete : ∀ (es : Xs), (∀ s, PartAny s es → ¬ Bad s) → passesAll es = true
  | .nil, _ => rfl
  | .cons e es, h => by
      rw [passesAll, passes_complete e fun s p => h s (.head p), passesAll_complete es fun s p => h s (.tail p)]
      rfl
end

/-- **C73 (every comprehension is checked).** Planning fails exactly when some comprehension, wherever it occurs in the
expression, references its accumulator at least twice in its loop step. -/
theorem C73_every_comprehension (e : X) : passes e = true ↔ ∀ s, Part s e → ¬ Bad s :=
  ⟨fun h s p => passes_sound p h, passes_complete e⟩

/-- A rejected loop deep inside an accepted-looking expression. -/
example : passes (.call "f" .nil (.cons (.comp "x" "" "a" (.list .nil) (.list .nil) (.const 0)
    (.list (.cons (.ident "a") (.cons (.ident "a") .nil))) (.ident "a")) .nil)) = false := rfl

end Cel.Growth
