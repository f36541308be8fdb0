/-!
# Small list facts used by several areas
-/

namespace Verif

/-- Induction on a list from its end, for histories. -/
theorem snoc_induction {α : Type} {P : List α → Prop} (nil : P [])
    (snoc : ∀ l a, P l → P (l ++ [a])) : ∀ l, P l := by
  intro l
  have h : ∀ r : List α, P r.reverse := by
    intro r
    induction r with
    | nil => simpa using nil
    | cons a r ih => rw [List.reverse_cons]; exact snoc _ _ ih
  simpa using h l.reverse

/-- How a list ended by `a` can be split around an element. -/
theorem concat_eq_append_cons {α : Type} {l pre post : List α} {a b : α} :
    l ++ [a] = pre ++ b :: post ↔
      (post = [] ∧ l = pre ∧ a = b) ∨ (∃ post', post = post' ++ [a] ∧ l = pre ++ b :: post') := by
  constructor
  · intro h
    rcases List.eq_nil_or_concat post with rfl | ⟨post', x, rfl⟩
    · left
      have := List.append_inj' (s₁ := l) (t₁ := [a]) (s₂ := pre) (t₂ := [b]) h (by simp)
      exact ⟨rfl, this.1, by simpa using this.2⟩
    · right
      have h' : l ++ [a] = (pre ++ b :: post') ++ [x] := by simpa using h
      have := List.append_inj' h' (by simp)
      have hx : a = x := by simpa using this.2
      exact ⟨post', by simp [hx], this.1⟩
  · rintro (⟨rfl, rfl, rfl⟩ | ⟨post', rfl, rfl⟩) <;> simp

end Verif
