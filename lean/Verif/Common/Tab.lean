import Verif.Common.Outcome

/-!
# Index loops that fill a vector

`for (i = 0; i < n; ++i) res(i) = f(i)` for a body that can fail.
-/

namespace Verif

/-- The loop from index `i`, with `n` turns left. -/
def tabFrom {α : Type} (f : Nat → Outcome α) : Nat → Nat → Outcome (List α)
  | _, 0 => .ok []
  | i, n + 1 => (f i).bind fun x => (tabFrom f (i + 1) n).map (x :: ·)

/-- The loop over `0 .. n-1`. -/
def tab {α : Type} (n : Nat) (f : Nat → Outcome α) : Outcome (List α) := tabFrom f 0 n

theorem tabFrom_ok {α : Type} {f : Nat → Outcome α} {g : Nat → α} {i n : Nat}
    (h : ∀ k, i ≤ k → k < i + n → f k = .ok (g k)) :
    tabFrom f i n = .ok ((List.range' i n).map g) := by
  induction n generalizing i with
  | zero => rfl
  | succ n ih =>
    rw [tabFrom, h i (Nat.le_refl _) (by omega), Outcome.bind_ok,
      ih (fun k h1 h2 => h k (by omega) (by omega))]
    rfl

theorem tab_ok {α : Type} {f : Nat → Outcome α} {g : Nat → α} {n : Nat}
    (h : ∀ k, k < n → f k = .ok (g k)) : tab n f = .ok ((List.range n).map g) := by
  rw [tab, tabFrom_ok (g := g) (fun k _ h2 => h k (by omega)), List.range_eq_range']

theorem tabFrom_eq_ok {α : Type} {f : Nat → Outcome α} {i n : Nat} {r : List α} :
    tabFrom f i n = .ok r ↔ r.length = n ∧ ∀ k (hk : k < r.length), f (i + k) = .ok r[k] := by
  induction n generalizing i r with
  | zero =>
    simp only [tabFrom, Outcome.ok.injEq]
    constructor
    · rintro rfl; simp
    · rintro ⟨h, -⟩; exact (List.eq_nil_of_length_eq_zero h).symm
  | succ n ih =>
    simp only [tabFrom, Outcome.bind_eq_ok, Outcome.map_eq_ok, ih]
    constructor
    · rintro ⟨a, ha, r', ⟨hl, hr⟩, rfl⟩
      refine ⟨by simp [hl], ?_⟩
      intro k hk
      cases k with
      | zero => simpa using ha
      | succ k =>
        have := hr k (by simpa using hk)
        simpa [Nat.add_assoc, Nat.add_comm 1] using this
    · rintro ⟨hl, hr⟩
      cases r with
      | nil => simp at hl
      | cons a r' =>
        refine ⟨a, hr 0 (by simp), r', ⟨by simpa using hl, ?_⟩, rfl⟩
        intro k hk
        have := hr (k + 1) (by simpa using hk)
        simpa [Nat.add_assoc, Nat.add_comm 1] using this

theorem tab_eq_ok {α : Type} {f : Nat → Outcome α} {n : Nat} {r : List α} :
    tab n f = .ok r ↔ r.length = n ∧ ∀ k (hk : k < r.length), f k = .ok r[k] := by
  rw [tab, tabFrom_eq_ok]
  simp

theorem tabFrom_total {α : Type} {f : Nat → Outcome α} {i n : Nat}
    (h : ∀ k, i ≤ k → k < i + n → ∃ a, f k = .ok a) : ∃ r, tabFrom f i n = .ok r := by
  induction n generalizing i with
  | zero => exact ⟨[], rfl⟩
  | succ n ih =>
    obtain ⟨a, ha⟩ := h i (Nat.le_refl _) (by omega)
    obtain ⟨r, hr⟩ := ih (i := i + 1) (fun k h1 h2 => h k (by omega) (by omega))
    exact ⟨a :: r, by rw [tabFrom, ha, Outcome.bind_ok, hr]; rfl⟩

theorem tab_total {α : Type} {f : Nat → Outcome α} {n : Nat}
    (h : ∀ k, k < n → ∃ a, f k = .ok a) : ∃ r, tab n f = .ok r :=
  tabFrom_total (fun k _ h2 => h k (by omega))

theorem tabFrom_ub {α : Type} {f : Nat → Outcome α} {i n k : Nat}
    (h : ∀ j, i ≤ j → j < k → ∃ a, f j = .ok a) (hk1 : i ≤ k) (hk2 : k < i + n) (hu : f k = .ub) :
    tabFrom f i n = .ub := by
  induction n generalizing i with
  | zero => omega
  | succ n ih =>
    by_cases e : i = k
    · subst e; rw [tabFrom, hu]; rfl
    · obtain ⟨a, ha⟩ := h i (Nat.le_refl _) (by omega)
      rw [tabFrom, ha, Outcome.bind_ok, ih (fun j h1 h2 => h j (by omega) h2) (by omega) (by omega)]
      rfl

theorem tab_ub {α : Type} {f : Nat → Outcome α} {n k : Nat}
    (h : ∀ j, j < k → ∃ a, f j = .ok a) (hk : k < n) (hu : f k = .ub) : tab n f = .ub :=
  tabFrom_ub (fun j _ h2 => h j h2) (by omega) (by omega) hu

end Verif
