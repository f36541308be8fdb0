import Verif.Features.Model
import Verif.Features.Spec

/-!
# The selection loops
-/

namespace Verif.Features

/-- The selected positions among the `n` from `i`. -/
def pickedFrom (sel : Nat → Bool) (i n : Nat) : List Nat := (List.range' i n).filter sel

theorem pickedFrom_zero (sel : Nat → Bool) (n : Nat) : pickedFrom sel 0 n = picked sel n := by
  simp [pickedFrom, picked, List.range_eq_range']

theorem pickedFrom_succ (sel : Nat → Bool) (i n : Nat) :
    pickedFrom sel i (n + 1) = if sel i then i :: pickedFrom sel (i + 1) n else pickedFrom sel (i + 1) n := by
  simp only [pickedFrom, List.range'_succ, List.filter_cons]

theorem mem_picked {sel : Nat → Bool} {n i : Nat} : i ∈ picked sel n ↔ i < n ∧ sel i = true := by
  simp [picked]

theorem countLoop_eq (sel : Nat → Bool) (n i dim : Nat) : countLoop sel n i dim = dim + (pickedFrom sel i n).length := by
  induction n generalizing i dim with
  | zero => simp [countLoop, pickedFrom]
  | succ n ih =>
    rw [countLoop, ih, pickedFrom_succ]
    cases sel i <;> simp; omega

theorem countLoop_zero (sel : Nat → Bool) (n : Nat) : countLoop sel n 0 0 = (picked sel n).length := by
  rw [countLoop_eq, pickedFrom_zero]; omega

theorem fillLoop_ok {α : Type} {sel : Nat → Bool} {f : Nat → Outcome α} {g : Nat → α} (n i curr : Nat) (res : List α)
    (hf : ∀ k ∈ pickedFrom sel i n, f k = .ok (g k)) (hlen : curr + (pickedFrom sel i n).length ≤ res.length) :
    fillLoop sel f n i curr res =
      .ok (res.take curr ++ (pickedFrom sel i n).map g ++ res.drop (curr + (pickedFrom sel i n).length)) := by
  induction n generalizing i curr res with
  | zero => simp [fillLoop, pickedFrom]
  | succ n ih =>
    rw [pickedFrom_succ] at hf hlen ⊢
    rw [fillLoop]
    cases hs : sel i with
    | false =>
      simp only [hs, Bool.false_eq_true, if_false] at hf hlen ⊢
      exact ih _ _ _ hf hlen
    | true =>
      simp only [hs, if_true, List.length_cons] at hf hlen ⊢
      have hc : curr < res.length := by omega
      rw [hf i (by simp), Outcome.bind_ok, wr_of_lt _ _ _ hc, Outcome.bind_ok,
        ih _ _ _ (fun k hk => hf k (by simp [hk])) (by simp only [List.length_set]; omega)]
      congr 1
      have h1 : (res.set curr (g i)).take (curr + 1) = res.take curr ++ [g i] := by
        rw [List.take_succ_eq_append_getElem (by simpa using hc)]
        simp [List.take_set_of_le]
      have h2 : (res.set curr (g i)).drop (curr + 1 + (pickedFrom sel (i + 1) n).length) =
          res.drop (curr + ((pickedFrom sel (i + 1) n).length + 1)) := by
        rw [List.drop_set_of_lt (by omega)]
        congr 1; omega
      rw [h1, h2]
      simp

theorem fillLoop_exact {α : Type} {sel : Nat → Bool} {f : Nat → Outcome α} {g : Nat → α} (n : Nat) (res : List α)
    (hf : ∀ k ∈ picked sel n, f k = .ok (g k)) (hlen : res.length = (picked sel n).length) :
    fillLoop sel f n 0 0 res = .ok ((picked sel n).map g) := by
  rw [← pickedFrom_zero] at hf hlen ⊢
  rw [fillLoop_ok n 0 0 res hf (by omega)]
  simp [← hlen]

/-- A value that can not be read makes the loop undefined. -/
theorem fillLoop_ub {α : Type} {sel : Nat → Bool} {f : Nat → Outcome α} (hf : ∀ k, f k ≠ .throw) (n i curr : Nat)
    (res : List α) {k : Nat} (hk : k ∈ pickedFrom sel i n) (hub : f k = .ub) : fillLoop sel f n i curr res = .ub := by
  induction n generalizing i curr res with
  | zero => simp [pickedFrom] at hk
  | succ n ih =>
    rw [pickedFrom_succ] at hk
    rw [fillLoop]
    cases hs : sel i with
    | false =>
      simp only [hs, Bool.false_eq_true, if_false] at hk ⊢
      exact ih _ _ _ hk
    | true =>
      simp only [hs, if_true, List.mem_cons] at hk ⊢
      rcases hk with rfl | hk
      · rw [hub]; rfl
      · cases h : f i with
        | throw => exact absurd h (hf i)
        | ub => rfl
        | ok x =>
          rw [Outcome.bind_ok, wr]
          split_ifs
          · rw [Outcome.bind_ok]; exact ih _ _ _ hk
          · rfl

/-- Too many values make the loop undefined. -/
theorem fillLoop_overflow {α : Type} {sel : Nat → Bool} {f : Nat → Outcome α} (hf : ∀ k, f k ≠ .throw) (n i curr : Nat)
    (res : List α) (hcr : curr ≤ res.length) (hlen : res.length < curr + (pickedFrom sel i n).length) :
    fillLoop sel f n i curr res = .ub := by
  induction n generalizing i curr res with
  | zero => simp [pickedFrom] at hlen; omega
  | succ n ih =>
    rw [pickedFrom_succ] at hlen
    rw [fillLoop]
    cases hs : sel i with
    | false =>
      simp only [hs, Bool.false_eq_true, if_false] at hlen ⊢
      exact ih _ _ _ hcr hlen
    | true =>
      simp only [hs, if_true, List.length_cons] at hlen ⊢
      cases h : f i with
      | throw => exact absurd h (hf i)
      | ub => rfl
      | ok x =>
        rw [Outcome.bind_ok, wr]
        split_ifs with hc
        · rw [Outcome.bind_ok]
          exact ih _ _ _ (by simp only [List.length_set]; omega) (by simp only [List.length_set]; omega)
        · rfl

theorem jacLoop_ok {α : Type} {sel : Nat → Bool} {row : Nat → Outcome α} {g : Nat → α} (n i curr fuel : Nat)
    (res : List α) (hn : n ≤ fuel) (hf : ∀ k ∈ pickedFrom sel i n, row k = .ok (g k))
    (hlen : curr + (pickedFrom sel i n).length = res.length) :
    jacLoop sel row fuel i curr res.length res = some (.ok (res.take curr ++ (pickedFrom sel i n).map g)) := by
  induction n generalizing i curr fuel res with
  | zero =>
    have : ¬ curr < res.length := by simp [pickedFrom] at hlen; omega
    cases fuel <;> simp [jacLoop, this, pickedFrom, List.take_of_length_le (Nat.le_of_not_lt this)]
  | succ n ih =>
    obtain ⟨fuel, rfl⟩ : ∃ k, fuel = k + 1 := ⟨fuel - 1, by omega⟩
    rw [pickedFrom_succ] at hf hlen ⊢
    rw [jacLoop]
    cases hs : sel i with
    | false =>
      simp only [hs, Bool.false_eq_true, if_false] at hf hlen ⊢
      by_cases hc : curr < res.length
      · rw [if_pos hc]; exact ih _ _ _ _ (by omega) hf hlen
      · have h0 : (pickedFrom sel (i + 1) n) = [] := by
          apply List.eq_nil_of_length_eq_zero; omega
        rw [if_neg hc, h0, List.take_of_length_le (by omega)]
        simp
    | true =>
      simp only [hs, if_true, List.length_cons] at hf hlen ⊢
      have hc : curr < res.length := by omega
      rw [if_pos hc, hf i (by simp)]
      simp only [wr_of_lt _ _ _ hc]
      have := ih (i + 1) (curr + 1) fuel (res.set curr (g i)) (by omega) (fun k hk => hf k (by simp [hk]))
        (by simp only [List.length_set]; omega)
      rw [List.length_set] at this
      rw [this]
      have h1 : (res.set curr (g i)).take (curr + 1) = res.take curr ++ [g i] := by
        rw [List.take_succ_eq_append_getElem (by simpa using hc)]
        simp [List.take_set_of_le]
      rw [h1]; simp

theorem rd_getD {α : Type} (v : List α) (i : Nat) (d : α) (h : i < v.length) : rd v i = .ok (v.getD i d) := by
  rw [rd_of_lt _ _ h]; simp [List.getD, List.getElem?_eq_getElem h]

theorem rd_ne_throw {α : Type} (v : List α) (i : Nat) : rd v i ≠ .throw := by
  unfold rd; cases v[i]? <;> simp

end Verif.Features
