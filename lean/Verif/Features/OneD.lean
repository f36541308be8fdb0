import Verif.Features.Lemmas
import Mathlib.Analysis.Calculus.Deriv.Mul
import Mathlib.Analysis.Calculus.Deriv.Add
import Mathlib.Data.Real.Basic
import Mathlib.Algebra.BigOperators.Fin
import Mathlib.Algebra.BigOperators.Field
import Mathlib.Tactic.Linarith
import Mathlib.Tactic.NormNum
import Mathlib.Tactic.LinearCombination

/-!
# C53: the one-dimensional feature
-/

namespace Verif.Features

open Finset

theorem oneLoop_ok (err col : List ℝ) (i : Nat) (acc : ℝ) (h : i + col.length ≤ err.length) :
    oneLoop err col i acc = .ok (acc + ∑ k : Fin col.length, err.getD (i + k) 0 * col[k]) := by
  induction col generalizing i acc with
  | nil => simp [oneLoop]
  | cons c col ih =>
    simp only [List.length_cons] at h
    rw [oneLoop, rd_getD _ _ 0 (by omega), Outcome.bind_ok, ih _ _ (by omega)]
    congr 1
    have := Fin.sum_univ_succ (n := col.length) (fun k => err.getD (i + k) 0 * (c :: col)[k])
    simp only [Fin.val_zero, Nat.add_zero, Fin.val_succ, Fin.getElem_fin] at this
    simp only [Fin.getElem_fin, List.length_cons]
    rw [this]
    simp only [List.getElem_cons_zero, List.getElem_cons_succ]
    have : ∀ k : Fin col.length, i + 1 + (k : Nat) = i + (k + 1) := fun k => by omega
    simp only [this]
    ring

/-- The error is half the squared norm of the input error. -/
theorem C53_error {n : Nat} (e : Fin n → ℝ) : oneError (List.ofFn e) = (∑ i, e i ^ 2) / 2 := by
  unfold oneError
  rw [List.zipWith_self, List.map_ofFn, List.sum_ofFn]
  simp only [Function.comp]
  rw [mul_one_div]
  congr 1
  exact Finset.sum_congr rfl fun i _ => (sq _).symm

/-- The error is never negative, and zero exactly when the input error is. -/
theorem C53_nonneg {n : Nat} (e : Fin n → ℝ) :
    0 ≤ oneError (List.ofFn e) ∧ (oneError (List.ofFn e) = 0 ↔ e = 0) := by
  rw [C53_error]
  have h0 : 0 ≤ ∑ i, e i ^ 2 := Finset.sum_nonneg fun i _ => sq_nonneg _
  refine ⟨by linarith, ?_⟩
  constructor
  · intro h
    have h1 : ∑ i, e i ^ 2 = 0 := by linarith
    rw [Finset.sum_eq_zero_iff_of_nonneg fun i _ => sq_nonneg _] at h1
    funext i
    have := h1 i (Finset.mem_univ i)
    exact pow_eq_zero_iff (two_ne_zero) |>.mp this
  · rintro rfl; simp

/-- The Jacobian is the product of the error, as a row, and the input Jacobian. -/
theorem C53_jacobian {n m : Nat} (e : Fin n → ℝ) (J : Fin n → Fin m → ℝ) :
    oneJacobian (List.ofFn e) (List.ofFn fun j => List.ofFn fun i => J i j) =
      .ok (List.ofFn fun j => ∑ i, e i * J i j) := by
  induction m with
  | zero => simp [oneJacobian]
  | succ m ih =>
    rw [List.ofFn_succ, oneJacobian, oneLoop_ok _ _ _ _ (by simp), Outcome.bind_ok]
    have := ih (fun i j => J i j.succ)
    rw [this, Outcome.map_ok, List.ofFn_succ]
    congr 2
    rw [zero_add]
    have hlen : (List.ofFn fun i => J i 0).length = n := by simp
    refine Fintype.sum_equiv (finCongr hlen) _ _ fun k => ?_
    have hk : (k : Nat) < n := by have := k.2; omega
    simp [List.getD, List.getElem?_ofFn, hk]
    rfl

/-- Along any motion, when the input Jacobian gives the derivative of the input error, the Jacobian of the feature gives
the derivative of its error. -/
theorem C53_derivative {n m : Nat} (e : ℝ → Fin n → ℝ) (J : Fin n → Fin m → ℝ) (v : Fin m → ℝ) (t : ℝ)
    (he : ∀ i, HasDerivAt (fun s => e s i) (∑ j, J i j * v j) t) :
    ∃ g : Fin m → ℝ, oneJacobian (List.ofFn (e t)) (List.ofFn fun j => List.ofFn fun i => J i j) = .ok (List.ofFn g) ∧
      HasDerivAt (fun s => oneError (List.ofFn (e s))) (∑ j, g j * v j) t := by
  refine ⟨_, C53_jacobian (e t) J, ?_⟩
  simp only [C53_error]
  have h1 : HasDerivAt (fun s => ∑ i, e s i ^ 2) (∑ i, 2 * e t i * ∑ j, J i j * v j) t := by
    apply HasDerivAt.fun_sum
    intro i _
    have := (he i).mul (he i)
    have e1 : (fun s => e s i ^ 2) = fun s => e s i * e s i := by funext s; ring
    rw [e1]
    exact this.congr_deriv (by ring)
  have h2 := h1.div_const 2
  refine h2.congr_deriv ?_
  rw [Finset.sum_div]
  have h3 : ∀ i, 2 * e t i * (∑ j, J i j * v j) / 2 = ∑ j, e t i * J i j * v j := by
    intro i
    rw [Finset.mul_sum, Finset.sum_div]
    exact Finset.sum_congr rfl fun j _ => by ring
  simp only [h3, Finset.sum_mul]
  rw [Finset.sum_comm]

/-- An error shorter than the Jacobian is read out of range. -/
theorem C53_short_error : oneJacobian [] [[(1 : ℝ)]] = .ub := by simp [oneJacobian, oneLoop, rd]

/-- A concrete case: the error (3, 4) and a Jacobian of one column. -/
example : oneError (List.ofFn ![(3 : ℝ), 4]) = 25 / 2 ∧
    oneJacobian (List.ofFn ![(3 : ℝ), 4]) (List.ofFn fun _ : Fin 1 => List.ofFn fun i => ![(1 : ℝ), 2] i) = .ok [11] := by
  constructor
  · rw [C53_error]; norm_num [Fin.sum_univ_two]
  · rw [C53_jacobian _ (fun i (_ : Fin 1) => ![(1 : ℝ), 2] i)]; norm_num [Fin.sum_univ_two]

end Verif.Features
