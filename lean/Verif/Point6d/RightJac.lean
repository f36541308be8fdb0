import Verif.Point6d.Model
import Verif.Point6d.Rotation

/-!
# The right Jacobian of the rotation vectors and the matrix the code inverts
-/

namespace Verif.Point6d

open Matrix Verif.Geometry

theorem skew_sq (e : Fin 3 → ℝ) : skew e * skew e = !![-(e 1 ^ 2 + e 2 ^ 2), e 0 * e 1, e 0 * e 2; e 0 * e 1, -(e 0 ^ 2 + e 2 ^ 2),
    e 1 * e 2; e 0 * e 2, e 1 * e 2, -(e 0 ^ 2 + e 1 ^ 2)] := by
  ext i j
  fin_cases i <;> fin_cases j <;> simp [skew, mul_apply, Fin.sum_univ_three] <;> ring

theorem rightJac_self (e : Fin 3 → ℝ) : rightJac e *ᵥ e = e := by
  simp only [rightJac]
  rw [add_mulVec, sub_mulVec, smul_mulVec, smul_mulVec, one_mulVec, ← mulVec_mulVec, skew_self, mulVec_zero]
  simp

theorem det_poly (a b : ℝ) (e : Fin 3 → ℝ) :
    (1 - a • skew e + b • (skew e * skew e)).det = (1 - b * (e ⬝ᵥ e)) ^ 2 + a ^ 2 * (e ⬝ᵥ e) := by
  rw [skew_sq]
  simp [det_fin_three, skew, dotProduct, Fin.sum_univ_three]
  ring

theorem dot_self_nonneg (e : Fin 3 → ℝ) : 0 ≤ e ⬝ᵥ e := by
  simp only [dotProduct, Fin.sum_univ_three]
  nlinarith [mul_self_nonneg (e 0), mul_self_nonneg (e 1), mul_self_nonneg (e 2)]

theorem eq_zero_of_dot (e : Fin 3 → ℝ) (h : e ⬝ᵥ e = 0) : e = 0 := by
  simp only [dotProduct, Fin.sum_univ_three] at h
  have h0 := mul_self_nonneg (e 0)
  have h1 := mul_self_nonneg (e 1)
  have h2 := mul_self_nonneg (e 2)
  funext i
  fin_cases i
  · exact mul_self_eq_zero.mp (by change e 0 * e 0 = 0; linarith)
  · exact mul_self_eq_zero.mp (by change e 1 * e 1 = 0; linarith)
  · exact mul_self_eq_zero.mp (by change e 2 * e 2 = 0; linarith)

/-- The determinant of the right Jacobian, for a rotation vector of length `th`. -/
theorem det_rightJac (e : Fin 3 → ℝ) (h : e ≠ 0) :
    (rightJac e).det = 2 * (1 - Real.cos (Real.sqrt (e ⬝ᵥ e))) / (e ⬝ᵥ e) := by
  have h0 := dot_self_nonneg e
  have h1 : e ⬝ᵥ e ≠ 0 := fun c => h (eq_zero_of_dot e c)
  have hs := Real.sq_sqrt h0
  have hp : Real.sqrt (e ⬝ᵥ e) ≠ 0 := fun c => h1 (by rw [← hs, c]; ring)
  simp only [rightJac]
  rw [det_poly]
  have hcs := Real.sin_sq_add_cos_sq (Real.sqrt (e ⬝ᵥ e))
  generalize Real.sqrt (e ⬝ᵥ e) = th at *
  rw [← hs]
  field_simp
  linear_combination hcs

theorem det_rightJac_ne (e : Fin 3 → ℝ) (h : Real.sqrt (e ⬝ᵥ e) < 2 * Real.pi) : (rightJac e).det ≠ 0 := by
  by_cases h0 : e = 0
  · rw [h0, rightJac_zero, det_one]; exact one_ne_zero
  · rw [det_rightJac e h0]
    have h1 : e ⬝ᵥ e ≠ 0 := fun c => h0 (eq_zero_of_dot e c)
    refine div_ne_zero (mul_ne_zero two_ne_zero fun hc => ?_) h1
    have hc' : Real.cos (Real.sqrt (e ⬝ᵥ e)) = 1 := by linarith
    rw [Real.cos_eq_one_iff_of_lt_of_lt (by linarith [Real.sqrt_nonneg (e ⬝ᵥ e), Real.pi_pos]) h] at hc'
    exact h1 ((Real.sqrt_eq_zero (dot_self_nonneg e)).mp hc')

theorem rightJac_inj (e x y : Fin 3 → ℝ) (h : Real.sqrt (e ⬝ᵥ e) < 2 * Real.pi) (hx : rightJac e *ᵥ x = rightJac e *ᵥ y) : x = y := by
  have hu : IsUnit (rightJac e).det := (det_rightJac_ne e h).isUnit
  have := congrArg (fun v => (rightJac e)⁻¹ *ᵥ v) hx
  simpa [mulVec_mulVec, nonsing_inv_mul _ hu] using this

/-- The matrix of the code is the right Jacobian of the rotation vector, except near zero where it is the identity. -/
theorem rodriguesP_eq (acc : ℝ) (hacc : 0 < acc) (r : Fin 3 → ℝ) :
    rodriguesP acc r = if r ⬝ᵥ r < acc then 1 else rightJac r := by
  have hn : r 2 * r 2 + r 1 * r 1 + r 0 * r 0 = r ⬝ᵥ r := by simp only [dotProduct, Fin.sum_univ_three]; ring
  simp only [rodriguesP]
  rw [hn]
  split_ifs with h
  · rfl
  · have h0 : 0 < r ⬝ᵥ r := lt_of_lt_of_le hacc (not_lt.mp h)
    have hs := Real.sq_sqrt h0.le
    have hp : Real.sqrt (r ⬝ᵥ r) ≠ 0 := (Real.sqrt_pos.mpr h0).ne'
    simp only [rightJac]
    rw [skew_sq]
    generalize Real.sqrt (r ⬝ᵥ r) = n at *
    have hn2 : n ^ 2 = r 0 ^ 2 + r 1 ^ 2 + r 2 ^ 2 := by rw [hs, ← hn]; ring
    generalize Real.sin n = s
    generalize Real.cos n = c
    have hd : r 2 * r 2 * (r 2 * r 2) + (2 * (r 1 * r 1) + 2 * (r 0 * r 0)) * (r 2 * r 2) + r 1 * r 1 * (r 1 * r 1) +
        2 * (r 0 * r 0) * (r 1 * r 1) + r 0 * r 0 * (r 0 * r 0) = n ^ 4 := by
      rw [show n ^ 4 = (n ^ 2) ^ 2 by ring, hn2]; ring
    rw [hd]
    clear hs hn hd
    ext i j
    fin_cases i <;> fin_cases j <;> simp [skew] <;> field_simp <;> grind

end Verif.Point6d
