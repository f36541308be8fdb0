import Verif.Se3.Jlog
import Mathlib.Analysis.SpecialFunctions.Trigonometric.Bounds

/-!
# Bounds on the derivative of the logarithm of the rigid motions
-/

namespace Verif.Se3

open Matrix Verif.Geometry Verif.Point6d Verif.Spatial

theorem lagrange (a b : Fin 3 → ℝ) : (a ⬝ᵥ b) ^ 2 + skew a *ᵥ b ⬝ᵥ skew a *ᵥ b = (a ⬝ᵥ a) * (b ⬝ᵥ b) := by
  simp [mulVec, dotProduct, Fin.sum_univ_three, skew]
  ring

theorem len_mul (a b : Fin 3 → ℝ) : (len a * len b) ^ 2 = (a ⬝ᵥ a) * (b ⬝ᵥ b) := by rw [mul_pow, len_sq, len_sq]

theorem dot_le_len (a b : Fin 3 → ℝ) : |a ⬝ᵥ b| ≤ len a * len b := by
  apply abs_le_of_sq_le_sq _ (mul_nonneg (len_nonneg a) (len_nonneg b))
  rw [len_mul, ← lagrange]
  linarith [dot_self_nonneg (skew a *ᵥ b)]

theorem skew_len (a b : Fin 3 → ℝ) : len (skew a *ᵥ b) ≤ len a * len b := by
  apply le_of_sq_le_sq _ (mul_nonneg (len_nonneg a) (len_nonneg b))
  rw [len_mul, ← lagrange, len_sq]
  nlinarith [sq_nonneg (a ⬝ᵥ b)]

theorem len_add (a b : Fin 3 → ℝ) : len (a + b) ≤ len a + len b := by
  apply le_of_sq_le_sq _ (add_nonneg (len_nonneg a) (len_nonneg b))
  rw [len_sq, add_sq, len_sq, len_sq, add_dotProduct, dotProduct_add, dotProduct_add, dotProduct_comm b a]
  have := (abs_le.mp (dot_le_len a b)).2
  linarith

theorem len_rot {R : Matrix (Fin 3) (Fin 3) ℝ} (h : IsRot R) (v : Fin 3 → ℝ) : len (R *ᵥ v) = len v := by
  unfold len
  congr 1
  rw [dotProduct_mulVec, ← mulVec_transpose, mulVec_mulVec, h.1, one_mulVec]

theorem rightJac_len (w v : Fin 3 → ℝ) : len (rightJac w *ᵥ v) ≤ len v := by
  rw [← len_rot (isRot_exp3 w), mulVec_mulVec, exp3_rightJac]
  exact leftJac_len w v

/-- The derivative of the coefficient is bounded. -/
theorem betaDot_bound {th : ℝ} (h0 : 0 ≤ th) (h1 : th < Real.pi) : |betaDot th * th ^ 2| ≤ 1 / 4 := by
  rcases h0.eq_or_lt with rfl | h0
  · simp
  set x := th / 2 with hx
  have hth : th = 2 * x := by rw [hx]; ring
  have hx0 : 0 < x := by rw [hx]; linarith
  have hx1 : x < Real.pi / 2 := by rw [hx]; linarith
  have hs : 0 < Real.sin x := Real.sin_pos_of_pos_of_lt_pi hx0 (by linarith [Real.pi_pos])
  have hc : 0 < Real.cos x := Real.cos_pos_of_mem_Ioo ⟨by linarith, hx1⟩
  have hsc := Real.sin_sq_add_cos_sq x
  have e : betaDot th * th ^ 2 = (x ^ 2 + x * Real.sin x * Real.cos x - 2 * Real.sin x ^ 2) / (4 * x ^ 2 * Real.sin x ^ 2) := by
    have e1 : 1 - Real.cos th = 2 * Real.sin x ^ 2 := by rw [hth, Real.cos_two_mul]; linarith
    have e2 : Real.sin th = 2 * Real.sin x * Real.cos x := by rw [hth, Real.sin_two_mul]
    rw [betaDot, e1, e2, hth]
    field_simp
    ring
  have h2 : x * Real.cos x ≤ Real.sin x := by
    have := Real.lt_tan hx0 hx1
    rw [Real.tan_eq_sin_div_cos, lt_div_iff₀ hc] at this
    exact this.le
  have h4 := Real.one_sub_sq_div_two_le_cos (x := x)
  have h5 := Real.sin_le hx0.le
  have h6 : 2 / Real.pi * x ≤ Real.sin x := Real.mul_le_sin hx0.le hx1.le
  have h7 := (Real.sin_gt_sub_cube hx0).le
  have hpi := Real.pi_lt_d2
  have hxs : x ≤ 1.58 * Real.sin x := by
    have hp := Real.pi_pos
    have : x = Real.pi / 2 * (2 / Real.pi * x) := by field_simp
    have h8 : Real.pi / 2 * (2 / Real.pi * x) ≤ Real.pi / 2 * Real.sin x := by gcongr
    nlinarith
  rw [e, abs_div, abs_of_pos (by positivity : 0 < 4 * x ^ 2 * Real.sin x ^ 2), div_le_div_iff₀ (by positivity) (by norm_num)]
  set c := Real.cos x
  set y := Real.sin x
  have hx2 : 0 < x ^ 2 := by positivity
  have k1 : x ^ 2 + x * y * c - 2 * y ^ 2 ≤ x ^ 2 * y ^ 2 := by
    have a1 : x * y * c ≤ y ^ 2 := by nlinarith
    have a2 : (x - y) * (x + y) ≤ x ^ 3 / 6 * (2 * x) := mul_le_mul (by linarith) (by linarith) (by linarith) (by positivity)
    have a3 : x ^ 2 ≤ 2.5 * y ^ 2 := by nlinarith
    nlinarith [mul_le_mul_of_nonneg_left a3 hx2.le]
  have k2 : -(x ^ 2 * y ^ 2) ≤ x ^ 2 + x * y * c - 2 * y ^ 2 := by
    have a1 : y * (x * (1 - x ^ 2 / 2) - x) ≤ y * (x * c - y) := by
      apply mul_le_mul_of_nonneg_left _ hs.le
      have := mul_le_mul_of_nonneg_left h4 hx0.le
      linarith
    have a2 : y ^ 2 ≤ x ^ 2 := by nlinarith
    have a3 : x ^ 2 * y * x ≤ x ^ 2 * y * (1.58 * y) := mul_le_mul_of_nonneg_left hxs (by positivity)
    nlinarith
  have := abs_le.mpr ⟨k2, k1⟩
  linarith

/-- The matrix `C` of `Jlog6` is at most three times as long as the translation. -/
theorem jlogC_len {w : Fin 3 → ℝ} (h : len w < Real.pi) (p x : Fin 3 → ℝ) : len (jlogC w p *ᵥ x) ≤ 3 * len p * len x := by
  have e : jlogC w p *ᵥ x = (-1 / 2 : ℝ) • (skew x *ᵥ p) + (betaDot (len w) * (w ⬝ᵥ x)) • (skew w *ᵥ (skew w *ᵥ p)) +
      beta (len w) • (skew x *ᵥ (skew w *ᵥ p) + skew w *ᵥ (skew x *ᵥ p)) := by
    funext i
    rw [jlogC_apply]
    simp only [Pi.add_apply, Pi.smul_apply, smul_eq_mul]
  have hw := len_nonneg w
  have hp := len_nonneg p
  have hx := len_nonneg x
  have b1 := beta_bound hw h
  have b2 := betaDot_bound hw h
  have hpi := Real.pi_lt_d2
  have c1 : len ((-1 / 2 : ℝ) • (skew x *ᵥ p)) ≤ 1 / 2 * (len x * len p) := by
    rw [len_smul, show |(-1 / 2 : ℝ)| = 1 / 2 by norm_num [abs_div]]
    have := skew_len x p
    linarith
  have c2 : len ((betaDot (len w) * (w ⬝ᵥ x)) • (skew w *ᵥ (skew w *ᵥ p))) ≤ 1 / 4 * Real.pi * (len x * len p) := by
    rw [len_smul, abs_mul]
    have d1 := dot_le_len w x
    have d2 : len (skew w *ᵥ (skew w *ᵥ p)) ≤ len w * (len w * len p) :=
      (skew_len _ _).trans (mul_le_mul_of_nonneg_left (skew_len _ _) hw)
    calc |betaDot (len w)| * |w ⬝ᵥ x| * len (skew w *ᵥ (skew w *ᵥ p))
        ≤ |betaDot (len w)| * (len w * len x) * (len w * (len w * len p)) := by
          have := len_nonneg (skew w *ᵥ (skew w *ᵥ p))
          gcongr
      _ = |betaDot (len w) * len w ^ 2| * len w * (len x * len p) := by rw [abs_mul, abs_of_nonneg (sq_nonneg (len w))]; ring
      _ ≤ 1 / 4 * Real.pi * (len x * len p) := by gcongr
  have c3 : len (beta (len w) • (skew x *ᵥ (skew w *ᵥ p) + skew w *ᵥ (skew x *ᵥ p))) ≤ 1 / 4 * (2 * Real.pi * (len x * len p)) := by
    rw [len_smul]
    have d1 : len (skew x *ᵥ (skew w *ᵥ p)) ≤ len x * (len w * len p) :=
      (skew_len _ _).trans (mul_le_mul_of_nonneg_left (skew_len _ _) hx)
    have d2 : len (skew w *ᵥ (skew x *ᵥ p)) ≤ len w * (len x * len p) :=
      (skew_len _ _).trans (mul_le_mul_of_nonneg_left (skew_len _ _) hw)
    have d3 : len (skew x *ᵥ (skew w *ᵥ p) + skew w *ᵥ (skew x *ᵥ p)) ≤ 2 * Real.pi * (len x * len p) := by
      refine (len_add _ _).trans ?_
      have := mul_le_mul_of_nonneg_right h.le (mul_nonneg hx hp)
      nlinarith
    exact mul_le_mul b1 d3 (len_nonneg _) (by norm_num)
  rw [e]
  refine (len_add _ _).trans ?_
  have := len_add ((-1 / 2 : ℝ) • (skew x *ᵥ p)) ((betaDot (len w) * (w ⬝ᵥ x)) • (skew w *ᵥ (skew w *ᵥ p)))
  have hxp := mul_nonneg hx hp
  nlinarith [mul_le_mul_of_nonneg_right hpi.le hxp]

theorem sum_sq (y : Fin 3 ⊕ Fin 3 → ℝ) : y ⬝ᵥ y = len (transPart y) ^ 2 + len (rotPart y) ^ 2 := by
  rw [len_sq, len_sq, dotProduct, Fintype.sum_sum_type]
  rfl

/-- Any change of the logarithm is reached by a velocity that is not too long. -/
theorem jlog6_solve {M : Pose ℝ} (hM : IsRot M.R) (h : angle M.R < Real.pi) (y : Fin 3 ⊕ Fin 3 → ℝ) :
    ∃ d, jlog6 M *ᵥ d = y ∧ d ⬝ᵥ d ≤ (2 + (3 * len M.t) ^ 2) * (y ⬝ᵥ y) := by
  have hw : len (rotVec M.R) < Real.pi := by rw [len_rotVec hM]; exact h
  have hu : IsUnit (rightJac (rotVec M.R)).det := (det_rightJac_ne _ (show len (rotVec M.R) < _ by linarith [Real.pi_pos])).isUnit
  set w := rotVec M.R
  set a := transPart y
  set b := rotPart y
  refine ⟨Sum.elim (rightJac w *ᵥ (a - jlogC w M.t *ᵥ b)) (rightJac w *ᵥ b), ?_, ?_⟩
  · rw [jlog6, fromBlocks_mulVec]
    simp only [Sum.elim_comp_inl, Sum.elim_comp_inr, zero_mulVec, zero_add, ← mulVec_mulVec]
    have hc : ∀ v, (rightJac w)⁻¹ *ᵥ (rightJac w *ᵥ v) = v := fun v => by rw [mulVec_mulVec, nonsing_inv_mul _ hu, one_mulVec]
    rw [hc, hc, sub_add_cancel]
    exact (split6 y).symm
  · rw [sum_sq, sum_sq y]
    have e1 : transPart (Sum.elim (rightJac w *ᵥ (a - jlogC w M.t *ᵥ b)) (rightJac w *ᵥ b)) = rightJac w *ᵥ (a - jlogC w M.t *ᵥ b) := rfl
    have e2 : rotPart (Sum.elim (rightJac w *ᵥ (a - jlogC w M.t *ᵥ b)) (rightJac w *ᵥ b)) = rightJac w *ᵥ b := rfl
    rw [e1, e2]
    have l1 : len (rightJac w *ᵥ (a - jlogC w M.t *ᵥ b)) ≤ len a + 3 * len M.t * len b := by
      refine (rightJac_len _ _).trans ?_
      rw [sub_eq_add_neg]
      refine (len_add _ _).trans ?_
      have := jlogC_len hw M.t b
      rw [show -(jlogC w M.t *ᵥ b) = (-1 : ℝ) • (jlogC w M.t *ᵥ b) by simp, len_smul]
      norm_num
      exact this
    have l2 := rightJac_len w b
    have q1 := pow_le_pow_left₀ (len_nonneg _) l1 2
    have q2 := pow_le_pow_left₀ (len_nonneg _) l2 2
    nlinarith [sq_nonneg (3 * len M.t * len a - len b), sq_nonneg (len a), sq_nonneg (len b)]

/-- The twist of a velocity in another frame is not too long. -/
theorem twist_len {B : Pose ℝ} (hB : IsRot B.R) (d : Fin 3 ⊕ Fin 3 → ℝ) :
    twist B *ᵥ d ⬝ᵥ twist B *ᵥ d ≤ (2 + len B.t ^ 2) * (d ⬝ᵥ d) := by
  rw [sum_sq, sum_sq d]
  have e : twist B *ᵥ d = Sum.elim (B.R *ᵥ transPart d + skew B.t *ᵥ (B.R *ᵥ rotPart d)) (B.R *ᵥ rotPart d) := by
    rw [split6 d, twist, fromBlocks_mulVec]
    simp only [Sum.elim_comp_inl, Sum.elim_comp_inr, zero_mulVec, zero_add, ← mulVec_mulVec]
    rfl
  rw [e]
  have e1 : transPart (Sum.elim (B.R *ᵥ transPart d + skew B.t *ᵥ (B.R *ᵥ rotPart d)) (B.R *ᵥ rotPart d)) =
    B.R *ᵥ transPart d + skew B.t *ᵥ (B.R *ᵥ rotPart d) := rfl
  have e2 : rotPart (Sum.elim (B.R *ᵥ transPart d + skew B.t *ᵥ (B.R *ᵥ rotPart d)) (B.R *ᵥ rotPart d)) = B.R *ᵥ rotPart d := rfl
  rw [e1, e2, len_rot hB]
  have l1 : len (B.R *ᵥ transPart d + skew B.t *ᵥ (B.R *ᵥ rotPart d)) ≤ len (transPart d) + len B.t * len (rotPart d) := by
    refine (len_add _ _).trans ?_
    have := skew_len B.t (B.R *ᵥ rotPart d)
    rw [len_rot hB] at this ⊢
    linarith
  have q1 := pow_le_pow_left₀ (len_nonneg _) l1 2
  nlinarith [sq_nonneg (len B.t * len (transPart d) - len (rotPart d)), sq_nonneg (len (transPart d)), sq_nonneg (len (rotPart d))]

end Verif.Se3
