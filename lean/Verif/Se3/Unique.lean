import Verif.Se3.Log
import Verif.Point6d.Pose
import Mathlib.Analysis.Calculus.MeanValue

/-!
# The motion with a constant velocity is unique
-/

namespace Verif.Se3

open Matrix Verif.Geometry Verif.Point6d Verif.Spatial

theorem pose_mul_one (M : Pose ℝ) : M.mul Pose.one = M := by
  simp [Pose.mul, Pose.one]

theorem pose_one_mul (M : Pose ℝ) : Pose.one.mul M = M := by
  simp [Pose.mul, Pose.one]

/-- The velocity turned by the motion. -/
theorem skew_leftJac (s : ℝ) (w : Fin 3 → ℝ) : skew w * (s • leftJac (s • w)) = exp3 (s • w) - 1 := by
  by_cases hw : w = 0
  · subst hw; simp [skew_zero, exp3_zero]
  have h := (len_pos hw).ne'
  rw [leftJac_smul s hw, exp3_smul s hw, poly]
  simp only [Matrix.mul_add, Matrix.mul_smul, skew_cube, Matrix.mul_one, smul_smul]
  match_scalars <;> field_simp <;> ring

theorem skew_mulVec_self (w : Fin 3 → ℝ) : skew w *ᵥ w = 0 := by
  ext i
  fin_cases i <;> simp [skew, mulVec, dotProduct, Fin.sum_univ_three] <;> ring

/-- A rotation keeps its axis. -/
theorem exp3_axis (s : ℝ) (w : Fin 3 → ℝ) : (exp3 (s • w))ᵀ *ᵥ w = w := by
  unfold exp3
  rw [poly_smul, poly_transpose, poly]
  simp only [add_mulVec, smul_mulVec, ← mulVec_mulVec, skew_mulVec_self, one_mulVec]
  simp

theorem cross_eq_skew (w x : Fin 3 → ℝ) : w ⨯₃ x = skew w *ᵥ x := by
  ext i
  fin_cases i <;> simp [skew, mulVec, dotProduct, Fin.sum_univ_three, crossProduct] <;> ring

/-- A frame that moves at a constant velocity, expressed in itself, follows the exponential. -/
theorem motion_unique (M : ℝ → Pose ℝ) (x : Twist) (hM : ∀ s, BodyTwist M x.1 x.2 s) (s : ℝ) : M s = (M 0).mul (exp6 (s • x)) := by
  have hB : ∀ s, BodyTwist (fun s => exp6 (s • -x)) (-x.1) (-x.2) s := by
    intro s
    have h := exp6_twist Pose.one (-x) s
    simp only [pose_one_mul] at h
    exact h
  have hN : ∀ s, BodyTwist (fun s => (M s).mul (exp6 (s • -x))) 0 0 s := by
    intro s
    have h := bodyTwist_mul (isRot_exp6 _) (hM s) (hB s)
    have e2 : (exp6 (s • -x)).Rᵀ *ᵥ x.2 + -x.2 = 0 := by
      have := exp3_axis (-s) x.2
      simp only [exp6, Prod.smul_snd, Prod.snd_neg, smul_neg]
      rw [neg_smul] at this
      rw [this, add_neg_cancel]
    have e1 : (exp6 (s • -x)).Rᵀ *ᵥ (x.1 + x.2 ⨯₃ (exp6 (s • -x)).t) + -x.1 = 0 := by
      have h1 := congrArg (fun m => m *ᵥ x.1) (skew_leftJac (-s) x.2)
      simp only [← mulVec_mulVec, sub_mulVec, one_mulVec, smul_mulVec] at h1
      have h2 : (exp6 (s • -x)).t = -s • leftJac (-s • x.2) *ᵥ x.1 := by
        simp only [exp6, Prod.smul_snd, Prod.snd_neg, Prod.smul_fst, Prod.fst_neg, smul_neg, neg_smul, mulVec_neg, mulVec_smul]
      have h3 : (exp6 (s • -x)).R = exp3 (-s • x.2) := by
        simp only [exp6, Prod.smul_snd, Prod.snd_neg, smul_neg, neg_smul]
      rw [cross_eq_skew, h2, h3, h1, add_sub_cancel, mulVec_mulVec, (isRot_exp3 _).1, one_mulVec, add_neg_cancel]
    rw [e1, e2] at h
    exact h
  have hc : (M s).mul (exp6 (s • -x)) = M 0 := by
    have hR : ∀ i j, ((M s).mul (exp6 (s • -x))).R i j = ((M 0).mul (exp6 ((0 : ℝ) • -x))).R i j := fun i j =>
      is_const_of_deriv_eq_zero (fun r => ((hN r).rot i j).differentiableAt) (fun r => by
        rw [((hN r).rot i j).deriv, skew_zero]; simp) s 0
    have ht : ∀ i, ((M s).mul (exp6 (s • -x))).t i = ((M 0).mul (exp6 ((0 : ℝ) • -x))).t i := fun i =>
      is_const_of_deriv_eq_zero (fun r => ((hN r).pos i).differentiableAt) (fun r => by
        rw [((hN r).pos i).deriv]; simp) s 0
    have h0 : (M 0).mul (exp6 ((0 : ℝ) • -x)) = M 0 := by rw [zero_smul, exp6_zero, pose_mul_one]
    rw [h0] at hR ht
    exact Pose.ext (by ext i j; exact hR i j) (by ext i; exact ht i)
  rw [← hc, pose_mul_assoc, show s • -x = (-s) • x by rw [smul_neg, neg_smul], exp6_add, neg_add_cancel, zero_smul, exp6_zero, pose_mul_one]

end Verif.Se3
