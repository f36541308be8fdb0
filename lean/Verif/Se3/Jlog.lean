import Verif.Se3.Unique
import Mathlib.Analysis.SpecialFunctions.Trigonometric.Bounds

/-!
# The derivative of the logarithm of the rigid motions

`Jlog6` of pinocchio (used by `dDifference` in include/sot/core/feature-pose.hxx:177-178, 293-294) by its formula, and the proof that it is
the derivative of `log6` along every motion, away from the half turns.
-/

namespace Verif.Se3

open Matrix Verif.Geometry Verif.Point6d Verif.Spatial

/-- The coefficient `beta` of `Jlog6`; the squared term of the inverse of the matrix of the translation in `exp6`. -/
noncomputable def beta (th : ℝ) : ℝ := 1 / th ^ 2 - Real.sin th / (2 * th * (1 - Real.cos th))

/-- The coefficient `beta_dot_over_theta` of `Jlog6`. -/
noncomputable def betaDot (th : ℝ) : ℝ := -2 / th ^ 4 + (1 + Real.sin th / th) / (2 * th ^ 2 * (1 - Real.cos th))

/-- The matrix `C` of `Jlog6`, for the rotation vector `w` and the translation `p`. -/
noncomputable def jlogC (w p : Fin 3 → ℝ) : Matrix (Fin 3) (Fin 3) ℝ :=
  vecMulVec ((betaDot (len w) * (w ⬝ᵥ p)) • w - (len w ^ 2 * betaDot (len w) + 2 * beta (len w)) • p) w + beta (len w) • vecMulVec w p +
    ((w ⬝ᵥ p) * beta (len w)) • (1 : Matrix (Fin 3) (Fin 3) ℝ) + (1 / 2 : ℝ) • skew p

/-- `Jlog6` of pinocchio (used by `dDifference` in include/sot/core/feature-pose.hxx:177-178, 293-294). -/
noncomputable def jlog6 (M : Pose ℝ) : Matrix (Fin 3 ⊕ Fin 3) (Fin 3 ⊕ Fin 3) ℝ :=
  let A := (rightJac (rotVec M.R))⁻¹
  fromBlocks A (jlogC (rotVec M.R) M.t * A) 0 A

theorem invLeftJac_eq (w : Fin 3 → ℝ) : invLeftJac w = poly w (-1 / 2) (beta (len w)) := rfl

theorem beta_deriv {th : ℝ} (h0 : 0 < th) (h1 : th < 2 * Real.pi) : HasDerivAt beta (betaDot th * th) th := by
  have hc := cos_lt_one h0 h1
  have hc' : (1 : ℝ) - Real.cos th ≠ 0 := by linarith
  have e1 := (hasDerivAt_const th (1 : ℝ)).div ((hasDerivAt_id th).pow 2) (by simpa using h0.ne')
  have e2 := ((hasDerivAt_id th).const_mul 2).mul ((hasDerivAt_const th (1 : ℝ)).sub (Real.hasDerivAt_cos th))
  have e3 := (Real.hasDerivAt_sin th).div e2 (by simp [h0.ne', hc'])
  refine (e1.sub e3).congr_deriv ?_
  have hs := Real.sin_sq_add_cos_sq th
  simp only [betaDot, id, Pi.mul_apply, Pi.sub_apply, Pi.pow_apply]
  have h := h0.ne'
  field_simp
  ring_nf
  rw [show Real.sin th ^ 2 = 1 - Real.cos th ^ 2 by linarith]
  ring

/-- The coefficient is bounded. -/
theorem beta_bound {th : ℝ} (h0 : 0 ≤ th) (h1 : th < Real.pi) : |beta th| ≤ 1 / 4 := by
  rcases h0.eq_or_lt with rfl | h0
  · simp [beta]
  set x := th / 2 with hx
  have hth : th = 2 * x := by rw [hx]; ring
  have hx0 : 0 < x := by rw [hx]; linarith
  have hx1 : x < Real.pi / 2 := by rw [hx]; linarith
  have hs : 0 < Real.sin x := Real.sin_pos_of_pos_of_lt_pi hx0 (by linarith [Real.pi_pos])
  have hc : 0 < Real.cos x := Real.cos_pos_of_mem_Ioo ⟨by linarith, hx1⟩
  have hsc := Real.sin_sq_add_cos_sq x
  have e : beta th = (Real.sin x - x * Real.cos x) / (4 * x ^ 2 * Real.sin x) := by
    have e1 : 1 - Real.cos th = 2 * Real.sin x ^ 2 := by rw [hth, Real.cos_two_mul]; linarith
    have e2 : Real.sin th = 2 * Real.sin x * Real.cos x := by rw [hth, Real.sin_two_mul]
    rw [beta, e1, e2, hth]
    field_simp
    ring
  have h2 : x * Real.cos x ≤ Real.sin x := by
    have := Real.lt_tan hx0 hx1
    rw [Real.tan_eq_sin_div_cos, lt_div_iff₀ hc] at this
    exact this.le
  have h3 : Real.sin x - x * Real.cos x ≤ x ^ 2 * Real.sin x := by
    have h4 := Real.one_sub_sq_div_two_le_cos (x := x)
    have h5 := Real.sin_le hx0.le
    nlinarith [mul_pos hx0 hx0, mul_pos hx0 hs]
  rw [e, abs_of_nonneg (div_nonneg (by linarith) (by positivity)), div_le_div_iff₀ (by positivity) (by norm_num)]
  nlinarith

theorem hasDerivAt_skew {w : ℝ → Fin 3 → ℝ} {w' : Fin 3 → ℝ} {t : ℝ} (h : ∀ i, HasDerivAt (fun s => w s i) (w' i) t) (i j : Fin 3) :
    HasDerivAt (fun s => skew (w s) i j) (skew w' i j) t := by
  fin_cases i <;> fin_cases j <;> simp only [skew]
  · exact hasDerivAt_const t (0 : ℝ)
  · exact (h 2).neg
  · exact h 1
  · exact h 2
  · exact hasDerivAt_const t (0 : ℝ)
  · exact (h 0).neg
  · exact (h 1).neg
  · exact h 0
  · exact hasDerivAt_const t (0 : ℝ)

theorem invLeftJac_apply (w p : Fin 3 → ℝ) (i : Fin 3) :
    (invLeftJac w *ᵥ p) i = p i - 1 / 2 * (skew w *ᵥ p) i + beta (len w) * (skew w *ᵥ (skew w *ᵥ p)) i := by
  rw [invLeftJac_eq, poly, add_mulVec, add_mulVec, smul_mulVec, smul_mulVec, one_mulVec, mulVec_mulVec]
  simp only [Pi.add_apply, Pi.smul_apply, smul_eq_mul]
  ring

theorem jlogC_apply (w p x : Fin 3 → ℝ) (i : Fin 3) :
    (jlogC w p *ᵥ x) i = -1 / 2 * (skew x *ᵥ p) i + betaDot (len w) * (w ⬝ᵥ x) * (skew w *ᵥ (skew w *ᵥ p)) i +
      beta (len w) * ((skew x *ᵥ (skew w *ᵥ p)) i + (skew w *ᵥ (skew x *ᵥ p)) i) := by
  unfold jlogC
  rw [len_sq]
  fin_cases i <;>
    simp [mulVec, dotProduct, Fin.sum_univ_three, skew, vecMulVec_apply] <;> ring

theorem hasDerivAt_len {w : ℝ → Fin 3 → ℝ} {w' : Fin 3 → ℝ} {t : ℝ} (h : ∀ i, HasDerivAt (fun s => w s i) (w' i) t) (h0 : w t ≠ 0) :
    HasDerivAt (fun s => len (w s)) ((w t ⬝ᵥ w') / len (w t)) t := by
  have hd : HasDerivAt (fun s => w s ⬝ᵥ w s) (2 * (w t ⬝ᵥ w')) t := by
    have h3 := (((h 0).mul (h 0)).add ((h 1).mul (h 1))).add ((h 2).mul (h 2))
    have e : (fun s => w s ⬝ᵥ w s) = ((fun s => w s 0) * (fun s => w s 0) + (fun s => w s 1) * (fun s => w s 1)) +
        (fun s => w s 2) * (fun s => w s 2) := by
      funext s; simp [dotProduct, Fin.sum_univ_three]
    rw [e]
    refine h3.congr_deriv ?_
    simp only [dotProduct, Fin.sum_univ_three]
    ring
  have hne : w t ⬝ᵥ w t ≠ 0 := fun e => h0 (eq_zero_of_dot _ e)
  refine (hd.sqrt hne).congr_deriv ?_
  unfold len
  have := Real.sqrt_ne_zero'.2 (lt_of_le_of_ne (dot_self_nonneg (w t)) hne.symm)
  field_simp

/-- The derivative of the translation part, for a rotation vector and a translation that move. -/
theorem invLeftJac_deriv {w p : ℝ → Fin 3 → ℝ} {w' p' : Fin 3 → ℝ} {t : ℝ} (hw : ∀ i, HasDerivAt (fun s => w s i) (w' i) t)
    (hp : ∀ i, HasDerivAt (fun s => p s i) (p' i) t) (hlt : len (w t) < Real.pi) (i : Fin 3) :
    HasDerivAt (fun s => (invLeftJac (w s) *ᵥ p s) i) ((invLeftJac (w t) *ᵥ p' + jlogC (w t) (p t) *ᵥ w') i) t := by
  have h1 := hasDerivAt_mulVec (hasDerivAt_skew hw) hp
  have h2 := hasDerivAt_mulVec (hasDerivAt_skew hw) h1
  simp only [invLeftJac_apply, Pi.add_apply, jlogC_apply]
  by_cases h0 : w t = 0
  · have hz : HasDerivAt (fun s => beta (len (w s)) * (skew (w s) *ᵥ (skew (w s) *ᵥ p s)) i) 0 t := by
      have hg : ∀ j, ContinuousAt (fun s => beta (len (w s)) * skew (w s) i j) t := by
        intro j
        have hcw : ∀ k, ContinuousAt (fun s => w s k) t := fun k => (hw k).continuousAt
        have hlen : ContinuousAt (fun s => len (w s)) t := by
          unfold len
          have : ContinuousAt (fun s => w s ⬝ᵥ w s) t := by
            simp only [dotProduct, Fin.sum_univ_three]
            exact (((hcw 0).mul (hcw 0)).add ((hcw 1).mul (hcw 1))).add ((hcw 2).mul (hcw 2))
          exact Real.continuous_sqrt.continuousAt.comp this
        have hev : ∀ᶠ s in nhds t, len (w s) < Real.pi := hlen.eventually_lt_const hlt
        have hsk : Filter.Tendsto (fun s => skew (w s) i j) (nhds t) (nhds 0) := by
          have := (hasDerivAt_skew hw i j).continuousAt.tendsto
          simpa [h0, skew_zero] using this
        have : Filter.Tendsto (fun s => beta (len (w s)) * skew (w s) i j) (nhds t) (nhds 0) := by
          have hsq : Filter.Tendsto (fun s => 1 / 4 * |skew (w s) i j|) (nhds t) (nhds 0) := by
            simpa using hsk.abs.const_mul (1 / 4 : ℝ)
          refine squeeze_zero_norm' (hev.mono fun s hs => ?_) hsq
          rw [Real.norm_eq_abs, abs_mul]
          exact mul_le_mul_of_nonneg_right (beta_bound (len_nonneg _) hs) (abs_nonneg _)
        have hv : beta (len (w t)) * skew (w t) i j = 0 := by rw [h0, skew_zero]; simp
        rw [ContinuousAt, hv]
        exact this
      have hf : ∀ j, (skew (w t) *ᵥ p t) j = 0 := by intro j; rw [h0, skew_zero, zero_mulVec]; rfl
      have hm := fun j => hasDerivAt_mul_of_zero (h1 j) (hf j) (hg j)
      have h3 := ((hm 0).add (hm 1)).add (hm 2)
      have e : (fun s => beta (len (w s)) * (skew (w s) *ᵥ (skew (w s) *ᵥ p s)) i) =
          ((fun s => beta (len (w s)) * skew (w s) i 0 * (skew (w s) *ᵥ p s) 0) +
            fun s => beta (len (w s)) * skew (w s) i 1 * (skew (w s) *ᵥ p s) 1) +
          fun s => beta (len (w s)) * skew (w s) i 2 * (skew (w s) *ᵥ p s) 2 := by
        funext s
        simp only [Pi.add_apply]
        rw [show (skew (w s) *ᵥ (skew (w s) *ᵥ p s)) i = skew (w s) i 0 * (skew (w s) *ᵥ p s) 0 + skew (w s) i 1 * (skew (w s) *ᵥ p s) 1 +
          skew (w s) i 2 * (skew (w s) *ᵥ p s) 2 from by rw [mulVec, dotProduct, Fin.sum_univ_three]]
        ring
      rw [e]
      refine h3.congr_deriv ?_
      rw [h0, skew_zero]
      simp
    have h4 := ((hp i).sub ((h1 i).const_mul (1 / 2))).add hz
    refine h4.congr_deriv ?_
    rw [h0, skew_zero]
    simp only [zero_mulVec, mulVec_zero, Pi.add_apply, Pi.zero_apply]
    ring
  · have hb : HasDerivAt (fun s => beta (len (w s))) (betaDot (len (w t)) * len (w t) * ((w t ⬝ᵥ w') / len (w t))) t :=
      HasDerivAt.comp (h₂ := beta) t (beta_deriv (len_pos h0) (by linarith [Real.pi_pos])) (hasDerivAt_len hw h0)
    have h4 := ((hp i).sub ((h1 i).const_mul (1 / 2))).add (hb.mul (h2 i))
    refine h4.congr_deriv ?_
    have hl := (len_pos h0).ne'
    rw [show betaDot (len (w t)) * len (w t) * ((w t ⬝ᵥ w') / len (w t)) = betaDot (len (w t)) * (w t ⬝ᵥ w') by field_simp]
    simp only [Pi.add_apply, mulVec_add]
    ring

theorem rightJac_eq (w : Fin 3 → ℝ) : rightJac w = poly w (-((1 - Real.cos (len w)) / len w ^ 2)) ((len w - Real.sin (len w)) / len w ^ 3) := by
  simp only [rightJac, poly, len, neg_smul, sub_eq_add_neg]

/-- The two Jacobians of the exponential. -/
theorem exp3_rightJac (w : Fin 3 → ℝ) : exp3 w * rightJac w = leftJac w := by
  by_cases hw : w = 0
  · subst hw; rw [rightJac_zero, exp3_zero, leftJac_zero, Matrix.one_mul]
  have h := (len_pos hw).ne'
  have hs := Real.sin_sq_add_cos_sq (len w)
  rw [rightJac_eq, exp3, leftJac, poly_mul]
  congr 1
  · field_simp
    linear_combination hs
  · field_simp
    ring

theorem rightJac_inv {w : Fin 3 → ℝ} (h : len w < 2 * Real.pi) : (rightJac w)⁻¹ = invLeftJac w * exp3 w := by
  refine inv_eq_left_inv ?_
  rw [Matrix.mul_assoc, exp3_rightJac, (leftJac_inv h).2]

/-- `Jlog6` is the derivative of `log6` along every motion, away from the half turns. -/
theorem log6_deriv (M : ℝ → Pose ℝ) (hM : ∀ s, IsRot (M s).R) {v w : Fin 3 → ℝ} {t : ℝ} (h : BodyTwist M v w t)
    (hp : angle (M t).R < Real.pi) (r : Fin 3 ⊕ Fin 3) :
    HasDerivAt (fun s => Sum.elim (log6 (M s)).1 (log6 (M s)).2 r) ((jlog6 (M t) *ᵥ Sum.elim v w) r) t := by
  obtain ⟨e', h1, h2⟩ := rotVec_deriv _ hM w t h.rot hp
  have hl : len (rotVec (M t).R) = angle (M t).R := len_rotVec (hM t)
  have hl2 : len (rotVec (M t).R) < 2 * Real.pi := by rw [hl]; linarith [Real.pi_pos]
  have hu : IsUnit (rightJac (rotVec (M t).R)).det := (det_rightJac_ne _ hl2).isUnit
  have he : e' = (rightJac (rotVec (M t).R))⁻¹ *ᵥ w := by
    rw [← h2, mulVec_mulVec, nonsing_inv_mul _ hu, one_mulVec]
  rw [jlog6, fromBlocks_mulVec]
  rcases r with i | i
  · simp only [Sum.elim_inl, Sum.elim_comp_inl, Sum.elim_comp_inr]
    have := invLeftJac_deriv h1 h.pos (by rw [hl]; exact hp) i
    refine this.congr_deriv ?_
    rw [he, ← mulVec_mulVec, rightJac_inv hl2, exp3_rotVec (hM t), ← mulVec_mulVec v]
  · simp only [Sum.elim_inr, Sum.elim_comp_inl, Sum.elim_comp_inr, zero_mulVec, zero_add]
    exact (h1 i).congr_deriv (by rw [he])

/-- The derivative of the logarithm is invertible, away from the half turns. -/
theorem jlog6_det {M : Pose ℝ} (h : IsRot M.R) : IsUnit (jlog6 M).det := by
  have hl2 : len (rotVec M.R) < 2 * Real.pi := by rw [len_rotVec h]; linarith [Real.pi_pos, angle_le_pi h]
  have hu : IsUnit (rightJac (rotVec M.R)).det := (det_rightJac_ne _ hl2).isUnit
  have hA : IsUnit ((rightJac (rotVec M.R))⁻¹).det := isUnit_nonsing_inv_det _ hu
  simp only [jlog6]
  rw [det_fromBlocks_zero₂₁]
  exact hA.mul hA

end Verif.Se3
