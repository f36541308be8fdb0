import Verif.Se3.Exp
import Verif.Point6d.Motion

/-!
# Motions with a constant velocity, and the logarithm of the rigid motions
-/

namespace Verif.Se3

open Matrix Verif.Geometry Verif.Point6d Verif.Spatial

/-! ### Motions -/

theorem exp3_deriv (w : Fin 3 → ℝ) (t : ℝ) (i j : Fin 3) :
    HasDerivAt (fun s : ℝ => exp3 (s • w) i j) ((exp3 (t • w) * skew w) i j) t := by
  by_cases hw : w = 0
  · subst hw
    simp only [smul_zero, exp3_zero, skew_zero, Matrix.mul_zero, Matrix.zero_apply]
    exact hasDerivAt_const _ _
  have h := (len_pos hw).ne'
  have e : (fun s : ℝ => exp3 (s • w) i j) = fun s : ℝ => (1 : Matrix (Fin 3) (Fin 3) ℝ) i j + Real.sin (s * len w) / len w * skew w i j +
      (1 - Real.cos (s * len w)) / len w ^ 2 * (skew w * skew w) i j := by
    funext s
    rw [exp3_smul s hw]
    simp [poly]
  have e' : (exp3 (t • w) * skew w) i j = Real.cos (t * len w) * len w / len w * skew w i j +
      Real.sin (t * len w) * len w / len w ^ 2 * (skew w * skew w) i j := by
    rw [exp3_smul t hw, poly, Matrix.add_mul, Matrix.add_mul, Matrix.one_mul, Matrix.smul_mul, Matrix.smul_mul, Matrix.mul_assoc, skew_cube]
    simp only [Matrix.add_apply, Matrix.smul_apply, smul_eq_mul]
    field_simp
    ring
  rw [e, e']
  have hl : HasDerivAt (fun s : ℝ => s * len w) (len w) t := by simpa using (hasDerivAt_id t).mul_const (len w)
  have hs := (Real.hasDerivAt_sin (t * len w)).comp t hl
  have hc := (Real.hasDerivAt_cos (t * len w)).comp t hl
  have h1 := ((hs.div_const (len w)).mul_const (skew w i j)).const_add ((1 : Matrix (Fin 3) (Fin 3) ℝ) i j)
  have h2 := ((hc.const_sub 1).div_const (len w ^ 2)).mul_const ((skew w * skew w) i j)
  refine (h1.add h2).congr_deriv ?_
  ring

theorem exp6_t_deriv (x : Twist) (t : ℝ) (i : Fin 3) :
    HasDerivAt (fun s : ℝ => (exp6 (s • x)).t i) ((exp3 (t • x.2) *ᵥ x.1) i) t := by
  obtain ⟨v, w⟩ := x
  have e0 : ∀ s : ℝ, (exp6 (s • ((v, w) : Twist))).t = (s • leftJac (s • w)) *ᵥ v := by
    intro s
    show leftJac (s • w) *ᵥ (s • v) = _
    rw [mulVec_smul, smul_mulVec]
  by_cases hw : w = 0
  · subst hw
    have e : (fun s : ℝ => (exp6 (s • ((v, 0) : Twist))).t i) = fun s : ℝ => s * v i := by
      funext s
      rw [e0, smul_zero, leftJac_zero, smul_mulVec, one_mulVec]
      rfl
    rw [e]
    simp only [smul_zero, exp3_zero, one_mulVec]
    simpa using (hasDerivAt_id t).mul_const (v i)
  have h := (len_pos hw).ne'
  have e : (fun s : ℝ => (exp6 (s • ((v, w) : Twist))).t i) = fun s : ℝ => s * v i + (1 - Real.cos (s * len w)) / len w ^ 2 * (skew w *ᵥ v) i +
      (s * len w - Real.sin (s * len w)) / len w ^ 3 * ((skew w * skew w) *ᵥ v) i := by
    funext s
    rw [e0, leftJac_smul s hw]
    simp [add_mulVec, smul_mulVec]
  have e' : (exp3 (t • w) *ᵥ v) i = v i + Real.sin (t * len w) * len w / len w ^ 2 * (skew w *ᵥ v) i +
      (len w - Real.cos (t * len w) * len w) / len w ^ 3 * ((skew w * skew w) *ᵥ v) i := by
    rw [exp3_smul t hw, poly, add_mulVec, add_mulVec, one_mulVec, smul_mulVec, smul_mulVec]
    simp only [Pi.add_apply, Pi.smul_apply, smul_eq_mul]
    field_simp
  rw [e, e']
  have hl : HasDerivAt (fun s : ℝ => s * len w) (len w) t := by simpa using (hasDerivAt_id t).mul_const (len w)
  have hs := (Real.hasDerivAt_sin (t * len w)).comp t hl
  have hc := (Real.hasDerivAt_cos (t * len w)).comp t hl
  have h0 : HasDerivAt (fun s : ℝ => s * v i) (v i) t := by simpa using (hasDerivAt_id t).mul_const (v i)
  have h1 := ((hc.const_sub 1).div_const (len w ^ 2)).mul_const ((skew w *ᵥ v) i)
  have h2 := ((hl.sub hs).div_const (len w ^ 3)).mul_const (((skew w * skew w) *ᵥ v) i)
  refine ((h0.add h1).add h2).congr_deriv ?_
  ring

/-- A frame that is moved by the exponential of a constant velocity has that velocity. -/
theorem exp6_twist (M : Pose ℝ) (x : Twist) (t : ℝ) : BodyTwist (fun s => M.mul (exp6 (s • x))) x.1 x.2 t := by
  constructor
  · intro i j
    have h := hasDerivAt_mulMat (A := fun _ => M.R) (B := fun s : ℝ => exp3 (s • x.2)) (A' := 0) (B' := exp3 (t • x.2) * skew x.2) (t := t)
      (fun i j => hasDerivAt_const _ _) (fun i j => exp3_deriv x.2 t i j) i j
    simp only [Matrix.zero_mul, zero_add] at h
    show HasDerivAt (fun s : ℝ => (M.R * exp3 (s • x.2)) i j) ((M.R * exp3 (t • x.2) * skew x.2) i j) t
    rw [Matrix.mul_assoc]
    exact h
  · intro i
    have h := hasDerivAt_mulVec (A := fun _ => M.R) (x := fun s : ℝ => (exp6 (s • x)).t) (A' := 0) (x' := exp3 (t • x.2) *ᵥ x.1) (t := t)
      (fun i j => hasDerivAt_const _ _) (fun i => exp6_t_deriv x t i) i
    simp only [zero_mulVec, zero_add] at h
    show HasDerivAt (fun s : ℝ => (M.R *ᵥ (exp6 (s • x)).t + M.t) i) (((M.R * exp3 (t • x.2)) *ᵥ x.1) i) t
    rw [← mulVec_mulVec]
    exact h.add_const (M.t i)

/-! ### The logarithm -/

/-- The inverse of `leftJac`, as in `log6` of pinocchio. -/
noncomputable def invLeftJac (w : Fin 3 → ℝ) : Matrix (Fin 3) (Fin 3) ℝ :=
  poly w (-1 / 2) (1 / len w ^ 2 - Real.sin (len w) / (2 * len w * (1 - Real.cos (len w))))

/-- `log6` of pinocchio (used by `difference` in include/sot/core/feature-pose.hxx:239). Simplification: the series used for very small angles is
the formula. -/
noncomputable def log6 (M : Pose ℝ) : Twist := (invLeftJac (rotVec M.R) *ᵥ M.t, rotVec M.R)

theorem cos_lt_one {x : ℝ} (h0 : 0 < x) (h1 : x < 2 * Real.pi) : Real.cos x < 1 := by
  refine lt_of_le_of_ne (Real.cos_le_one x) fun e => ?_
  exact h0.ne' ((Real.cos_eq_one_iff_of_lt_of_lt (by linarith [Real.pi_pos]) h1).1 e)

theorem leftJac_inv {w : Fin 3 → ℝ} (h : len w < 2 * Real.pi) : leftJac w * invLeftJac w = 1 ∧ invLeftJac w * leftJac w = 1 := by
  by_cases hw : w = 0
  · subst hw; simp [leftJac_zero, invLeftJac, poly_zero]
  have h0 := len_pos hw
  have h1 := h0.ne'
  have hc : 1 - Real.cos (len w) ≠ 0 := by linarith [cos_lt_one h0 h]
  have hsc := Real.sin_sq_add_cos_sq (len w)
  have key : leftJac w * invLeftJac w = 1 := by
    unfold leftJac invLeftJac
    rw [poly_mul]
    have e1 : (1 - Real.cos (len w)) / len w ^ 2 + -1 / 2 - len w ^ 2 * ((1 - Real.cos (len w)) / len w ^ 2 *
        (1 / len w ^ 2 - Real.sin (len w) / (2 * len w * (1 - Real.cos (len w)))) + (len w - Real.sin (len w)) / len w ^ 3 * (-1 / 2)) = 0 := by
      field_simp
      ring
    have e2 : (len w - Real.sin (len w)) / len w ^ 3 + (1 / len w ^ 2 - Real.sin (len w) / (2 * len w * (1 - Real.cos (len w)))) +
        (1 - Real.cos (len w)) / len w ^ 2 * (-1 / 2) - len w ^ 2 * ((len w - Real.sin (len w)) / len w ^ 3 *
        (1 / len w ^ 2 - Real.sin (len w) / (2 * len w * (1 - Real.cos (len w))))) = 0 := by
      field_simp
      linear_combination -len w * hsc
    rw [e1, e2]
    simp [poly]
  exact ⟨key, mul_eq_one_comm.1 key⟩

theorem exp3_rotVec {R : Matrix (Fin 3) (Fin 3) ℝ} (h : IsRot R) : exp3 (rotVec R) = R := by
  obtain ⟨a1, a2, a3, a4, -⟩ := C81_matrix_angle_axis R h
  have hl : len (rotVec R) = angle R := by
    unfold len
    rw [rotVec_sq h, Real.sqrt_sq (angle_nonneg h)]
  by_cases h0 : angle R = 0
  · have e : rotVec R = 0 := by
      funext i
      show angle R * _ = 0
      rw [h0, zero_mul]
    rw [e, exp3_zero, (rotVec_eq_zero h).1 e]
  unfold exp3
  rw [hl, ← a4]
  have hr : rotVec R = fun i => angle R * (angleAxisOfRot R).2 i := rfl
  rw [a4, hr]
  unfold angle at *
  nth_rw 7 [← a4]
  generalize angleAxisOfRot R = r at *
  obtain ⟨th, u⟩ := r
  simp only at a3 h0 ⊢
  have hs : Real.sin th ^ 2 = 1 - Real.cos th ^ 2 := by linarith [Real.sin_sq_add_cos_sq th]
  unfold poly
  rw [skew_sq]
  ext i j
  fin_cases i <;> fin_cases j <;> simp [angleAxisMatrix, skew] <;> field_simp
  all_goals try ring
  · linear_combination -(1 - Real.cos th) * a3
  · linear_combination -(1 - Real.cos th) * a3
  · linear_combination -(1 - Real.cos th) * a3

theorem len_rotVec {R : Matrix (Fin 3) (Fin 3) ℝ} (h : IsRot R) : len (rotVec R) = angle R := by
  unfold len
  rw [rotVec_sq h, Real.sqrt_sq (angle_nonneg h)]

/-- The exponential of the logarithm of a rigid motion is the motion. -/
theorem exp6_log6 {M : Pose ℝ} (h : IsRot M.R) : exp6 (log6 M) = M := by
  have hl : len (rotVec M.R) < 2 * Real.pi := by
    rw [len_rotVec h]; linarith [angle_le_pi h, Real.pi_pos]
  unfold exp6 log6
  simp only [exp3_rotVec h, mulVec_mulVec, (leftJac_inv hl).1, one_mulVec]

theorem angle_exp3 {w : Fin 3 → ℝ} (h : len w ≤ Real.pi) : angle (exp3 w) = len w := by
  rw [angle_eq (isRot_exp3 w)]
  by_cases hw : w = 0
  · subst hw
    simp [exp3_zero, len_zero]
  have h0 := (len_pos hw).ne'
  have h2 := len_sq w
  have e : (exp3 w 0 0 + exp3 w 1 1 + exp3 w 2 2 - 1) / 2 = Real.cos (len w) := by
    unfold exp3 poly
    rw [skew_sq]
    simp only [dotProduct, Fin.sum_univ_three] at h2
    simp [skew]
    field_simp
    linear_combination 2 * (1 - Real.cos (len w)) * h2
  rw [e, Real.arccos_cos (len_nonneg w) h]

theorem rotVec_exp3 {w : Fin 3 → ℝ} (h : len w < Real.pi) : rotVec (exp3 w) = w := by
  funext i
  have ha := angle_exp3 h.le
  rw [rotVec_vee (isRot_exp3 w) (by rw [ha]; exact h), ha]
  by_cases hw : w = 0
  · subst hw
    fin_cases i <;> simp [exp3_zero, vee]
  have h0 := (len_pos hw).ne'
  have hs : Real.sinc (len w) ≠ 0 := (sinc_pos (len_nonneg w) h).ne'
  have e : vee (exp3 w) i = 2 * Real.sinc (len w) * w i := by
    rw [Real.sinc_of_ne_zero h0]
    unfold exp3 poly
    rw [skew_sq]
    fin_cases i <;> simp [vee, skew] <;> ring
  rw [e]
  field_simp

/-- The logarithm of the exponential, for less than half a turn. -/
theorem log6_exp6 {x : Twist} (h : len x.2 < Real.pi) : log6 (exp6 x) = x := by
  obtain ⟨v, w⟩ := x
  simp only at h
  have hl : len w < 2 * Real.pi := by linarith [Real.pi_pos]
  unfold exp6 log6
  simp only [rotVec_exp3 h, mulVec_mulVec, (leftJac_inv hl).2, one_mulVec]

/-- The translation is at most as long as the linear velocity. -/
theorem leftJac_len (w v : Fin 3 → ℝ) : len (leftJac w *ᵥ v) ≤ len v := by
  by_cases hw : w = 0
  · subst hw; rw [leftJac_zero, one_mulVec]
  have h0 := (len_pos hw).ne'
  have hsc := Real.sin_sq_add_cos_sq (len w)
  apply Real.sqrt_le_sqrt
  have e : leftJac w *ᵥ v ⬝ᵥ leftJac w *ᵥ v = v ⬝ᵥ v - (len w ^ 2 - 2 + 2 * Real.cos (len w)) / len w ^ 4 * (skew w *ᵥ v ⬝ᵥ skew w *ᵥ v) := by
    have h1 : leftJac w *ᵥ v ⬝ᵥ leftJac w *ᵥ v = v ⬝ᵥ ((leftJac w)ᵀ * leftJac w) *ᵥ v := by
      rw [← mulVec_mulVec, dotProduct_mulVec v, vecMul_transpose]
    have h2 : skew w *ᵥ v ⬝ᵥ skew w *ᵥ v = -(v ⬝ᵥ (skew w * skew w) *ᵥ v) := by
      rw [← mulVec_mulVec, dotProduct_mulVec v, ← mulVec_transpose, skew_transpose, neg_mulVec, neg_dotProduct, neg_neg]
    rw [h1, h2]
    unfold leftJac
    rw [poly_transpose, poly_mul, poly, add_mulVec, add_mulVec, dotProduct_add, dotProduct_add, smul_mulVec, smul_mulVec, dotProduct_smul,
      dotProduct_smul, one_mulVec, smul_eq_mul, smul_eq_mul]
    generalize v ⬝ᵥ (skew w * skew w) *ᵥ v = k
    generalize v ⬝ᵥ skew w *ᵥ v = m
    field_simp
    linear_combination -k * hsc
  rw [e]
  have h1 : 0 ≤ (len w ^ 2 - 2 + 2 * Real.cos (len w)) / len w ^ 4 := by
    have := Real.one_sub_sq_div_two_le_cos (x := len w)
    have h4 : 0 ≤ len w ^ 2 - 2 + 2 * Real.cos (len w) := by linarith
    positivity
  have := mul_nonneg h1 (dot_self_nonneg (skew w *ᵥ v))
  linarith

theorem log6_eq_zero {M : Pose ℝ} (h : IsRot M.R) : log6 M = 0 ↔ M = Pose.one := by
  constructor
  · intro e
    rw [← exp6_log6 h, e, exp6_zero]
  · rintro rfl
    rw [← exp6_zero, log6_exp6]
    simp [len_zero, Real.pi_pos]

end Verif.Se3
