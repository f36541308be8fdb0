import Verif.Point6d.Jacobian

/-!
# Concrete motions for the feature of a position (C94, C95)
-/

namespace Verif.Point6d

open Matrix Verif.Geometry Verif.Features Verif.Spatial

/-- The rotation by `a` about the first axis. -/
noncomputable def turnX (a : ℝ) : Matrix (Fin 3) (Fin 3) ℝ := !![1, 0, 0; 0, Real.cos a, -Real.sin a; 0, Real.sin a, Real.cos a]

theorem turnX_isRot (a : ℝ) : IsRot (turnX a) := by
  have h := Real.sin_sq_add_cos_sq a
  refine ⟨?_, ?_⟩
  · ext i j
    fin_cases i <;> fin_cases j <;> simp [turnX, mul_apply, Fin.sum_univ_three] <;> linarith
  · simp [turnX, det_fin_three]; linarith

theorem turnX_angle {a : ℝ} (h0 : 0 ≤ a) (h1 : a < Real.pi) : angle (turnX a) = a := by
  rw [angle_eq (turnX_isRot a)]
  have : (turnX a 0 0 + turnX a 1 1 + turnX a 2 2 - 1) / 2 = Real.cos a := by
    simp [turnX]
    ring
  rw [this, Real.arccos_cos h0 h1.le]

theorem turnX_rotVec {a : ℝ} (h0 : 0 ≤ a) (h1 : a < Real.pi) : rotVec (turnX a) = ![a, 0, 0] := by
  have ha := turnX_angle h0 h1
  funext i
  rw [rotVec_vee (turnX_isRot a) (by rw [ha]; exact h1), ha]
  fin_cases i
  · simp only [vee, turnX]
    rcases h0.eq_or_lt with rfl | hp
    · simp
    · rw [Real.sinc_of_ne_zero hp.ne']
      have hs := (Real.sin_pos_of_pos_of_lt_pi hp h1).ne'
      simp
      field_simp
      ring
  · simp [vee, turnX]
  · simp [vee, turnX]

/-! A frame that turns about the first axis, back to its reference, as the law orders. -/

theorem decay_twist (t : ℝ) : BodyTwist (fun s => ⟨turnX (Real.exp (-s)), 0⟩) 0 ![-Real.exp (-t), 0, 0] t := by
  have he : HasDerivAt (fun s : ℝ => Real.exp (-s)) (-Real.exp (-t)) t := by
    simpa using (hasDerivAt_id t).neg.exp
  have hs := he.sin
  have hc := he.cos
  constructor
  · intro i j
    fin_cases i <;> fin_cases j <;> simp [turnX, mul_apply, Fin.sum_univ_three, skew]
    · exact hasDerivAt_const t (1 : ℝ)
    · exact hasDerivAt_const t (0 : ℝ)
    · exact hasDerivAt_const t (0 : ℝ)
    · exact hasDerivAt_const t (0 : ℝ)
    · exact hc.congr_deriv (by ring)
    · exact hs.neg.congr_deriv (by ring)
    · exact hasDerivAt_const t (0 : ℝ)
    · exact hs.congr_deriv (by ring)
    · exact hc.congr_deriv (by ring)
  · intro i
    fin_cases i <;> simpa using hasDerivAt_const t (0 : ℝ)

theorem exp_lt_pi {t : ℝ} (ht : 0 ≤ t) : Real.exp (-t) < Real.pi := by
  have : Real.exp (-t) ≤ 1 := Real.exp_le_one_iff.mpr (by linarith)
  linarith [Real.pi_gt_three]

theorem decay_error {t : ℝ} (ht : 0 ≤ t) :
    errorFull .desired ⟨turnX (Real.exp (-t)), 0⟩ (some ⟨1, 0⟩) = Sum.elim (0 : Fin 3 → ℝ) ![Real.exp (-t), 0, 0] := by
  funext r
  rcases r with i | i
  · simp [errorFull_inl, relative, Pose.mul, Pose.inv]
  · rw [errorFull_inr]
    have : (relative .desired ⟨turnX (Real.exp (-t)), 0⟩ (some ⟨1, 0⟩)).R = turnX (Real.exp (-t)) := by
      simp [relative, Pose.mul, Pose.inv]
    rw [this, turnX_rotVec (Real.exp_pos _).le (exp_lt_pi ht)]
    rfl

/-- The hypotheses of the decrease hold of this motion, with six joints that move the frame directly. -/
example (t : ℝ) (ht : 0 ≤ t) :
    errorFull .desired ⟨turnX (Real.exp (-t)), 0⟩ (some ⟨1, 0⟩)
      = Real.exp (-(1 * t)) • errorFull .desired ⟨turnX (Real.exp (-0)), 0⟩ (some ⟨1, 0⟩) := by
  refine C94_decay .desired (fun s => ⟨turnX (Real.exp (-s)), 0⟩) (fun s => turnX_isRot _) ⟨1, 0⟩ isRot_one
    (fun _ => (1 : Matrix (Fin 3 ⊕ Fin 3) (Fin 3 ⊕ Fin 3) ℝ))
    (fun t => Sum.elim (0 : Fin 3 → ℝ) ![-Real.exp (-t), 0, 0]) 1 zero_le_one ?_ ?_ ?_ t ht
  · intro s _
    have h1 : linPart (1 : Matrix (Fin 3 ⊕ Fin 3) (Fin 3 ⊕ Fin 3) ℝ) (Sum.elim (0 : Fin 3 → ℝ) ![-Real.exp (-s), 0, 0]) = 0 := by
      funext i; simp [linPart]
    have h2 : angPart (1 : Matrix (Fin 3 ⊕ Fin 3) (Fin 3 ⊕ Fin 3) ℝ) (Sum.elim (0 : Fin 3 → ℝ) ![-Real.exp (-s), 0, 0])
        = ![-Real.exp (-s), 0, 0] := by
      funext i; simp [angPart]
    rw [h1, h2]
    exact decay_twist s
  · intro s hs
    have e1 := jac_desired_trans ⟨turnX (Real.exp (-s)), 0⟩ ⟨1, 0⟩ (1 : Matrix (Fin 3 ⊕ Fin 3) (Fin 3 ⊕ Fin 3) ℝ)
      (Sum.elim (0 : Fin 3 → ℝ) ![-Real.exp (-s), 0, 0])
    have e2 := jac_desired_rot ⟨turnX (Real.exp (-s)), 0⟩ ⟨1, 0⟩ (1 : Matrix (Fin 3 ⊕ Fin 3) (Fin 3 ⊕ Fin 3) ℝ)
      (Sum.elim (0 : Fin 3 → ℝ) ![-Real.exp (-s), 0, 0])
    rw [decay_error hs]
    funext r
    rcases r with i | i
    · rw [show (jacobianFull .desired _ _ _ *ᵥ _) (Sum.inl i) = _ from congrFun e1 i]
      have h1 : linPart (1 : Matrix (Fin 3 ⊕ Fin 3) (Fin 3 ⊕ Fin 3) ℝ) (Sum.elim (0 : Fin 3 → ℝ) ![-Real.exp (-s), 0, 0]) = 0 := by
        funext i; simp [linPart]
      rw [h1]
      simp
    · rw [show (jacobianFull .desired _ _ _ *ᵥ _) (Sum.inr i) = _ from congrFun e2 i]
      have h2 : angPart (1 : Matrix (Fin 3 ⊕ Fin 3) (Fin 3 ⊕ Fin 3) ℝ) (Sum.elim (0 : Fin 3 → ℝ) ![-Real.exp (-s), 0, 0])
          = ![-Real.exp (-s), 0, 0] := by
        funext i; simp [angPart]
      rw [h2]
      fin_cases i <;> simp [turnX, mulVec, dotProduct, Fin.sum_univ_three]
  · rw [decay_error (le_refl 0)]
    have := Real.pi_gt_three
    simp [rotPart, dotProduct, Fin.sum_univ_three]
    rw [abs_of_pos Real.pi_pos]
    linarith

/-! ### The rotation rows are not the derivative of the rotation vector -/

/-- A frame at a quarter of a turn about the first axis, that turns about its second axis. -/
noncomputable def side (s : ℝ) : Pose ℝ :=
  ⟨!![Real.cos s, 0, Real.sin s; Real.sin s, 0, -Real.cos s; 0, 1, 0], 0⟩

theorem side_isRot (s : ℝ) : IsRot (side s).R := by
  have h := Real.sin_sq_add_cos_sq s
  refine ⟨?_, ?_⟩
  · ext i j
    fin_cases i <;> fin_cases j <;> simp [side, mul_apply, Fin.sum_univ_three] <;> linarith
  · simp [side, det_fin_three]; linarith

theorem side_twist (t : ℝ) : BodyTwist side 0 ![0, 1, 0] t := by
  have hs := Real.hasDerivAt_sin t
  have hc := Real.hasDerivAt_cos t
  constructor
  · intro i j
    fin_cases i <;> fin_cases j <;> simp [side, mul_apply, Fin.sum_univ_three, skew]
    · exact hc
    · exact hasDerivAt_const t (0 : ℝ)
    · exact hs
    · exact hs
    · exact hasDerivAt_const t (0 : ℝ)
    · exact hc.neg.congr_deriv (by ring)
    · exact hasDerivAt_const t (0 : ℝ)
    · exact hasDerivAt_const t (1 : ℝ)
    · exact hasDerivAt_const t (0 : ℝ)
  · intro i
    fin_cases i <;> simpa [side] using hasDerivAt_const t (0 : ℝ)

theorem side_zero : (side 0).R = turnX (Real.pi / 2) := by simp [side, turnX]

/-- **C94.** The rotation rows of the Jacobian are not, in general, the derivative of the rotation vector: a frame turned by a
quarter of a turn about its first axis and turning about its second one. -/
theorem C94_rotation_counterexample :
    ¬ ∀ i, HasDerivAt (fun s => errorFull .desired (side s) (some ⟨1, 0⟩) (.inr i))
      ((jacobianFull .desired (side 0) (some ⟨1, 0⟩) (1 : Matrix (Fin 3 ⊕ Fin 3) (Fin 3 ⊕ Fin 3) ℝ) *ᵥ Sum.elim (0 : Fin 3 → ℝ) ![0, 1, 0])
        (.inr i)) 0 := by
  intro hh
  have h1 : linPart (1 : Matrix (Fin 3 ⊕ Fin 3) (Fin 3 ⊕ Fin 3) ℝ) (Sum.elim (0 : Fin 3 → ℝ) ![0, 1, 0]) = 0 := by
    funext i; simp [linPart]
  have h2 : angPart (1 : Matrix (Fin 3 ⊕ Fin 3) (Fin 3 ⊕ Fin 3) ℝ) (Sum.elim (0 : Fin 3 → ℝ) ![0, 1, 0]) = ![0, 1, 0] := by
    funext i; simp [angPart]
  have hpi := Real.pi_gt_three
  have hrel : ∀ s, (relative .desired (side s) (some ⟨1, 0⟩)).R = (side s).R := by
    intro s; simp [relative, Pose.mul, Pose.inv]
  have herr : rotPart (errorFull .desired (side 0) (some ⟨1, 0⟩)) = ![Real.pi / 2, 0, 0] := by
    rw [rotPart_error, hrel, side_zero, turnX_rotVec (by linarith) (by linarith)]
  have hrot := (relative_motion .desired side (fun _ => ⟨1, 0⟩) side_isRot (fun _ => isRot_one) (side_twist 0)
    (worldTwist_const ⟨1, 0⟩ 0)).1
  simp only [mulVec_zero, sub_zero] at hrot
  obtain ⟨e', h3, h4⟩ := rotVec_deriv _ (fun s => rel_isRot .desired (side_isRot s) isRot_one) _ 0 hrot (by
    rw [hrel, side_zero, turnX_angle (by linarith) (by linarith)]; linarith)
  have he : e' = rotPart (jacobianFull .desired (side 0) (some ⟨1, 0⟩) (1 : Matrix (Fin 3 ⊕ Fin 3) (Fin 3 ⊕ Fin 3) ℝ) *ᵥ
      Sum.elim (0 : Fin 3 → ℝ) ![0, 1, 0]) := by
    funext i; exact (h3 i).unique (hh i)
  rw [he, jac_desired_rot, h2] at h4
  have hR : ((⟨1, 0⟩ : Pose ℝ).R⁻¹ * (side 0).R) *ᵥ ![0, 1, 0] = ![0, 0, 1] := by
    funext i
    fin_cases i <;> simp [side, mulVec, dotProduct, Fin.sum_univ_three]
  rw [hR, ← rotPart_error, herr] at h4
  have h5 := congrFun h4 2
  have hsq : Real.sqrt (Real.pi / 2 * (Real.pi / 2)) = Real.pi / 2 := Real.sqrt_mul_self (by linarith)
  simp [rightJac, dotProduct, mulVec, Fin.sum_univ_three, skew, mul_apply, hsq] at h5
  have hpi0 : Real.pi ≠ 0 := by linarith
  field_simp at h5
  norm_num at h5

/-! A reference that turns while the frame rests. -/

example : ∀ r, HasDerivAt (fun s => errorFull .current ⟨1, 0⟩ (some ⟨turnX s, 0⟩) r)
    (errordotFull .current ⟨1, 0⟩ (some (⟨turnX 1, 0⟩, Sum.elim (0 : Fin 3 → ℝ) ![1, 0, 0])) r) 1 := by
  have hrel : (relative .current ⟨1, 0⟩ (some ⟨turnX 1, 0⟩)).R = turnX 1 := by simp [relative, Pose.mul, Pose.inv]
  have hpi := Real.pi_gt_three
  have herr : rotPart (errorFull .current ⟨1, 0⟩ (some ⟨turnX 1, 0⟩)) = ![1, 0, 0] := by
    rw [rotPart_error, hrel, turnX_rotVec (by linarith) (by linarith)]
  have hdot : rotPart (errorFull .current ⟨1, 0⟩ (some ⟨turnX 1, 0⟩)) ⬝ᵥ rotPart (errorFull .current ⟨1, 0⟩ (some ⟨turnX 1, 0⟩)) = 1 := by
    rw [herr]; simp [dotProduct, Fin.sum_univ_three]
  refine C95_errordot_partial .current (fun _ => ⟨1, 0⟩) (fun s => ⟨turnX s, 0⟩) (fun _ => isRot_one) (fun s => turnX_isRot s)
    (0 : Matrix (Fin 3 ⊕ Fin 3) Unit ℝ) 0 (Sum.elim (0 : Fin 3 → ℝ) ![1, 0, 0]) 1 ?_ ?_ (by simp) ?_ (.inr ?_)
  · have hl : linPart (0 : Matrix (Fin 3 ⊕ Fin 3) Unit ℝ) 0 = 0 := by funext i; simp [linPart]
    have ha : angPart (0 : Matrix (Fin 3 ⊕ Fin 3) Unit ℝ) 0 = 0 := by funext i; simp [angPart]
    rw [hl, ha]
    have h0 : skew (0 : Fin 3 → ℝ) = 0 := by ext i j; fin_cases i <;> fin_cases j <;> simp [skew]
    constructor
    · intro i j; rw [h0]; simpa using hasDerivAt_const (1 : ℝ) ((1 : Matrix (Fin 3) (Fin 3) ℝ) i j)
    · intro i; simpa using hasDerivAt_const (1 : ℝ) (0 : ℝ)
  · have hs := Real.hasDerivAt_sin 1
    have hc := Real.hasDerivAt_cos 1
    constructor
    · intro i j
      fin_cases i <;> fin_cases j <;> simp [turnX, mul_apply, Fin.sum_univ_three, skew, rotPart]
      · exact hasDerivAt_const (1 : ℝ) (1 : ℝ)
      · exact hasDerivAt_const (1 : ℝ) (0 : ℝ)
      · exact hasDerivAt_const (1 : ℝ) (0 : ℝ)
      · exact hasDerivAt_const (1 : ℝ) (0 : ℝ)
      · exact hc
      · exact hs.neg
      · exact hasDerivAt_const (1 : ℝ) (0 : ℝ)
      · exact hs
      · exact hc
    · intro i
      fin_cases i <;> simpa [transPart] using hasDerivAt_const (1 : ℝ) (0 : ℝ)
  · rw [hdot]; nlinarith
  · rw [hdot]; norm_num

end Verif.Point6d
