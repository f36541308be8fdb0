import Verif.Geometry.ConvertProps
import Verif.Spatial.Spec
import Mathlib.Analysis.SpecialFunctions.Trigonometric.Sinc
import Mathlib.Analysis.SpecialFunctions.Trigonometric.InverseDeriv
import Mathlib.Analysis.Calculus.Deriv.Inv

/-!
# The rotation vector of a moving rotation

Vocabulary and lemmas for the features whose error is a rotation vector: `rotVec` is what this code reads of Eigen's
`AngleAxis` (angle times axis), `rightJac` the matrix that turns its derivative into the angular velocity.
-/

namespace Verif.Point6d

open Matrix Verif.Geometry

/-- The angle of a rotation, as Eigen computes it. -/
noncomputable def angle (R : Matrix (Fin 3) (Fin 3) ℝ) : ℝ := (angleAxisOfRot R).1

/-- The rotation vector of a rotation: its angle times its axis. -/
noncomputable def rotVec (R : Matrix (Fin 3) (Fin 3) ℝ) : Fin 3 → ℝ := fun i => (angleAxisOfRot R).1 * (angleAxisOfRot R).2 i

/-- The vector of the skew-symmetric part, twice. -/
def vee (R : Matrix (Fin 3) (Fin 3) ℝ) : Fin 3 → ℝ := ![R 2 1 - R 1 2, R 0 2 - R 2 0, R 1 0 - R 0 1]

/-- The right Jacobian of the rotation vectors: `w = rightJac e * e'` is the angular velocity, in the moving frame, of the
rotation of vector `e`. At zero it is the identity. -/
noncomputable def rightJac (e : Fin 3 → ℝ) : Matrix (Fin 3) (Fin 3) ℝ :=
  let th := Real.sqrt (e ⬝ᵥ e)
  1 - ((1 - Real.cos th) / th ^ 2) • skew e + ((th - Real.sin th) / th ^ 3) • (skew e * skew e)

/-- At the date `t` the rotation moves with the angular velocity `w` expressed in the moving frame. -/
def BodyRot (R : ℝ → Matrix (Fin 3) (Fin 3) ℝ) (w : Fin 3 → ℝ) (t : ℝ) : Prop :=
  ∀ i j, HasDerivAt (fun s => R s i j) ((R t * skew w) i j) t

/-! ### One rotation -/

theorem angle_nonneg {R : Matrix (Fin 3) (Fin 3) ℝ} (h : IsRot R) : 0 ≤ angle R := (C81_matrix_angle_axis R h).1

theorem angle_le_pi {R : Matrix (Fin 3) (Fin 3) ℝ} (h : IsRot R) : angle R ≤ Real.pi := (C81_matrix_angle_axis R h).2.1

theorem trace_eq {R : Matrix (Fin 3) (Fin 3) ℝ} (h : IsRot R) : R 0 0 + R 1 1 + R 2 2 = 1 + 2 * Real.cos (angle R) := by
  obtain ⟨-, -, a3, a4, -⟩ := C81_matrix_angle_axis R h
  unfold angle
  generalize angleAxisOfRot R = r at *
  rw [← a4]
  simp [angleAxisMatrix]
  linear_combination (1 - Real.cos r.1) * a3

theorem angle_eq {R : Matrix (Fin 3) (Fin 3) ℝ} (h : IsRot R) :
    angle R = Real.arccos ((R 0 0 + R 1 1 + R 2 2 - 1) / 2) := by
  rw [trace_eq h, show (1 + 2 * Real.cos (angle R) - 1) / 2 = Real.cos (angle R) by ring,
    Real.arccos_cos (angle_nonneg h) (angle_le_pi h)]

theorem vee_eq {R : Matrix (Fin 3) (Fin 3) ℝ} (h : IsRot R) (i : Fin 3) :
    vee R i = 2 * Real.sin (angle R) * (angleAxisOfRot R).2 i := by
  obtain ⟨-, -, -, a4, -⟩ := C81_matrix_angle_axis R h
  unfold angle vee
  generalize angleAxisOfRot R = r at *
  rw [← a4]
  fin_cases i <;> simp [angleAxisMatrix] <;> ring

theorem rotVec_sq {R : Matrix (Fin 3) (Fin 3) ℝ} (h : IsRot R) : rotVec R ⬝ᵥ rotVec R = angle R ^ 2 := by
  obtain ⟨-, -, a3, -, -⟩ := C81_matrix_angle_axis R h
  simp only [dotProduct, Fin.sum_univ_three, rotVec, angle]
  linear_combination (angleAxisOfRot R).1 ^ 2 * a3

theorem rotVec_fixed {R : Matrix (Fin 3) (Fin 3) ℝ} (h : IsRot R) : R *ᵥ rotVec R = rotVec R := by
  obtain ⟨-, -, a3, a4, -⟩ := C81_matrix_angle_axis R h
  have e : R *ᵥ rotVec R = angleAxisMatrix (angleAxisOfRot R).1 (angleAxisOfRot R).2 *ᵥ rotVec R := by rw [a4]
  rw [e]
  unfold rotVec
  generalize angleAxisOfRot R = r at *
  obtain ⟨th, u⟩ := r
  simp only at a3 ⊢
  ext i
  fin_cases i <;> simp [angleAxisMatrix, Matrix.mulVec, dotProduct, Fin.sum_univ_three]
  · linear_combination (u 0 * (1 - Real.cos th)) * th * a3
  · linear_combination (u 1 * (1 - Real.cos th)) * th * a3
  · linear_combination (u 2 * (1 - Real.cos th)) * th * a3

theorem rotVec_eq_zero {R : Matrix (Fin 3) (Fin 3) ℝ} (h : IsRot R) : rotVec R = 0 ↔ R = 1 := by
  constructor
  · intro e
    have := rotVec_sq h
    rw [e, zero_dotProduct] at this
    have h0 : angle R = 0 := by
      have := this.symm
      exact pow_eq_zero_iff two_ne_zero |>.mp this
    obtain ⟨-, -, -, a4, -⟩ := C81_matrix_angle_axis R h
    rw [← a4]
    unfold angle at h0
    rw [h0, angleAxisMatrix_zero]
  · rintro rfl
    have h0 : angle 1 = 0 := by rw [angle_eq isRot_one]; norm_num
    funext i
    unfold angle at h0
    simp [rotVec, h0]

theorem sinc_pos {x : ℝ} (h0 : 0 ≤ x) (h1 : x < Real.pi) : 0 < Real.sinc x := by
  rcases h0.eq_or_lt with rfl | h
  · simp
  · rw [Real.sinc_of_ne_zero h.ne']
    exact div_pos (Real.sin_pos_of_pos_of_lt_pi h h1) h

/-- Below half a turn the rotation vector is a multiple of the skew-symmetric part. -/
theorem rotVec_vee {R : Matrix (Fin 3) (Fin 3) ℝ} (h : IsRot R) (hp : angle R < Real.pi) (i : Fin 3) :
    rotVec R i = 1 / (2 * Real.sinc (angle R)) * vee R i := by
  rw [vee_eq h]
  rcases (angle_nonneg h).eq_or_lt with h0 | h0
  · rw [← h0]
    simp only [rotVec]
    change angle R * _ = _
    rw [← h0]; simp
  · rw [Real.sinc_of_ne_zero h0.ne']
    have hs := Real.sin_pos_of_pos_of_lt_pi h0 hp
    simp only [rotVec]
    change angle R * _ = _
    field_simp

/-! ### The Jacobian of the rotation vectors -/

theorem skew_self (e : Fin 3 → ℝ) : skew e *ᵥ e = 0 := by
  rw [skew_mulVec, cross_self]

theorem skew_transpose (e : Fin 3 → ℝ) : (skew e)ᵀ = -skew e := by
  ext i j
  fin_cases i <;> fin_cases j <;> simp [skew]

theorem dot_skew (e x : Fin 3 → ℝ) : e ⬝ᵥ skew e *ᵥ x = 0 := by
  rw [dotProduct_mulVec, ← mulVec_transpose, skew_transpose, neg_mulVec, skew_self, neg_zero, zero_dotProduct]

theorem dot_rightJac (e x : Fin 3 → ℝ) : e ⬝ᵥ rightJac e *ᵥ x = e ⬝ᵥ x := by
  simp only [rightJac]
  rw [add_mulVec, sub_mulVec, smul_mulVec, smul_mulVec, one_mulVec, ← mulVec_mulVec, dotProduct_add, dotProduct_sub,
    dotProduct_smul, dotProduct_smul, dot_skew, dot_skew]
  simp

theorem rightJac_zero : rightJac 0 = 1 := by
  have : (skew (0 : Fin 3 → ℝ)) = 0 := by
    ext i j; fin_cases i <;> fin_cases j <;> simp [skew]
  simp [rightJac, this]

/-! ### Moving rotations -/

theorem skew_inj {a b : Fin 3 → ℝ} (h : skew a = skew b) : a = b := by
  have h0 := congrFun (congrFun h 2) 1
  have h1 := congrFun (congrFun h 0) 2
  have h2 := congrFun (congrFun h 1) 0
  ext i
  fin_cases i
  · simpa [skew] using h0
  · simpa [skew] using h1
  · simpa [skew] using h2

theorem BodyRot.unique {R : ℝ → Matrix (Fin 3) (Fin 3) ℝ} {a b : Fin 3 → ℝ} {t : ℝ} (hR : IsRot (R t)) (ha : BodyRot R a t)
    (hb : BodyRot R b t) : a = b := by
  have e : R t * skew a = R t * skew b := by
    ext i j; exact (ha i j).unique (hb i j)
  apply skew_inj
  have := congrArg (fun m => (R t)ᵀ * m) e
  simpa [← Matrix.mul_assoc, hR.1] using this

/-- The angular velocity of a rotation given by a moving angle and a moving axis. -/
theorem angleAxis_deriv (th : ℝ → ℝ) (u : ℝ → Fin 3 → ℝ) (th' : ℝ) (u' : Fin 3 → ℝ) (t : ℝ) (hth : HasDerivAt th th' t)
    (hu : ∀ i, HasDerivAt (fun s => u s i) (u' i) t) (h1 : u t 0 ^ 2 + u t 1 ^ 2 + u t 2 ^ 2 = 1)
    (h0 : u t 0 * u' 0 + u t 1 * u' 1 + u t 2 * u' 2 = 0) :
    BodyRot (fun s => angleAxisMatrix (th s) (u s))
      (th' • u t + Real.sin (th t) • u' - (1 - Real.cos (th t)) • (u t ⨯₃ u')) t := by
  intro i j
  have hc := hth.cos
  have hs := hth.sin
  have hsc := Real.sin_sq_add_cos_sq (th t)
  have g := fun a b (d : ℝ → ℝ) (d' : ℝ) (hd : HasDerivAt d d' t) =>
    ((hu a).mul (hu b)).mul ((hc.const_sub 1)) |>.add hd
  have g2 := fun a => (hu a).mul hs
  fin_cases i <;> fin_cases j
  · refine (g 0 0 _ _ hc).congr_deriv ?_
    simp [angleAxisMatrix, Matrix.mul_apply, Fin.sum_univ_three, skew, cross_apply]
    generalize Real.sin (th t) = s at *
    generalize Real.cos (th t) = c at *
    generalize u t = v at *
    grind
  · refine (g 0 1 _ _ (g2 2).neg).congr_deriv ?_
    simp [angleAxisMatrix, Matrix.mul_apply, Fin.sum_univ_three, skew, cross_apply]
    generalize Real.sin (th t) = s at *
    generalize Real.cos (th t) = c at *
    generalize u t = v at *
    grind
  · refine (g 0 2 _ _ (g2 1)).congr_deriv ?_
    simp [angleAxisMatrix, Matrix.mul_apply, Fin.sum_univ_three, skew, cross_apply]
    generalize Real.sin (th t) = s at *
    generalize Real.cos (th t) = c at *
    generalize u t = v at *
    grind
  · refine (g 0 1 _ _ (g2 2)).congr_deriv ?_
    simp [angleAxisMatrix, Matrix.mul_apply, Fin.sum_univ_three, skew, cross_apply]
    generalize Real.sin (th t) = s at *
    generalize Real.cos (th t) = c at *
    generalize u t = v at *
    grind
  · refine (g 1 1 _ _ hc).congr_deriv ?_
    simp [angleAxisMatrix, Matrix.mul_apply, Fin.sum_univ_three, skew, cross_apply]
    generalize Real.sin (th t) = s at *
    generalize Real.cos (th t) = c at *
    generalize u t = v at *
    grind
  · refine (g 1 2 _ _ (g2 0).neg).congr_deriv ?_
    simp [angleAxisMatrix, Matrix.mul_apply, Fin.sum_univ_three, skew, cross_apply]
    generalize Real.sin (th t) = s at *
    generalize Real.cos (th t) = c at *
    generalize u t = v at *
    grind
  · refine (g 0 2 _ _ (g2 1).neg).congr_deriv ?_
    simp [angleAxisMatrix, Matrix.mul_apply, Fin.sum_univ_three, skew, cross_apply]
    generalize Real.sin (th t) = s at *
    generalize Real.cos (th t) = c at *
    generalize u t = v at *
    grind
  · refine (g 1 2 _ _ (g2 0)).congr_deriv ?_
    simp [angleAxisMatrix, Matrix.mul_apply, Fin.sum_univ_three, skew, cross_apply]
    generalize Real.sin (th t) = s at *
    generalize Real.cos (th t) = c at *
    generalize u t = v at *
    grind
  · refine (g 2 2 _ _ hc).congr_deriv ?_
    simp [angleAxisMatrix, Matrix.mul_apply, Fin.sum_univ_three, skew, cross_apply]
    generalize Real.sin (th t) = s at *
    generalize Real.cos (th t) = c at *
    generalize u t = v at *
    grind

theorem rightJac_axis (th : ℝ) (hp : 0 < th) (th' : ℝ) (v v' : Fin 3 → ℝ) (h1 : v 0 ^ 2 + v 1 ^ 2 + v 2 ^ 2 = 1)
    (h0 : v 0 * v' 0 + v 1 * v' 1 + v 2 * v' 2 = 0) :
    rightJac (fun i => th * v i) *ᵥ (fun i => th' * v i + th * v' i)
      = th' • v + Real.sin th • v' - (1 - Real.cos th) • (v ⨯₃ v') := by
  have hn : Real.sqrt ((fun i => th * v i) ⬝ᵥ fun i => th * v i) = th := by
    have : ((fun i => th * v i) ⬝ᵥ fun i => th * v i) = th ^ 2 := by
      simp only [dotProduct, Fin.sum_univ_three]
      linear_combination th ^ 2 * h1
    rw [this, Real.sqrt_sq hp.le]
  have hth : th ≠ 0 := hp.ne'
  simp only [rightJac, hn]
  generalize Real.sin th = s at *
  generalize Real.cos th = c at *
  obtain ⟨r, hr⟩ : ∃ r, r * th = 1 := ⟨1 / th, by field_simp⟩
  have e2 : (1 - c) / th ^ 2 = (1 - c) * r ^ 2 := by field_simp; linear_combination -(1 - c) * (r * th + 1) * hr
  have e3 : (th - s) / th ^ 3 = (th - s) * r ^ 3 := by
    field_simp; linear_combination -(th - s) * (r ^ 2 * th ^ 2 + r * th + 1) * hr
  rw [e2, e3]
  ext i
  fin_cases i <;>
    simp [Matrix.mulVec, dotProduct, Fin.sum_univ_three, Matrix.mul_apply, skew, cross_apply, Matrix.one_apply] <;>
    grind

/-- A product whose second factor vanishes: the derivative needs the continuity of the first one only. -/
theorem hasDerivAt_mul_of_zero {f g : ℝ → ℝ} {f' t : ℝ} (hf : HasDerivAt f f' t) (h0 : f t = 0) (hg : ContinuousAt g t) :
    HasDerivAt (fun s => g s * f s) (g t * f') t := by
  rw [hasDerivAt_iff_tendsto_slope] at hf ⊢
  have h := (hg.tendsto.mono_left nhdsWithin_le_nhds).mul hf
  refine h.congr' (Filter.Eventually.of_forall fun s => ?_)
  simp only [slope, vsub_eq_sub, smul_eq_mul, h0]
  ring

theorem BodyRot.trace {R : ℝ → Matrix (Fin 3) (Fin 3) ℝ} {w : Fin 3 → ℝ} {t : ℝ} (h : BodyRot R w t) :
    HasDerivAt (fun s => (R s 0 0 + R s 1 1 + R s 2 2 - 1) / 2)
      (((R t * skew w) 0 0 + (R t * skew w) 1 1 + (R t * skew w) 2 2) / 2) t := by
  simpa using ((((h 0 0).add (h 1 1)).add (h 2 2)).sub_const 1).div_const 2

theorem BodyRot.vee {R : ℝ → Matrix (Fin 3) (Fin 3) ℝ} {w : Fin 3 → ℝ} {t : ℝ} (h : BodyRot R w t) (i : Fin 3) :
    HasDerivAt (fun s => vee (R s) i) (vee (R t * skew w) i) t := by
  fin_cases i
  · exact (h 2 1).sub (h 1 2)
  · exact (h 0 2).sub (h 2 0)
  · exact (h 1 0).sub (h 0 1)

theorem continuousAt_angle {R : ℝ → Matrix (Fin 3) (Fin 3) ℝ} {w : Fin 3 → ℝ} {t : ℝ} (hR : ∀ s, IsRot (R s))
    (h : BodyRot R w t) : ContinuousAt (fun s => angle (R s)) t := by
  have e : (fun s => angle (R s)) = fun s => Real.arccos ((R s 0 0 + R s 1 1 + R s 2 2 - 1) / 2) := by
    funext s; exact angle_eq (hR s)
  rw [e]
  exact Real.continuous_arccos.continuousAt.comp h.trace.continuousAt

/-- The rotation vector of a moving rotation, below half a turn, is differentiable, and its derivative is related to the
angular velocity by the right Jacobian. -/
theorem rotVec_deriv (R : ℝ → Matrix (Fin 3) (Fin 3) ℝ) (hR : ∀ s, IsRot (R s)) (w : Fin 3 → ℝ) (t : ℝ) (h : BodyRot R w t)
    (hp : angle (R t) < Real.pi) :
    ∃ e' : Fin 3 → ℝ, (∀ i, HasDerivAt (fun s => rotVec (R s) i) (e' i) t) ∧ rightJac (rotVec (R t)) *ᵥ e' = w := by
  have hca := continuousAt_angle hR h
  have hlt : ∀ᶠ s in nhds t, angle (R s) < Real.pi := hca.eventually_lt_const hp
  rcases (angle_nonneg (hR t)).eq_or_lt with h0 | h0
  · -- no rotation
    have hz : rotVec (R t) = 0 := by
      funext i; simp only [rotVec]; change angle (R t) * _ = _; rw [← h0]; simp
    have h1 : R t = 1 := (rotVec_eq_zero (hR t)).mp hz
    refine ⟨w, fun i => ?_, by rw [hz, rightJac_zero, one_mulVec]⟩
    have hg : ContinuousAt (fun s => 1 / (2 * Real.sinc (angle (R s)))) t := by
      have h2 : ContinuousAt (fun s => 2 * Real.sinc (angle (R s))) t :=
        continuousAt_const.mul (Real.continuous_sinc.continuousAt.comp hca)
      refine continuousAt_const.div h2 ?_
      have := sinc_pos (angle_nonneg (hR t)) hp
      positivity
    have hv0 : vee (R t) i = 0 := by rw [vee_eq (hR t), ← h0]; simp
    have hd := hasDerivAt_mul_of_zero (h.vee i) hv0 hg
    have hd' : HasDerivAt (fun s => rotVec (R s) i)
        (1 / (2 * Real.sinc (angle (R t))) * vee (R t * skew w) i) t := by
      refine hd.congr_of_eventuallyEq ?_
      filter_upwards [hlt] with s hs
      exact rotVec_vee (hR s) hs i
    refine hd'.congr_deriv ?_
    rw [← h0, h1]
    fin_cases i <;> simp [Point6d.vee, skew] <;> ring
  · have hsin : 0 < Real.sin (angle (R t)) := Real.sin_pos_of_pos_of_lt_pi h0 hp
    have hc1 : (R t 0 0 + R t 1 1 + R t 2 2 - 1) / 2 = Real.cos (angle (R t)) := by rw [trace_eq (hR t)]; ring
    have hcos : -1 < Real.cos (angle (R t)) ∧ Real.cos (angle (R t)) < 1 := by
      have := Real.sin_sq_add_cos_sq (angle (R t))
      constructor <;> nlinarith
    have hacc := (Real.hasDerivAt_arccos (x := (R t 0 0 + R t 1 1 + R t 2 2 - 1) / 2) (by rw [hc1]; exact hcos.1.ne')
      (by rw [hc1]; exact hcos.2.ne)).comp t h.trace
    have e : (fun s => angle (R s)) = Real.arccos ∘ fun s => (R s 0 0 + R s 1 1 + R s 2 2 - 1) / 2 := by
      funext s; exact angle_eq (hR s)
    rw [← e] at hacc
    obtain ⟨th', hth⟩ : ∃ th', HasDerivAt (fun s => angle (R s)) th' t := ⟨_, hacc⟩
    have hs0 : (2 : ℝ) * Real.sin (angle (R t)) ≠ 0 := by positivity
    have hu := fun i => (h.vee i).div (hth.sin.const_mul 2) hs0
    obtain ⟨u', hu'⟩ : ∃ u' : Fin 3 → ℝ, ∀ i, HasDerivAt (fun s => vee (R s) i / (2 * Real.sin (angle (R s)))) (u' i) t :=
      ⟨_, hu⟩
    have hpos : ∀ᶠ s in nhds t, 0 < angle (R s) := hca.eventually_const_lt h0
    have hax : ∀ᶠ s in nhds t, (fun i => vee (R s) i / (2 * Real.sin (angle (R s)))) = (angleAxisOfRot (R s)).2 := by
      filter_upwards [hlt, hpos] with s hs1 hs2
      have := Real.sin_pos_of_pos_of_lt_pi hs2 hs1
      funext i
      rw [vee_eq (hR s)]
      field_simp
    have haxt := hax.self_of_nhds
    set u : ℝ → Fin 3 → ℝ := fun s i => vee (R s) i / (2 * Real.sin (angle (R s))) with hudef
    have hun : ∀ᶠ s in nhds t, u s 0 ^ 2 + u s 1 ^ 2 + u s 2 ^ 2 = 1 := by
      filter_upwards [hax] with s hs
      rw [show u s = (angleAxisOfRot (R s)).2 from hs]
      exact (C81_matrix_angle_axis (R s) (hR s)).2.2.1
    have h1 : u t 0 ^ 2 + u t 1 ^ 2 + u t 2 ^ 2 = 1 := hun.self_of_nhds
    have hud : u t 0 * u' 0 + u t 1 * u' 1 + u t 2 * u' 2 = 0 := by
      have d1 := (((hu' 0).pow 2).add ((hu' 1).pow 2)).add ((hu' 2).pow 2)
      have d2 : HasDerivAt (fun s => u s 0 ^ 2 + u s 1 ^ 2 + u s 2 ^ 2) 0 t :=
        (hasDerivAt_const t (1 : ℝ)).congr_of_eventuallyEq hun
      have := d1.unique d2
      simp only [Nat.cast_ofNat, Nat.add_one_sub_one, pow_one] at this
      linear_combination this / 2
    have hrot := angleAxis_deriv (fun s => angle (R s)) u th' u' t hth hu' h1 hud
    have hrotR : BodyRot R (th' • u t + Real.sin (angle (R t)) • u' - (1 - Real.cos (angle (R t))) • (u t ⨯₃ u')) t := by
      have eR : ∀ᶠ s in nhds t, angleAxisMatrix (angle (R s)) (u s) = R s := by
        filter_upwards [hax] with s hs
        rw [show u s = (angleAxisOfRot (R s)).2 from hs]
        exact (C81_matrix_angle_axis (R s) (hR s)).2.2.2.1
      intro i j
      have := hrot i j
      simp only [eR.self_of_nhds] at this
      refine this.congr_of_eventuallyEq ?_
      filter_upwards [eR] with s hs
      rw [hs]
    have hw := h.unique (hR t) hrotR
    have hrv : ∀ᶠ s in nhds t, rotVec (R s) = fun i => angle (R s) * u s i := by
      filter_upwards [hax] with s hs
      rw [show u s = (angleAxisOfRot (R s)).2 from hs]
      rfl
    refine ⟨fun i => th' * u t i + angle (R t) * u' i, fun i => ?_, ?_⟩
    · refine (hth.mul (hu' i)).congr_of_eventuallyEq ?_
      filter_upwards [hrv] with s hs
      rw [hs]; rfl
    · rw [hrv.self_of_nhds, hw]
      exact rightJac_axis _ h0 _ _ _ h1 hud

end Verif.Point6d
