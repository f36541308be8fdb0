import Verif.Point6d.RightJac
import Verif.Point6d.Error
import Mathlib.Analysis.SpecialFunctions.Trigonometric.Deriv

/-!
# The exponential of the rigid motions

`exp6` of pinocchio (used by `integrate` in src/tools/device.cpp:55) by its documented formula: the motion reached after one unit of time
with a constant velocity, expressed in the moving frame. Simplification: the series that pinocchio uses for very small angles is the formula.
-/

namespace Verif.Se3

open Matrix Verif.Geometry Verif.Point6d Verif.Spatial

/-- A velocity of a frame, expressed in itself: linear, then angular. -/
abbrev Twist := (Fin 3 → ℝ) × (Fin 3 → ℝ)

/-- `1 + a [w] + b [w]²`. -/
noncomputable def poly (w : Fin 3 → ℝ) (a b : ℝ) : Matrix (Fin 3) (Fin 3) ℝ := 1 + a • skew w + b • (skew w * skew w)

/-- The length of a vector. -/
noncomputable def len (w : Fin 3 → ℝ) : ℝ := √(w ⬝ᵥ w)

/-- The rotation of a rotation vector: `exp3` of pinocchio (used by `integrate` in src/tools/device.cpp:55). At zero the quotients are
multiplied by zero. -/
noncomputable def exp3 (w : Fin 3 → ℝ) : Matrix (Fin 3) (Fin 3) ℝ :=
  poly w (Real.sin (len w) / len w) ((1 - Real.cos (len w)) / len w ^ 2)

/-- The matrix of the translation in `exp6`. -/
noncomputable def leftJac (w : Fin 3 → ℝ) : Matrix (Fin 3) (Fin 3) ℝ :=
  poly w ((1 - Real.cos (len w)) / len w ^ 2) ((len w - Real.sin (len w)) / len w ^ 3)

/-- `exp6` of pinocchio (used by `integrate` in src/tools/device.cpp:55). -/
noncomputable def exp6 (x : Twist) : Pose ℝ := ⟨exp3 x.2, leftJac x.2 *ᵥ x.1⟩

theorem len_sq (w : Fin 3 → ℝ) : len w ^ 2 = w ⬝ᵥ w := Real.sq_sqrt (dot_self_nonneg w)

theorem len_nonneg (w : Fin 3 → ℝ) : 0 ≤ len w := Real.sqrt_nonneg _

theorem len_pos {w : Fin 3 → ℝ} (h : w ≠ 0) : 0 < len w :=
  Real.sqrt_pos.2 (lt_of_le_of_ne (dot_self_nonneg w) fun e => h (eq_zero_of_dot w e.symm))

theorem len_zero : len 0 = 0 := by simp [len]

theorem len_smul (s : ℝ) (w : Fin 3 → ℝ) : len (s • w) = |s| * len w := by
  unfold len
  rw [smul_dotProduct, dotProduct_smul, smul_eq_mul, smul_eq_mul, ← mul_assoc, ← pow_two, Real.sqrt_mul (sq_nonneg s), Real.sqrt_sq_eq_abs]

theorem skew_zero : skew (0 : Fin 3 → ℝ) = 0 := by
  ext i j
  fin_cases i <;> fin_cases j <;> simp [skew]

theorem skew_smul (s : ℝ) (w : Fin 3 → ℝ) : skew (s • w) = s • skew w := by
  ext i j
  fin_cases i <;> fin_cases j <;> simp [skew]

theorem skew_cube (w : Fin 3 → ℝ) : skew w * (skew w * skew w) = -(len w ^ 2) • skew w := by
  rw [len_sq, skew_sq]
  ext i j
  fin_cases i <;> fin_cases j <;> simp [skew, mul_apply, Fin.sum_univ_three, dotProduct] <;> ring

theorem poly_zero (a b : ℝ) : poly 0 a b = 1 := by simp [poly, skew_zero]

theorem poly_mul (w : Fin 3 → ℝ) (a b c d : ℝ) :
    poly w a b * poly w c d = poly w (a + c - len w ^ 2 * (a * d + b * c)) (b + d + a * c - len w ^ 2 * (b * d)) := by
  have h3 := skew_cube w
  have h3' : skew w * skew w * skew w = -(len w ^ 2) • skew w := by rw [Matrix.mul_assoc, h3]
  have h4 : skew w * skew w * (skew w * skew w) = -(len w ^ 2) • (skew w * skew w) := by
    rw [← Matrix.mul_assoc, h3', Matrix.smul_mul]
  unfold poly
  simp only [Matrix.add_mul, Matrix.mul_add, Matrix.one_mul, Matrix.mul_one, Matrix.smul_mul, Matrix.mul_smul, h3, h3', h4, smul_smul]
  module

theorem poly_transpose (w : Fin 3 → ℝ) (a b : ℝ) : (poly w a b)ᵀ = poly w (-a) b := by
  simp only [poly, transpose_add, transpose_one, transpose_smul, transpose_mul, skew_transpose]
  simp

theorem poly_smul (s : ℝ) (w : Fin 3 → ℝ) (a b : ℝ) : poly (s • w) a b = poly w (s * a) (s ^ 2 * b) := by
  simp only [poly, skew_smul, Matrix.smul_mul, Matrix.mul_smul, smul_smul]
  module

/-- The rotation along an axis, with the sign of the parameter. -/
theorem exp3_smul (s : ℝ) {w : Fin 3 → ℝ} (hw : w ≠ 0) :
    exp3 (s • w) = poly w (Real.sin (s * len w) / len w) ((1 - Real.cos (s * len w)) / len w ^ 2) := by
  have h := (len_pos hw).ne'
  unfold exp3
  rw [poly_smul, len_smul]
  by_cases hs : s = 0
  · subst hs; simp
  rcases abs_choice s with e | e <;> rw [e]
  · congr 1 <;> field_simp
  · rw [show -s * len w = -(s * len w) by ring, Real.sin_neg, Real.cos_neg]
    congr 1 <;> field_simp

theorem leftJac_smul (s : ℝ) {w : Fin 3 → ℝ} (hw : w ≠ 0) :
    s • leftJac (s • w) = s • (1 : Matrix (Fin 3) (Fin 3) ℝ) + ((1 - Real.cos (s * len w)) / len w ^ 2) • skew w +
      ((s * len w - Real.sin (s * len w)) / len w ^ 3) • (skew w * skew w) := by
  have h := (len_pos hw).ne'
  by_cases hs : s = 0
  · subst hs; simp
  unfold leftJac
  rw [poly_smul, len_smul, poly, smul_add, smul_add, smul_smul, smul_smul]
  congr 2
  · congr 1
    rcases abs_choice s with e | e <;> rw [e]
    · field_simp
    · rw [show -s * len w = -(s * len w) by ring, Real.cos_neg]; field_simp
  · rcases abs_choice s with e | e <;> rw [e]
    · field_simp
    · rw [show -s * len w = -(s * len w) by ring, Real.sin_neg]; field_simp; ring

theorem exp3_zero : exp3 0 = 1 := poly_zero _ _

theorem leftJac_zero : leftJac 0 = 1 := poly_zero _ _

/-- The rotations around one axis add up. -/
theorem exp3_add (s t : ℝ) (w : Fin 3 → ℝ) : exp3 (s • w) * exp3 (t • w) = exp3 ((s + t) • w) := by
  by_cases hw : w = 0
  · subst hw; simp [exp3_zero]
  have h := (len_pos hw).ne'
  rw [exp3_smul s hw, exp3_smul t hw, exp3_smul (s + t) hw, poly_mul, add_mul, Real.sin_add, Real.cos_add]
  congr 1 <;> field_simp <;> ring

/-- The translations of a motion with a constant velocity. -/
theorem leftJac_add (s t : ℝ) (w : Fin 3 → ℝ) :
    exp3 (s • w) * (t • leftJac (t • w)) + s • leftJac (s • w) = (s + t) • leftJac ((s + t) • w) := by
  by_cases hw : w = 0
  · subst hw
    simp only [smul_zero, exp3_zero, leftJac_zero, Matrix.one_mul]
    module
  have h := (len_pos hw).ne'
  have h3 := skew_cube w
  have h3' : skew w * skew w * skew w = -(len w ^ 2) • skew w := by rw [Matrix.mul_assoc, h3]
  have h4 : skew w * skew w * (skew w * skew w) = -(len w ^ 2) • (skew w * skew w) := by
    rw [← Matrix.mul_assoc, h3', Matrix.smul_mul]
  rw [leftJac_smul s hw, leftJac_smul t hw, leftJac_smul (s + t) hw, exp3_smul s hw, poly, add_mul s t, Real.sin_add, Real.cos_add]
  simp only [Matrix.add_mul, Matrix.mul_add, Matrix.one_mul, Matrix.mul_one, Matrix.smul_mul, Matrix.mul_smul, h3, h3', h4, smul_smul]
  match_scalars <;> field_simp <;> ring

theorem isRot_exp3 (w : Fin 3 → ℝ) : IsRot (exp3 w) := by
  by_cases hw : w = 0
  · subst hw; rw [exp3_zero]; exact isRot_one
  have h := (len_pos hw).ne'
  have hsc := Real.sin_sq_add_cos_sq (len w)
  constructor
  · unfold exp3
    rw [poly_transpose, poly_mul]
    have e1 : -(Real.sin (len w) / len w) + Real.sin (len w) / len w - len w ^ 2 *
        (-(Real.sin (len w) / len w) * ((1 - Real.cos (len w)) / len w ^ 2) + (1 - Real.cos (len w)) / len w ^ 2 * (Real.sin (len w) / len w)) = 0 := by
      ring
    have e2 : (1 - Real.cos (len w)) / len w ^ 2 + (1 - Real.cos (len w)) / len w ^ 2 + -(Real.sin (len w) / len w) * (Real.sin (len w) / len w) -
        len w ^ 2 * ((1 - Real.cos (len w)) / len w ^ 2 * ((1 - Real.cos (len w)) / len w ^ 2)) = 0 := by
      field_simp
      linear_combination -hsc
    rw [e1, e2]
    simp [poly]
  · have := det_poly (-(Real.sin (len w) / len w)) ((1 - Real.cos (len w)) / len w ^ 2) w
    rw [neg_smul, sub_neg_eq_add] at this
    unfold exp3 poly
    rw [this, ← len_sq]
    field_simp
    linear_combination hsc

/-- The motions with a constant velocity add up. -/
theorem exp6_add (s t : ℝ) (x : Twist) : (exp6 (s • x)).mul (exp6 (t • x)) = exp6 ((s + t) • x) := by
  have h := congrArg (fun m => m *ᵥ x.1) (leftJac_add s t x.2)
  simp only [add_mulVec, smul_mulVec, ← mulVec_mulVec] at h
  unfold exp6 Pose.mul
  simp only [Prod.smul_fst, Prod.smul_snd, mulVec_smul]
  rw [exp3_add]
  congr 1
  rw [mulVec_smul] at h
  exact h

theorem exp6_zero : exp6 0 = Pose.one := by
  simp [exp6, Pose.one, exp3_zero, leftJac_zero]

theorem isRot_exp6 (x : Twist) : IsRot (exp6 x).R := isRot_exp3 _

/-- `n` times the same motion. -/
theorem exp6_nsmul (n : ℕ) (x : Twist) : exp6 (((n + 1 : ℕ) : ℝ) • x) = (exp6 ((n : ℝ) • x)).mul (exp6 x) := by
  rw [← one_smul ℝ x, smul_smul, smul_smul, mul_one, mul_one, exp6_add, Nat.cast_add, Nat.cast_one]

end Verif.Se3
