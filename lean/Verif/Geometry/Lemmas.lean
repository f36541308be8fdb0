import Verif.Geometry.Model
import Mathlib.LinearAlgebra.CrossProduct
import Mathlib.LinearAlgebra.Matrix.Determinant.Basic
import Mathlib.Tactic.Ring
import Mathlib.Tactic.FinCases
import Mathlib.Tactic.LinearCombination
import Mathlib.Tactic.NormNum

/-!
# Lemmas on rotations, skew-symmetric matrices and quaternions
-/
set_option linter.unusedSectionVars false

namespace Verif.Geometry

open Matrix

variable {F : Type} [Field F]

/-- Specification: a rotation matrix is orthogonal with determinant one. -/
def IsRot (R : Matrix (Fin 3) (Fin 3) F) : Prop := Rᵀ * R = 1 ∧ R.det = 1

theorem IsRot.mul_transpose {R : Matrix (Fin 3) (Fin 3) F} (h : IsRot R) : R * Rᵀ = 1 :=
  mul_eq_one_comm.mp h.1

theorem IsRot.inv_eq {R : Matrix (Fin 3) (Fin 3) F} (h : IsRot R) : R⁻¹ = Rᵀ :=
  Matrix.inv_eq_left_inv h.1

theorem isRot_one : IsRot (1 : Matrix (Fin 3) (Fin 3) F) := ⟨by simp, by simp⟩

theorem IsRot.mul {A B : Matrix (Fin 3) (Fin 3) F} (ha : IsRot A) (hb : IsRot B) : IsRot (A * B) := by
  refine ⟨?_, ?_⟩
  · rw [Matrix.transpose_mul, Matrix.mul_assoc, ← Matrix.mul_assoc Aᵀ, ha.1, Matrix.one_mul, hb.1]
  · rw [Matrix.det_mul, ha.2, hb.2, mul_one]

theorem IsRot.transpose {A : Matrix (Fin 3) (Fin 3) F} (ha : IsRot A) : IsRot Aᵀ :=
  ⟨by rw [Matrix.transpose_transpose]; exact ha.mul_transpose, by rw [Matrix.det_transpose]; exact ha.2⟩

theorem IsRot.inv {A : Matrix (Fin 3) (Fin 3) F} (ha : IsRot A) : IsRot A⁻¹ := by
  rw [ha.inv_eq]; exact ha.transpose

theorem skew_mulVec (t v : Fin 3 → F) : skew t *ᵥ v = t ⨯₃ v := by
  ext i
  fin_cases i <;> simp [skew, cross_apply, Matrix.mulVec, dotProduct, Fin.sum_univ_three] <;> ring

theorem skew_add (a b : Fin 3 → F) : skew (a + b) = skew a + skew b := by
  ext i j
  fin_cases i <;> fin_cases j <;> simp [skew] <;> ring

theorem skew_neg (a : Fin 3 → F) : skew (-a) = -skew a := by
  ext i j
  fin_cases i <;> fin_cases j <;> simp [skew]

theorem skew_conj (R : Matrix (Fin 3) (Fin 3) F) (t : Fin 3 → F) :
    Rᵀ * skew (R *ᵥ t) * R = R.det • skew t := by
  ext i j
  fin_cases i <;> fin_cases j <;>
    simp [skew, Matrix.mul_apply, Matrix.mulVec, dotProduct, Fin.sum_univ_three, Matrix.det_fin_three] <;>
    ring

theorem IsRot.skew_comm {R : Matrix (Fin 3) (Fin 3) F} (h : IsRot R) (t : Fin 3 → F) :
    skew (R *ᵥ t) * R = R * skew t := by
  have := skew_conj R t
  rw [h.2, one_smul] at this
  rw [← this, ← Matrix.mul_assoc, ← Matrix.mul_assoc, h.mul_transpose, Matrix.one_mul]

theorem Quat.toRot_mul_aux (a b : Quat F) (ha : a.w ^ 2 + a.x ^ 2 + a.y ^ 2 + a.z ^ 2 = 1)
    (hb : b.w ^ 2 + b.x ^ 2 + b.y ^ 2 + b.z ^ 2 = 1) : (a.mul b).toRot = a.toRot * b.toRot := by
  have ha' : a.w ^ 2 = 1 - a.x ^ 2 - a.y ^ 2 - a.z ^ 2 := by linear_combination ha
  have hb' : b.w ^ 2 = 1 - b.x ^ 2 - b.y ^ 2 - b.z ^ 2 := by linear_combination hb
  ext i j
  fin_cases i <;> fin_cases j <;>
    simp [Quat.toRot, Quat.mul, Matrix.mul_apply, Fin.sum_univ_three] <;> ring_nf <;>
    simp only [ha', hb'] <;> ring

end Verif.Geometry
