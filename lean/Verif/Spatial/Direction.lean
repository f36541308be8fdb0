import Verif.Spatial.Model
import Verif.Spatial.Spec
import Mathlib.Analysis.SpecialFunctions.Trigonometric.Deriv
import Mathlib.Tactic.FieldSimp
import Mathlib.Tactic.LinearCombination
import Mathlib.Tactic.NormNum

/-!
# C84 and C87: the direction feature and the projection of a point
-/

namespace Verif.Spatial

open Matrix Verif.Geometry

/-- Derivative of a fixed vector of a moving frame. -/
theorem direction_derivative (M : ℝ → Pose ℝ) (v w vect : Fin 3 → ℝ) (t : ℝ) (hM : BodyTwist M v w t) (i : Fin 3) :
    HasDerivAt (fun s => ((M s).R *ᵥ vect) i) (-(((M t).R * skew vect) *ᵥ w) i) t := by
  have h : HasDerivAt (fun s => ∑ k, (M s).R i k * vect k) (∑ k, ((M t).R * skew w) i k * vect k) t := by
    apply HasDerivAt.fun_sum
    intro k _
    exact (hM.rot i k).mul_const (vect k)
  refine h.congr_deriv ?_
  simp only [Matrix.mulVec, dotProduct, Matrix.mul_apply, Fin.sum_univ_three]
  simp [skew]; ring

/-- The error is the vector of the frame, in the world, minus the desired one: zero exactly when they agree. -/
theorem C84_error (M : Pose ℝ) (vect vectdes : Fin 3 → ℝ) :
    vectorError M vect vectdes = 0 ↔ M.R *ᵥ vect = vectdes := by
  unfold vectorError; exact sub_eq_zero

/-- The error depends on the orientation of the frame only. -/
theorem C84_translation (M : Pose ℝ) (p vect vectdes : Fin 3 → ℝ) :
    vectorError ⟨M.R, p⟩ vect vectdes = vectorError M vect vectdes := rfl

/-- The Jacobian times the joint velocities is the derivative of the error, for a frame of Jacobian `Jq`. -/
theorem C84_jacobian {ι : Type} [Fintype ι] (M : ℝ → Pose ℝ) (vect vectdes : Fin 3 → ℝ) (Jq : Matrix (Fin 3 ⊕ Fin 3) ι ℝ)
    (u : ι → ℝ) (t : ℝ) (hM : BodyTwist M (linPart Jq u) (angPart Jq u) t) (i : Fin 3) :
    HasDerivAt (fun s => vectorError (M s) vect vectdes i) ((vectorJacobian (M t) vect Jq *ᵥ u) i) t := by
  have h := (direction_derivative M _ _ vect t hM i).sub_const (vectdes i)
  refine h.congr_deriv ?_
  have e : vectorJacobian (M t) vect Jq = -(((M t).R * skew vect) * Matrix.of fun k j => Jq (.inr k) j) := by
    funext a b
    simp only [vectorJacobian, Matrix.neg_apply, Matrix.mul_apply, Fin.sum_univ_three, Matrix.of_apply]
    ring
  rw [e, Matrix.neg_mulVec, Pi.neg_apply, ← Matrix.mulVec_mulVec u ((M t).R * skew vect)]
  rfl

/-- A frame that turns around its first axis at speed one. -/
theorem bodyTwist_turn (p : Fin 3 → ℝ) (t : ℝ) :
    BodyTwist (fun s => ⟨!![1, 0, 0; 0, Real.cos s, -Real.sin s; 0, Real.sin s, Real.cos s], p⟩) 0 ![1, 0, 0] t := by
  have hs := Real.hasDerivAt_sin t
  have hc := Real.hasDerivAt_cos t
  constructor
  · intro i j
    fin_cases i <;> fin_cases j <;> simp [Matrix.mul_apply, Fin.sum_univ_three, skew]
    · exact hasDerivAt_const _ _
    · exact hasDerivAt_const _ _
    · exact hasDerivAt_const _ _
    · exact hasDerivAt_const _ _
    · exact hc
    · exact hs.neg
    · exact hasDerivAt_const _ _
    · exact hs
    · exact hc
  · intro i; simpa using hasDerivAt_const t (p i)

/-- A concrete case: the second axis of a frame that turns around the first one moves along the third. -/
example : HasDerivAt (fun s => vectorError (F := ℝ)
      ⟨!![1, 0, 0; 0, Real.cos s, -Real.sin s; 0, Real.sin s, Real.cos s], 0⟩ ![0, 1, 0] 0 2) 1 0 := by
  have h := C84_jacobian (fun s => ⟨!![1, 0, 0; 0, Real.cos s, -Real.sin s; 0, Real.sin s, Real.cos s], 0⟩) ![0, 1, 0] 0
    (fun (r : Fin 3 ⊕ Fin 3) (_ : Unit) => if r = .inr 0 then 1 else 0) (fun _ => 1) 0 (by
      have h1 : linPart (fun (r : Fin 3 ⊕ Fin 3) (_ : Unit) => if r = .inr 0 then 1 else 0) (fun _ => 1) = 0 := by
        funext i; fin_cases i <;> simp [linPart, Matrix.mulVec, dotProduct]
      have h2 : angPart (fun (r : Fin 3 ⊕ Fin 3) (_ : Unit) => if r = .inr 0 then 1 else 0) (fun _ => 1) = ![1, 0, 0] := by
        funext i; fin_cases i <;> simp [angPart, Matrix.mulVec, dotProduct]
      rw [h1, h2]; exact bodyTwist_turn 0 0) 2
  refine h.congr_deriv ?_
  simp [vectorJacobian, Matrix.mulVec, dotProduct, Matrix.mul_apply, Fin.sum_univ_three, skew]

/-! ### Projection -/

/-- Expected: any point in front of the camera is projected. What holds: without assertions, a point given with a fourth coordinate one is expressed in the frame `M` and projected by its
depth. -/
theorem C87_projection_partial (M : Pose ℝ) (p : Fin 3 → ℝ) :
    let P := M.R⁻¹ *ᵥ (p - M.t)
    depth false M [p 0, p 1, p 2, 1] = .ok (P 2) ∧
      point2D false M [p 0, p 1, p 2, 1] = .ok [P 0 / P 2, P 1 / P 2] := by
  intro P
  have hp : (![p 0, p 1, p 2] : Fin 3 → ℝ) = p := by funext i; fin_cases i <;> rfl
  have hP : M.inv.R *ᵥ p + M.inv.t = P := by
    simp only [Pose.inv, P, Matrix.mulVec_sub]; rfl
  have hg : gaze M [p 0, p 1, p 2, 1] = .ok [P 0, P 1, P 2, 1] := by
    simp only [gaze, homoMul, one_smul, hp, hP]
  have hd : depth false M [p 0, p 1, p 2, 1] = .ok (P 2) := by
    rw [depth, hg]; simp [assertThat, rd]
  refine ⟨hd, ?_⟩
  rw [point2D, hg, Outcome.bind_ok, hd]
  simp [assertThat, rd]

/-- With assertions no input is accepted: the product wants four coordinates, the depth three. -/
theorem C87_assertions_counterexample (M : Pose ℝ) (p3 : List ℝ) : depth true M p3 = .ub ∧ point2D true M p3 = .ub := by
  have h : depth true M p3 = .ub := by
    unfold depth gaze homoMul
    split
    · simp [assertThat]
    · rfl
  refine ⟨h, ?_⟩
  unfold point2D
  rw [h]
  unfold gaze homoMul
  split <;> rfl

/-- A vector with three coordinates, as its name suggests, is not accepted either way. -/
theorem C87_three_coordinates (b : Bool) (M : Pose ℝ) (x y z : ℝ) : depth b M [x, y, z] = .ub := rfl

/-- A concrete case: the point (1, 2, 4) seen from the origin. -/
example : point2D false (Pose.one : Pose ℝ) [1, 2, 4, 1] = .ok [1 / 4, 2 / 4] := by
  have h := (C87_projection_partial Pose.one ![1, 2, 4]).2
  simpa [Pose.one] using h

end Verif.Spatial
