import Verif.Spatial.Model
import Verif.Spatial.Spec
import Mathlib.Analysis.Calculus.Deriv.Inv
import Mathlib.Analysis.SpecialFunctions.Trigonometric.Deriv
import Mathlib.Tactic.FieldSimp
import Mathlib.Tactic.LinearCombination
import Mathlib.Tactic.NormNum
import Mathlib.Tactic.Positivity

/-!
# C85 and C86: the distance between two lines
-/

namespace Verif.Spatial

open Matrix Verif.Geometry

/-! ### The error -/

/-- Squared distance between the point of parameter `s` of the first line and the one of parameter `r` of the second. -/
def sqDist (p q : Fin 6 → ℝ) (s r : ℝ) : ℝ :=
  (p 0 + s * p 3 - (q 0 + r * q 3)) ^ 2 + (p 1 + s * p 4 - (q 1 + r * q 4)) ^ 2 + (p 2 + s * p 5 - (q 2 + r * q 5)) ^ 2

/-- Squared norm of the cross product of the directions: zero for parallel lines. -/
def crossSq (p q : Fin 6 → ℝ) : ℝ :=
  (p 5 * q 4 - p 4 * q 5) ^ 2 + (p 3 * q 5 - p 5 * q 3) ^ 2 + (p 4 * q 3 - p 3 * q 4) ^ 2

theorem lineK_eq (p q : Fin 6 → ℝ) : lineK p q = crossSq p q := by simp only [lineK, crossSq]; ring

/-- Numerator of the error. -/
theorem lineError_eq (p q : Fin 6 → ℝ) : lineError p q =
    ((p 5 * q 4 - p 4 * q 5) * (p 0 - q 0) + (p 3 * q 5 - p 5 * q 3) * (p 1 - q 1) +
      (p 4 * q 3 - p 3 * q 4) * (p 2 - q 2)) / crossSq p q := by
  rw [lineError, lineK_eq]
  congr 1; ring

/-- The square of the error times the squared norm of the cross product is the least squared distance between the lines. -/
theorem C85_error (p q : Fin 6 → ℝ) (h : crossSq p q ≠ 0) :
    (∀ s r, lineError p q ^ 2 * crossSq p q ≤ sqDist p q s r) ∧
      ∃ s r, sqDist p q s r = lineError p q ^ 2 * crossSq p q := by
  have hK : 0 < crossSq p q := lt_of_le_of_ne (by unfold crossSq; positivity) (Ne.symm h)
  rw [lineError_eq]
  constructor
  · intro s r
    rw [div_pow, div_mul_eq_mul_div, div_le_iff₀ (by positivity), sqDist]
    generalize hA : p 0 + s * p 3 - (q 0 + r * q 3) = A
    generalize hB : p 1 + s * p 4 - (q 1 + r * q 4) = B
    generalize hC : p 2 + s * p 5 - (q 2 + r * q 5) = C
    have hN : (p 5 * q 4 - p 4 * q 5) * (p 0 - q 0) + (p 3 * q 5 - p 5 * q 3) * (p 1 - q 1) +
        (p 4 * q 3 - p 3 * q 4) * (p 2 - q 2) =
        (p 5 * q 4 - p 4 * q 5) * A + (p 3 * q 5 - p 5 * q 3) * B + (p 4 * q 3 - p 3 * q 4) * C := by
      rw [← hA, ← hB, ← hC]; ring
    rw [hN]
    have hcs : ((p 5 * q 4 - p 4 * q 5) * A + (p 3 * q 5 - p 5 * q 3) * B + (p 4 * q 3 - p 3 * q 4) * C) ^ 2 ≤
        (A ^ 2 + B ^ 2 + C ^ 2) * crossSq p q := by
      unfold crossSq
      generalize p 5 * q 4 - p 4 * q 5 = a
      generalize p 3 * q 5 - p 5 * q 3 = b
      generalize p 4 * q 3 - p 3 * q 4 = c
      nlinarith [sq_nonneg (a * B - b * A), sq_nonneg (a * C - c * A), sq_nonneg (b * C - c * B)]
    calc _ ≤ ((A ^ 2 + B ^ 2 + C ^ 2) * crossSq p q) * crossSq p q := mul_le_mul_of_nonneg_right hcs hK.le
      _ = _ := by ring
  · -- the feet of the common perpendicular
    set n0 := p 5 * q 4 - p 4 * q 5 with h0
    set n1 := p 3 * q 5 - p 5 * q 3 with h1
    set n2 := p 4 * q 3 - p 3 * q 4 with h2
    set d0 := p 0 - q 0 with e0
    set d1 := p 1 - q 1 with e1
    set d2 := p 2 - q 2 with e2
    set K := crossSq p q with hKdef
    have hKn : K = n0 ^ 2 + n1 ^ 2 + n2 ^ 2 := rfl
    set s := ((d1 * q 5 - d2 * q 4) * n0 + (d2 * q 3 - d0 * q 5) * n1 + (d0 * q 4 - d1 * q 3) * n2) / K with hs
    set r := ((d1 * p 5 - d2 * p 4) * n0 + (d2 * p 3 - d0 * p 5) * n1 + (d0 * p 4 - d1 * p 3) * n2) / K with hr
    set N := n0 * d0 + n1 * d1 + n2 * d2 with hN
    refine ⟨s, r, ?_⟩
    have hsK : s * K = (d1 * q 5 - d2 * q 4) * n0 + (d2 * q 3 - d0 * q 5) * n1 + (d0 * q 4 - d1 * q 3) * n2 := by
      rw [hs]; field_simp
    have hrK : r * K = (d1 * p 5 - d2 * p 4) * n0 + (d2 * p 3 - d0 * p 5) * n1 + (d0 * p 4 - d1 * p 3) * n2 := by
      rw [hr]; field_simp
    have k0 : (p 0 + s * p 3 - (q 0 + r * q 3)) * K = N * n0 := by
      have : (p 0 + s * p 3 - (q 0 + r * q 3)) * K = d0 * K + (s * K) * p 3 - (r * K) * q 3 := by rw [e0]; ring
      rw [this, hsK, hrK, hKn, hN, h0, h1, h2]; ring
    have k1 : (p 1 + s * p 4 - (q 1 + r * q 4)) * K = N * n1 := by
      have : (p 1 + s * p 4 - (q 1 + r * q 4)) * K = d1 * K + (s * K) * p 4 - (r * K) * q 4 := by rw [e1]; ring
      rw [this, hsK, hrK, hKn, hN, h0, h1, h2]; ring
    have k2 : (p 2 + s * p 5 - (q 2 + r * q 5)) * K = N * n2 := by
      have : (p 2 + s * p 5 - (q 2 + r * q 5)) * K = d2 * K + (s * K) * p 5 - (r * K) * q 5 := by rw [e2]; ring
      rw [this, hsK, hrK, hKn, hN, h0, h1, h2]; ring
    have hK0 : K ≠ 0 := h
    rw [eq_div_iff_mul_eq hK0 |>.mpr k0 |> fun e => show sqDist p q s r = (N * n0 / K) ^ 2 +
      (p 1 + s * p 4 - (q 1 + r * q 4)) ^ 2 + (p 2 + s * p 5 - (q 2 + r * q 5)) ^ 2 by rw [sqDist, e]]
    rw [eq_div_iff_mul_eq hK0 |>.mpr k1, eq_div_iff_mul_eq hK0 |>.mpr k2]
    have : (N * n0 / K) ^ 2 + (N * n1 / K) ^ 2 + (N * n2 / K) ^ 2 = N ^ 2 * (n0 ^ 2 + n1 ^ 2 + n2 ^ 2) / K ^ 2 := by
      field_simp
    rw [this, ← hKn, div_pow]
    field_simp

/-- For lines that are not parallel, the error is zero exactly when they meet. -/
theorem C85_zero (p q : Fin 6 → ℝ) (h : crossSq p q ≠ 0) : lineError p q = 0 ↔ ∃ s r, sqDist p q s r = 0 := by
  obtain ⟨h1, s, r, h2⟩ := C85_error p q h
  have hK : 0 < crossSq p q := lt_of_le_of_ne (by unfold crossSq; positivity) (Ne.symm h)
  constructor
  · intro h0; exact ⟨s, r, by rw [h2, h0]; ring⟩
  · rintro ⟨s, r, h0⟩
    have h3 := h1 s r
    rw [h0] at h3
    have h4 : lineError p q ^ 2 ≤ 0 := by
      by_contra hc
      push Not at hc
      have := mul_pos hc hK
      linarith
    exact pow_eq_zero_iff two_ne_zero |>.mp (le_antisymm h4 (sq_nonneg _))

/-- For orthogonal unit directions the error is, up to the sign, the distance. -/
theorem C85_orthogonal (p q : Fin 6 → ℝ) (h : crossSq p q = 1) :
    (∀ s r, lineError p q ^ 2 ≤ sqDist p q s r) ∧ ∃ s r, sqDist p q s r = lineError p q ^ 2 := by
  have := C85_error p q (by rw [h]; norm_num)
  simpa [h] using this

/-- In general it is not: two lines at distance one whose directions make an angle have an error of two. -/
theorem C85_distance_counterexample :
    let p : Fin 6 → ℝ := ![0, 0, 1, 2, 0, 0]
    let q : Fin 6 → ℝ := ![0, 0, 0, 0, 1 / 4, 0]
    lineError p q = -2 ∧ sqDist p q 0 0 = 1 := by
  constructor
  · rw [lineError_eq]; simp [crossSq]; norm_num
  · simp [sqDist]

example : lineError (F := ℝ) ![0, 0, 3, 1, 0, 0] ![0, 0, 1, 0, 1, 0] = -2 := by
  rw [lineError_eq]; simp [crossSq]; norm_num

/-! ### The Jacobian -/

/-- Coefficient that would be needed in the last column of `diffh`. -/
def diffc0 (p q : Fin 6 → ℝ) : ℝ :=
  (q 4 * (p 0 - q 0) - q 3 * (p 1 - q 1)) * crossSq p q -
    ((p 5 * q 4 - p 4 * q 5) * (p 0 - q 0) + (p 3 * q 5 - p 5 * q 3) * (p 1 - q 1) +
      (p 4 * q 3 - p 3 * q 4) * (p 2 - q 2)) *
    (2 * (p 5 * q 4 - p 4 * q 5) * q 4 - 2 * (p 3 * q 5 - p 5 * q 3) * q 3)

theorem diffa0_eq (p q : Fin 6 → ℝ) : diffa0 p q =
    (q 5 * (p 1 - q 1) - q 4 * (p 2 - q 2)) * crossSq p q -
    ((p 5 * q 4 - p 4 * q 5) * (p 0 - q 0) + (p 3 * q 5 - p 5 * q 3) * (p 1 - q 1) +
      (p 4 * q 3 - p 3 * q 4) * (p 2 - q 2)) *
    (2 * (p 3 * q 5 - p 5 * q 3) * q 5 - 2 * (p 4 * q 3 - p 3 * q 4) * q 4) := by
  simp only [diffa0, crossSq]; ring

theorem diffb0_eq (p q : Fin 6 → ℝ) : diffb0 p q =
    (q 3 * (p 2 - q 2) - q 5 * (p 0 - q 0)) * crossSq p q -
    ((p 5 * q 4 - p 4 * q 5) * (p 0 - q 0) + (p 3 * q 5 - p 5 * q 3) * (p 1 - q 1) +
      (p 4 * q 3 - p 3 * q 4) * (p 2 - q 2)) *
    (2 * (p 4 * q 3 - p 3 * q 4) * q 3 - 2 * (p 5 * q 4 - p 4 * q 5) * q 5) := by
  simp only [diffb0, crossSq]; ring

/-- Derivative of the error with the coordinates of the first line. -/
theorem lineError_derivative (p : ℝ → Fin 6 → ℝ) (p' q : Fin 6 → ℝ) (t : ℝ) (hK : crossSq (p t) q ≠ 0)
    (hp : ∀ k, HasDerivAt (fun s => p s k) (p' k) t) :
    HasDerivAt (fun s => lineError (p s) q)
      (lineDiff (p t) q ⬝ᵥ p' + diffc0 (p t) q / (crossSq (p t) q * crossSq (p t) q) * p' 5) t := by
  have n0 : HasDerivAt (fun s => p s 5 * q 4 - p s 4 * q 5) (p' 5 * q 4 - p' 4 * q 5) t :=
    ((hp 5).mul_const _).sub ((hp 4).mul_const _)
  have n1 : HasDerivAt (fun s => p s 3 * q 5 - p s 5 * q 3) (p' 3 * q 5 - p' 5 * q 3) t :=
    ((hp 3).mul_const _).sub ((hp 5).mul_const _)
  have n2 : HasDerivAt (fun s => p s 4 * q 3 - p s 3 * q 4) (p' 4 * q 3 - p' 3 * q 4) t :=
    ((hp 4).mul_const _).sub ((hp 3).mul_const _)
  have hN := ((n0.mul ((hp 0).sub_const (q 0))).add (n1.mul ((hp 1).sub_const (q 1)))).add
    (n2.mul ((hp 2).sub_const (q 2)))
  have hK' := ((n0.mul n0).add (n1.mul n1)).add (n2.mul n2)
  have hKe : (fun s => crossSq (p s) q) = fun s => (p s 5 * q 4 - p s 4 * q 5) * (p s 5 * q 4 - p s 4 * q 5) +
      (p s 3 * q 5 - p s 5 * q 3) * (p s 3 * q 5 - p s 5 * q 3) +
      (p s 4 * q 3 - p s 3 * q 4) * (p s 4 * q 3 - p s 3 * q 4) := by
    funext s; unfold crossSq; ring
  have hK2 : HasDerivAt (fun s => crossSq (p s) q)
      (2 * (p t 5 * q 4 - p t 4 * q 5) * (p' 5 * q 4 - p' 4 * q 5) +
        2 * (p t 3 * q 5 - p t 5 * q 3) * (p' 3 * q 5 - p' 5 * q 3) +
        2 * (p t 4 * q 3 - p t 3 * q 4) * (p' 4 * q 3 - p' 3 * q 4)) t := by
    rw [hKe]; exact hK'.congr_deriv (by ring)
  have hdiv := hN.div hK2 hK
  have he : (fun s => lineError (p s) q) = fun s =>
    ((p s 5 * q 4 - p s 4 * q 5) * (p s 0 - q 0) + (p s 3 * q 5 - p s 5 * q 3) * (p s 1 - q 1) +
      (p s 4 * q 3 - p s 3 * q 4) * (p s 2 - q 2)) / crossSq (p s) q := by
    funext s; exact lineError_eq _ _
  rw [he]
  refine hdiv.congr_deriv ?_
  rw [div_eq_iff (pow_ne_zero 2 hK)]
  have hL : lineDiff (p t) q ⬝ᵥ p' = (diffx0 (p t) q * p' 0 + diffy0 (p t) q * p' 1 + diffz0 (p t) q * p' 2) /
      crossSq (p t) q + (diffa0 (p t) q * p' 3 + diffb0 (p t) q * p' 4) / (crossSq (p t) q * crossSq (p t) q) := by
    simp only [lineDiff, lineK_eq, dotProduct, Fin.sum_univ_six]
    simp
    field_simp
    ring
  rw [hL]
  have e : ((diffx0 (p t) q * p' 0 + diffy0 (p t) q * p' 1 + diffz0 (p t) q * p' 2) / crossSq (p t) q +
      (diffa0 (p t) q * p' 3 + diffb0 (p t) q * p' 4) / (crossSq (p t) q * crossSq (p t) q) +
      diffc0 (p t) q / (crossSq (p t) q * crossSq (p t) q) * p' 5) * crossSq (p t) q ^ 2 =
      (diffx0 (p t) q * p' 0 + diffy0 (p t) q * p' 1 + diffz0 (p t) q * p' 2) * crossSq (p t) q +
      (diffa0 (p t) q * p' 3 + diffb0 (p t) q * p' 4) + diffc0 (p t) q * p' 5 := by
    field_simp
  rw [e, diffa0_eq, diffb0_eq, diffc0, diffx0, diffy0, diffz0]
  simp only [Pi.add_apply, Pi.mul_apply]
  ring

/-- Derivative of the coordinates of the line carried by a frame. -/
theorem lineCoordinates_derivative {ι : Type} [Fintype ι] (M : ℝ → Pose ℝ) (vect : Fin 3 → ℝ)
    (Jq : Matrix (Fin 3 ⊕ Fin 3) ι ℝ) (u : ι → ℝ) (t : ℝ) (hM : BodyTwist M (linPart Jq u) (angPart Jq u) t) (k : Fin 6) :
    HasDerivAt (fun s => lineCoordinates (M s) vect k) ((lineJ (M t) vect Jq *ᵥ u) k) t := by
  have hup : ∀ i : Fin 3, (∑ j, (0 + (M t).R i 0 * Jq (.inl 0) j + (M t).R i 1 * Jq (.inl 1) j +
      (M t).R i 2 * Jq (.inl 2) j) * u j) = ((M t).R *ᵥ linPart Jq u) i := by
    intro i
    simp only [Matrix.mulVec, dotProduct, linPart, Fin.sum_univ_three, Finset.mul_sum, ← Finset.sum_add_distrib]
    exact Finset.sum_congr rfl fun j _ => by ring
  have hdown : ∀ i : Fin 3, (∑ j, (0 + -((M t).R * skew vect) i 0 * Jq (.inr 0) j + -((M t).R * skew vect) i 1 * Jq (.inr 1) j +
      -((M t).R * skew vect) i 2 * Jq (.inr 2) j) * u j) = -(((M t).R * skew vect) *ᵥ angPart Jq u) i := by
    intro i
    simp only [Matrix.mulVec, dotProduct, angPart, Fin.sum_univ_three, Finset.mul_sum, ← Finset.sum_add_distrib,
      ← Finset.sum_neg_distrib]
    exact Finset.sum_congr rfl fun j _ => by ring
  have hdir : ∀ i : Fin 3, HasDerivAt (fun s => ((M s).R *ᵥ vect) i) (-(((M t).R * skew vect) *ᵥ angPart Jq u) i) t := by
    intro i
    have h : HasDerivAt (fun s => ∑ k, (M s).R i k * vect k) (∑ k, ((M t).R * skew (angPart Jq u)) i k * vect k) t := by
      apply HasDerivAt.fun_sum
      intro k _
      exact (hM.rot i k).mul_const (vect k)
    refine h.congr_deriv ?_
    simp only [Matrix.mulVec, dotProduct, Matrix.mul_apply, Fin.sum_univ_three]
    simp [skew]; ring
  fin_cases k
  · exact (hM.pos 0).congr_deriv (hup 0).symm
  · exact (hM.pos 1).congr_deriv (hup 1).symm
  · exact (hM.pos 2).congr_deriv (hup 2).symm
  · exact (hdir 0).congr_deriv (hdown 0).symm
  · exact (hdir 1).congr_deriv (hdown 1).symm
  · exact (hdir 2).congr_deriv (hdown 2).symm

/-- What the Jacobian gives: the derivative of the error, but for the term of the third coordinate of the direction. -/
theorem C86_derivative {ι : Type} [Fintype ι] (M : ℝ → Pose ℝ) (vect : Fin 3 → ℝ) (q : Fin 6 → ℝ)
    (Jq : Matrix (Fin 3 ⊕ Fin 3) ι ℝ) (u : ι → ℝ) (t : ℝ) (hM : BodyTwist M (linPart Jq u) (angPart Jq u) t)
    (hK : crossSq (lineCoordinates (M t) vect) q ≠ 0) :
    HasDerivAt (fun s => lineError (lineCoordinates (M s) vect) q)
      (lineJacobian (M t) vect q Jq ⬝ᵥ u + diffc0 (lineCoordinates (M t) vect) q /
        (crossSq (lineCoordinates (M t) vect) q * crossSq (lineCoordinates (M t) vect) q) *
        (lineJ (M t) vect Jq *ᵥ u) 5) t := by
  have h := lineError_derivative (fun s => lineCoordinates (M s) vect) (lineJ (M t) vect Jq *ᵥ u) q t hK
    (lineCoordinates_derivative M vect Jq u t hM)
  rw [lineJacobian, ← Matrix.dotProduct_mulVec]
  exact h

/-- Expected: the Jacobian times the joint velocities is the derivative of the error. It is when the third coordinate of
the direction does not move; the missing part is false: see the next theorem. -/
theorem C86_jacobian_partial {ι : Type} [Fintype ι] (M : ℝ → Pose ℝ) (vect : Fin 3 → ℝ) (q : Fin 6 → ℝ)
    (Jq : Matrix (Fin 3 ⊕ Fin 3) ι ℝ) (u : ι → ℝ) (t : ℝ) (hM : BodyTwist M (linPart Jq u) (angPart Jq u) t)
    (hK : crossSq (lineCoordinates (M t) vect) q ≠ 0)
    (hc : HasDerivAt (fun s => ((M s).R *ᵥ vect) 2) 0 t) :
    HasDerivAt (fun s => lineError (lineCoordinates (M s) vect) q) (lineJacobian (M t) vect q Jq ⬝ᵥ u) t := by
  have h := C86_derivative M vect q Jq u t hM hK
  have h5 : (lineJ (M t) vect Jq *ᵥ u) 5 = 0 :=
    (lineCoordinates_derivative M vect Jq u t hM 5).unique hc
  rw [h5, mul_zero, add_zero] at h
  exact h

/-- A frame that turns around its first axis at speed one. -/
theorem bodyTwist_axis (p : Fin 3 → ℝ) (t : ℝ) :
    BodyTwist (fun s => ⟨!![1, 0, 0; 0, Real.cos s, -Real.sin s; 0, Real.sin s, Real.cos s], p⟩) 0 ![1, 0, 0] t := by
  have hs := Real.hasDerivAt_sin t
  have hc := Real.hasDerivAt_cos t
  constructor
  · intro i j
    fin_cases i <;> fin_cases j <;> simp [Matrix.mul_apply, Fin.sum_univ_three, skew]
    · exact hasDerivAt_const _ _
    · exact hasDerivAt_const _ _
    · exact hasDerivAt_const _ _
    · exact hasDerivAt_const _ _
    · exact hc
    · exact hs.neg
    · exact hasDerivAt_const _ _
    · exact hs
    · exact hc
  · intro i; simpa using hasDerivAt_const t (p i)

/-- The Jacobian of a motion of one joint: a rotation around the first axis. -/
def turnJ : Matrix (Fin 3 ⊕ Fin 3) Unit ℝ := fun r _ => if r = .inr 0 then 1 else 0

theorem turnJ_lin : linPart turnJ (fun _ => 1) = 0 := by
  funext i; fin_cases i <;> simp [linPart, turnJ, Matrix.mulVec, dotProduct]

theorem turnJ_ang : angPart turnJ (fun _ => 1) = ![1, 0, 0] := by
  funext i; fin_cases i <;> simp [angPart, turnJ, Matrix.mulVec, dotProduct]

/-- A frame that turns around its first axis and carries a line along the second, and a fixed line along the first: the
error is a distance (unit orthogonal directions), its derivative is one, and the Jacobian says zero. -/
theorem C86_jacobian_counterexample :
    let M : ℝ → Pose ℝ := fun s => ⟨!![1, 0, 0; 0, Real.cos s, -Real.sin s; 0, Real.sin s, Real.cos s], 0⟩
    let q : Fin 6 → ℝ := ![0, 1, 0, 1, 0, 0]
    BodyTwist M (linPart turnJ fun _ => 1) (angPart turnJ fun _ => 1) 0 ∧
    crossSq (lineCoordinates (M 0) ![0, 1, 0]) q = 1 ∧
    HasDerivAt (fun s => lineError (lineCoordinates (M s) ![0, 1, 0]) q) 1 0 ∧
    lineJacobian (M 0) ![0, 1, 0] q turnJ ⬝ᵥ (fun _ => 1) = 0 := by
  intro M q
  have hT : BodyTwist M (linPart turnJ fun _ => 1) (angPart turnJ fun _ => 1) 0 := by
    rw [turnJ_lin, turnJ_ang]; exact bodyTwist_axis 0 0
  have hl : lineCoordinates (M 0) ![0, 1, 0] = ![0, 0, 0, 0, 1, 0] := by
    funext i; fin_cases i <;> simp [lineCoordinates, M]
  have hK : crossSq (lineCoordinates (M 0) ![0, 1, 0]) q = 1 := by
    rw [hl]; simp [crossSq, q]
  have hJ : lineJacobian (M 0) ![0, 1, 0] q turnJ ⬝ᵥ (fun _ => 1) = 0 := by
    rw [lineJacobian, hl]
    simp [lineDiff, lineK, diffx0, diffy0, diffz0, diffa0, diffb0, q, lineJ, turnJ, dotProduct, Matrix.vecMul, Fin.sum_univ_six, M]
  have h := C86_derivative M ![0, 1, 0] q turnJ (fun _ => 1) 0 hT (by rw [hK]; norm_num)
  refine ⟨hT, hK, ?_, hJ⟩
  refine h.congr_deriv ?_
  rw [hJ, hK, hl]
  simp [diffc0, crossSq, q, lineJ, turnJ, Matrix.mulVec, dotProduct, Matrix.mul_apply, Fin.sum_univ_three, skew, M]

end Verif.Spatial
