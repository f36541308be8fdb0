import Verif.Homogeneous.Model
import Verif.Operators.Select
import Mathlib.Algebra.Order.BigOperators.Group.Finset
import Mathlib.Analysis.InnerProductSpace.PiL2
import Mathlib.Tactic.FinCases
import Mathlib.Tactic.NormNum
import Mathlib.Tactic.Ring
import Mathlib.Tactic.LinearCombination

/-!
# C110: operators on homogeneous matrices

A transformation is the composition of its rotation and its position; the operators that invert, multiply and convert transformations agree
with the matrices. The inverse of a transformation whose last row is not that of an affine one is not its inverse.
-/

namespace Verif.Homogeneous

open Matrix Verif.Operators

variable {F : Type} [Field F]

/-- The last row is `0 0 0 1`. -/
def Affine (M : Homo F) : Prop := M 3 0 = 0 ∧ M 3 1 = 0 ∧ M 3 2 = 0 ∧ M 3 3 = 1

/-- The dynamic matrix of a matrix. -/
def dyn {r c : Nat} (A : Matrix (Fin r) (Fin c) F) : DMat F := ⟨r, c, fun i j => if h : i < r ∧ j < c then A ⟨i, h.1⟩ ⟨j, h.2⟩ else 0⟩

theorem dyn_val {r c : Nat} (A : Matrix (Fin r) (Fin c) F) (i : Fin r) (j : Fin c) : (dyn A).val i j = A i j := by
  simp [dyn]

theorem compose_eq (H : Homo F) (R : Matrix (Fin 3) (Fin 3) F) (t : Fin 3 → F) :
    compose H (dyn R) (List.ofFn t) = .ok (assemble R t (H 3)) := by
  have e1 : (fun i j : Fin 3 => (dyn R).val i j) = R := by funext i j; exact dyn_val R i j
  have e2 : (fun i : Fin 3 => (List.ofFn t).getD i 0) = t := by
    funext i
    simp [-List.ofFn_succ]
  simp only [compose, dyn, List.length_ofFn, and_self, if_true]
  rw [e2]
  exact congrArg (fun A => Outcome.ok (assemble A t (H 3))) e1

/-- **C110.** The rotation and the position of a composed transformation are those it was composed of; it is affine when the output signal
was, as it is from its construction. -/
theorem C110_compose (H : Homo F) (R : Matrix (Fin 3) (Fin 3) F) (t : Fin 3 → F) :
    ∃ M, compose H (dyn R) (List.ofFn t) = .ok M ∧ homoToRotation M = R ∧ homoToPose M = List.ofFn t ∧ (Affine H → Affine M) := by
  refine ⟨_, compose_eq H R t, ?_, ?_, ?_⟩
  · ext i j
    simp [homoToRotation, linear, assemble]
  · simp only [homoToPose]
    congr 1
    funext i
    simp [translation, assemble]
  · intro h
    exact h

/-- **C110.** A rotation or a position of another size is refused by an assertion. -/
theorem C110_compose_size (H : Homo F) (R : DMat F) (t : List F) :
    compose H R t = .ub ↔ ¬ (R.rows = 3 ∧ R.cols = 3 ∧ t.length = 3) := by
  simp only [compose]
  split
  · rename_i h; simp [h]
  · rename_i h; simpa using h

/-- **C110.** An affine transformation is composed of its rotation and its position, and of nothing else. -/
theorem C110_decompose (M H : Homo F) (hM : Affine M) (hH : Affine H) : compose H (dyn (homoToRotation M)) (homoToPose M) = .ok M := by
  rw [homoToPose, compose_eq]
  congr 1
  obtain ⟨a0, a1, a2, a3⟩ := hM
  obtain ⟨b0, b1, b2, b3⟩ := hH
  ext i j
  fin_cases i <;> fin_cases j <;> simp [assemble, homoToRotation, linear, translation, a0, a1, a2, a3, b0, b1, b2, b3] <;> rfl

/-- **C110.** The conversions between matrices and transformations are inverse of each other, on all matrices of size four. -/
theorem C110_convert (M : Homo F) (m : DMat F) :
    matrixToHomo (homoToMatrix M) = .ok M ∧
    (∀ M', matrixToHomo m = .ok M' → (homoToMatrix M').rows = m.rows ∧ (homoToMatrix M').cols = m.cols ∧
      ∀ i j, i < 4 → j < 4 → (homoToMatrix M').val i j = m.val i j) ∧
    (matrixToHomo m = .ub ↔ ¬ (m.rows = 4 ∧ m.cols = 4)) := by
  refine ⟨?_, ?_, ?_⟩
  · simp only [matrixToHomo, homoToMatrix, and_self, if_true]
    congr 1
    ext i j
    simp
  · intro M' h
    simp only [matrixToHomo] at h
    split at h
    · rename_i hs
      injection h with h
      subst h
      refine ⟨hs.1.symm, hs.2.symm, ?_⟩
      intro i j hi hj
      simp [homoToMatrix, hi, hj]
    · cases h
  · simp only [matrixToHomo]
    split
    · rename_i hs; simp [hs]
    · rename_i hs; simp [hs]

theorem assemble_mul (A B : Matrix (Fin 3) (Fin 3) F) (s t : Fin 3 → F) :
    assemble A s affineRow * assemble B t affineRow = assemble (A * B) (A *ᵥ t + s) affineRow := by
  ext i j
  fin_cases i <;> fin_cases j <;>
    simp [Matrix.mul_apply, Fin.sum_univ_four, Fin.sum_univ_three, assemble, affineRow, Matrix.mulVec, dotProduct]

theorem assemble_one : assemble (1 : Matrix (Fin 3) (Fin 3) F) 0 affineRow = 1 := by
  ext i j
  fin_cases i <;> fin_cases j <;> simp [assemble, affineRow, Matrix.one_apply]

theorem affine_eq {M : Homo F} (hM : Affine M) : M = assemble (linear M) (translation M) affineRow := by
  obtain ⟨a0, a1, a2, a3⟩ := hM
  ext i j
  fin_cases i <;> fin_cases j <;> simp [assemble, affineRow, linear, translation, a0, a1, a2, a3] <;> rfl

/-- **C110.** The inverse of an affine transformation with an invertible linear part is its inverse, affine, and its matrix is the inverse of
its matrix. -/
theorem C110_inverse (M : Homo F) (hM : Affine M) (hd : (linear M).det ≠ 0) :
    ∃ N, inverseHomo M = .ok N ∧ N * M = 1 ∧ M * N = 1 ∧ Affine N ∧ N = M⁻¹ := by
  have hu : IsUnit (linear M).det := isUnit_iff_ne_zero.2 hd
  have h1 : assemble (linear M)⁻¹ (-((linear M)⁻¹ *ᵥ translation M)) affineRow * M = 1 := by
    have e : assemble (linear M)⁻¹ (-((linear M)⁻¹ *ᵥ translation M)) affineRow * assemble (linear M) (translation M) affineRow = 1 := by
      rw [assemble_mul, Matrix.nonsing_inv_mul _ hu, add_neg_cancel, assemble_one]
    rwa [← affine_eq hM] at e
  refine ⟨_, by simp only [inverseHomo, if_neg hd], h1, mul_eq_one_comm.1 h1, ⟨by simp [assemble, affineRow], by simp [assemble, affineRow],
    by simp [assemble, affineRow], by simp [assemble, affineRow]⟩, ?_⟩
  exact (Matrix.inv_eq_left_inv h1).symm

/-- **C110, counterexample.** A transformation made from a matrix whose last row is not `0 0 0 1` keeps it, and then what the inversion gives
is not its inverse. -/
theorem C110_not_affine_counterexample (M : Homo F) (hM : ¬ Affine M) {N : Homo F} (hN : inverseHomo M = .ok N) : N * M ≠ 1 := by
  intro h1
  apply hM
  simp only [inverseHomo] at hN
  split at hN
  · cases hN
  · injection hN with hN
    have e : ∀ j, (N * M) 3 j = M 3 j := by
      intro j
      rw [← hN]
      simp [Matrix.mul_apply, Fin.sum_univ_four, assemble, affineRow]
    rw [h1] at e
    exact ⟨by rw [← e]; rfl, by rw [← e]; rfl, by rw [← e]; rfl, by rw [← e]; rfl⟩

open scoped Classical in
/-- **C110.** The inverse of a square matrix that has one is its inverse; of another one it has no defined value. -/
theorem C110_inverse_matrix {n : Nat} (A : Matrix (Fin n) (Fin n) F) :
    (A.det ≠ 0 → ∃ B : Matrix (Fin n) (Fin n) F, inverseMatrix (dyn A) = .ok (dyn B) ∧ B * A = 1 ∧ A * B = 1) ∧
    (A.det = 0 → inverseMatrix (dyn A) = .ub) := by
  have e : (Matrix.of fun i j : Fin n => (dyn A).val i j) = A := by ext i j; exact dyn_val A i j
  have hr : ¬ (dyn A).rows ≠ (dyn A).cols := by simp [dyn]
  have key : inverseMatrix (dyn A) = if A.det = 0 then Outcome.ub else Outcome.ok (dyn A⁻¹) := by
    simp only [inverseMatrix, if_neg hr]
    change (if (Matrix.of fun i j : Fin n => (dyn A).val i j).det = 0 then Outcome.ub else
      Outcome.ok (dyn (Matrix.of fun i j : Fin n => (dyn A).val i j)⁻¹)) = _
    rw [e]
  constructor
  · intro hd
    refine ⟨A⁻¹, ?_, Matrix.nonsing_inv_mul _ (isUnit_iff_ne_zero.2 hd), Matrix.mul_nonsing_inv _ (isUnit_iff_ne_zero.2 hd)⟩
    rw [key, if_neg hd]
  · intro hd
    rw [key, if_pos hd]

/-- **C110.** A matrix that is not square is refused by an assertion. -/
theorem C110_inverse_not_square {r c : Nat} (A : Matrix (Fin r) (Fin c) F) (h : r ≠ c) : inverseMatrix (dyn A) = .ub := by
  have hr : (dyn A).rows ≠ (dyn A).cols := h
  simp only [inverseMatrix, if_pos hr]

/-- **C110.** The inverse of a rotation is its inverse; on a matrix that can be inverted the operator gives the inverse exactly when the matrix
is orthogonal. -/
theorem C110_inverse_rotation (R : Matrix (Fin 3) (Fin 3) F) :
    (Rᵀ * R = 1 → inverseRotation R * R = 1 ∧ R * inverseRotation R = 1) ∧
    (R.det ≠ 0 → (inverseRotation R = R⁻¹ ↔ Rᵀ * R = 1)) := by
  refine ⟨fun h => ⟨h, mul_eq_one_comm.1 h⟩, fun hd => ⟨fun h => ?_, fun h => (Matrix.inv_eq_left_inv h).symm⟩⟩
  have := Matrix.nonsing_inv_mul R (isUnit_iff_ne_zero.2 hd)
  rw [← h] at this
  exact this

/-- **C110.** An affine transformation moves a point by its rotation and its position, and turns a direction. -/
theorem C110_point (M : Homo F) (hM : Affine M) (p : Fin 3 → F) :
    homoTimesVector M (List.ofFn p ++ [1]) = .ok (List.ofFn (homoToRotation M *ᵥ p + translation M) ++ [1]) ∧
    homoTimesVector M (List.ofFn p ++ [0]) = .ok (List.ofFn (homoToRotation M *ᵥ p) ++ [0]) := by
  obtain ⟨a0, a1, a2, a3⟩ := hM
  constructor
  · simp [homoTimesVector, List.ofFn_succ, Matrix.mulVec, dotProduct, Fin.sum_univ_four, Fin.sum_univ_three, homoToRotation, linear, translation,
      a0, a1, a2, a3]
  · simp [homoTimesVector, List.ofFn_succ, Matrix.mulVec, dotProduct, Fin.sum_univ_four, Fin.sum_univ_three, homoToRotation, linear, translation,
      a0, a1, a2, a3]

/-- **C110.** Applying two transformations is applying their product. -/
theorem C110_apply_twice (M N : Homo F) (v : List F) :
    (homoTimesVector N v).bind (homoTimesVector M) = homoTimesVector (M * N) v := by
  by_cases h : v.length = 4
  · simp only [homoTimesVector, h, if_true, Outcome.bind, List.length_ofFn]
    congr 2
    have : (fun j : Fin 4 => (List.ofFn (N *ᵥ fun j : Fin 4 => v.getD j 0)).getD j 0) = N *ᵥ fun j : Fin 4 => v.getD j 0 := by
      funext j
      simp [-List.ofFn_succ]
    rw [this, Matrix.mulVec_mulVec]
  · simp [homoTimesVector, h]

/-- **C110, counterexample.** A vector of three components, as the positions are, is refused by an assertion, as any size but four. -/
theorem C110_point_size_counterexample (M : Homo F) (v : List F) : homoTimesVector M v = .ub ↔ v.length ≠ 4 := by
  simp only [homoTimesVector]
  split <;> simp_all

/-- **C110.** The product of a matrix and a vector, on matching sizes, is the product; on other sizes an assertion fails. -/
theorem C110_matrix_vector {r c : Nat} (A : Matrix (Fin r) (Fin c) F) (v : List F) :
    (∀ w : Fin c → F, v = List.ofFn w → matrixTimesVector (dyn A) v = .ok (List.ofFn (A *ᵥ w))) ∧
    (v.length ≠ c → matrixTimesVector (dyn A) v = .ub) := by
  constructor
  · rintro w rfl
    have hc : (dyn A).cols = (List.ofFn w).length := by simp [dyn]
    simp only [matrixTimesVector, if_pos hc]
    congr 1
    apply List.ext_getElem
    · simp [dyn]
    · intro i h1 h2
      simp only [List.length_ofFn] at h2
      simp only [List.getElem_map, List.getElem_range, List.getElem_ofFn, Matrix.mulVec, dotProduct]
      have : ((List.range (dyn A).cols).map fun j => (dyn A).val i j * (List.ofFn w).getD j 0) =
          List.ofFn fun j : Fin c => A ⟨i, h2⟩ j * w j := by
        apply List.ext_getElem
        · simp [dyn]
        · intro j h3 h4
          simp only [List.length_ofFn] at h4
          simp [dyn, h2, h4]
      rw [this, List.sum_ofFn]
  · intro h
    simp only [matrixTimesVector]
    rw [if_neg]
    exact fun h' => h h'.symm

/-- **C110.** The difference of two vectors, defined exactly on equal sizes, is what must be added to the second one to get the first. -/
theorem C110_substract (a b : List F) :
    (substract a b = .ub ↔ a.length ≠ b.length) ∧
    (∀ r, substract a b = .ok r → r.length = a.length ∧ List.zipWith (· + ·) b r = a) ∧
    substract a a = .ok (a.map fun _ => 0) := by
  refine ⟨?_, ?_, ?_⟩
  · simp only [substract]; split <;> simp_all
  · intro r h
    simp only [substract] at h
    split at h
    · rename_i hl
      injection h with h
      subst h
      refine ⟨by simp [hl], ?_⟩
      apply List.ext_getElem
      · simp [hl]
      · intro i h1 h2
        simp
    · cases h
  · simp only [substract, if_true]
    congr 1
    induction a with
    | nil => rfl
    | cons x xs ih => simp [ih]

/-- **C110.** Scaling a vector scales each component; the comparison is the strict order. -/
theorem C110_scale_compare [LinearOrder F] (x a b : F) (v : List F) :
    (doubleTimesVector x v).length = v.length ∧ (∀ i : Nat, (doubleTimesVector x v)[i]? = v[i]?.map fun y => x * y) ∧
    (compare a b = true ↔ a < b) ∧ (compare a b = false ↔ b ≤ a) := by
  refine ⟨by simp [doubleTimesVector], ?_, by simp [compare], by simp [compare]⟩
  intro i
  simp [doubleTimesVector, mul_comm]

theorem norm_eq {n : Nat} (v : Fin n → ℝ) : normOf (List.ofFn v) = ‖(WithLp.toLp 2 v : EuclideanSpace ℝ (Fin n))‖ := by
  rw [EuclideanSpace.norm_eq, normOf, List.map_ofFn, List.sum_ofFn]
  congr 1
  apply Finset.sum_congr rfl
  intro i _
  simp

/-- **C110.** The norm is that of the Euclidean space: it is zero only for the zero vector, it scales, and it satisfies the triangle
inequality. -/
theorem C110_norm {n : Nat} (v w : Fin n → ℝ) (x : ℝ) :
    0 ≤ normOf (List.ofFn v) ∧ (normOf (List.ofFn v) = 0 ↔ v = 0) ∧
    normOf (doubleTimesVector x (List.ofFn v)) = |x| * normOf (List.ofFn v) ∧
    normOf (List.ofFn (v + w)) ≤ normOf (List.ofFn v) + normOf (List.ofFn w) ∧
    normOf (List.ofFn v) ^ 2 = ∑ i, v i ^ 2 := by
  have e : doubleTimesVector x (List.ofFn v) = List.ofFn (x • v) := by
    rw [doubleTimesVector, List.map_ofFn]
    congr 1
    funext i
    simp [mul_comm]
  refine ⟨Real.sqrt_nonneg _, ?_, ?_, ?_, ?_⟩
  · rw [norm_eq, norm_eq_zero]
    constructor
    · intro h
      have := congrArg (WithLp.ofLp) h
      simpa using this
    · rintro rfl; rfl
  · rw [e, norm_eq, norm_eq, ← Real.norm_eq_abs, ← norm_smul]
    rfl
  · rw [norm_eq, norm_eq, norm_eq]
    exact norm_add_le _ _
  · rw [normOf, Real.sq_sqrt]
    · rw [List.map_ofFn, List.sum_ofFn]; rfl
    · rw [List.map_ofFn, List.sum_ofFn]
      exact Finset.sum_nonneg fun i _ => sq_nonneg _

/-- A quarter turn about the third axis and a translation are affine and can be inverted; a matrix with another last row is not. -/
theorem C110_case : Affine (!![0, -1, 0, 1; 1, 0, 0, 2; 0, 0, 1, 3; 0, 0, 0, 1] : Homo ℚ) ∧
    (linear (!![0, -1, 0, 1; 1, 0, 0, 2; 0, 0, 1, 3; 0, 0, 0, 1] : Homo ℚ)).det ≠ 0 ∧
    ¬ Affine (!![1, 0, 0, 0; 0, 1, 0, 0; 0, 0, 1, 0; 0, 0, 0, 2] : Homo ℚ) ∧
    (linear (!![1, 0, 0, 0; 0, 1, 0, 0; 0, 0, 1, 0; 0, 0, 0, 2] : Homo ℚ)).det ≠ 0 := by
  refine ⟨⟨rfl, rfl, rfl, rfl⟩, ?_, ?_, ?_⟩
  · simp [Matrix.det_fin_three, linear]
  · rintro ⟨_, _, _, h⟩
    have : (2 : ℚ) = 1 := h
    norm_num at this
  · simp [Matrix.det_fin_three, linear]

end Verif.Homogeneous
