import Verif.Svd.Model
import Verif.Common.SvdUnique
import Mathlib.LinearAlgebra.Matrix.NonsingularInverse
import Mathlib.LinearAlgebra.Matrix.DotProduct
import Mathlib.Tactic.Linarith
import Mathlib.Tactic.FieldSimp
import Mathlib.Tactic.NoncommRing

/-!
# Properties of the generalised inverses (C21)
-/

namespace Verif.MatrixSvd

open Matrix

variable {m c : ℕ}

/-! ## Specification -/

/-- The four Penrose equations: `X` is the Moore-Penrose inverse of `A`. -/
structure Penrose (A : Matrix (Fin m) (Fin c) ℝ) (X : Matrix (Fin c) (Fin m) ℝ) : Prop where
  axa : A * X * A = A
  xax : X * A * X = X
  ax_symm : (A * X)ᵀ = A * X
  xa_symm : (X * A)ᵀ = X * A

/-- The Penrose equations have at most one solution. -/
theorem penrose_unique {A : Matrix (Fin m) (Fin c) ℝ} {X Y : Matrix (Fin c) (Fin m) ℝ}
    (hX : Penrose A X) (hY : Penrose A Y) : X = Y := by
  have h1 : A * X = A * Y := by
    calc A * X = (A * X)ᵀ := hX.ax_symm.symm
      _ = ((A * Y * A) * X)ᵀ := by rw [hY.axa]
      _ = ((A * Y) * (A * X))ᵀ := by simp only [Matrix.mul_assoc]
      _ = (A * X)ᵀ * (A * Y)ᵀ := Matrix.transpose_mul _ _
      _ = (A * X) * (A * Y) := by rw [hX.ax_symm, hY.ax_symm]
      _ = (A * X * A) * Y := by simp only [Matrix.mul_assoc]
      _ = A * Y := by rw [hX.axa]
  have h2 : X * A = Y * A := by
    calc X * A = (X * A)ᵀ := hX.xa_symm.symm
      _ = (X * (A * Y * A))ᵀ := by rw [hY.axa]
      _ = ((X * A) * (Y * A))ᵀ := by simp only [Matrix.mul_assoc]
      _ = (Y * A)ᵀ * (X * A)ᵀ := Matrix.transpose_mul _ _
      _ = (Y * A) * (X * A) := by rw [hX.xa_symm, hY.xa_symm]
      _ = Y * (A * X * A) := by simp only [Matrix.mul_assoc]
      _ = Y * A := by rw [hX.axa]
  calc X = X * A * X := hX.xax.symm
    _ = Y * A * X := by rw [h2]
    _ = Y * (A * X) := by rw [Matrix.mul_assoc]
    _ = Y * (A * Y) := by rw [h1]
    _ = Y * A * Y := by rw [Matrix.mul_assoc]
    _ = Y := hY.xax

/-! ## Lemmas -/

variable {A : Matrix (Fin m) (Fin c) ℝ}

theorem thinV_orth (S : Svd A) : (thinV S)ᵀ * thinV S = 1 := by
  ext k l
  have := congrFun (congrFun S.V_orth (svdCol k)) (svdCol l)
  simp only [Matrix.mul_apply, Matrix.transpose_apply, Matrix.one_apply] at this
  simp only [thinV, Matrix.mul_apply, Matrix.transpose_apply, Matrix.submatrix_apply, id,
    Matrix.one_apply]
  rw [this]
  have h2 : (svdCol k = svdCol l) ↔ k = l :=
    ⟨fun h => Fin.castLE_injective _ h, fun h => by rw [h]⟩
  simp only [h2]

theorem eq_thin (S : Svd A) : A = S.U * diagonal S.σ * (thinV S)ᵀ := S.eq

/-- Products of matrices sharing the same orthonormal factors. -/
theorem uv_mul (S : Svd A) (d d' : Fin (min m c) → ℝ) :
    (S.U * diagonal d * (thinV S)ᵀ) * (thinV S * diagonal d' * S.Uᵀ) =
      S.U * diagonal (fun k => d k * d' k) * S.Uᵀ := by
  have : (S.U * diagonal d * (thinV S)ᵀ) * (thinV S * diagonal d' * S.Uᵀ) =
      S.U * diagonal d * ((thinV S)ᵀ * thinV S) * diagonal d' * S.Uᵀ := by
    simp only [Matrix.mul_assoc]
  rw [this, thinV_orth, Matrix.mul_one, Matrix.mul_assoc S.U, Matrix.diagonal_mul_diagonal]

theorem vu_mul (S : Svd A) (d d' : Fin (min m c) → ℝ) :
    (thinV S * diagonal d * S.Uᵀ) * (S.U * diagonal d' * (thinV S)ᵀ) =
      thinV S * diagonal (fun k => d k * d' k) * (thinV S)ᵀ := by
  have : (thinV S * diagonal d * S.Uᵀ) * (S.U * diagonal d' * (thinV S)ᵀ) =
      thinV S * diagonal d * (S.Uᵀ * S.U) * diagonal d' * (thinV S)ᵀ := by
    simp only [Matrix.mul_assoc]
  rw [this, S.U_orth, Matrix.mul_one, Matrix.mul_assoc (thinV S), Matrix.diagonal_mul_diagonal]

theorem uu_uv_mul (S : Svd A) (d d' : Fin (min m c) → ℝ) :
    (S.U * diagonal d * S.Uᵀ) * (S.U * diagonal d' * (thinV S)ᵀ) =
      S.U * diagonal (fun k => d k * d' k) * (thinV S)ᵀ := by
  have : (S.U * diagonal d * S.Uᵀ) * (S.U * diagonal d' * (thinV S)ᵀ) =
      S.U * diagonal d * (S.Uᵀ * S.U) * diagonal d' * (thinV S)ᵀ := by
    simp only [Matrix.mul_assoc]
  rw [this, S.U_orth, Matrix.mul_one, Matrix.mul_assoc S.U, Matrix.diagonal_mul_diagonal]

theorem vv_vu_mul (S : Svd A) (d d' : Fin (min m c) → ℝ) :
    (thinV S * diagonal d * (thinV S)ᵀ) * (thinV S * diagonal d' * S.Uᵀ) =
      thinV S * diagonal (fun k => d k * d' k) * S.Uᵀ := by
  have : (thinV S * diagonal d * (thinV S)ᵀ) * (thinV S * diagonal d' * S.Uᵀ) =
      thinV S * diagonal d * ((thinV S)ᵀ * thinV S) * diagonal d' * S.Uᵀ := by
    simp only [Matrix.mul_assoc]
  rw [this, thinV_orth, Matrix.mul_one, Matrix.mul_assoc (thinV S), Matrix.diagonal_mul_diagonal]

theorem sandwich_symm {k n : ℕ} (P : Matrix (Fin n) (Fin k) ℝ) (d : Fin k → ℝ) :
    (P * diagonal d * Pᵀ)ᵀ = P * diagonal d * Pᵀ := by
  rw [Matrix.transpose_mul, Matrix.transpose_mul, Matrix.transpose_transpose,
    Matrix.diagonal_transpose, Matrix.mul_assoc]

/-- The matrix with the singular values at or below the threshold replaced by zero. -/
noncomputable def truncated (S : Svd A) (th : ℝ) : Matrix (Fin m) (Fin c) ℝ :=
  open Classical in
  S.U * diagonal (fun i => if S.σ i > th then S.σ i else 0) * (thinV S)ᵀ

/-! ## C21 -/

/-- C21. For any threshold that is not negative, the result is the Moore-Penrose inverse of the matrix
whose singular values at or below the threshold are replaced by zero. -/
theorem C21_pseudo_inverse_of_truncated (S : Svd A) (th : ℝ) (hth : 0 ≤ th) :
    Penrose (truncated S th) (pseudoInverse S th) := by
  classical
  have key : ∀ i, (if S.σ i > th then S.σ i else 0) * invSigma S th i =
      if S.σ i > th then (1 : ℝ) else 0 := by
    intro i
    simp only [invSigma]
    split
    · rename_i h
      have : S.σ i ≠ 0 := by linarith
      field_simp
    · simp
  have key' : ∀ i, invSigma S th i * (if S.σ i > th then S.σ i else 0) =
      if S.σ i > th then (1 : ℝ) else 0 := fun i => by rw [mul_comm, key]
  have h1 : truncated S th * pseudoInverse S th =
      S.U * diagonal (fun i => if S.σ i > th then (1 : ℝ) else 0) * S.Uᵀ := by
    rw [truncated, pseudoInverse, uv_mul]; simp only [key]
  have h2 : pseudoInverse S th * truncated S th =
      thinV S * diagonal (fun i => if S.σ i > th then (1 : ℝ) else 0) * (thinV S)ᵀ := by
    rw [truncated, pseudoInverse, vu_mul]; simp only [key']
  refine ⟨?_, ?_, ?_, ?_⟩
  · rw [h1, truncated, uu_uv_mul]
    congr 3
    funext i
    split <;> simp
  · rw [h2, pseudoInverse, vv_vu_mul]
    congr 3
    funext i
    simp only [invSigma]
    split <;> simp
  · rw [h1]; exact sandwich_symm _ _
  · rw [h2]; exact sandwich_symm _ _

/-- C21. When no singular value that is not null is at or below the threshold, the result is the
Moore-Penrose inverse of the matrix. -/
theorem C21_penrose (S : Svd A) (th : ℝ) (hth : 0 ≤ th) (hreg : ∀ i, S.σ i ≤ th → S.σ i = 0) :
    Penrose A (pseudoInverse S th) := by
  have h := C21_pseudo_inverse_of_truncated S th hth
  have : truncated S th = A := by
    conv_rhs => rw [eq_thin S]
    rw [truncated]
    congr 3
    funext i
    split
    · rfl
    · rename_i hi
      exact (hreg i (not_lt.mp hi)).symm
  rwa [this] at h

/-- C21. The result does not depend on the decomposition chosen by the library, nor on the threshold, as
long as the matrix is regular for them. -/
theorem C21_independent_of_decomposition (S S' : Svd A) (th th' : ℝ) (hth : 0 ≤ th) (hth' : 0 ≤ th')
    (hreg : ∀ i, S.σ i ≤ th → S.σ i = 0) (hreg' : ∀ i, S'.σ i ≤ th' → S'.σ i = 0) :
    pseudoInverse S th = pseudoInverse S' th' :=
  penrose_unique (C21_penrose S th hth hreg) (C21_penrose S' th' hth' hreg')

/-- The inverse of a squared singular value above the squared threshold, zero below. -/
noncomputable def invAbove (th s : ℝ) : ℝ := open Classical in if th ^ 2 < s then s⁻¹ else 0

theorem invSigma_eq (S : Svd A) {th : ℝ} (hth : 0 ≤ th) (k : Fin (min m c)) : invSigma S th k = invAbove th (S.σ k ^ 2) * S.σ k := by
  have hk : th < S.σ k ↔ th ^ 2 < S.σ k ^ 2 := (pow_lt_pow_iff_left₀ hth (S.nonneg k) (by norm_num)).symm
  unfold invSigma invAbove
  by_cases h : th < S.σ k
  · have h0 : S.σ k ≠ 0 := by linarith
    rw [if_pos h, if_pos (hk.mp h)]
    field_simp
  · rw [if_neg h, if_neg (fun h' => h (hk.mpr h')), zero_mul]

theorem pseudoInverse_eq (S : Svd A) {th : ℝ} (hth : 0 ≤ th) :
    pseudoInverse S th = S.V * diagonal (fun j => invAbove th (S.sq j)) * S.Vᵀ * Aᵀ :=
  S.between (invSigma S th) (invAbove th) fun k => invSigma_eq S hth k

/-- C21. For one threshold, the result never depends on the decomposition, regular matrix or not. -/
theorem C21_same_threshold (S S' : Svd A) (th : ℝ) (hth : 0 ≤ th) : pseudoInverse S th = pseudoInverse S' th := by
  rw [pseudoInverse_eq S hth, pseudoInverse_eq S' hth, S.function_unique S' (invAbove th)]

/-- A decomposition of `diag(2, 0)`, used as a witness: one singular value above the threshold, one
null. -/
noncomputable def witness : Svd (Matrix.diagonal ![2, 0] : Matrix (Fin 2) (Fin 2) ℝ) where
  U := (1 : Matrix (Fin 2) (Fin 2) ℝ)
  σ := ![2, 0]
  V := 1
  U_orth := by
    show ((1 : Matrix (Fin 2) (Fin 2) ℝ))ᵀ * (1 : Matrix (Fin 2) (Fin 2) ℝ) = 1
    simp
  V_orth := by simp
  nonneg := by
    intro k
    fin_cases k
    · show (0 : ℝ) ≤ 2; norm_num
    · exact le_refl (0 : ℝ)
  antitone := by
    intro k l h
    fin_cases k <;> fin_cases l
    · exact le_refl (2 : ℝ)
    · show (0 : ℝ) ≤ 2; norm_num
    · exact absurd h (by decide)
    · exact le_refl (0 : ℝ)
  eq := by
    have h : (diagonal ![2, 0] : Matrix (Fin 2) (Fin 2) ℝ) = (1 : Matrix (Fin 2) (Fin 2) ℝ) *
        diagonal ![2, 0] * (((1 : Matrix (Fin 2) (Fin 2) ℝ)).submatrix id id)ᵀ := by simp
    exact h

example : (0 : ℝ) ≤ 1 / 1000000 ∧ ∀ i, witness.σ i ≤ 1 / 1000000 → witness.σ i = 0 := by
  refine ⟨by norm_num, ?_⟩
  intro i h
  fin_cases i
  · exfalso
    have h' : (2 : ℝ) ≤ 1 / 1000000 := h
    norm_num at h'
  · rfl

/-- C21. With a threshold that is not null, the damped inverse solves
`X (A Aᵀ + λ² I) = Aᵀ`, and `A Aᵀ + λ² I` is invertible, so that `X = Aᵀ (A Aᵀ + λ² I)⁻¹`. -/
theorem C21_damped (S : Svd A) (lam : ℝ) (hlam : lam ≠ 0) :
    IsUnit (A * Aᵀ + (lam * lam) • (1 : Matrix (Fin m) (Fin m) ℝ)).det ∧
      dampedInverse S lam = Aᵀ * (A * Aᵀ + (lam * lam) • (1 : Matrix (Fin m) (Fin m) ℝ))⁻¹ := by
  have hpos : 0 < lam * lam := mul_self_pos.mpr hlam
  have hunit : IsUnit (A * Aᵀ + (lam * lam) • (1 : Matrix (Fin m) (Fin m) ℝ)).det := by
    rw [isUnit_iff_ne_zero]
    intro hdet
    obtain ⟨v, hv, h0⟩ := Matrix.exists_mulVec_eq_zero_iff.mpr hdet
    have h1 : v ⬝ᵥ ((A * Aᵀ + (lam * lam) • (1 : Matrix (Fin m) (Fin m) ℝ)) *ᵥ v) =
        (Aᵀ *ᵥ v) ⬝ᵥ (Aᵀ *ᵥ v) + lam * lam * (v ⬝ᵥ v) := by
      rw [Matrix.add_mulVec, dotProduct_add, Matrix.smul_mulVec, Matrix.one_mulVec, dotProduct_smul,
        ← Matrix.mulVec_mulVec, Matrix.dotProduct_mulVec, ← Matrix.mulVec_transpose, smul_eq_mul]
    rw [h0, dotProduct_zero] at h1
    have h2 : 0 ≤ (Aᵀ *ᵥ v) ⬝ᵥ (Aᵀ *ᵥ v) := Finset.sum_nonneg fun i _ => mul_self_nonneg _
    have h3 : 0 ≤ v ⬝ᵥ v := Finset.sum_nonneg fun i _ => mul_self_nonneg _
    have h4 : v ⬝ᵥ v ≠ 0 := fun h => hv (dotProduct_self_eq_zero.mp h)
    have h5 : 0 < v ⬝ᵥ v := lt_of_le_of_ne h3 (Ne.symm h4)
    nlinarith
  refine ⟨hunit, ?_⟩
  have hAt : Aᵀ = thinV S * diagonal S.σ * S.Uᵀ := by
    conv_lhs => rw [eq_thin S]
    rw [Matrix.transpose_mul, Matrix.transpose_mul, Matrix.transpose_transpose,
      Matrix.diagonal_transpose, Matrix.mul_assoc]
  have hmul : dampedInverse S lam * (A * Aᵀ + (lam * lam) • (1 : Matrix (Fin m) (Fin m) ℝ)) = Aᵀ := by
    have h1 : dampedInverse S lam * A =
        thinV S * diagonal (fun k => S.σ k / (S.σ k ^ 2 + lam * lam) * S.σ k) * (thinV S)ᵀ := by
      rw [congrArg (dampedInverse S lam * ·) (eq_thin S), dampedInverse, vu_mul]
    rw [Matrix.mul_add, ← Matrix.mul_assoc, h1]
    conv_lhs => rw [hAt]
    rw [vv_vu_mul, dampedInverse, Matrix.mul_smul, Matrix.mul_one]
    rw [hAt, ← Matrix.smul_mul, ← Matrix.mul_smul, ← Matrix.add_mul, ← Matrix.mul_add]
    congr 2
    ext i j
    by_cases hij : i = j
    · subst hij
      have : S.σ i ^ 2 + lam * lam ≠ 0 := by
        have := mul_self_pos.mpr hlam
        positivity
      simp
      field_simp
    · simp [hij]
  rw [congrArg (· * (A * Aᵀ + (lam * lam) • (1 : Matrix (Fin m) (Fin m) ℝ))⁻¹) hmul.symm,
    Matrix.mul_assoc, Matrix.mul_nonsing_inv _ hunit, Matrix.mul_one]

/-- C21. `x = X b`, with `X` the damped inverse, minimises `‖A x - b‖² + λ² ‖x‖²`. -/
theorem C21_damped_minimises (S : Svd A) (lam : ℝ) (hlam : lam ≠ 0) (b : Fin m → ℝ) (y : Fin c → ℝ) :
    let x := dampedInverse S lam *ᵥ b
    (A *ᵥ x - b) ⬝ᵥ (A *ᵥ x - b) + lam * lam * (x ⬝ᵥ x) ≤
      (A *ᵥ y - b) ⬝ᵥ (A *ᵥ y - b) + lam * lam * (y ⬝ᵥ y) := by
  intro x
  -- normal equations
  have hAt : Aᵀ = thinV S * diagonal S.σ * S.Uᵀ := by
    conv_lhs => rw [eq_thin S]
    rw [Matrix.transpose_mul, Matrix.transpose_mul, Matrix.transpose_transpose,
      Matrix.diagonal_transpose, Matrix.mul_assoc]
  have hnorm : Aᵀ * A * dampedInverse S lam + (lam * lam) • dampedInverse S lam = Aᵀ := by
    have h1 : Aᵀ * A = thinV S * diagonal (fun k => S.σ k * S.σ k) * (thinV S)ᵀ := by
      rw [hAt, congrArg (thinV S * diagonal S.σ * S.Uᵀ * ·) (eq_thin S), vu_mul]
    rw [h1, dampedInverse, vv_vu_mul, hAt, ← Matrix.smul_mul, ← Matrix.mul_smul, ← Matrix.add_mul,
      ← Matrix.mul_add]
    congr 2
    ext i j
    by_cases hij : i = j
    · subst hij
      have : S.σ i ^ 2 + lam * lam ≠ 0 := by
        have := mul_self_pos.mpr hlam
        positivity
      simp
      field_simp
    · simp [hij]
  have hx : Aᵀ *ᵥ (A *ᵥ x - b) + (lam * lam) • x = 0 := by
    have := congrArg (fun M => M *ᵥ b) hnorm
    simp only [Matrix.add_mulVec, Matrix.smul_mulVec, ← Matrix.mulVec_mulVec] at this
    rw [Matrix.mulVec_sub, sub_add_eq_add_sub, sub_eq_zero]
    exact this
  set d := y - x with hd
  have hy : y = x + d := by rw [hd]; abel
  set r := A *ᵥ x - b with hr
  have hr' : A *ᵥ y - b = r + A *ᵥ d := by rw [hy, Matrix.mulVec_add, hr]; abel
  have hcross : r ⬝ᵥ (A *ᵥ d) + lam * lam * (x ⬝ᵥ d) = 0 := by
    have h1 : (Aᵀ *ᵥ r + (lam * lam) • x) ⬝ᵥ d = 0 := by rw [hx, zero_dotProduct]
    rw [add_dotProduct, smul_dotProduct, smul_eq_mul] at h1
    rw [Matrix.dotProduct_mulVec, ← Matrix.mulVec_transpose]
    exact h1
  have e1 : (r + A *ᵥ d) ⬝ᵥ (r + A *ᵥ d) =
      r ⬝ᵥ r + 2 * (r ⬝ᵥ (A *ᵥ d)) + (A *ᵥ d) ⬝ᵥ (A *ᵥ d) := by
    rw [add_dotProduct, dotProduct_add, dotProduct_add, dotProduct_comm (A *ᵥ d) r]; ring
  have e2 : (x + d) ⬝ᵥ (x + d) = x ⬝ᵥ x + 2 * (x ⬝ᵥ d) + d ⬝ᵥ d := by
    rw [add_dotProduct, dotProduct_add, dotProduct_add, dotProduct_comm d x]; ring
  have h2 : 0 ≤ (A *ᵥ d) ⬝ᵥ (A *ᵥ d) := Finset.sum_nonneg fun i _ => mul_self_nonneg _
  have h3 : 0 ≤ d ⬝ᵥ d := Finset.sum_nonneg fun i _ => mul_self_nonneg _
  rw [hr', e1]
  conv_rhs => rw [hy, e2]
  nlinarith [mul_nonneg (mul_self_nonneg lam) h3]

example : (1 / 1000000 : ℝ) ≠ 0 := by norm_num

end Verif.MatrixSvd
