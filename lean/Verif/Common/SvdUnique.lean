import Verif.Common.Svd
import Mathlib.LinearAlgebra.Matrix.Trace
import Mathlib.Tactic.NoncommRing

/-!
# What two decompositions of the same matrix share

The vectors returned by a library are not unique. Any function of the squared singular values, put back with the right vectors, is.
-/

namespace Verif

open Matrix

variable {m c : ℕ} {A : Matrix (Fin m) (Fin c) ℝ}

/-- The squared singular values, one for each column of `V`. -/
noncomputable def Svd.sq (S : Svd A) (j : Fin c) : ℝ := if h : j.val < min m c then S.σ ⟨j.val, h⟩ ^ 2 else 0

theorem Svd.sq_col (S : Svd A) (k : Fin (min m c)) : S.sq (svdCol k) = S.σ k ^ 2 := by
  unfold Svd.sq
  rw [dif_pos (show (svdCol k : Fin c).val < min m c from k.isLt)]
  rfl

theorem Svd.sq_nonneg (S : Svd A) (j : Fin c) : 0 ≤ S.sq j := by
  unfold Svd.sq
  split_ifs
  · positivity
  · exact le_rfl

/-- Sums over the thin columns are sums over all the columns. -/
theorem thin_sum (f : Fin (min m c) → ℝ) (g : Fin c → ℝ) (h : ∀ k, f k = g (svdCol k)) (h0 : ∀ j : Fin c, min m c ≤ j.val → g j = 0) :
    ∑ k, f k = ∑ j, g j := by
  refine Fintype.sum_of_injective svdCol (fun a b hab => Fin.ext (by simpa using congrArg Fin.val hab)) f g ?_ h
  intro j hj
  apply h0
  by_contra hlt
  exact hj ⟨⟨j.val, not_le.mp hlt⟩, rfl⟩

theorem Svd.transpose_eq (S : Svd A) : Aᵀ = (S.V.submatrix id svdCol) * diagonal S.σ * S.Uᵀ := by
  have h := congrArg Matrix.transpose S.eq
  rw [Matrix.transpose_mul, Matrix.transpose_mul, Matrix.transpose_transpose, diagonal_transpose] at h
  rw [h, Matrix.mul_assoc]

theorem Svd.gram (S : Svd A) : Aᵀ * A = S.V * diagonal S.sq * S.Vᵀ := by
  have h1 : Aᵀ * A = (S.V.submatrix id svdCol) * diagonal (fun k => S.σ k ^ 2) * (S.V.submatrix id svdCol)ᵀ := by
    set T := S.V.submatrix id svdCol with hT
    have h2 : A = S.U * diagonal S.σ * Tᵀ := S.eq
    have h3 : Aᵀ = T * diagonal S.σ * S.Uᵀ := S.transpose_eq
    calc Aᵀ * A = (T * diagonal S.σ * S.Uᵀ) * (S.U * diagonal S.σ * Tᵀ) := congrArg₂ (· * ·) h3 h2
      _ = T * diagonal S.σ * (S.Uᵀ * S.U) * diagonal S.σ * Tᵀ := by simp only [Matrix.mul_assoc]
      _ = T * diagonal (fun k => S.σ k ^ 2) * Tᵀ := by
          rw [S.U_orth, Matrix.mul_one, Matrix.mul_assoc T, diagonal_mul_diagonal]
          simp only [pow_two]
  rw [h1]
  ext i j
  rw [Matrix.mul_apply, Matrix.mul_apply]
  apply thin_sum
  · intro k
    simp only [mul_diagonal, transpose_apply, submatrix_apply, id_eq, Svd.sq_col]
  · intro k hk
    simp only [mul_diagonal, transpose_apply]
    unfold Svd.sq
    rw [dif_neg (not_lt.mpr hk)]
    ring

/-- A function of the squared singular values does not depend on the decomposition. -/
theorem Svd.function_unique (S S' : Svd A) (f : ℝ → ℝ) :
    S.V * diagonal (fun j => f (S.sq j)) * S.Vᵀ = S'.V * diagonal (fun j => f (S'.sq j)) * S'.Vᵀ := by
  have hV : S.V * S.Vᵀ = 1 := mul_eq_one_comm.mp S.V_orth
  have hV' : S'.V * S'.Vᵀ = 1 := mul_eq_one_comm.mp S'.V_orth
  set W := S.Vᵀ * S'.V with hW
  have h1 : diagonal S.sq * W = W * diagonal S'.sq := by
    calc diagonal S.sq * W = (S.Vᵀ * S.V) * diagonal S.sq * S.Vᵀ * S'.V := by rw [S.V_orth, Matrix.one_mul, hW, Matrix.mul_assoc]
      _ = S.Vᵀ * (S.V * diagonal S.sq * S.Vᵀ) * S'.V := by simp only [Matrix.mul_assoc]
      _ = S.Vᵀ * (S'.V * diagonal S'.sq * S'.Vᵀ) * S'.V := by rw [← S.gram, ← S'.gram]
      _ = W * diagonal S'.sq * (S'.Vᵀ * S'.V) := by rw [hW]; simp only [Matrix.mul_assoc]
      _ = W * diagonal S'.sq := by rw [S'.V_orth, Matrix.mul_one]
  have h2 : diagonal (fun j => f (S.sq j)) * W = W * diagonal (fun j => f (S'.sq j)) := by
    ext i j
    have h3 := congrFun (congrFun h1 i) j
    rw [diagonal_mul, mul_diagonal] at h3 ⊢
    by_cases hw : W i j = 0
    · rw [hw]; ring
    · have : S.sq i = S'.sq j := by
        apply mul_right_cancel₀ hw
        rw [h3]; ring
      rw [this]; ring
  calc S.V * diagonal (fun j => f (S.sq j)) * S.Vᵀ = S.V * diagonal (fun j => f (S.sq j)) * S.Vᵀ * (S'.V * S'.Vᵀ) := by
        rw [hV', Matrix.mul_one]
    _ = S.V * (diagonal (fun j => f (S.sq j)) * W) * S'.Vᵀ := by rw [hW]; simp only [Matrix.mul_assoc]
    _ = (S.V * S.Vᵀ) * S'.V * diagonal (fun j => f (S'.sq j)) * S'.Vᵀ := by rw [h2, hW]; simp only [Matrix.mul_assoc]
    _ = _ := by rw [hV, Matrix.one_mul]

/-- So does the sum of a function over the columns. -/
theorem Svd.sum_unique (S S' : Svd A) (f : ℝ → ℝ) : ∑ j, f (S.sq j) = ∑ j, f (S'.sq j) := by
  have h : ∀ T : Svd A, Matrix.trace (T.V * diagonal (fun j => f (T.sq j)) * T.Vᵀ) = ∑ j, f (T.sq j) := by
    intro T
    rw [Matrix.mul_assoc, Matrix.trace_mul_comm, Matrix.mul_assoc, T.V_orth, Matrix.mul_one, Matrix.trace_diagonal]
  rw [← h S, ← h S', S.function_unique S']

/-- A function of the singular values, between the right and the left vectors, when it is a function of their squares. -/
theorem Svd.between (S : Svd A) (g : Fin (min m c) → ℝ) (f : ℝ → ℝ) (h : ∀ k, g k = f (S.σ k ^ 2) * S.σ k) :
    (S.V.submatrix id svdCol) * diagonal g * S.Uᵀ = S.V * diagonal (fun j => f (S.sq j)) * S.Vᵀ * Aᵀ := by
  have h1 : S.Vᵀ * Aᵀ = Matrix.of fun (j : Fin c) (i : Fin m) => if h : j.val < min m c then S.σ ⟨j.val, h⟩ * S.U i ⟨j.val, h⟩ else 0 := by
    have h2 : S.Vᵀ * Aᵀ = (S.Vᵀ * (S.V.submatrix id svdCol)) * diagonal S.σ * S.Uᵀ := by
      rw [congrArg (S.Vᵀ * ·) S.transpose_eq]
      simp only [Matrix.mul_assoc]
    have h3 : S.Vᵀ * (S.V.submatrix id svdCol) = (1 : Matrix (Fin c) (Fin c) ℝ).submatrix id (svdCol : Fin (min m c) → Fin c) := by
      rw [← S.V_orth]; rfl
    rw [h2, h3]
    ext j i
    rw [Matrix.mul_apply]
    simp only [mul_diagonal, submatrix_apply, id_eq, transpose_apply, of_apply, Matrix.one_apply]
    split_ifs with hj
    · rw [Finset.sum_eq_single ⟨j.val, hj⟩]
      · rw [if_pos (show j = svdCol ⟨j.val, hj⟩ from Fin.ext rfl), one_mul]
      · intro b _ hb
        rw [if_neg (fun e : j = svdCol b => hb (Fin.ext (congrArg Fin.val e).symm))]; ring
      · simp
    · apply Finset.sum_eq_zero
      intro k _
      rw [if_neg (fun e : j = svdCol k => hj (lt_of_eq_of_lt (congrArg Fin.val e) k.isLt))]; ring
  rw [Matrix.mul_assoc _ S.Vᵀ, h1]
  ext i j
  rw [Matrix.mul_apply, Matrix.mul_apply]
  apply thin_sum
  · intro k
    simp only [mul_diagonal, submatrix_apply, id_eq, transpose_apply, of_apply, Svd.sq_col]
    rw [dif_pos (show (svdCol k : Fin c).val < min m c from k.isLt), h k]
    show S.V i (svdCol k) * (f (S.σ k ^ 2) * S.σ k) * S.U j k = S.V i (svdCol k) * f (S.σ k ^ 2) * (S.σ k * S.U j k)
    ring
  · intro k hk
    simp only [mul_diagonal, of_apply]
    rw [dif_neg (not_lt.mpr hk), mul_zero]

/-- The decomposition of a matrix times an orthogonal matrix. -/
noncomputable def Svd.rotate (S : Svd A) (Q : Matrix (Fin c) (Fin c) ℝ) (hQ : Qᵀ * Q = 1) : Svd (A * Q) where
  U := S.U
  σ := S.σ
  V := Qᵀ * S.V
  U_orth := S.U_orth
  V_orth := by
    rw [Matrix.transpose_mul, Matrix.transpose_transpose, Matrix.mul_assoc, ← Matrix.mul_assoc Q, mul_eq_one_comm.mp hQ, Matrix.one_mul, S.V_orth]
  nonneg := S.nonneg
  antitone := S.antitone
  eq := by
    have : (Qᵀ * S.V).submatrix id (Fin.castLE (Nat.min_le_right m c)) = Qᵀ * S.V.submatrix id (Fin.castLE (Nat.min_le_right m c)) := rfl
    rw [this, Matrix.transpose_mul, Matrix.transpose_transpose, ← Matrix.mul_assoc, ← S.eq]

/-- The decomposition of an orthogonal matrix times a matrix. -/
noncomputable def Svd.turn (S : Svd A) (R : Matrix (Fin m) (Fin m) ℝ) (hR : Rᵀ * R = 1) : Svd (R * A) where
  U := R * S.U
  σ := S.σ
  V := S.V
  U_orth := by
    rw [Matrix.transpose_mul, Matrix.mul_assoc, ← Matrix.mul_assoc Rᵀ, hR, Matrix.one_mul, S.U_orth]
  V_orth := S.V_orth
  nonneg := S.nonneg
  antitone := S.antitone
  eq := by rw [Matrix.mul_assoc R, Matrix.mul_assoc R, ← S.eq]

end Verif
