import Mathlib.Analysis.InnerProductSpace.SingularValues
import Mathlib.Analysis.InnerProductSpace.PiL2
import Mathlib.LinearAlgebra.Matrix.ToLin
import Mathlib.Data.Matrix.Mul

/-!
# Singular value decompositions

`Svd A` is what `Eigen::JacobiSVD` is specified to return for a real matrix `A` (thin `U`, full `V`).
The models take the decomposition as an oracle constrained by this specification only; `svd_exists`
shows that the specification can be met for every matrix, so no theorem about it is vacuous.
-/

namespace Verif

open Matrix

/-- A singular value decomposition of `A`: thin `U`, singular values in decreasing order, full `V`
(`Eigen::ComputeThinU | Eigen::ComputeFullV`). The thin `V` is made of the first columns of `V`. -/
structure Svd {m c : ℕ} (A : Matrix (Fin m) (Fin c) ℝ) where
  U : Matrix (Fin m) (Fin (min m c)) ℝ
  σ : Fin (min m c) → ℝ
  V : Matrix (Fin c) (Fin c) ℝ
  U_orth : Uᵀ * U = 1
  V_orth : Vᵀ * V = 1
  nonneg : ∀ k, 0 ≤ σ k
  antitone : ∀ k l, k ≤ l → σ l ≤ σ k
  eq : A = U * diagonal σ * (V.submatrix id (Fin.castLE (Nat.min_le_right m c)))ᵀ

/-- Index of a singular value among the columns of `V`. -/
abbrev svdCol {m c : ℕ} (k : Fin (min m c)) : Fin c := Fin.castLE (Nat.min_le_right m c) k

/-- Index of a singular value among the rows. -/
abbrev svdRow {m c : ℕ} (k : Fin (min m c)) : Fin m := Fin.castLE (Nat.min_le_left m c) k

theorem svd_exists {m c : ℕ} (A : Matrix (Fin m) (Fin c) ℝ) : Nonempty (Svd A) := by
  classical
  let T : EuclideanSpace ℝ (Fin c) →ₗ[ℝ] EuclideanSpace ℝ (Fin m) := Matrix.toEuclideanLin A
  have hE : Module.finrank ℝ (EuclideanSpace ℝ (Fin c)) = c := by simp
  have hF : Module.finrank ℝ (EuclideanSpace ℝ (Fin m)) = m := by simp
  let hs := T.isSymmetric_adjoint_comp_self
  let b : OrthonormalBasis (Fin c) ℝ (EuclideanSpace ℝ (Fin c)) := hs.eigenvectorBasis hE
  let s : ℕ → ℝ := fun k => T.singularValues k
  have hinner : ∀ i j : Fin c, inner ℝ (T (b i)) (T (b j)) = if i = j then s i ^ 2 else 0 := by
    intro i j
    have h1 : inner ℝ (T (b i)) (T (b j)) = inner ℝ (b i) ((LinearMap.adjoint T ∘ₗ T) (b j)) := by
      rw [LinearMap.comp_apply, LinearMap.adjoint_inner_right]
    have h2 : (LinearMap.adjoint T ∘ₗ T) (b j) = (hs.eigenvalues hE j : ℝ) • b j := by
      exact hs.apply_eigenvectorBasis hE j
    rw [h1, h2, inner_smul_right]
    have h3 : hs.eigenvalues hE j = s j ^ 2 := (T.sq_singularValues_fin hE j).symm
    rw [h3]
    have h4 : inner ℝ (b i) (b j) = if i = j then (1 : ℝ) else 0 := by
      simpa using (orthonormal_iff_ite.mp b.orthonormal) i j
    rw [h4]
    split
    · rename_i h; subst h; simp
    · simp
  -- the left vectors
  let v : Fin m → EuclideanSpace ℝ (Fin m) := fun k => if h : k.val < c then (s k)⁻¹ • T (b ⟨k, h⟩) else 0
  let S : Set (Fin m) := {k | k.val < c ∧ s k ≠ 0}
  have hv : Orthonormal ℝ (S.domRestrict v) := by
    rw [orthonormal_iff_ite]
    rintro ⟨i, hi, hsi⟩ ⟨j, hj, hsj⟩
    have hvi : (S.domRestrict v) ⟨i, hi, hsi⟩ = (s i)⁻¹ • T (b ⟨i, hi⟩) := by
      show v i = _
      simp only [v, dif_pos hi]
    have hvj : (S.domRestrict v) ⟨j, hj, hsj⟩ = (s j)⁻¹ • T (b ⟨j, hj⟩) := by
      show v j = _
      simp only [v, dif_pos hj]
    rw [hvi, hvj, inner_smul_left, inner_smul_right, hinner]
    by_cases hij : i = j
    · subst hij
      have : (s i)⁻¹ * ((s i)⁻¹ * s i ^ 2) = 1 := by field_simp
      simpa using this
    · have h1 : ¬ (i.val = j.val) := fun h => hij (Fin.ext h)
      simp [hij, h1]
  obtain ⟨u, hu⟩ := hv.exists_orthonormalBasis_extension_of_card_eq (by simp [hF])
  have hTb : ∀ k : Fin (min m c), T (b (svdCol k)) = s k • u (svdRow k) := by
    intro k
    have hkc : k.val < c := lt_of_lt_of_le k.isLt (Nat.min_le_right m c)
    by_cases hk : s k = 0
    · rw [hk, zero_smul]
      have := hinner (svdCol k) (svdCol k)
      simp only [if_true] at this
      have h0 : s (svdCol k).val = 0 := hk
      rw [h0] at this
      simpa using this
    · have hmem : svdRow k ∈ S := ⟨hkc, hk⟩
      have h1 := hu (svdRow k) hmem
      rw [h1]
      have h2 : v (svdRow k) = (s k)⁻¹ • T (b (svdCol k)) := by
        simp only [v]
        have : (svdRow k).val < c := hkc
        rw [dif_pos this]
        rfl
      rw [h2, smul_smul, mul_inv_cancel₀ hk, one_smul]
  have hTb0 : ∀ j : Fin c, m ≤ j.val → T (b j) = 0 := by
    intro j hj
    have h0 : s j = 0 := by
      have : Module.finrank ℝ T.range ≤ j := by
        refine le_trans ?_ hj
        exact le_trans (Submodule.finrank_le _) (le_of_eq hF)
      exact T.singularValues_eq_zero_iff_le_finrank_range.mpr this
    have := hinner j j
    simp only [if_true, h0] at this
    simpa using this
  refine ⟨{
    U := Matrix.of fun i k => (u (svdRow k)) i
    σ := fun k => s k
    V := Matrix.of fun i j => (b j) i
    U_orth := ?_
    V_orth := ?_
    nonneg := fun k => T.singularValues_nonneg k
    antitone := fun k l hkl => T.singularValues_antitone hkl
    eq := ?_ }⟩
  · ext k l
    have := (orthonormal_iff_ite.mp u.orthonormal) (svdRow k) (svdRow l)
    rw [PiLp.inner_apply] at this
    simp only [Matrix.mul_apply, Matrix.transpose_apply, Matrix.of_apply, Matrix.one_apply]
    simp only [RCLike.inner_apply, conj_trivial] at this
    have h2 : (svdRow k = svdRow l) ↔ k = l := by
      constructor
      · intro h; exact Fin.castLE_injective _ h
      · rintro rfl; rfl
    rw [← if_congr h2 rfl rfl, ← this]
    exact Finset.sum_congr rfl (fun x _ => mul_comm _ _)
  · ext k l
    have := (orthonormal_iff_ite.mp b.orthonormal) k l
    rw [PiLp.inner_apply] at this
    simp only [Matrix.mul_apply, Matrix.transpose_apply, Matrix.of_apply, Matrix.one_apply]
    simp only [RCLike.inner_apply, conj_trivial] at this
    rw [← this]
    exact Finset.sum_congr rfl (fun x _ => mul_comm _ _)
  · -- A = U Σ Vᵀ, checked on the basis `b`
    set V : Matrix (Fin c) (Fin c) ℝ := Matrix.of fun i j => (b j) i with hV
    set U : Matrix (Fin m) (Fin (min m c)) ℝ := Matrix.of fun i k => (u (svdRow k)) i with hU
    have hVV : Vᵀ * V = 1 := by
      ext k l
      have := (orthonormal_iff_ite.mp b.orthonormal) k l
      rw [PiLp.inner_apply] at this
      simp only [hV, Matrix.mul_apply, Matrix.transpose_apply, Matrix.of_apply, Matrix.one_apply]
      simp only [RCLike.inner_apply, conj_trivial] at this
      rw [← this]
      exact Finset.sum_congr rfl (fun x _ => mul_comm _ _)
    have hVV' : V * Vᵀ = 1 := mul_eq_one_comm.mp hVV
    have hAV : A * V = U * diagonal (fun k => s k.val) *
        (Matrix.of fun (k : Fin (min m c)) (j : Fin c) => if svdCol k = j then (1 : ℝ) else 0) := by
      ext i j
      have hl : (A * V) i j = (T (b j)) i := by
        show _ = (Matrix.toEuclideanLin A (b j)) i
        rw [Matrix.toLpLin_apply]
        simp [hV, Matrix.mul_apply, Matrix.mulVec, dotProduct]
      rw [hl]
      by_cases hj : j.val < min m c
      · have h1 := hTb ⟨j, hj⟩
        have h2 : svdCol (⟨j, hj⟩ : Fin (min m c)) = j := Fin.ext rfl
        rw [h2] at h1
        rw [h1]
        rw [Matrix.mul_apply]
        rw [Finset.sum_eq_single (⟨j, hj⟩ : Fin (min m c))]
        · simp [hU, Matrix.mul_diagonal, h2, mul_comm]
        · intro k _ hk
          have : svdCol k ≠ j := by
            intro h; apply hk; apply Fin.ext
            have := congrArg Fin.val h
            simpa using this
          simp [this]
        · simp
      · have hm : m ≤ j.val := by
          have := j.isLt
          omega
        rw [hTb0 j hm, Matrix.mul_apply]
        symm
        apply Finset.sum_eq_zero
        intro k _
        have : svdCol k ≠ j := by
          intro h
          have h3 : k.val = j.val := congrArg Fin.val h
          have := k.isLt
          omega
        simp [this]
    have : A = (A * V) * Vᵀ := by rw [Matrix.mul_assoc, hVV', Matrix.mul_one]
    rw [this, hAV, Matrix.mul_assoc]
    congr 1
    ext k j
    simp [Matrix.mul_apply, svdCol]

end Verif
