import Verif.Svd.Props
import Mathlib.LinearAlgebra.Matrix.Rank
import Mathlib.Topology.Algebra.Field
import Mathlib.Topology.Instances.Matrix
import Mathlib.Topology.Instances.Real.Lemmas

/-!
# C144: the damped inverse near and at the singularities

The quotients are those of the code, with the undefined one (zero over zero) as a NaN that spreads through the products and the sums.
-/

namespace Verif.MatrixSvd

open Matrix Filter Topology

variable {m c : ℕ}

/-! ## Model -/

/-- A quotient of doubles; `none` is a NaN. Only zero over zero gives one here: the denominators of the code are null only with the numerator
(src/matrix/matrix-svd.cpp:33). -/
noncomputable def quot (a b : ℝ) : Option ℝ := open Classical in if b = 0 then none else some (a / b)

/-- The sum of the terms of an entry of a product of matrices; a NaN among them makes a NaN. -/
noncomputable def nanSum : List (Option ℝ) → Option ℝ
  | [] => some 0
  | a :: l => do return (← a) + (← nanSum l)

/-- `dampedInverse` entry by entry, with the NaN of the quotient of line 33 (src/matrix/matrix-svd.cpp:28-38). Also what the two overloads give
that compute the decomposition first (src/matrix/matrix-svd.cpp:40-56). -/
noncomputable def dampedEntries {A : Matrix (Fin m) (Fin c) ℝ} (S : Svd A) (threshold : ℝ) (i : Fin c) (j : Fin m) : Option ℝ :=
  nanSum (List.ofFn fun k => (quot (S.σ k) (S.σ k ^ 2 + threshold * threshold)).map fun s => thinV S i k * s * S.U j k)

/-! ## Lemmas -/

variable {A : Matrix (Fin m) (Fin c) ℝ}

theorem nanSum_some (l : List ℝ) : nanSum (l.map some) = some l.sum := by
  induction l with
  | nil => rfl
  | cons a l ih => simp [nanSum, ih]

theorem nanSum_none {l : List (Option ℝ)} (h : none ∈ l) : nanSum l = none := by
  induction l with
  | nil => simp at h
  | cons a l ih =>
    rcases List.mem_cons.mp h with h' | h'
    · subst h'; rfl
    · cases a with
      | none => rfl
      | some a => simp [nanSum, ih h']

theorem entry_eq (S : Svd A) (lam : ℝ) (i : Fin c) (j : Fin m) :
    dampedInverse S lam i j = ∑ k, thinV S i k * (S.σ k / (S.σ k ^ 2 + lam * lam)) * S.U j k := by
  rw [dampedInverse, Matrix.mul_apply]
  simp only [Matrix.mul_diagonal, Matrix.transpose_apply]

theorem entries_some (S : Svd A) (lam : ℝ) (h : ∀ k, S.σ k ^ 2 + lam * lam ≠ 0) (i : Fin c) (j : Fin m) :
    dampedEntries S lam i j = some (dampedInverse S lam i j) := by
  have : (List.ofFn fun k => (quot (S.σ k) (S.σ k ^ 2 + lam * lam)).map fun s => thinV S i k * s * S.U j k) =
      (List.ofFn fun k => thinV S i k * (S.σ k / (S.σ k ^ 2 + lam * lam)) * S.U j k).map some := by
    rw [List.map_ofFn]
    congr 1
    funext k
    simp [quot, h k]
  rw [dampedEntries, this, nanSum_some, entry_eq, List.sum_ofFn]

theorem entries_none (S : Svd A) (lam : ℝ) {k : Fin (min m c)} (h : S.σ k ^ 2 + lam * lam = 0) (i : Fin c) (j : Fin m) :
    dampedEntries S lam i j = none := by
  apply nanSum_none
  rw [List.mem_ofFn']
  exact ⟨k, by simp [quot, h]⟩

theorem rank_eq (S : Svd A) : A.rank = Fintype.card {k // S.σ k ≠ 0} := by
  classical
  rw [← Matrix.rank_diagonal]
  apply le_antisymm
  · rw [congrArg Matrix.rank (eq_thin S)]
    exact (Matrix.rank_mul_le_left _ _).trans (Matrix.rank_mul_le_right _ _)
  · have h : diagonal S.σ = S.Uᵀ * A * thinV S := by
      rw [congrArg (S.Uᵀ * · * thinV S) (eq_thin S)]
      have : S.Uᵀ * (S.U * diagonal S.σ * (thinV S)ᵀ) * thinV S = (S.Uᵀ * S.U) * diagonal S.σ * ((thinV S)ᵀ * thinV S) := by
        simp only [Matrix.mul_assoc]
      rw [this, S.U_orth, thinV_orth, Matrix.one_mul, Matrix.mul_one]
    rw [h]
    exact (Matrix.rank_mul_le_left _ _).trans (Matrix.rank_mul_le_right _ _)

theorem full_rank (S : Svd A) : A.rank = min m c ↔ ∀ k, S.σ k ≠ 0 := by
  classical
  rw [rank_eq S, Fintype.card_subtype]
  constructor
  · intro h k
    have : (Finset.univ.filter fun k => S.σ k ≠ 0) = Finset.univ := Finset.card_eq_iff_eq_univ _ |>.mp (by rw [h, Fintype.card_fin])
    have hk := Finset.mem_univ k
    rw [← this] at hk
    exact (Finset.mem_filter.mp hk).2
  · intro h
    rw [Finset.filter_true_of_mem (fun k _ => h k), Finset.card_univ, Fintype.card_fin]

theorem isometry {k n : ℕ} {P : Matrix (Fin n) (Fin k) ℝ} (hP : Pᵀ * P = 1) (v : Fin k → ℝ) : (P *ᵥ v) ⬝ᵥ (P *ᵥ v) = v ⬝ᵥ v := by
  rw [Matrix.dotProduct_mulVec, ← Matrix.mulVec_transpose, Matrix.mulVec_mulVec, hP, Matrix.one_mulVec]

theorem bessel {k n : ℕ} {P : Matrix (Fin n) (Fin k) ℝ} (hP : Pᵀ * P = 1) (b : Fin n → ℝ) :
    b ⬝ᵥ b = (Pᵀ *ᵥ b) ⬝ᵥ (Pᵀ *ᵥ b) + (b - P *ᵥ (Pᵀ *ᵥ b)) ⬝ᵥ (b - P *ᵥ (Pᵀ *ᵥ b)) := by
  have h : b ⬝ᵥ (P *ᵥ (Pᵀ *ᵥ b)) = (Pᵀ *ᵥ b) ⬝ᵥ (Pᵀ *ᵥ b) := by
    rw [Matrix.dotProduct_mulVec, ← Matrix.mulVec_transpose]
  rw [sub_dotProduct, dotProduct_sub, dotProduct_sub, isometry hP, dotProduct_comm (P *ᵥ _) b, h]
  ring

theorem sq_nonneg_dot {n : ℕ} (v : Fin n → ℝ) : 0 ≤ v ⬝ᵥ v := Finset.sum_nonneg fun i _ => mul_self_nonneg _

/-- The square of a vector transformed by the factors of the decomposition. -/
theorem vdu_sq (S : Svd A) (d : Fin (min m c) → ℝ) (b : Fin m → ℝ) :
    ((thinV S * diagonal d * S.Uᵀ) *ᵥ b) ⬝ᵥ ((thinV S * diagonal d * S.Uᵀ) *ᵥ b) = ∑ k, d k ^ 2 * (S.Uᵀ *ᵥ b) k ^ 2 := by
  rw [Matrix.mul_assoc, ← Matrix.mulVec_mulVec, isometry (thinV_orth S), ← Matrix.mulVec_mulVec, dotProduct]
  apply Finset.sum_congr rfl
  intro k _
  rw [Matrix.mulVec_diagonal]
  ring

theorem residual_eq (S : Svd A) (lam : ℝ) :
    A * dampedInverse S lam = S.U * diagonal (fun k => S.σ k * (S.σ k / (S.σ k ^ 2 + lam * lam))) * S.Uᵀ := by
  rw [congrArg (· * dampedInverse S lam) (eq_thin S), dampedInverse, uv_mul]

/-- The square of the residual: the part out of the image, and the part in the image reduced along each singular direction. -/
theorem residual_sq (S : Svd A) (lam : ℝ) (b : Fin m → ℝ) :
    (b - A *ᵥ (dampedInverse S lam *ᵥ b)) ⬝ᵥ (b - A *ᵥ (dampedInverse S lam *ᵥ b)) =
      (b - S.U *ᵥ (S.Uᵀ *ᵥ b)) ⬝ᵥ (b - S.U *ᵥ (S.Uᵀ *ᵥ b)) +
        ∑ k, (1 - S.σ k * (S.σ k / (S.σ k ^ 2 + lam * lam))) ^ 2 * (S.Uᵀ *ᵥ b) k ^ 2 := by
  have h1 : S.Uᵀ *ᵥ (b - A *ᵥ (dampedInverse S lam *ᵥ b)) =
      fun k => (1 - S.σ k * (S.σ k / (S.σ k ^ 2 + lam * lam))) * (S.Uᵀ *ᵥ b) k := by
    rw [Matrix.mulVec_mulVec, residual_eq, Matrix.mulVec_sub, Matrix.mulVec_mulVec]
    have : S.Uᵀ * (S.U * diagonal (fun k => S.σ k * (S.σ k / (S.σ k ^ 2 + lam * lam))) * S.Uᵀ) =
        diagonal (fun k => S.σ k * (S.σ k / (S.σ k ^ 2 + lam * lam))) * S.Uᵀ := by
      rw [← Matrix.mul_assoc, ← Matrix.mul_assoc, S.U_orth, Matrix.one_mul]
    rw [this, ← Matrix.mulVec_mulVec]
    funext k
    rw [Pi.sub_apply, Matrix.mulVec_diagonal]
    ring
  have h2 : S.U *ᵥ (S.Uᵀ *ᵥ (A *ᵥ (dampedInverse S lam *ᵥ b))) = A *ᵥ (dampedInverse S lam *ᵥ b) := by
    rw [Matrix.mulVec_mulVec _ A, residual_eq, Matrix.mulVec_mulVec, Matrix.mulVec_mulVec]
    congr 1
    have : S.U * (S.Uᵀ * (S.U * diagonal (fun k => S.σ k * (S.σ k / (S.σ k ^ 2 + lam * lam))) * S.Uᵀ)) =
        S.U * (S.Uᵀ * S.U) * diagonal (fun k => S.σ k * (S.σ k / (S.σ k ^ 2 + lam * lam))) * S.Uᵀ := by simp only [Matrix.mul_assoc]
    first
      | rw [this, S.U_orth, Matrix.mul_one]
      | (rw [Matrix.mul_assoc S.U S.Uᵀ, this, S.U_orth, Matrix.mul_one])
  rw [bessel S.U_orth (b - A *ᵥ (dampedInverse S lam *ᵥ b)), Matrix.mulVec_sub S.Uᵀ, Matrix.mulVec_sub S.U, h2, ← Matrix.mulVec_sub S.Uᵀ, h1, add_comm]
  congr 1
  · congr 1 <;> abel
  · rw [dotProduct]
    apply Finset.sum_congr rfl
    intro k _
    ring

theorem factor_le {s lam : ℝ} (hlam : lam ≠ 0) : 4 * (lam * lam) * (s / (s ^ 2 + lam * lam)) ^ 2 ≤ 1 := by
  have h : 0 < s ^ 2 + lam * lam := by have := mul_self_pos.mpr hlam; positivity
  rw [div_pow, ← mul_div_assoc, div_le_one (by positivity)]
  nlinarith [sq_nonneg (s ^ 2 - lam * lam)]

/-! ## Properties -/

/-- C144. With a threshold that is not null no entry is a NaN, whatever the matrix, and the entries are those of the matrix of C21. -/
theorem C144_numbers (S : Svd A) {lam : ℝ} (hlam : lam ≠ 0) (i : Fin c) (j : Fin m) :
    dampedEntries S lam i j = some ((Aᵀ * (A * Aᵀ + (lam * lam) • (1 : Matrix (Fin m) (Fin m) ℝ))⁻¹) i j) := by
  rw [entries_some S lam (fun k => by have := mul_self_pos.mpr hlam; positivity), (C21_damped S lam hlam).2]

/-- C144. With a null threshold the result is the Moore-Penrose inverse when the matrix has full rank; otherwise all its entries are NaNs. -/
theorem C144_null (S : Svd A) : (A.rank = min m c → ∃ X, Penrose A X ∧ ∀ i j, dampedEntries S 0 i j = some (X i j)) ∧
    (A.rank ≠ min m c → ∀ i j, dampedEntries S 0 i j = none) := by
  constructor
  · intro h
    have hs := (full_rank S).mp h
    refine ⟨pseudoInverse S 0, C21_penrose S 0 le_rfl fun i hi => le_antisymm hi (S.nonneg i), fun i j => ?_⟩
    rw [entries_some S 0 (fun k => by have := hs k; positivity)]
    have hq : (fun k => S.σ k / (S.σ k ^ 2 + 0 * 0)) = invSigma S 0 := by
      funext k
      have hk : 0 < S.σ k := lt_of_le_of_ne (S.nonneg k) (Ne.symm (hs k))
      rw [invSigma, if_pos hk]
      field_simp
      ring
    rw [dampedInverse, pseudoInverse, hq]
  · intro h i j
    rw [ne_eq, full_rank S] at h
    push Not at h
    obtain ⟨k, hk⟩ := h
    exact entries_none S 0 (k := k) (by rw [hk]; ring) i j

/-- C144. The result does not depend on the decomposition, for any threshold. -/
theorem C144_same (S S' : Svd A) (lam : ℝ) : dampedEntries S lam = dampedEntries S' lam := by
  by_cases hlam : lam = 0
  · subst hlam
    funext i j
    by_cases h : A.rank = min m c
    · obtain ⟨X, hX, h1⟩ := (C144_null S).1 h
      obtain ⟨X', hX', h2⟩ := (C144_null S').1 h
      rw [h1, h2, penrose_unique hX hX']
    · rw [(C144_null S).2 h, (C144_null S').2 h]
  · funext i j
    rw [C144_numbers S hlam, C144_numbers S' hlam]

/-- C144. The solution is never longer than the right-hand side over twice the threshold, whatever the matrix, singular or not. -/
theorem C144_bounded (S : Svd A) {lam : ℝ} (hlam : lam ≠ 0) (b : Fin m → ℝ) :
    4 * (lam * lam) * ((dampedInverse S lam *ᵥ b) ⬝ᵥ (dampedInverse S lam *ᵥ b)) ≤ b ⬝ᵥ b := by
  rw [dampedInverse, vdu_sq, Finset.mul_sum, bessel S.U_orth b]
  refine le_trans ?_ (le_add_of_nonneg_right (sq_nonneg_dot _))
  rw [dotProduct]
  apply Finset.sum_le_sum
  intro k _
  rw [← mul_assoc, ← pow_two ((S.Uᵀ *ᵥ b) k)]
  exact mul_le_of_le_one_left (sq_nonneg _) (factor_le hlam)

/-- C144. The bound is reached as soon as the threshold is a singular value. -/
theorem C144_reached (S : Svd A) {lam : ℝ} (hlam : lam ≠ 0) {k : Fin (min m c)} (hk : S.σ k = |lam|) :
    ∃ b : Fin m → ℝ, b ⬝ᵥ b = 1 ∧ 4 * (lam * lam) * ((dampedInverse S lam *ᵥ b) ⬝ᵥ (dampedInverse S lam *ᵥ b)) = b ⬝ᵥ b := by
  classical
  have hb : S.U *ᵥ Pi.single k 1 ⬝ᵥ S.U *ᵥ Pi.single k 1 = 1 := by
    rw [isometry S.U_orth]
    simp
  refine ⟨S.U *ᵥ Pi.single k 1, hb, ?_⟩
  rw [hb, dampedInverse, vdu_sq, Matrix.mulVec_mulVec, S.U_orth, Matrix.one_mulVec, Finset.sum_eq_single k]
  · rw [Pi.single_eq_same, hk, sq_abs]
    have : |lam| ^ 2 = lam * lam := by rw [sq_abs, pow_two]
    rw [div_pow, this]
    have := mul_self_pos.mpr hlam
    field_simp
    ring
  · intro l _ hl
    rw [Pi.single_eq_of_ne hl]
    ring
  · simp

/-- C144. A larger threshold gives a shorter solution and a larger residual. -/
theorem C144_monotone (S : Svd A) {lam mu : ℝ} (hlam : lam ≠ 0) (hle : |lam| ≤ |mu|) (b : Fin m → ℝ) :
    (dampedInverse S mu *ᵥ b) ⬝ᵥ (dampedInverse S mu *ᵥ b) ≤ (dampedInverse S lam *ᵥ b) ⬝ᵥ (dampedInverse S lam *ᵥ b) ∧
      (b - A *ᵥ (dampedInverse S lam *ᵥ b)) ⬝ᵥ (b - A *ᵥ (dampedInverse S lam *ᵥ b)) ≤
        (b - A *ᵥ (dampedInverse S mu *ᵥ b)) ⬝ᵥ (b - A *ᵥ (dampedInverse S mu *ᵥ b)) := by
  have hsq : lam * lam ≤ mu * mu := by have := sq_le_sq.mpr hle; nlinarith
  have hpos := mul_self_pos.mpr hlam
  have hq : ∀ k, S.σ k / (S.σ k ^ 2 + mu * mu) ≤ S.σ k / (S.σ k ^ 2 + lam * lam) := fun k =>
    div_le_div_of_nonneg_left (S.nonneg k) (by positivity) (by linarith)
  have hq0 : ∀ k, 0 ≤ S.σ k / (S.σ k ^ 2 + mu * mu) := fun k => div_nonneg (S.nonneg k) (by nlinarith [sq_nonneg (S.σ k)])
  constructor
  · rw [dampedInverse, dampedInverse, vdu_sq, vdu_sq]
    apply Finset.sum_le_sum
    intro k _
    exact mul_le_mul_of_nonneg_right (pow_le_pow_left₀ (hq0 k) (hq k) 2) (sq_nonneg _)
  · rw [residual_sq, residual_sq, add_le_add_iff_left]
    apply Finset.sum_le_sum
    intro k _
    apply mul_le_mul_of_nonneg_right _ (sq_nonneg _)
    apply pow_le_pow_left₀
    · rw [sub_nonneg, ← mul_div_assoc, div_le_one (by positivity)]
      nlinarith
    · have := mul_le_mul_of_nonneg_left (hq k) (S.nonneg k)
      linarith

/-- C144. The residual is never larger than the right-hand side, and is smaller as soon as the right-hand side can be reduced at all. -/
theorem C144_residual (S : Svd A) {lam : ℝ} (hlam : lam ≠ 0) (b : Fin m → ℝ) :
    (b - A *ᵥ (dampedInverse S lam *ᵥ b)) ⬝ᵥ (b - A *ᵥ (dampedInverse S lam *ᵥ b)) ≤ b ⬝ᵥ b ∧
      (Aᵀ *ᵥ b ≠ 0 → (b - A *ᵥ (dampedInverse S lam *ᵥ b)) ⬝ᵥ (b - A *ᵥ (dampedInverse S lam *ᵥ b)) < b ⬝ᵥ b) := by
  have hpos := mul_self_pos.mpr hlam
  have hf : ∀ k, 1 - S.σ k * (S.σ k / (S.σ k ^ 2 + lam * lam)) = lam * lam / (S.σ k ^ 2 + lam * lam) := fun k => by
    have : S.σ k ^ 2 + lam * lam ≠ 0 := by positivity
    field_simp
    ring
  have h0 : ∀ k, 0 ≤ lam * lam / (S.σ k ^ 2 + lam * lam) := fun k => by positivity
  have h1 : ∀ k, lam * lam / (S.σ k ^ 2 + lam * lam) ≤ 1 := fun k => by rw [div_le_one (by positivity)]; nlinarith [sq_nonneg (S.σ k)]
  have hle : ∀ k, (1 - S.σ k * (S.σ k / (S.σ k ^ 2 + lam * lam))) ^ 2 * (S.Uᵀ *ᵥ b) k ^ 2 ≤ (S.Uᵀ *ᵥ b) k * (S.Uᵀ *ᵥ b) k := fun k => by
    rw [hf, ← pow_two ((S.Uᵀ *ᵥ b) k)]
    exact mul_le_of_le_one_left (sq_nonneg _) (pow_le_one₀ (h0 k) (h1 k))
  constructor
  · rw [residual_sq, bessel S.U_orth b, add_comm, add_le_add_iff_right, dotProduct]
    exact Finset.sum_le_sum fun k _ => hle k
  · intro hb
    have : ∃ k, S.σ k * (S.Uᵀ *ᵥ b) k ≠ 0 := by
      by_contra hall
      push Not at hall
      apply hb
      rw [congrArg (fun M => Mᵀ *ᵥ b) (eq_thin S)]
      simp only [Matrix.transpose_mul, Matrix.transpose_transpose, Matrix.diagonal_transpose]
      rw [← Matrix.mulVec_mulVec, ← Matrix.mulVec_mulVec]
      have : diagonal S.σ *ᵥ (S.Uᵀ *ᵥ b) = 0 := by
        funext k
        rw [Matrix.mulVec_diagonal]
        exact hall k
      rw [this, Matrix.mulVec_zero]
    obtain ⟨k, hk⟩ := this
    rw [residual_sq, bessel S.U_orth b, add_comm, add_lt_add_iff_right, dotProduct]
    apply Finset.sum_lt_sum (fun k _ => hle k)
    refine ⟨k, Finset.mem_univ k, ?_⟩
    have hs : 0 < S.σ k ^ 2 := by have := left_ne_zero_of_mul hk; positivity
    have hy : 0 < (S.Uᵀ *ᵥ b) k ^ 2 := by have := right_ne_zero_of_mul hk; positivity
    rw [hf, ← pow_two ((S.Uᵀ *ᵥ b) k)]
    apply mul_lt_of_lt_one_left hy
    apply pow_lt_one₀ (h0 k) _ two_ne_zero
    rw [div_lt_one (by positivity)]
    linarith

/-- C144. As the threshold goes to zero the damped inverse goes to the Moore-Penrose inverse, singular matrix or not. -/
theorem C144_limit (S : Svd A) {X : Matrix (Fin c) (Fin m) ℝ} (hX : Penrose A X) (i : Fin c) (j : Fin m) :
    Tendsto (fun lam => dampedInverse S lam i j) (𝓝[≠] 0) (𝓝 (X i j)) := by
  rw [penrose_unique hX (C21_penrose S 0 le_rfl fun i hi => le_antisymm hi (S.nonneg i))]
  have he : pseudoInverse S 0 i j = ∑ k, thinV S i k * invSigma S 0 k * S.U j k := by
    rw [pseudoInverse, Matrix.mul_apply]
    simp only [Matrix.mul_diagonal, Matrix.transpose_apply]
  simp only [entry_eq]
  rw [he]
  apply tendsto_finsetSum
  intro k _
  apply Tendsto.mul_const
  apply Tendsto.const_mul
  by_cases hk : S.σ k = 0
  · have : invSigma S 0 k = 0 := by simp [invSigma, hk]
    rw [this]
    simp only [hk, zero_div]
    exact tendsto_const_nhds
  · have hp : 0 < S.σ k := lt_of_le_of_ne (S.nonneg k) (Ne.symm hk)
    have h1 : invSigma S 0 k = S.σ k / (S.σ k ^ 2 + 0 * 0) := by
      rw [invSigma, if_pos hp]
      field_simp
      ring
    rw [h1]
    apply Tendsto.mono_left _ nhdsWithin_le_nhds
    apply Tendsto.div tendsto_const_nhds
    · exact tendsto_const_nhds.add (tendsto_id.mul tendsto_id)
    · positivity

/-- C144. How far: with all nonzero singular values at least `s`, the error on the solution is at most `λ² / s³` times the right-hand side. -/
theorem C144_rate (S : Svd A) {lam s : ℝ} (hs : 0 < s) (hmin : ∀ k, S.σ k ≠ 0 → s ≤ S.σ k) {X : Matrix (Fin c) (Fin m) ℝ} (hX : Penrose A X)
    (b : Fin m → ℝ) :
    ((X - dampedInverse S lam) *ᵥ b) ⬝ᵥ ((X - dampedInverse S lam) *ᵥ b) ≤ (lam ^ 2 / s ^ 3) ^ 2 * (b ⬝ᵥ b) := by
  rw [penrose_unique hX (C21_penrose S 0 le_rfl fun i hi => le_antisymm hi (S.nonneg i))]
  have : pseudoInverse S 0 - dampedInverse S lam = thinV S * diagonal (fun k => invSigma S 0 k - S.σ k / (S.σ k ^ 2 + lam * lam)) * S.Uᵀ := by
    rw [pseudoInverse, dampedInverse, ← Matrix.sub_mul, ← Matrix.mul_sub, Matrix.diagonal_sub]
  rw [this, vdu_sq, bessel S.U_orth b, mul_add]
  refine le_trans ?_ (le_add_of_nonneg_right (mul_nonneg (sq_nonneg _) (sq_nonneg_dot _)))
  rw [dotProduct, Finset.mul_sum]
  apply Finset.sum_le_sum
  intro k _
  rw [← pow_two ((S.Uᵀ *ᵥ b) k)]
  apply mul_le_mul_of_nonneg_right _ (sq_nonneg _)
  by_cases hk : S.σ k = 0
  · simp only [invSigma, hk]
    simp
    positivity
  · have hp : 0 < S.σ k := lt_of_le_of_ne (S.nonneg k) (Ne.symm hk)
    have hle := hmin k hk
    have h1 : invSigma S 0 k - S.σ k / (S.σ k ^ 2 + lam * lam) = lam ^ 2 / (S.σ k * (S.σ k ^ 2 + lam * lam)) := by
      rw [invSigma, if_pos hp]
      have : S.σ k ^ 2 + lam * lam ≠ 0 := by nlinarith [mul_self_nonneg lam, pow_pos hp 2]
      field_simp
      ring
    rw [h1]
    apply pow_le_pow_left₀
    · apply div_nonneg (sq_nonneg _)
      nlinarith [mul_self_nonneg lam, pow_pos hp 2]
    · apply div_le_div_of_nonneg_left (sq_nonneg _) (by positivity)
      have h2 : s ^ 2 ≤ S.σ k ^ 2 := pow_le_pow_left₀ hs.le hle 2
      calc s ^ 3 = s * s ^ 2 := by ring
        _ ≤ S.σ k * (S.σ k ^ 2 + lam * lam) := mul_le_mul hle (by nlinarith [mul_self_nonneg lam]) (sq_nonneg _) hp.le

/-- C144 on `diag(2, 0)`: singular, so that a null threshold gives NaNs; with the threshold 2 the first entry is a quarter, half of the inverse. -/
theorem C144_case : (∀ i j, dampedEntries witness 0 i j = none) ∧ dampedEntries witness 2 0 0 = some (1 / 4) ∧
    (∀ k, witness.σ k ≠ 0 → 2 ≤ witness.σ k) ∧ ∃ k, witness.σ k = |2| := by
  refine ⟨fun i j => entries_none witness 0 (k := (1 : Fin 2)) (by show (0 : ℝ) ^ 2 + 0 * 0 = 0; norm_num) i j, ?_, ?_, (0 : Fin 2), ?_⟩
  · rw [entries_some witness 2 (fun k => by positivity), entry_eq]
    show some (∑ k : Fin 2, (1 : Matrix (Fin 2) (Fin 2) ℝ) 0 k * ((![2, 0] : Fin 2 → ℝ) k / ((![2, 0] : Fin 2 → ℝ) k ^ 2 + 2 * 2)) *
      (1 : Matrix (Fin 2) (Fin 2) ℝ) 0 k) = some (1 / 4)
    simp [Fin.sum_univ_two]
    norm_num
  · intro k hk
    fin_cases k
    · exact le_refl (2 : ℝ)
    · exact absurd rfl hk
  · show (2 : ℝ) = |2|
    norm_num

end Verif.MatrixSvd
