import Verif.Sot.Control
import Mathlib.Tactic.Linarith
import Mathlib.Tactic.Ring
import Mathlib.Algebra.Order.BigOperators.Ring.Finset

namespace Verif.Sot

open Matrix

/-! ### Rank loop -/

theorem takeWhile_length_spec {α : Type} (p : α → Bool) (l : List α)
    (hmono : ∀ i j (hi : i < l.length) (hj : j < l.length), i ≤ j → p l[j] = true → p l[i] = true)
    (k : ℕ) (hk : k < l.length) : k < (l.takeWhile p).length ↔ p l[k] = true := by
  induction l generalizing k with
  | nil => simp at hk
  | cons a l ih =>
    by_cases ha : p a = true
    · rw [List.takeWhile_cons_of_pos ha]
      cases k with
      | zero => simp [ha]
      | succ k =>
        have := ih (fun i j hi hj hij => by
          have := hmono (i + 1) (j + 1) (by simpa using hi) (by simpa using hj) (by omega)
          simpa using this) k (by simpa using hk)
        simpa using this
    · have hnil : (a :: l).takeWhile p = [] := by
        rw [List.takeWhile_cons_of_neg ha]
      rw [hnil]
      simp only [List.length_nil, Nat.not_lt_zero, false_iff]
      intro h
      have := hmono 0 k (by simp) hk (by omega) h
      exact ha (by simpa using this)

theorem lt_rankJ_iff {p : ℕ} (th : ℝ) (σ : Fin p → ℝ) (hanti : ∀ k l, k ≤ l → σ l ≤ σ k)
    (k : Fin p) : k.val < rankJ th σ ↔ th < σ k := by
  classical
  have h := takeWhile_length_spec (fun s : ℝ => decide (th < s)) (List.ofFn σ) (by
    intro i j hi hj hij h
    simp only [List.length_ofFn] at hi hj
    simp only [List.getElem_ofFn, decide_eq_true_eq] at h ⊢
    exact lt_of_lt_of_le h (hanti ⟨i, hi⟩ ⟨j, hj⟩ hij)) k.val (by simp)
  simp only [List.getElem_ofFn, decide_eq_true_eq] at h
  unfold rankJ
  convert h

theorem rankJ_le {p : ℕ} (th : ℝ) (σ : Fin p → ℝ) : rankJ th σ ≤ p := by
  classical
  unfold rankJ
  have := (List.takeWhile_prefix (fun s : ℝ => decide (th < s)) (l := List.ofFn σ)).length_le
  simp only [List.length_ofFn] at this
  convert this

/-! ### Linear algebra of one level -/

variable {m c : ℕ} {A : Matrix (Fin m) (Fin c) ℝ}

/-- The thin part of `V`. -/
def thinV (S : Svd A) : Matrix (Fin c) (Fin (min m c)) ℝ := S.V.submatrix id svdCol

theorem thinV_orth (S : Svd A) : (thinV S)ᵀ * thinV S = 1 := by
  ext k l
  have := congrFun (congrFun S.V_orth (svdCol k)) (svdCol l)
  simp only [Matrix.mul_apply, Matrix.transpose_apply, Matrix.one_apply] at this
  simp only [thinV, Matrix.mul_apply, Matrix.transpose_apply, Matrix.submatrix_apply, id,
    Matrix.one_apply]
  rw [this]
  have h2 : (svdCol k = svdCol l) ↔ k = l :=
    ⟨fun h => Fin.castLE_injective _ h, by rintro rfl; rfl⟩
  exact if_congr h2 rfl rfl

theorem svd_mulVec (S : Svd A) (y : Fin c → ℝ) :
    A *ᵥ y = S.U *ᵥ (fun k => S.σ k * ((thinV S)ᵀ *ᵥ y) k) := by
  conv_lhs => rw [S.eq]
  rw [← Matrix.mulVec_mulVec, ← Matrix.mulVec_mulVec]
  congr 1
  ext k
  simp [Matrix.mulVec_diagonal, thinV]

theorem V_mul_transpose (S : Svd A) : S.V * S.Vᵀ = 1 := mul_eq_one_comm.mp S.V_orth

/-- What a level adds to its own task velocity. -/
theorem mulVec_increment (S : Svd A) (r : ℕ) (e : Fin m → ℝ)
    (hr : ∀ k : Fin (min m c), k.val < r → S.σ k ≠ 0) :
    A *ᵥ increment S r e = S.U *ᵥ (fun k => if k.val < r then (S.Uᵀ *ᵥ e) k else 0) := by
  rw [svd_mulVec S]
  congr 1
  ext k
  have h1 : (thinV S)ᵀ *ᵥ increment S r e = tmpTask S r e := by
    show (thinV S)ᵀ *ᵥ (thinV S *ᵥ tmpTask S r e) = _
    rw [Matrix.mulVec_mulVec, thinV_orth, Matrix.one_mulVec]
  rw [h1]
  unfold tmpTask
  split
  · rename_i h
    rw [← mul_assoc, mul_inv_cancel₀ (hr k h), one_mul]
  · simp

theorem transpose_rightCols_apply (S : Svd A) (r : ℕ) (w : Fin (c - r) → ℝ) (j : Fin c) :
    (S.Vᵀ *ᵥ (rightCols S r *ᵥ w)) j =
      if h : r ≤ j.val then w ⟨j.val - r, by omega⟩ else 0 := by
  rw [Matrix.mulVec_mulVec]
  have hV : ∀ a b : Fin c, ∑ i, S.V i a * S.V i b = if a = b then (1 : ℝ) else 0 := by
    intro a b
    have := congrFun (congrFun S.V_orth a) b
    simpa [Matrix.mul_apply, Matrix.one_apply] using this
  have hmul : ∀ (k : Fin (c - r)), (S.Vᵀ * rightCols S r) j k =
      if j.val = r + k.val then 1 else 0 := by
    intro k
    simp only [Matrix.mul_apply, Matrix.transpose_apply, rightCols, Matrix.of_apply]
    rw [hV]
    exact if_congr (Fin.ext_iff) rfl rfl
  simp only [Matrix.mulVec, dotProduct, hmul]
  split
  · rename_i h
    rw [Finset.sum_eq_single (⟨j.val - r, by omega⟩ : Fin (c - r))]
    · have : j.val = r + (j.val - r) := by omega
      simp [← this]
    · intro k _ hk
      have : ¬ (j.val = r + k.val) := by
        intro h2; apply hk; apply Fin.ext; simp; omega
      simp [this]
    · simp
  · rename_i h
    apply Finset.sum_eq_zero
    intro k _
    have : ¬ (j.val = r + k.val) := by omega
    simp [this]

/-- The kernel columns are annihilated when the discarded singular values are zero. -/
theorem mulVec_rightCols_zero (S : Svd A) (r : ℕ)
    (hz : ∀ k : Fin (min m c), r ≤ k.val → S.σ k = 0) (w : Fin (c - r) → ℝ) :
    A *ᵥ (rightCols S r *ᵥ w) = 0 := by
  rw [svd_mulVec S]
  have : (fun k => S.σ k * ((thinV S)ᵀ *ᵥ (rightCols S r *ᵥ w)) k) = 0 := by
    ext k
    have h1 : ((thinV S)ᵀ *ᵥ (rightCols S r *ᵥ w)) k = (S.Vᵀ *ᵥ (rightCols S r *ᵥ w)) (svdCol k) :=
      rfl
    rw [h1, transpose_rightCols_apply]
    by_cases h : r ≤ k.val
    · simp [hz k h]
    · have : ¬ (r ≤ (svdCol k).val) := h
      rw [dif_neg this]; simp
  rw [this, Matrix.mulVec_zero]

theorem dot_U (S : Svd A) (z : Fin (min m c) → ℝ) : (S.U *ᵥ z) ⬝ᵥ (S.U *ᵥ z) = z ⬝ᵥ z := by
  rw [Matrix.dotProduct_mulVec, ← Matrix.mulVec_transpose, Matrix.mulVec_mulVec, S.U_orth,
    Matrix.one_mulVec]

/-- Without any assumption on the discarded singular values, the kernel columns are attenuated by the
threshold. -/
theorem mulVec_rightCols_le (S : Svd A) (r : ℕ) (th : ℝ) (hth : 0 ≤ th)
    (hz : ∀ k : Fin (min m c), r ≤ k.val → S.σ k ≤ th) (w : Fin (c - r) → ℝ) :
    (A *ᵥ (rightCols S r *ᵥ w)) ⬝ᵥ (A *ᵥ (rightCols S r *ᵥ w)) ≤ th ^ 2 * (w ⬝ᵥ w) := by
  rw [svd_mulVec S, dot_U]
  set x : Fin c → ℝ := S.Vᵀ *ᵥ (rightCols S r *ᵥ w) with hx
  have hxk : ∀ k : Fin (min m c), ((thinV S)ᵀ *ᵥ (rightCols S r *ᵥ w)) k = x (svdCol k) :=
    fun _ => rfl
  have hxj : ∀ j : Fin c, x j = if h : r ≤ j.val then w ⟨j.val - r, by omega⟩ else 0 :=
    fun j => transpose_rightCols_apply S r w j
  -- sum over the singular directions is at most the sum over all columns
  have h1 : (fun k => S.σ k * ((thinV S)ᵀ *ᵥ (rightCols S r *ᵥ w)) k) ⬝ᵥ
      (fun k => S.σ k * ((thinV S)ᵀ *ᵥ (rightCols S r *ᵥ w)) k)
      ≤ ∑ k : Fin (min m c), th ^ 2 * (x (svdCol k) * x (svdCol k)) := by
    unfold dotProduct
    apply Finset.sum_le_sum
    intro k _
    beta_reduce
    rw [hxk k]
    by_cases h : r ≤ k.val
    · have h0 := S.nonneg k
      have h2 := hz k h
      have h3 : S.σ k * S.σ k ≤ th ^ 2 := by nlinarith
      have h4 : 0 ≤ x (svdCol k) * x (svdCol k) := mul_self_nonneg _
      nlinarith
    · have : x (svdCol k) = 0 := by
        rw [hxj]
        have : ¬ (r ≤ (svdCol k).val) := h
        rw [dif_neg this]
      rw [this]; simp
  have h2 : ∑ k : Fin (min m c), th ^ 2 * (x (svdCol k) * x (svdCol k))
      ≤ ∑ j : Fin c, th ^ 2 * (x j * x j) := by
    have hinj : Function.Injective (svdCol (m := m) (c := c)) := Fin.castLE_injective _
    have hm := Finset.sum_map Finset.univ ⟨svdCol, hinj⟩ (fun j => th ^ 2 * (x j * x j))
    simp only [Function.Embedding.coeFn_mk] at hm
    rw [← hm]
    apply Finset.sum_le_sum_of_subset_of_nonneg (Finset.subset_univ _)
    intro j _ _
    exact mul_nonneg (sq_nonneg _) (mul_self_nonneg _)
  have h3 : ∑ j : Fin c, x j * x j = w ⬝ᵥ w := by
    -- reindex: only the columns `r + j` contribute
    have e1 : ∑ j : Fin c, x j * x j = ∑ k : Fin (c - r), w k * w k := by
      symm
      apply Finset.sum_of_injOn (fun k : Fin (c - r) => (⟨r + k.val, by omega⟩ : Fin c))
      · intro a _ b _ hab
        have := congrArg Fin.val hab
        apply Fin.ext
        simp at this
        exact this
      · intro a _; simp
      · intro j _ hj
        have : ¬ (r ≤ j.val) := by
          intro h
          apply hj
          simp only [Finset.coe_univ, Set.image_univ, Set.mem_range]
          exact ⟨⟨j.val - r, by omega⟩, Fin.ext (by simp; omega)⟩
        rw [hxj, dif_neg this]; simp
      · intro k _
        rw [hxj]
        have : r ≤ (⟨r + k.val, by omega⟩ : Fin c).val := by simp
        rw [dif_pos this]
        simp
    rw [e1]; rfl
  calc _ ≤ _ := h1
    _ ≤ _ := h2
    _ = th ^ 2 * (w ⬝ᵥ w) := by rw [← Finset.mul_sum, h3]

/-- Conversely, a direction annihilated by the level is in the new kernel. -/
theorem exists_rightCols (S : Svd A) (r : ℕ)
    (hr : ∀ k : Fin (min m c), k.val < r → S.σ k ≠ 0) (hrp : r ≤ min m c)
    (y : Fin c → ℝ) (hy : A *ᵥ y = 0) : ∃ w, y = rightCols S r *ᵥ w := by
  have h0 : ∀ k : Fin (min m c), S.σ k * (S.Vᵀ *ᵥ y) (svdCol k) = 0 := by
    intro k
    have h := svd_mulVec S y
    rw [hy] at h
    have h2 : S.Uᵀ *ᵥ (S.U *ᵥ (fun k => S.σ k * ((thinV S)ᵀ *ᵥ y) k)) = 0 := by
      rw [← h, Matrix.mulVec_zero]
    rw [Matrix.mulVec_mulVec, S.U_orth, Matrix.one_mulVec] at h2
    exact congrFun h2 k
  refine ⟨fun k => (S.Vᵀ *ᵥ y) ⟨r + k.val, by omega⟩, ?_⟩
  have hinj : ∀ a b : Fin c → ℝ, S.Vᵀ *ᵥ a = S.Vᵀ *ᵥ b → a = b := by
    intro a b hab
    have := congrArg (fun z => S.V *ᵥ z) hab
    simpa [Matrix.mulVec_mulVec, V_mul_transpose] using this
  apply hinj
  ext j
  rw [transpose_rightCols_apply]
  by_cases h : r ≤ j.val
  · rw [dif_pos h]
    congr 1
    apply Fin.ext
    simp; omega
  · rw [dif_neg h]
    have hj : j.val < min m c := by omega
    have := h0 ⟨j.val, hj⟩
    have hne := hr ⟨j.val, hj⟩ (by simp; omega)
    have hc : svdCol (⟨j.val, hj⟩ : Fin (min m c)) = j := Fin.ext rfl
    rw [hc] at this
    exact (mul_eq_zero.mp this).resolve_left hne

theorem rightCols_orth (S : Svd A) (r : ℕ) : (rightCols S r)ᵀ * rightCols S r = 1 := by
  ext k l
  have := congrFun (congrFun S.V_orth ⟨r + k.val, by omega⟩) ⟨r + l.val, by omega⟩
  simp only [Matrix.mul_apply, Matrix.transpose_apply, Matrix.one_apply] at this
  simp only [rightCols, Matrix.mul_apply, Matrix.transpose_apply, Matrix.of_apply,
    Matrix.one_apply]
  rw [this]
  refine if_congr ?_ rfl rfl
  constructor
  · intro h
    have := congrArg Fin.val h
    simp at this
    exact Fin.ext this
  · rintro rfl; rfl

end Verif.Sot
