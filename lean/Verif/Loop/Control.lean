import Verif.Sot.ControlProps
import Verif.Loop.Model

/-!
# The control of a stack with one task whose Jacobian selects joints
-/

namespace Verif.Loop

open Matrix Verif.Sot

section Isometry
variable {m c : ℕ} {A : Matrix (Fin m) (Fin c) ℝ}

theorem svd_thin (S : Svd A) : A = S.U * diagonal S.σ * (thinV S)ᵀ := S.eq

/-- The singular values of a partial isometry are zeros and ones. -/
theorem sigma_isometry (S : Svd A) (hA : A * Aᵀ * A = A) (k : Fin (min m c)) : S.σ k = 0 ∨ S.σ k = 1 := by
  have hW := thinV_orth S
  have hU := S.U_orth
  have hD := svd_thin S
  have key : ∀ (U : Matrix (Fin m) (Fin (min m c)) ℝ) (W : Matrix (Fin c) (Fin (min m c)) ℝ) (D : Matrix (Fin (min m c)) (Fin (min m c)) ℝ),
      Wᵀ * W = 1 → Uᵀ * U = 1 → Dᵀ = D → A = U * D * Wᵀ → D = D * D * D := by
    intro U W D hW hU hDt hD
    have h1 : Uᵀ * A * W = D := by
      rw [hD]
      calc Uᵀ * (U * D * Wᵀ) * W = (Uᵀ * U) * D * (Wᵀ * W) := by simp only [Matrix.mul_assoc]
        _ = _ := by rw [hU, hW]; simp
    have h2 : Uᵀ * (A * Aᵀ * A) * W = D * D * D := by
      rw [hD, Matrix.transpose_mul, Matrix.transpose_mul, Matrix.transpose_transpose, hDt]
      calc Uᵀ * (U * D * Wᵀ * (W * (D * Uᵀ)) * (U * D * Wᵀ)) * W
          = (Uᵀ * U) * D * (Wᵀ * W) * D * (Uᵀ * U) * D * (Wᵀ * W) := by simp only [Matrix.mul_assoc]
        _ = _ := by rw [hU, hW]; simp
    rw [hA, h1] at h2
    exact h2
  have h2 := key _ _ _ hW hU (diagonal_transpose _) hD
  have h3 := congrFun (congrFun h2 k) k
  simp only [diagonal_mul_diagonal, diagonal_apply_eq] at h3
  have h4 := S.nonneg k
  by_cases h0 : S.σ k = 0
  · exact .inl h0
  · right
    have h5 : S.σ k * S.σ k = 1 := by
      have : S.σ k * (S.σ k * S.σ k - 1) = 0 := by linear_combination -h3
      rcases mul_eq_zero.mp this with h | h
      · exact absurd h h0
      · linarith
    nlinarith

/-- What a level adds when its Jacobian is a partial isometry: the transpose applied to the error. -/
theorem increment_isometry (S : Svd A) (hA : A * Aᵀ * A = A) {th : ℝ} (h0 : 0 ≤ th) (h1 : th < 1)
    (e : Fin m → ℝ) : Sot.increment S (rankJ th S.σ) e = Aᵀ *ᵥ e := by
  have hAt : Aᵀ = thinV S * diagonal S.σ * S.Uᵀ := by
    conv_lhs => rw [svd_thin S]
    simp [Matrix.transpose_mul, Matrix.mul_assoc]
  rw [hAt, Matrix.mul_assoc, ← Matrix.mulVec_mulVec, ← Matrix.mulVec_mulVec]
  show thinV S *ᵥ tmpTask S (rankJ th S.σ) e = _
  congr 1
  ext k
  simp only [tmpTask, Matrix.mulVec_diagonal]
  have hk := lt_rankJ_iff th S.σ S.antitone k
  rcases sigma_isometry S hA k with h | h
  · rw [if_neg (by rw [hk, h]; linarith), h, zero_mul]
  · rw [if_pos (by rw [hk, h]; exact h1), h, inv_one]

end Isometry

/-- The control of a stack with a single level whose Jacobian, after the selection of the joints, is a partial isometry. -/
theorem single_level {n : ℕ} (svd : ∀ {m c : ℕ} (A : Matrix (Fin m) (Fin c) ℝ), Svd A) {th maxSq : ℝ} (h0 : 0 ≤ th) (h1 : th < 1)
    (lv : Level n) (e : Fin lv.m → ℝ) (he : Requests lv e) (hmem : ∀ s, lv.mem = some s → lv.m ≤ s.1)
    (hA : effJac lv * (effJac lv)ᵀ * effJac lv = effJac lv) :
    (((effJac lv)ᵀ *ᵥ e) ⬝ᵥ ((effJac lv)ᵀ *ᵥ e) ≤ maxSq →
      computeControlLaw svd n th maxSq false none none [lv] = .ok ((effJac lv)ᵀ *ᵥ e, [])) ∧
    (maxSq < ((effJac lv)ᵀ *ᵥ e) ⬝ᵥ ((effJac lv)ᵀ *ᵥ e) →
      computeControlLaw svd n th maxSq false none none [lv] = .ok (0, [0])) := by
  have htv : taskVector lv = .ok e := by
    rw [taskVector_single (fun i => (he i).1)]
    congr 1
    funext i
    exact (he i).2
  have hr : ¬ (lv.mem.getD (lv.m, n)).1 < rankJ th (svd (effJac lv)).σ := by
    have := rankJ_le th (svd (effJac lv)).σ
    have hm : lv.m ≤ (lv.mem.getD (lv.m, n)).1 := by
      cases hs : lv.mem with
      | none => simp
      | some s => exact hmem s hs
    have : min lv.m n ≤ lv.m := Nat.min_le_left _ _
    omega
  have hstep : levelStep svd th maxSq false true ⟨0, true, none, 0, []⟩ lv =
      .ok (updateLevel svd th maxSq true ⟨0, true, none, 0, []⟩ (1 : Matrix (Fin n) (Fin n) ℝ) (effJac lv) e) := by
    rw [levelStep, htv]
    simp only [Outcome.bind_ok, Bool.and_false, Bool.false_and, Bool.false_eq_true, if_false, generalLevel, correctedErr, if_true]
    rw [activated_eq_effJac, if_neg hr]
  have hlaw : computeControlLaw svd n th maxSq false none none [lv] =
      .ok ((updateLevel svd th maxSq true ⟨0, true, none, 0, []⟩ (1 : Matrix (Fin n) (Fin n) ℝ) (effJac lv) e).control,
        (updateLevel svd th maxSq true ⟨0, true, none, 0, []⟩ (1 : Matrix (Fin n) (Fin n) ℝ) (effJac lv) e).disabled) := by
    simp only [computeControlLaw, List.isEmpty_cons, Bool.false_eq_true, if_false, initKernel, loop, List.isEmpty_nil, hstep,
      Outcome.bind_ok, Bool.true_or, if_true, Outcome.map_ok]
  rw [hlaw]
  unfold updateLevel
  simp only [increment_isometry _ hA h0 h1, Matrix.one_mulVec]
  refine ⟨fun h => ?_, fun h => ?_⟩
  · rw [if_neg (not_lt.mpr h)]; simp
  · rw [if_pos h]; simp

end Verif.Loop
