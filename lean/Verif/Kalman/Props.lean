import Verif.Kalman.Model
import Mathlib.LinearAlgebra.Matrix.PosDef
import Mathlib.LinearAlgebra.Matrix.Notation
import Mathlib.Analysis.Matrix.Order
import Mathlib.Tactic.FinCases
import Mathlib.Tactic.FieldSimp
import Mathlib.Tactic.LinearCombination
import Mathlib.Tactic.NormNum
import Mathlib.Tactic.Linarith
import Mathlib.Tactic.Abel
import Mathlib.Tactic.NoncommRing

/-!
# C58 and C88: the Kalman filter
-/

namespace Verif.Kalman

open Matrix

variable {n m : Type} [Fintype n] [DecidableEq n] [Fintype m] [DecidableEq m]

/-! ### Statements -/

/-- The noises of the inputs are covariances, the one of the measurement being definite. -/
def Noise (i : Inputs n m) : Prop := i.Q.PosSemidef ∧ i.R.PosDef

/-- The Joseph form of the variance after a correction of gain `K`. -/
def joseph (Pp : Matrix n n ℝ) (K : Matrix n m ℝ) (H : Matrix m n ℝ) (R : Matrix m m ℝ) : Matrix n n ℝ :=
  (1 - K * H) * Pp * (1 - K * H)ᵀ + K * R * Kᵀ

/-- What may be asked of a filter: the inputs have proper noises and the variance given is one. -/
def Admissible : Op n m → Prop
  | .variance time i => time ≠ 0 → Noise i
  | .state time i => time ≠ 0 → Noise i
  | .setState _ => True
  | .setVariance P0 => P0.PosSemidef

/-- The weighted squares which a correction `d` of the prediction leaves. -/
noncomputable def cost (Pp : Matrix n n ℝ) (H : Matrix m n ℝ) (R : Matrix m m ℝ) (z : m → ℝ) (d : n → ℝ) : ℝ :=
  d ⬝ᵥ Pp⁻¹ *ᵥ d + (z - H *ᵥ d) ⬝ᵥ R⁻¹ *ᵥ (z - H *ᵥ d)

/-! ### Lemmas -/

theorem psd_conj {A : Matrix n n ℝ} (hA : A.PosSemidef) {k : Type} [Fintype k] (B : Matrix k n ℝ) :
    (B * A * Bᵀ).PosSemidef := by
  have := hA.mul_mul_conjTranspose_same B
  rwa [conjTranspose_eq_transpose_of_trivial] at this

theorem predicted_psd {P : Matrix n n ℝ} (hP : P.PosSemidef) {i : Inputs n m} (hi : Noise i) :
    (predicted P i).PosSemidef := (psd_conj hP _).add hi.1

theorem innovation_pd {P : Matrix n n ℝ} (hP : P.PosSemidef) {i : Inputs n m} (hi : Noise i) :
    (innovation P i).PosDef := PosDef.posSemidef_add (psd_conj (predicted_psd hP hi) _) hi.2

theorem gain_mul {P : Matrix n n ℝ} (hP : P.PosSemidef) {i : Inputs n m} (hi : Noise i) :
    gain P i * innovation P i = predicted P i * i.Hᵀ := by
  have hu := (innovation_pd hP hi).isUnit
  rw [isUnit_iff_isUnit_det] at hu
  rw [gain, Matrix.mul_assoc, nonsing_inv_mul _ hu, Matrix.mul_one]

theorem symm_of_psd {k : Type} {A : Matrix k k ℝ} (h : A.PosSemidef) : Aᵀ = A := by
  have := h.isHermitian
  rwa [IsHermitian, conjTranspose_eq_transpose_of_trivial] at this

/-- The variance left by any gain is the one left by the gain of the filter and a non-negative term. -/
theorem joseph_eq {P : Matrix n n ℝ} (hP : P.PosSemidef) {i : Inputs n m} (hi : Noise i) (L : Matrix n m ℝ) :
    joseph (predicted P i) L i.H i.R
      = updated P i + (L - gain P i) * innovation P i * (L - gain P i)ᵀ := by
  have hK := gain_mul hP hi
  have hS := symm_of_psd (innovation_pd hP hi).posSemidef
  have hPp := symm_of_psd (predicted_psd hP hi)
  have hK' : innovation P i * (gain P i)ᵀ = i.H * predicted P i := by
    have := congrArg transpose hK
    rwa [transpose_mul, transpose_mul, hS, transpose_transpose, hPp] at this
  have hR : i.R = innovation P i - i.H * predicted P i * i.Hᵀ := by rw [innovation]; abel
  rw [joseph, hR, updated]
  generalize innovation P i = S at *
  generalize predicted P i = A at *
  generalize gain P i = K at *
  have e1 : (1 - L * i.H)ᵀ = 1 - i.Hᵀ * Lᵀ := by rw [transpose_sub, transpose_one, transpose_mul]
  rw [e1, transpose_sub]
  have r1 : (L - K) * S * (Lᵀ - Kᵀ) = L * S * Lᵀ - L * (S * Kᵀ) - K * S * Lᵀ + K * (S * Kᵀ) := by
    simp only [Matrix.sub_mul, Matrix.mul_sub, Matrix.mul_assoc]; abel
  rw [r1, hK', hK]
  simp only [Matrix.sub_mul, Matrix.mul_sub, Matrix.mul_assoc, Matrix.one_mul, Matrix.mul_one]
  abel

/-! ### C58 -/

/-- One update from a symmetric positive semi-definite variance yields the Joseph form for the gain used by the filter, so a
symmetric positive semi-definite variance. -/
theorem C58_joseph_form (P : Matrix n n ℝ) (hP : P.PosSemidef) (i : Inputs n m) (hi : Noise i) (s : State n m) (hs : s.P = P)
    (time : ℤ) (ht : time ≠ 0) :
    (varianceUpdate s time i).2
      = joseph (i.F * P * i.Fᵀ + i.Q) (varianceUpdate s time i).1.K i.H i.R := by
  subst hs
  have := joseph_eq hP hi (gain s.P i)
  simp only [sub_self, Matrix.zero_mul, add_zero] at this
  simp only [varianceUpdate, if_neg ht]
  exact this.symm

/-- The gain used is the one of the filter of Kalman: `K S = P Hᵀ`, where `S` is invertible. -/
theorem C58_gain (P : Matrix n n ℝ) (hP : P.PosSemidef) (i : Inputs n m) (hi : Noise i) (s : State n m) (hs : s.P = P)
    (time : ℤ) (ht : time ≠ 0) :
    (i.H * (i.F * P * i.Fᵀ + i.Q) * i.Hᵀ + i.R).PosDef ∧
      (varianceUpdate s time i).1.K * (i.H * (i.F * P * i.Fᵀ + i.Q) * i.Hᵀ + i.R)
        = (i.F * P * i.Fᵀ + i.Q) * i.Hᵀ := by
  subst hs
  refine ⟨innovation_pd hP hi, ?_⟩
  simp only [varianceUpdate, if_neg ht]
  exact gain_mul hP hi

theorem updated_psd {P : Matrix n n ℝ} (hP : P.PosSemidef) {i : Inputs n m} (hi : Noise i) : (updated P i).PosSemidef := by
  have := joseph_eq hP hi (gain P i)
  simp only [sub_self, Matrix.zero_mul, add_zero] at this
  rw [← this, joseph]
  exact (psd_conj (predicted_psd hP hi) _).add (psd_conj hi.2.posSemidef _)

/-- Whatever is asked of the filter, in whatever order, its variance stays symmetric positive semi-definite. -/
theorem C58_variance_psd (s : State n m) (hs : s.P.PosSemidef) (h : List (Op n m)) (hh : ∀ o ∈ h, Admissible o) :
    (run s h).P.PosSemidef := by
  induction h generalizing s with
  | nil => exact hs
  | cons o h ih =>
    refine ih _ ?_ fun o' ho' => hh o' (List.mem_cons_of_mem _ ho')
    have ho := hh o (List.mem_cons_self ..)
    cases o with
    | variance time i =>
      simp only [step, varianceUpdate]
      split
      · exact hs
      · rename_i ht
        exact updated_psd hs (ho ht)
    | state time i =>
      simp only [step, stateUpdate, varianceUpdate]
      split
      · exact hs
      · rename_i ht
        exact updated_psd hs (ho ht)
    | setState x0 => exact hs
    | setVariance P0 => exact ho

/-- In particular it stays symmetric, and every value of the output is the variance held. -/
theorem C58_variance_symmetric (s : State n m) (hs : s.P.PosSemidef) (h : List (Op n m)) (hh : ∀ o ∈ h, Admissible o) :
    (run s h).Pᵀ = (run s h).P ∧
      ∀ time i, (varianceUpdate (run s h) time i).2 = (varianceUpdate (run s h) time i).1.P := by
  refine ⟨symm_of_psd (C58_variance_psd s hs h hh), fun time i => ?_⟩
  simp only [varianceUpdate]
  split <;> rfl

/-- At time zero the outputs are the state and the variance given, and nothing changes. -/
theorem C58_initial (s : State n m) (i : Inputs n m) :
    varianceUpdate s 0 i = (s, s.P) ∧ stateUpdate s 0 i = (s, s.x) := by
  simp [varianceUpdate, stateUpdate]

/-- Reading the state updates the variance just as reading the variance does. -/
theorem C58_state_updates_variance (s : State n m) (time : ℤ) (i : Inputs n m) :
    (stateUpdate s time i).1.P = (varianceUpdate s time i).1.P := by
  simp only [stateUpdate, varianceUpdate]
  split <;> rfl

/-! ### C88 -/

/-- The correction does not increase the variance. -/
theorem C88_variance_decreases (s : State n m) (hs : s.P.PosSemidef) (i : Inputs n m) (hi : Noise i) (time : ℤ)
    (ht : time ≠ 0) :
    (i.F * s.P * i.Fᵀ + i.Q - (varianceUpdate s time i).2).PosSemidef := by
  have h0 := joseph_eq hs hi 0
  have e : joseph (predicted s.P i) 0 i.H i.R = predicted s.P i := by simp [joseph]
  rw [e] at h0
  simp only [varianceUpdate, if_neg ht]
  change (predicted s.P i - updated s.P i).PosSemidef
  rw [h0, add_sub_cancel_left]
  exact psd_conj (innovation_pd hs hi).posSemidef _

/-- No gain leaves a smaller variance than the one chosen by the filter. -/
theorem C88_gain_optimal (s : State n m) (hs : s.P.PosSemidef) (i : Inputs n m) (hi : Noise i) (time : ℤ) (ht : time ≠ 0)
    (L : Matrix n m ℝ) :
    (joseph (i.F * s.P * i.Fᵀ + i.Q) L i.H i.R - (varianceUpdate s time i).2).PosSemidef := by
  have h0 := joseph_eq hs hi L
  simp only [varianceUpdate, if_neg ht]
  change (joseph (predicted s.P i) L i.H i.R - updated s.P i).PosSemidef
  rw [h0, add_sub_cancel_left]
  exact psd_conj (innovation_pd hs hi).posSemidef _

/-- Only the gain chosen leaves that variance. -/
theorem C88_gain_unique (s : State n m) (hs : s.P.PosSemidef) (i : Inputs n m) (hi : Noise i) (time : ℤ) (ht : time ≠ 0)
    (L : Matrix n m ℝ) (hL : joseph (i.F * s.P * i.Fᵀ + i.Q) L i.H i.R = (varianceUpdate s time i).2) :
    L = (varianceUpdate s time i).1.K := by
  have h0 := joseph_eq hs hi L
  simp only [varianceUpdate, if_neg ht] at hL ⊢
  change joseph (predicted s.P i) L i.H i.R = _ at hL
  rw [hL] at h0
  have h1 : (L - gain s.P i) * innovation s.P i * (L - gain s.P i)ᵀ = 0 := by
    simpa using h0
  have hS := innovation_pd hs hi
  ext a b
  have h2 : (L - gain s.P i) a = 0 := by
    by_contra hne
    have := hS.dotProduct_mulVec_pos hne
    have h3 := congrFun (congrFun h1 a) a
    simp only [star_trivial] at this
    have h4 : ((L - gain s.P i) * innovation s.P i * (L - gain s.P i)ᵀ) a a
        = (L - gain s.P i) a ⬝ᵥ innovation s.P i *ᵥ (L - gain s.P i) a := by
      rw [dotProduct_mulVec, Matrix.mul_apply]
      rfl
    rw [h4] at h3
    simp only [Matrix.zero_apply] at h3
    exact absurd h3 this.ne'
  have := congrFun h2 b
  simp only [Matrix.sub_apply, Pi.zero_apply] at this
  linarith

/-- The estimate: the prediction corrected by the gain applied to what the measurement adds, which is stored. -/
theorem C88_estimate (s : State n m) (hs : s.P.PosSemidef) (i : Inputs n m) (hi : Noise i) (time : ℤ) (ht : time ≠ 0) :
    (stateUpdate s time i).1.x = (stateUpdate s time i).2 ∧
      ∃ w : m → ℝ, (i.H * (i.F * s.P * i.Fᵀ + i.Q) * i.Hᵀ + i.R) *ᵥ w = i.y - i.yPred ∧
        (stateUpdate s time i).2 = i.xPred + ((i.F * s.P * i.Fᵀ + i.Q) * i.Hᵀ) *ᵥ w := by
  have hu := (innovation_pd hs hi).isUnit
  rw [isUnit_iff_isUnit_det] at hu
  refine ⟨by simp [stateUpdate, ht], (innovation s.P i)⁻¹ *ᵥ (i.y - i.yPred), ?_, ?_⟩
  · change innovation s.P i *ᵥ _ = _
    rw [mulVec_mulVec, mul_nonsing_inv _ hu, one_mulVec]
  · simp only [stateUpdate, varianceUpdate, if_neg ht, mulVec_mulVec]
    rfl

/-- The estimate is where the weighted squares are least: no other correction of the prediction explains the measurement
better, the prediction being weighted by the inverse of its variance and the measurement by the inverse of its noise. -/
theorem C88_least_squares (s : State n m) (hs : s.P.PosSemidef) (i : Inputs n m) (hi : Noise i) (time : ℤ) (ht : time ≠ 0)
    (hPp : (i.F * s.P * i.Fᵀ + i.Q).PosDef) (d : n → ℝ) :
    cost (i.F * s.P * i.Fᵀ + i.Q) i.H i.R (i.y - i.yPred) ((stateUpdate s time i).2 - i.xPred)
      ≤ cost (i.F * s.P * i.Fᵀ + i.Q) i.H i.R (i.y - i.yPred) d := by
  obtain ⟨-, w, hw, hx⟩ := C88_estimate s hs i hi time ht
  rw [hx, add_sub_cancel_left]
  generalize i.F * s.P * i.Fᵀ + i.Q = A at *
  generalize i.y - i.yPred = z at *
  have hAu := hPp.isUnit
  rw [isUnit_iff_isUnit_det] at hAu
  have hRu := hi.2.isUnit
  rw [isUnit_iff_isUnit_det] at hRu
  set c := (A * i.Hᵀ) *ᵥ w with hc
  have hAc : A⁻¹ *ᵥ c = i.Hᵀ *ᵥ w := by
    rw [hc, mulVec_mulVec, ← Matrix.mul_assoc, nonsing_inv_mul _ hAu, Matrix.one_mul]
  have hzc : z - i.H *ᵥ c = i.R *ᵥ w := by
    rw [← hw, hc, mulVec_mulVec, add_mulVec, Matrix.mul_assoc]
    abel
  have hRz : i.R⁻¹ *ᵥ (z - i.H *ᵥ c) = w := by
    rw [hzc, mulVec_mulVec, nonsing_inv_mul _ hRu, one_mulVec]
  have hAs : (A⁻¹)ᵀ = A⁻¹ := by rw [transpose_nonsing_inv, symm_of_psd hPp.posSemidef]
  have hRs : (i.R⁻¹)ᵀ = i.R⁻¹ := by rw [transpose_nonsing_inv, symm_of_psd hi.2.posSemidef]
  obtain ⟨e, rfl⟩ : ∃ e, d = c + e := ⟨d - c, by abel⟩
  have q1 : 0 ≤ e ⬝ᵥ A⁻¹ *ᵥ e := by simpa using hPp.inv.posSemidef.dotProduct_mulVec_nonneg e
  have q2 : 0 ≤ (i.H *ᵥ e) ⬝ᵥ i.R⁻¹ *ᵥ (i.H *ᵥ e) := by
    simpa using hi.2.inv.posSemidef.dotProduct_mulVec_nonneg (i.H *ᵥ e)
  have s1 : c ⬝ᵥ A⁻¹ *ᵥ e = e ⬝ᵥ A⁻¹ *ᵥ c := by
    rw [dotProduct_mulVec, ← mulVec_transpose, hAs, dotProduct_comm]
  have s2 : (z - i.H *ᵥ c) ⬝ᵥ i.R⁻¹ *ᵥ (i.H *ᵥ e) = (i.H *ᵥ e) ⬝ᵥ w := by
    rw [dotProduct_mulVec, ← mulVec_transpose, hRs, hRz, dotProduct_comm]
  have s3 : e ⬝ᵥ i.Hᵀ *ᵥ w = (i.H *ᵥ e) ⬝ᵥ w := by
    rw [dotProduct_mulVec, vecMul_transpose]
  have x1 : z - i.H *ᵥ (c + e) = (z - i.H *ᵥ c) - i.H *ᵥ e := by rw [mulVec_add]; abel
  unfold cost
  rw [x1]
  generalize z - i.H *ᵥ c = r at *
  rw [mulVec_add, mulVec_sub, add_dotProduct, dotProduct_add, dotProduct_add, sub_dotProduct, dotProduct_sub,
    dotProduct_sub, s1, hAc, hRz, s2, s3]
  linarith

/-! ### Examples -/

/-- A state of two components, one of which is measured. -/
def exInputs : Inputs (Fin 2) (Fin 1) where
  F := !![1, 1; 0, 1]
  Q := 1
  H := !![1, 0]
  R := 1
  xPred := ![1, 2]
  yPred := ![1]
  y := ![5]

example : Noise exInputs := ⟨PosSemidef.one, PosDef.one⟩

example : Admissible (Op.state 3 exInputs) := fun _ => ⟨PosSemidef.one, PosDef.one⟩

example : (run (⟨0, 1, 0⟩ : State (Fin 2) (Fin 1)) [.state 0 exInputs, .state 1 exInputs, .variance 2 exInputs]).P.PosSemidef := by
  refine C58_variance_psd _ PosSemidef.one _ ?_
  intro o ho
  simp only [List.mem_cons, List.not_mem_nil, or_false] at ho
  rcases ho with rfl | rfl | rfl <;> exact fun _ => ⟨PosSemidef.one, PosDef.one⟩

/-- From the variance of the unit, the prediction has variance `[3 1; 1 2]`, the gain is `[3/4; 1/4]`. -/
example : (stateUpdate (⟨0, 1, 0⟩ : State (Fin 2) (Fin 1)) 1 exInputs).2 = ![4, 3] := by
  obtain ⟨-, w, hw, hx⟩ := C88_estimate (⟨0, 1, 0⟩ : State (Fin 2) (Fin 1)) PosSemidef.one exInputs ⟨PosSemidef.one, PosDef.one⟩
    1 (by norm_num)
  rw [hx]
  have h0 := congrFun hw 0
  simp only [exInputs, Matrix.mulVec, dotProduct, Matrix.mul_apply, Fin.sum_univ_two, Matrix.one_apply, Matrix.add_apply,
    Matrix.transpose_apply, Finset.univ_unique, Finset.sum_singleton, Pi.sub_apply] at h0
  simp at h0
  funext k
  simp only [exInputs, Matrix.mulVec, dotProduct, Matrix.mul_apply, Fin.sum_univ_two, Matrix.one_apply, Matrix.add_apply,
    Matrix.transpose_apply, Finset.univ_unique, Finset.sum_singleton, Pi.add_apply]
  fin_cases k <;> simp <;> linarith

end Verif.Kalman
