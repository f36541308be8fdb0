import Verif.Se3.Bound
import Mathlib.Analysis.SpecialFunctions.Trigonometric.Bounds
import Mathlib.Analysis.SpecificLimits.Basic

/-!
# A vector reduced through the translation of an exponential

What becomes of the length of `z` when it is replaced by `z - s J z`, where `J` is the matrix of the translation in the exponential of a motion
with the rotation vector `x`.
-/

namespace Verif.Se3

open Matrix Verif.Geometry Verif.Point6d Verif.Spatial

/-- The vector `z` after the step. -/
noncomputable def reduced (s : ℝ) (x z : Fin 3 → ℝ) : Fin 3 → ℝ := z - s • (leftJac x *ᵥ z)

theorem reduced_poly (s a b : ℝ) (x z : Fin 3 → ℝ) :
    (z - s • (poly x a b *ᵥ z)) ⬝ᵥ (z - s • (poly x a b *ᵥ z)) =
      (1 - s) ^ 2 * (z ⬝ᵥ z) + (skew x *ᵥ z ⬝ᵥ skew x *ᵥ z) * (s ^ 2 * (a ^ 2 + b ^ 2 * len x ^ 2) + 2 * s * (1 - s) * b) := by
  rw [len_sq]
  simp [poly, skew, Matrix.mulVec, dotProduct, Fin.sum_univ_three, Matrix.mul_apply, Matrix.one_apply]
  ring

/-- The factor of the square of the length, for a vector orthogonal to the axis. -/
noncomputable def factor (s ph : ℝ) : ℝ := 1 - 2 * s * (Real.sin ph / ph) + 2 * s ^ 2 * ((1 - Real.cos ph) / ph ^ 2)

theorem factor_eq (s : ℝ) {ph : ℝ} (h : 0 < ph) :
    (1 - s) ^ 2 + ph ^ 2 * (s ^ 2 * (((1 - Real.cos ph) / ph ^ 2) ^ 2 + ((ph - Real.sin ph) / ph ^ 3) ^ 2 * ph ^ 2) +
      2 * s * (1 - s) * ((ph - Real.sin ph) / ph ^ 3)) = factor s ph := by
  unfold factor
  have h1 := Real.sin_sq_add_cos_sq ph
  have h2 : Real.cos ph ^ 2 = 1 - Real.sin ph ^ 2 := by linarith
  field_simp
  ring_nf
  rw [h2]
  ring

/-- The length after the step: between the factor along the axis and the factor across it. -/
theorem reduced_sq (s : ℝ) {x : Fin 3 → ℝ} (hx : x ≠ 0) (z : Fin 3 → ℝ) : ∃ r : ℝ, 0 ≤ r ∧ r ≤ z ⬝ᵥ z ∧
    reduced s x z ⬝ᵥ reduced s x z = (1 - s) ^ 2 * (z ⬝ᵥ z - r) + factor s (len x) * r := by
  have hp := len_pos hx
  have hl := lagrange x z
  rw [← len_sq x] at hl
  refine ⟨(skew x *ᵥ z ⬝ᵥ skew x *ᵥ z) / len x ^ 2, div_nonneg (dot_self_nonneg _) (by positivity), ?_, ?_⟩
  · rw [div_le_iff₀ (by positivity)]
    nlinarith [sq_nonneg (x ⬝ᵥ z)]
  · rw [reduced, leftJac, reduced_poly, ← factor_eq s hp]
    field_simp
    ring

theorem factor_le_one {s ph : ℝ} (h0 : 0 < ph) (h1 : ph ≤ Real.pi / 2) (hs : 0 ≤ s) (hs' : Real.pi * s ≤ 4) : factor s ph ≤ 1 := by
  have hpi := Real.pi_pos
  have hsin : 2 / Real.pi * ph ≤ Real.sin ph := Real.mul_le_sin h0.le h1
  have hcos := Real.one_sub_sq_div_two_le_cos (x := ph)
  have e1 : 2 / Real.pi ≤ Real.sin ph / ph := by rwa [le_div_iff₀ h0]
  have e2 : (1 - Real.cos ph) / ph ^ 2 ≤ 1 / 2 := by rw [div_le_iff₀ (by positivity)]; linarith
  have e3 : s ≤ 2 * (2 / Real.pi) := by
    rw [← mul_div_assoc, le_div_iff₀ hpi]; linarith
  unfold factor
  nlinarith [mul_nonneg hs (sub_nonneg.mpr e1), mul_nonneg (mul_nonneg hs hs) (sub_nonneg.mpr e2), mul_nonneg hs (sub_nonneg.mpr e3)]

theorem factor_near {s ph : ℝ} (h0 : 0 < ph) (h1 : ph ≤ 1) (hs : 0 ≤ s) : factor s ph ≤ (1 - s) ^ 2 + s * ph ^ 2 / 2 := by
  have hsin := (Real.sin_gt_sub_cube h0).le
  have hcos := Real.one_sub_sq_div_two_le_cos (x := ph)
  have e1 : 1 - ph ^ 2 / 4 ≤ Real.sin ph / ph := by rw [le_div_iff₀ h0]; nlinarith [pow_pos h0 3]
  have e2 : (1 - Real.cos ph) / ph ^ 2 ≤ 1 / 2 := by rw [div_le_iff₀ (by positivity)]; linarith
  unfold factor
  nlinarith [mul_nonneg hs (sub_nonneg.mpr e1), mul_nonneg (mul_nonneg hs hs) (sub_nonneg.mpr e2)]

theorem reduced_zero (s : ℝ) (z : Fin 3 → ℝ) : reduced s 0 z = (1 - s) • z := by
  rw [reduced, leftJac_zero, one_mulVec, sub_smul, one_smul]

/-- The length does not grow when the rotation of the step is at most a quarter of a turn. -/
theorem reduced_len {s : ℝ} {x : Fin 3 → ℝ} (hx : len x ≤ Real.pi / 2) (hs : 0 ≤ s) (hs' : Real.pi * s ≤ 4) (z : Fin 3 → ℝ) :
    len (reduced s x z) ≤ len z := by
  have h2 : (1 - s) ^ 2 ≤ 1 := by nlinarith [Real.pi_gt_three]
  apply Real.sqrt_le_sqrt
  by_cases h : x = 0
  · subst h
    rw [reduced_zero, smul_dotProduct, dotProduct_smul, smul_eq_mul, smul_eq_mul]
    nlinarith [dot_self_nonneg z]
  · obtain ⟨r, r0, r1, r2⟩ := reduced_sq s h z
    rw [r2]
    nlinarith [factor_le_one (len_pos h) hx hs hs', mul_nonneg r0 (sub_nonneg.mpr (factor_le_one (len_pos h) hx hs hs')),
      mul_nonneg (sub_nonneg.mpr r1) (sub_nonneg.mpr h2)]

/-- For small rotations the length is nearly multiplied by `|1 - s|`. -/
theorem reduced_near {s : ℝ} {x : Fin 3 → ℝ} (hx : len x ≤ 1) (hs : 0 ≤ s) (z : Fin 3 → ℝ) :
    len (reduced s x z) ^ 2 ≤ ((1 - s) ^ 2 + s * len x ^ 2 / 2) * len z ^ 2 := by
  rw [len_sq, len_sq z]
  have hz := dot_self_nonneg z
  by_cases h : x = 0
  · subst h
    rw [reduced_zero, smul_dotProduct, dotProduct_smul, smul_eq_mul, smul_eq_mul, len_zero]
    nlinarith
  · obtain ⟨r, r0, r1, r2⟩ := reduced_sq s h z
    rw [r2]
    have hf := factor_near (len_pos h) hx hs
    have hp : 0 ≤ s * len x ^ 2 / 2 := by positivity
    nlinarith [mul_nonneg r0 (sub_nonneg.mpr hf), mul_nonneg (sub_nonneg.mpr r1) hp]

/-- A vector orthogonal to the axis. -/
theorem reduced_ortho (s : ℝ) {x : Fin 3 → ℝ} (hx : x ≠ 0) {z : Fin 3 → ℝ} (h : x ⬝ᵥ z = 0) :
    len (reduced s x z) ^ 2 = factor s (len x) * len z ^ 2 := by
  have hp := len_pos hx
  have hl := lagrange x z
  rw [h, ← len_sq x] at hl
  rw [len_sq, len_sq z, reduced, leftJac, reduced_poly, ← factor_eq s hp]
  have : skew x *ᵥ z ⬝ᵥ skew x *ᵥ z = len x ^ 2 * (z ⬝ᵥ z) := by linarith
  rw [this]
  ring

/-- The rotation about the axis does not change the matrix of the translation. -/
theorem leftJac_conj (c : ℝ) (w : Fin 3 → ℝ) : exp3 w * leftJac (c • w) * (exp3 w)ᵀ = leftJac (c • w) := by
  have hcomm : ∀ a b c d : ℝ, poly w a b * poly w c d = poly w c d * poly w a b := by
    intro a b c d
    rw [poly_mul, poly_mul]
    congr 1 <;> ring
  have h : exp3 w * leftJac (c • w) = leftJac (c • w) * exp3 w := by
    unfold exp3 leftJac
    rw [poly_smul]
    exact hcomm _ _ _ _
  rw [h, Matrix.mul_assoc, (isRot_exp3 w).mul_transpose, Matrix.mul_one]

theorem abs_le_len (v : Fin 3 → ℝ) (i : Fin 3) : |v i| ≤ len v := by
  apply abs_le_of_sq_le_sq _ (len_nonneg v)
  rw [len_sq, dotProduct, Fin.sum_univ_three]
  fin_cases i <;> simp <;> nlinarith [mul_self_nonneg (v 0), mul_self_nonneg (v 1), mul_self_nonneg (v 2)]

/-- Repeated with a rotation that vanishes, the reduction tends to zero. -/
theorem reduced_tendsto {s : ℝ} (h0 : 0 < s) (h2 : s < 2) {w : Fin 3 → ℝ} {z : ℕ → Fin 3 → ℝ}
    (h : ∀ k, z (k + 1) = reduced s ((-s) • ((1 - s) ^ k • w)) (z k)) : Filter.Tendsto (fun k => len (z k)) Filter.atTop (nhds 0) := by
  set q := (1 - s) ^ 2 with hq
  have hq1 : q < 1 := by nlinarith
  have hq0 : 0 ≤ q := sq_nonneg _
  have hx : Filter.Tendsto (fun k : ℕ => len ((-s) • ((1 - s) ^ k • w))) Filter.atTop (nhds 0) := by
    have h1 : Filter.Tendsto (fun k : ℕ => |1 - s| ^ k) Filter.atTop (nhds 0) :=
      tendsto_pow_atTop_nhds_zero_of_lt_one (abs_nonneg _) (abs_lt.mpr ⟨by linarith, by linarith⟩)
    have h2 := (h1.mul_const (len w)).const_mul s
    rw [zero_mul, mul_zero] at h2
    refine h2.congr fun k => ?_
    rw [len_smul, len_smul, abs_neg, abs_of_pos h0, abs_pow]
  have hx2 : Filter.Tendsto (fun k : ℕ => s * len ((-s) • ((1 - s) ^ k • w)) ^ 2 / 2) Filter.atTop (nhds 0) := by
    have := ((hx.pow 2).const_mul s).div_const 2
    simpa using this
  obtain ⟨K, hK⟩ := Filter.eventually_atTop.mp ((hx.eventually_le_const one_pos).and
    (hx2.eventually_le_const (show 0 < (1 - q) / 2 by linarith)))
  set c := (1 + q) / 2 with hc
  have hstep : ∀ k, K ≤ k → len (z (k + 1)) ^ 2 ≤ c * len (z k) ^ 2 := by
    intro k hk
    obtain ⟨a1, a2⟩ := hK k hk
    rw [h k]
    refine (reduced_near a1 h0.le (z k)).trans ?_
    have : q + s * len ((-s) • ((1 - s) ^ k • w)) ^ 2 / 2 ≤ c := by rw [hc]; linarith
    exact mul_le_mul_of_nonneg_right this (sq_nonneg _)
  have hgeo : ∀ j, len (z (j + K)) ^ 2 ≤ c ^ j * len (z K) ^ 2 := by
    intro j
    induction j with
    | zero => simp
    | succ j ih =>
      rw [show j + 1 + K = j + K + 1 by ring, pow_succ c j]
      refine (hstep _ (by omega)).trans ?_
      have := mul_le_mul_of_nonneg_left ih (show 0 ≤ c by rw [hc]; linarith)
      linarith
  have hc0 : Filter.Tendsto (fun j : ℕ => c ^ j * len (z K) ^ 2) Filter.atTop (nhds 0) := by
    have := (tendsto_pow_atTop_nhds_zero_of_lt_one (show 0 ≤ c by rw [hc]; linarith) (show c < 1 by rw [hc]; linarith)).mul_const (len (z K) ^ 2)
    rwa [zero_mul] at this
  have hsq : Filter.Tendsto (fun j : ℕ => len (z (j + K)) ^ 2) Filter.atTop (nhds 0) :=
    squeeze_zero (fun j => sq_nonneg _) hgeo hc0
  rw [← Filter.tendsto_add_atTop_iff_nat K]
  have := (Real.continuous_sqrt.tendsto 0).comp hsq
  rw [Real.sqrt_zero] at this
  exact this.congr fun j => Real.sqrt_sq (len_nonneg _)

end Verif.Se3
