import Verif.MatrixUtil.Model
import Verif.Geometry.ConvertProps
import Verif.Homogeneous.Props
import Mathlib.Tactic.FinCases
import Mathlib.Tactic.NormNum
import Mathlib.Tactic.Ring
import Mathlib.Tactic.LinearCombination
import Mathlib.Tactic.Linarith
import Mathlib.Tactic.Positivity
import Mathlib.Analysis.SpecialFunctions.Trigonometric.Bounds

/-!
# C111: matrices and angles of the Python library

The conversion of a pose to angles and back gives the pose, except when the pitch is close to a quarter turn, where the error of each entry
is less than two thousandths.
-/

namespace Verif.MatrixUtil

open Matrix Verif.Geometry Verif.Homogeneous

/-- A transformation: a rotation, a position and the last row of an affine one. -/
def Transform (M : Homo ℝ) : Prop := IsRot (M.submatrix Fin.castSucc Fin.castSucc : Matrix (Fin 3) (Fin 3) ℝ) ∧ Affine M

theorem rotate_x (a : ℝ) : rotate "x" a =
    .ok !![1, 0, 0, 0; 0, Real.cos a, -Real.sin a, 0; 0, Real.sin a, Real.cos a, 0; 0, 0, 0, 1] := by simp [rotate]

theorem rotate_y (a : ℝ) : rotate "y" a =
    .ok !![Real.cos a, 0, Real.sin a, 0; 0, 1, 0, 0; -Real.sin a, 0, Real.cos a, 0; 0, 0, 0, 1] := by
  have h : ¬ ("y" = "x") := by decide
  simp [rotate, h]

theorem rotate_z (a : ℝ) : rotate "z" a =
    .ok !![Real.cos a, -Real.sin a, 0, 0; Real.sin a, Real.cos a, 0, 0; 0, 0, 1, 0; 0, 0, 0, 1] := by
  have h : ¬ ("z" = "x") := by decide
  have h' : ¬ ("z" = "y") := by decide
  simp [rotate, h, h']

/-- The name of an axis. -/
def axisName : Axis → String
  | .x => "x"
  | .y => "y"
  | .z => "z"

/-- **C111.** `rotate` is the rotation about the named axis, without translation, by the right hand rule; other names are an error. -/
theorem C111_rotate (a : Axis) (ang : ℝ) :
    (∃ M, rotate (axisName a) ang = .ok M ∧ Affine M ∧ (∀ i : Fin 3, M i.castSucc 3 = 0) ∧
      ∀ v : Fin 3 → ℝ, (M.submatrix Fin.castSucc Fin.castSucc : Matrix (Fin 3) (Fin 3) ℝ) *ᵥ v = rotateAbout (unit a) ang v) ∧
    ∀ s, s ≠ "x" → s ≠ "y" → s ≠ "z" → rotate s ang = .throw := by
  refine ⟨?_, fun s hx hy hz => by simp [rotate, hx, hy, hz]⟩
  cases a
  · refine ⟨_, rotate_x ang, ⟨rfl, rfl, rfl, rfl⟩, fun i => by fin_cases i <;> rfl, fun v => ?_⟩
    rw [← elementary_apply]
    congr 1
    ext i j
    fin_cases i <;> fin_cases j <;> rfl
  · refine ⟨_, rotate_y ang, ⟨rfl, rfl, rfl, rfl⟩, fun i => by fin_cases i <;> rfl, fun v => ?_⟩
    rw [← elementary_apply]
    congr 1
    ext i j
    fin_cases i <;> fin_cases j <;> rfl
  · refine ⟨_, rotate_z ang, ⟨rfl, rfl, rfl, rfl⟩, fun i => by fin_cases i <;> rfl, fun v => ?_⟩
    rw [← elementary_apply]
    congr 1
    ext i j
    fin_cases i <;> fin_cases j <;> rfl

/-- The matrix of three angles and a position. -/
noncomputable def explicit (t : Fin 3 → ℝ) (r p y : ℝ) : Homo ℝ :=
  !![Real.cos y * Real.cos p, Real.cos y * Real.sin p * Real.sin r - Real.sin y * Real.cos r,
       Real.cos y * Real.sin p * Real.cos r + Real.sin y * Real.sin r, t 0;
     Real.sin y * Real.cos p, Real.sin y * Real.sin p * Real.sin r + Real.cos y * Real.cos r,
       Real.sin y * Real.sin p * Real.cos r - Real.cos y * Real.sin r, t 1;
     -Real.sin p, Real.cos p * Real.sin r, Real.cos p * Real.cos r, t 2;
     0, 0, 0, 1]

theorem rpy2tr_eq (r p y : ℝ) : rpy2tr r p y = .ok (explicit 0 r p y) := by
  simp only [rpy2tr, rotate_x, rotate_y, rotate_z, Outcome.bind]
  congr 1
  ext i j
  fin_cases i <;> fin_cases j <;> simp [explicit, Matrix.mul_apply, Fin.sum_univ_four] <;> ring

theorem RPYToMatrix_eq (v : Fin 6 → ℝ) : RPYToMatrix v = .ok (explicit ![v 0, v 1, v 2] (v 3) (v 4) (v 5)) := by
  simp only [RPYToMatrix, rpy2tr_eq, Outcome.bind]
  congr 1
  ext i j
  fin_cases i <;> fin_cases j <;> simp [explicit]

theorem explicit_linear (t : Fin 3 → ℝ) (r p y : ℝ) :
    ((explicit t r p y).submatrix Fin.castSucc Fin.castSucc : Matrix (Fin 3) (Fin 3) ℝ) =
      elementary .z y * (elementary .y p * elementary .x r) := by
  ext i j
  fin_cases i <;> fin_cases j <;> simp [explicit, elementary, Matrix.mul_apply, Fin.sum_univ_three] <;> ring

/-- **C111.** The matrix of a pose is a transformation with the position of the pose, that turns about the first axis by the roll, then about
the second one by the pitch, then about the third one by the yaw: it is the matrix that the operators of the library compute. -/
theorem C111_pose_to_matrix (v : Fin 6 → ℝ) :
    ∃ M, RPYToMatrix v = .ok M ∧ Transform M ∧ M 0 3 = v 0 ∧ M 1 3 = v 1 ∧ M 2 3 = v 2 ∧
      (∀ u, (M.submatrix Fin.castSucc Fin.castSucc : Matrix (Fin 3) (Fin 3) ℝ) *ᵥ u =
        rotateAbout ![0, 0, 1] (v 5) (rotateAbout ![0, 1, 0] (v 4) (rotateAbout ![1, 0, 0] (v 3) u))) ∧
      poseRpyToHomo v = ⟨M.submatrix Fin.castSucc Fin.castSucc, fun i => M i.castSucc 3⟩ := by
  refine ⟨_, RPYToMatrix_eq v, ⟨?_, rfl, rfl, rfl, rfl⟩, rfl, rfl, rfl, ?_, ?_⟩
  · rw [explicit_linear]
    exact (elementary_isRot _ _).mul ((elementary_isRot _ _).mul (elementary_isRot _ _))
  · intro u
    rw [explicit_linear, ← Matrix.mulVec_mulVec, ← Matrix.mulVec_mulVec, elementary_apply, elementary_apply, elementary_apply]
    rfl
  · rw [explicit_linear, poseRpyToHomo, rpyToMatrix_eq]
    congr 1
    funext i
    fin_cases i <;> rfl

/-! ### From a matrix to angles -/

/-- The pitch of a transformation. -/
theorem pitch_spec {M : Homo ℝ} (h : Transform M) :
    let m := Real.sqrt (M 2 1 ^ 2 + M 2 2 ^ 2)
    let p := atan2 (-M 2 0) m
    Real.cos p = m ∧ Real.sin p = -M 2 0 ∧ m ^ 2 = M 2 1 ^ 2 + M 2 2 ^ 2 ∧ 0 ≤ m ∧ -(Real.pi / 2) ≤ p ∧ p ≤ Real.pi / 2 := by
  obtain ⟨c00, c11, c22, c01, c02, c12, r00, r11, r22, r01, r02, r12⟩ := h.1.entries
  have hr : M 2 0 * M 2 0 + M 2 1 * M 2 1 + M 2 2 * M 2 2 = 1 := r22
  intro m p
  have hm : m ^ 2 = M 2 1 ^ 2 + M 2 2 ^ 2 := Real.sq_sqrt (by positivity)
  have h0 : 0 ≤ m := Real.sqrt_nonneg _
  have := atan2_cos_sin m (-M 2 0) 1 one_pos (by rw [hm]; linarith)
  refine ⟨by simpa using this.1, by simpa using this.2, hm, h0, ?_⟩
  have ha : |p| ≤ Real.pi / 2 := by
    show |Complex.arg _| ≤ _
    rw [Complex.abs_arg_le_pi_div_two_iff]
    exact h0
  exact ⟨(abs_le.1 ha).1, (abs_le.1 ha).2⟩

/-- The pitch that the conversion finds is in the band where the yaw is set to zero. -/
def InBand (p : ℝ) : Prop := |p - Real.pi / 2| < 0.001 ∨ |p + Real.pi / 2| < 0.001

theorem transform_ext {M N : Homo ℝ} (h : ∀ i j : Fin 3, M i.castSucc j.castSucc = N i.castSucc j.castSucc)
    (ht : ∀ i : Fin 3, M i.castSucc 3 = N i.castSucc 3) (hM : Affine M) (hN : Affine N) : M = N := by
  rw [affine_eq hM, affine_eq hN]
  congr 1
  · ext i j; exact h i j
  · funext i; exact ht i

theorem explicit_affine (t : Fin 3 → ℝ) (r p y : ℝ) : Affine (explicit t r p y) := ⟨rfl, rfl, rfl, rfl⟩

/-- **C111.** Outside of the band the conversion of a transformation to angles and back gives the transformation, the pitch is between minus a
quarter turn and a quarter turn, and the roll and the yaw between minus a half turn and a half turn. -/
theorem C111_matrix_roundtrip (M : Homo ℝ) (h : Transform M) (hb : ¬ InBand (matrixToRPY M 4)) :
    RPYToMatrix (matrixToRPY M) = .ok M ∧ |matrixToRPY M 4| ≤ Real.pi / 2 ∧
      -Real.pi < matrixToRPY M 3 ∧ matrixToRPY M 3 ≤ Real.pi ∧ -Real.pi < matrixToRPY M 5 ∧ matrixToRPY M 5 ≤ Real.pi := by
  obtain ⟨hc, hs, hm, h0, hp1, hp2⟩ := pitch_spec h
  obtain ⟨c00, c11, c22, c01, c02, c12, r00, r11, r22, r01, r02, r12⟩ := h.1.entries
  obtain ⟨f00, f01, f02, f10, f11, f12, f20, f21, f22⟩ := h.1.cofactors
  simp only [Matrix.submatrix_apply] at c00 c11 c22 c01 c02 c12 r00 r11 r22 r01 r02 r12 f00 f01 f02 f10 f11 f12 f20 f21 f22
  change M 0 0 * M 0 0 + M 1 0 * M 1 0 + M 2 0 * M 2 0 = 1 at c00
  change M 2 0 * M 2 0 + M 2 1 * M 2 1 + M 2 2 * M 2 2 = 1 at r22
  change M 0 0 * M 2 0 + M 0 1 * M 2 1 + M 0 2 * M 2 2 = 0 at r02
  change M 1 0 * M 2 0 + M 1 1 * M 2 1 + M 1 2 * M 2 2 = 0 at r12
  change M 0 0 = M 1 1 * M 2 2 - M 1 2 * M 2 1 at f00
  change M 0 1 = M 1 2 * M 2 0 - M 1 0 * M 2 2 at f01
  change M 0 2 = M 1 0 * M 2 1 - M 1 1 * M 2 0 at f02
  change M 1 0 = M 0 2 * M 2 1 - M 0 1 * M 2 2 at f10
  change M 1 1 = M 0 0 * M 2 2 - M 0 2 * M 2 0 at f11
  change M 1 2 = M 0 1 * M 2 0 - M 0 0 * M 2 1 at f12
  have hpd : matrixToRPY M 4 = atan2 (-M 2 0) (Real.sqrt (M 2 1 ^ 2 + M 2 2 ^ 2)) := by
    show (tr2rpy M).2.1 = _
    simp only [tr2rpy]
    split
    · rfl
    · split <;> rfl
  rw [hpd] at hb
  obtain ⟨hb1, hb2⟩ := not_or.1 hb
  have htr : tr2rpy M = (atan2 (M 1 0) (M 0 0), atan2 (-M 2 0) (Real.sqrt (M 2 1 ^ 2 + M 2 2 ^ 2)), atan2 (M 2 1) (M 2 2)) := by
    simp only [tr2rpy, if_neg hb1, if_neg hb2]
  have hmat : matrixToRPY M = ![M 0 3, M 1 3, M 2 3, atan2 (M 2 1) (M 2 2),
      atan2 (-M 2 0) (Real.sqrt (M 2 1 ^ 2 + M 2 2 ^ 2)), atan2 (M 1 0) (M 0 0)] := by
    simp only [matrixToRPY, htr]
  generalize hmm : Real.sqrt (M 2 1 ^ 2 + M 2 2 ^ 2) = m at *
  generalize hpp : atan2 (-M 2 0) m = p at *
  have hpos : 0 < m := by
    rcases h0.lt_or_eq with hlt | heq
    · exact hlt
    · exfalso
      rw [← heq] at hc
      have hs2 : Real.sin p = 1 ∨ Real.sin p = -1 := by
        have := Real.sin_sq_add_cos_sq p
        rw [hc] at this
        have : (Real.sin p - 1) * (Real.sin p + 1) = 0 := by linarith
        rcases mul_eq_zero.1 this with h | h
        · left; linarith
        · right; linarith
      rcases hs2 with hs2 | hs2
      · have : p = Real.pi / 2 := by
          apply Real.injOn_sin ⟨hp1, hp2⟩ ⟨by linarith [Real.pi_pos], le_refl _⟩
          rw [hs2, Real.sin_pi_div_two]
        exact hb1 (by rw [this]; norm_num)
      · have : p = -(Real.pi / 2) := by
          apply Real.injOn_sin ⟨hp1, hp2⟩ ⟨le_refl _, by linarith [Real.pi_pos]⟩
          rw [hs2, Real.sin_neg, Real.sin_pi_div_two]
        exact hb2 (by rw [this]; norm_num)
  obtain ⟨y1, y2⟩ := atan2_cos_sin (M 0 0) (M 1 0) m hpos (by rw [hm]; linarith)
  obtain ⟨x1, x2⟩ := atan2_cos_sin (M 2 2) (M 2 1) m hpos (by rw [hm]; ring)
  refine ⟨?_, ?_, ?_⟩
  · rw [RPYToMatrix_eq, hmat]
    show Outcome.ok (explicit ![M 0 3, M 1 3, M 2 3] (atan2 (M 2 1) (M 2 2)) p (atan2 (M 1 0) (M 0 0))) = _
    congr 1
    apply transform_ext _ _ (explicit_affine _ _ _ _) h.2
    · have hne : m ≠ 0 := hpos.ne'
      have hne2 : m ^ 2 ≠ 0 := pow_ne_zero 2 hne
      have e1 : Real.cos (atan2 (M 1 0) (M 0 0)) = M 0 0 / m := by field_simp; linarith
      have e2 : Real.sin (atan2 (M 1 0) (M 0 0)) = M 1 0 / m := by field_simp; linarith
      have e3 : Real.cos (atan2 (M 2 1) (M 2 2)) = M 2 2 / m := by field_simp; linarith
      have e4 : Real.sin (atan2 (M 2 1) (M 2 2)) = M 2 1 / m := by field_simp; linarith
      intro i j
      fin_cases i <;> fin_cases j
      · show Real.cos _ * Real.cos p = M 0 0
        rw [hc, e1]; field_simp
      · show Real.cos _ * Real.sin p * Real.sin _ - Real.sin _ * Real.cos _ = M 0 1
        rw [hs, e1, e2, e3, e4]
        field_simp
        rw [hm]
        linear_combination (-M 2 1) * r02 - M 2 2 * f10
      · show Real.cos _ * Real.sin p * Real.cos _ + Real.sin _ * Real.sin _ = M 0 2
        rw [hs, e1, e2, e3, e4]
        field_simp
        rw [hm]
        linear_combination (-M 2 2) * r02 + M 2 1 * f10
      · show Real.sin _ * Real.cos p = M 1 0
        rw [hc, e2]; field_simp
      · show Real.sin _ * Real.sin p * Real.sin _ + Real.cos _ * Real.cos _ = M 1 1
        rw [hs, e1, e2, e3, e4]
        field_simp
        rw [hm]
        linear_combination (-M 2 1) * r12 + M 2 2 * f00
      · show Real.sin _ * Real.sin p * Real.cos _ - Real.cos _ * Real.sin _ = M 1 2
        rw [hs, e1, e2, e3, e4]
        field_simp
        rw [hm]
        linear_combination (-M 2 2) * r12 - M 2 1 * f00
      · show -Real.sin p = M 2 0
        rw [hs]; ring
      · show Real.cos p * Real.sin _ = M 2 1
        rw [hc, e4]; field_simp
      · show Real.cos p * Real.cos _ = M 2 2
        rw [hc, e3]; field_simp
    · intro i
      fin_cases i <;> rfl
  · rw [hpd]
    exact abs_le.2 ⟨hp1, hp2⟩
  · rw [hmat]
    exact ⟨Complex.neg_pi_lt_arg _, Complex.arg_le_pi _, Complex.neg_pi_lt_arg _, Complex.arg_le_pi _⟩

/-- The estimates of the entries in the band: `s` is the sine of the pitch or its opposite. -/
theorem band_bounds {m n s a b c d e : ℝ} (hm0 : 0 ≤ m) (hm1 : m < 1) (hn : 0 < n) (hn2 : n ^ 2 = 1 - c ^ 2) (hc : |c| ≤ m)
    (hs0 : 0 ≤ s) (hs : s ^ 2 = 1 - m ^ 2) (ha : |a| ≤ n) (hb : |b| ≤ n) (hd : |d| ≤ m) (he : |e| ≤ m) :
    |s * (a / n) - a| ≤ 2 * m ∧ |s * (b / n) - (d * c + b * s)| ≤ 2 * m ∧ |b / n - b| ≤ 2 * m ∧
    |a / n - (a * s + e * c)| ≤ 2 * m := by
  have hc2 : c ^ 2 ≤ m ^ 2 := by rw [← sq_abs c]; exact pow_le_pow_left₀ (abs_nonneg _) hc 2
  have hs1 : s ≤ 1 := by nlinarith
  have hn1 : n ≤ 1 := by nlinarith [sq_nonneg c]
  have hsm : 1 - m ^ 2 ≤ s := by nlinarith
  have hnm : 1 - m ^ 2 ≤ n := by nlinarith
  have hsn : s ≤ n := by nlinarith
  have hsn' : 1 - m ^ 2 ≤ s * n := by nlinarith
  have hmm : m ^ 2 ≤ m := by nlinarith
  have fa : |a / n| ≤ 1 := by rw [abs_div, abs_of_pos hn]; exact (div_le_one hn).2 ha
  have fb : |b / n| ≤ 1 := by rw [abs_div, abs_of_pos hn]; exact (div_le_one hn).2 hb
  have ea : a = (a / n) * n := by field_simp
  have eb : b = (b / n) * n := by field_simp
  have hdc : |d * c| ≤ m ^ 2 := by
    rw [abs_mul, sq]; exact mul_le_mul hd hc (abs_nonneg _) hm0
  have hec : |e * c| ≤ m ^ 2 := by
    rw [abs_mul, sq]; exact mul_le_mul he hc (abs_nonneg _) hm0
  have key : ∀ x y : ℝ, |x| ≤ 1 → |y| ≤ m ^ 2 → |x * y| ≤ m ^ 2 := by
    intro x y hx hy
    rw [abs_mul]
    calc |x| * |y| ≤ 1 * m ^ 2 := mul_le_mul hx hy (abs_nonneg _) zero_le_one
      _ = m ^ 2 := one_mul _
  generalize a / n = x at *
  generalize b / n = z at *
  subst ea eb
  refine ⟨?_, ?_, ?_, ?_⟩
  · have := key x (s - n) fa (abs_le.2 ⟨by linarith, by linarith⟩)
    rw [show s * x - x * n = x * (s - n) by ring]
    linarith
  · have := key z (s - s * n) fb (abs_le.2 ⟨by nlinarith, by nlinarith⟩)
    rw [show s * z - (d * c + z * n * s) = z * (s - s * n) - d * c by ring]
    linarith [abs_sub (z * (s - s * n)) (d * c)]
  · have := key z (1 - n) fb (abs_le.2 ⟨by nlinarith, by linarith⟩)
    rw [show z - z * n = z * (1 - n) by ring]
    linarith
  · have := key x (1 - s * n) fa (abs_le.2 ⟨by nlinarith, by linarith⟩)
    rw [show x - (x * n * s + e * c) = x * (1 - s * n) - e * c by ring]
    linarith [abs_sub (x * (1 - s * n)) (e * c)]

/-- The entries in the band, `σ` being the sign of the pitch. -/
theorem band_entries {M : Homo ℝ} (h : Transform M) {σ m p : ℝ} (hσ : σ = 1 ∨ σ = -1) (hm : m ^ 2 = M 2 1 ^ 2 + M 2 2 ^ 2) (h0 : 0 ≤ m)
    (hc : Real.cos p = m) (hs : Real.sin p = -M 2 0) (hp1 : -(Real.pi / 2) ≤ p) (hp2 : p ≤ Real.pi / 2)
    (hσp : |p - σ * (Real.pi / 2)| < 0.001) :
    m < 0.001 ∧ ∀ i j, |explicit ![M 0 3, M 1 3, M 2 3] (σ * atan2 (M 0 1) (M 1 1)) p 0 i j - M i j| ≤ 2 * m := by
  obtain ⟨c00, c11, c22, c01, c02, c12, r00, r11, r22, r01, r02, r12⟩ := h.1.entries
  obtain ⟨f00, f01, f02, f10, f11, f12, f20, f21, f22⟩ := h.1.cofactors
  simp only [Matrix.submatrix_apply] at c00 c11 r22 f02 f12
  change M 0 0 * M 0 0 + M 1 0 * M 1 0 + M 2 0 * M 2 0 = 1 at c00
  change M 0 1 * M 0 1 + M 1 1 * M 1 1 + M 2 1 * M 2 1 = 1 at c11
  change M 2 0 * M 2 0 + M 2 1 * M 2 1 + M 2 2 * M 2 2 = 1 at r22
  change M 0 2 = M 1 0 * M 2 1 - M 1 1 * M 2 0 at f02
  change M 1 2 = M 0 1 * M 2 0 - M 0 0 * M 2 1 at f12
  have hcos : m < 0.001 := by
    have e : m = Real.cos (p - σ * (Real.pi / 2) + σ * (Real.pi / 2)) := by rw [sub_add_cancel, hc]
    have : m = -σ * Real.sin (p - σ * (Real.pi / 2)) := by
      rw [e, Real.cos_add]
      rcases hσ with rfl | rfl <;> simp
    rw [this]
    have hab : |Real.sin (p - σ * (Real.pi / 2))| ≤ |p - σ * (Real.pi / 2)| := Real.abs_sin_le_abs
    have := neg_abs_le (Real.sin (p - σ * (Real.pi / 2)))
    have := le_abs_self (Real.sin (p - σ * (Real.pi / 2)))
    rcases hσ with rfl | rfl <;> linarith
  have hm1 : m < 1 := by linarith [show (0.001 : ℝ) < 1 by norm_num]
  have hσσ : σ * σ = 1 := by rcases hσ with rfl | rfl <;> norm_num
  have hs2 : Real.sin p ^ 2 = 1 - m ^ 2 := by rw [← hc]; linarith [Real.sin_sq_add_cos_sq p]
  have hsσ : 0 ≤ σ * Real.sin p := by
    rcases hσ with rfl | rfl
    · rw [one_mul]
      apply Real.sin_nonneg_of_nonneg_of_le_pi
      · have := (abs_lt.1 hσp).1; linarith [Real.pi_gt_three]
      · linarith [Real.pi_pos]
    · have : Real.sin p ≤ 0 := by
        apply Real.sin_nonpos_of_nonpos_of_neg_pi_le
        · have := (abs_lt.1 hσp).2; linarith [Real.pi_gt_three]
        · linarith [Real.pi_pos]
      linarith
  have habs : ∀ x y : ℝ, 0 ≤ y → x ^ 2 ≤ y ^ 2 → |x| ≤ y := fun x y hy hxy => abs_le_of_sq_le_sq hxy hy
  have q20 : M 2 0 * M 2 0 = 1 - m ^ 2 := by rw [hm]; linarith
  have b21 : |M 2 1| ≤ m := habs _ _ h0 (by rw [hm]; linarith [sq_nonneg (M 2 2)])
  have b22 : |M 2 2| ≤ m := habs _ _ h0 (by rw [hm]; linarith [sq_nonneg (M 2 1)])
  have b00 : |M 0 0| ≤ m := habs _ _ h0 (by rw [sq (M 0 0)]; linarith [mul_self_nonneg (M 1 0)])
  have b10 : |M 1 0| ≤ m := habs _ _ h0 (by rw [sq (M 1 0)]; linarith [mul_self_nonneg (M 0 0)])
  have hmsq : m ^ 2 < 1 := by
    have := mul_lt_mul'' hm1 hm1 h0 h0
    rw [sq]; linarith
  have hnn : 0 < 1 - M 2 1 ^ 2 := by linarith [sq_nonneg (M 2 2)]
  have hn : 0 < Real.sqrt (1 - M 2 1 ^ 2) := Real.sqrt_pos.2 hnn
  have hn2 : Real.sqrt (1 - M 2 1 ^ 2) ^ 2 = 1 - M 2 1 ^ 2 := Real.sq_sqrt hnn.le
  generalize Real.sqrt (1 - M 2 1 ^ 2) = n at hn hn2
  have b01 : |M 0 1| ≤ n := habs _ _ hn.le (by rw [hn2, sq, sq]; linarith [mul_self_nonneg (M 1 1)])
  have b11 : |M 1 1| ≤ n := habs _ _ hn.le (by rw [hn2, sq, sq]; linarith [mul_self_nonneg (M 0 1)])
  obtain ⟨x1, x2⟩ := atan2_cos_sin (M 1 1) (M 0 1) n hn (by rw [hn2]; linarith)
  have e1 : Real.cos (σ * atan2 (M 0 1) (M 1 1)) = M 1 1 / n := by
    have : Real.cos (σ * atan2 (M 0 1) (M 1 1)) = Real.cos (atan2 (M 0 1) (M 1 1)) := by
      rcases hσ with rfl | rfl <;> simp
    rw [this]; field_simp; linarith
  have e2 : Real.sin (σ * atan2 (M 0 1) (M 1 1)) = σ * (M 0 1 / n) := by
    have : Real.sin (σ * atan2 (M 0 1) (M 1 1)) = σ * Real.sin (atan2 (M 0 1) (M 1 1)) := by
      rcases hσ with rfl | rfl <;> simp
    rw [this]
    congr 1
    field_simp; linarith
  have hx1 : |Real.cos (σ * atan2 (M 0 1) (M 1 1))| ≤ 1 := Real.abs_cos_le_one _
  have hx2 : |Real.sin (σ * atan2 (M 0 1) (M 1 1))| ≤ 1 := Real.abs_sin_le_one _
  -- the estimates with a = M01, b = M11, up to the sign
  obtain ⟨k1, k2, k3, k4⟩ := band_bounds (m := m) (n := n) (s := σ * Real.sin p) (a := M 0 1) (b := M 1 1) (c := M 2 1)
    (d := σ * M 1 0) (e := σ * M 0 0) h0 hm1 hn hn2 b21 hsσ (by rw [mul_pow, hs2, sq σ, hσσ, one_mul]) b01 b11
    (by rw [abs_mul]; rcases hσ with rfl | rfl <;> simpa using b10)
    (by rcases hσ with rfl | rfl <;> simpa using b00)
  have habsσ : ∀ x : ℝ, |σ * x| = |x| := by intro x; rcases hσ with rfl | rfl <;> simp
  refine ⟨hcos, ?_⟩
  intro i j
  obtain ⟨a0, a1, a2, a3⟩ := h.2
  fin_cases i <;> fin_cases j
  · show |Real.cos 0 * Real.cos p - M 0 0| ≤ _
    rw [Real.cos_zero, one_mul, hc]
    have := abs_le.1 b00
    exact abs_le.2 ⟨by linarith, by linarith⟩
  · show |Real.cos 0 * Real.sin p * Real.sin _ - Real.sin 0 * Real.cos _ - M 0 1| ≤ _
    rw [Real.cos_zero, Real.sin_zero, one_mul, zero_mul, sub_zero, e2]
    rw [show Real.sin p * (σ * (M 0 1 / n)) - M 0 1 = σ * Real.sin p * (M 0 1 / n) - M 0 1 by ring]
    exact k1
  · show |Real.cos 0 * Real.sin p * Real.cos _ + Real.sin 0 * Real.sin _ - M 0 2| ≤ _
    rw [Real.cos_zero, Real.sin_zero, one_mul, zero_mul, add_zero, e1, f02]
    rw [← habsσ]
    have : σ * (Real.sin p * (M 1 1 / n) - (M 1 0 * M 2 1 - M 1 1 * M 2 0)) =
        σ * Real.sin p * (M 1 1 / n) - (σ * M 1 0 * M 2 1 + M 1 1 * (σ * Real.sin p)) := by rw [hs]; ring
    rw [this]
    exact k2
  · show |![M 0 3, M 1 3, M 2 3] 0 - M 0 3| ≤ _
    simp; exact h0
  · show |Real.sin 0 * Real.cos p - M 1 0| ≤ _
    rw [Real.sin_zero, zero_mul, zero_sub, abs_neg]
    linarith
  · show |Real.sin 0 * Real.sin p * Real.sin _ + Real.cos 0 * Real.cos _ - M 1 1| ≤ _
    rw [Real.cos_zero, Real.sin_zero, one_mul, zero_mul, zero_mul, zero_add, e1]
    exact k3
  · show |Real.sin 0 * Real.sin p * Real.cos _ - Real.cos 0 * Real.sin _ - M 1 2| ≤ _
    rw [Real.cos_zero, Real.sin_zero, one_mul, zero_mul, zero_mul, zero_sub, e2, f12]
    rw [← habsσ]
    have : σ * (-(σ * (M 0 1 / n)) - (M 0 1 * M 2 0 - M 0 0 * M 2 1)) =
        -(M 0 1 / n - (M 0 1 * (σ * Real.sin p) + σ * M 0 0 * M 2 1)) := by
      rw [hs]
      linear_combination (-(M 0 1 / n)) * hσσ
    rw [this, abs_neg]
    exact k4
  · show |![M 0 3, M 1 3, M 2 3] 1 - M 1 3| ≤ _
    simp; exact h0
  · show |-Real.sin p - M 2 0| ≤ _
    rw [hs]; simp; exact h0
  · show |Real.cos p * Real.sin _ - M 2 1| ≤ _
    rw [hc]
    have h1 : |m * Real.sin (σ * atan2 (M 0 1) (M 1 1))| ≤ m := by
      rw [abs_mul, abs_of_nonneg h0]; exact mul_le_of_le_one_right h0 (by assumption)
    linarith [abs_sub (m * Real.sin (σ * atan2 (M 0 1) (M 1 1))) (M 2 1)]
  · show |Real.cos p * Real.cos _ - M 2 2| ≤ _
    rw [hc]
    have h1 : |m * Real.cos (σ * atan2 (M 0 1) (M 1 1))| ≤ m := by
      rw [abs_mul, abs_of_nonneg h0]; exact mul_le_of_le_one_right h0 (by assumption)
    linarith [abs_sub (m * Real.cos (σ * atan2 (M 0 1) (M 1 1))) (M 2 2)]
  · show |![M 0 3, M 1 3, M 2 3] 2 - M 2 3| ≤ _
    simp; exact h0
  · show |0 - M 3 0| ≤ _
    rw [a0]; simp; exact h0
  · show |0 - M 3 1| ≤ _
    rw [a1]; simp; exact h0
  · show |0 - M 3 2| ≤ _
    rw [a2]; simp; exact h0
  · show |1 - M 3 3| ≤ _
    rw [a3]; simp; exact h0

/-- **C111.** In the band each entry of the rotation found by converting to angles and back differs from the given one by at most twice the
cosine of the pitch, which is less than two thousandths; the position is the same. At the pole itself the result is exact. -/
theorem C111_band_error (M : Homo ℝ) (h : Transform M) (hb : InBand (matrixToRPY M 4)) :
    ∃ N, RPYToMatrix (matrixToRPY M) = .ok N ∧ (∀ i j, |N i j - M i j| ≤ 2 * Real.cos (matrixToRPY M 4)) ∧
      2 * Real.cos (matrixToRPY M 4) < 0.002 ∧ (∀ i : Fin 3, N i.castSucc 3 = M i.castSucc 3) ∧ Affine N ∧
      (|matrixToRPY M 4| = Real.pi / 2 → N = M) ∧ matrixToRPY M 5 = 0 := by
  obtain ⟨hc, hs, hm, h0, hp1, hp2⟩ := pitch_spec h
  have hpd : matrixToRPY M 4 = atan2 (-M 2 0) (Real.sqrt (M 2 1 ^ 2 + M 2 2 ^ 2)) := by
    show (tr2rpy M).2.1 = _
    simp only [tr2rpy]
    split
    · rfl
    · split <;> rfl
  rw [hpd] at hb ⊢
  -- the sign of the band
  have hbig : ∀ p : ℝ, |p - Real.pi / 2| < 0.001 → ¬ |p + Real.pi / 2| < 0.001 := by
    intro p h1 h2
    have := abs_lt.1 h1
    have := abs_lt.1 h2
    linarith [Real.pi_gt_three]
  obtain ⟨σ, hσ, htr, hσp⟩ : ∃ σ : ℝ, (σ = 1 ∨ σ = -1) ∧
      tr2rpy M = (0, atan2 (-M 2 0) (Real.sqrt (M 2 1 ^ 2 + M 2 2 ^ 2)), σ * atan2 (M 0 1) (M 1 1)) ∧
      |atan2 (-M 2 0) (Real.sqrt (M 2 1 ^ 2 + M 2 2 ^ 2)) - σ * (Real.pi / 2)| < 0.001 := by
    rcases hb with hb | hb
    · exact ⟨1, Or.inl rfl, by simp only [tr2rpy, if_pos hb, one_mul], by simpa using hb⟩
    · refine ⟨-1, Or.inr rfl, ?_, by simpa using hb⟩
      have : ¬ |atan2 (-M 2 0) (Real.sqrt (M 2 1 ^ 2 + M 2 2 ^ 2)) - Real.pi / 2| < 0.001 := fun h => hbig _ h hb
      simp only [tr2rpy, if_neg this, if_pos hb]
      simp
  have hmat : matrixToRPY M = ![M 0 3, M 1 3, M 2 3, σ * atan2 (M 0 1) (M 1 1),
      atan2 (-M 2 0) (Real.sqrt (M 2 1 ^ 2 + M 2 2 ^ 2)), 0] := by
    simp only [matrixToRPY, htr]
  generalize hmm : Real.sqrt (M 2 1 ^ 2 + M 2 2 ^ 2) = m at *
  generalize hpp : atan2 (-M 2 0) m = p at *
  obtain ⟨hcos, hN⟩ := band_entries h hσ hm h0 hc hs hp1 hp2 hσp
  refine ⟨explicit ![M 0 3, M 1 3, M 2 3] (σ * atan2 (M 0 1) (M 1 1)) p 0, ?_, ?_, ?_, ?_, explicit_affine _ _ _ _, ?_, ?_⟩
  · rw [RPYToMatrix_eq, hmat]
    rfl
  · rw [hc]; exact hN
  · rw [hc]; linarith [show (0.002 : ℝ) = 2 * 0.001 by norm_num]
  · intro i; fin_cases i <;> rfl
  · intro hpole
    have hm00 : m = 0 := by
      rw [← hc, ← Real.cos_abs, hpole, Real.cos_pi_div_two]
    ext i j
    have := hN i j
    rw [hm00, mul_zero] at this
    have := abs_nonpos_iff.1 this
    linarith
  · rw [hmat]; rfl

/-- The angles of a composed matrix: the pitch, when it is between minus a quarter turn and a quarter turn. -/
theorem tr2rpy_explicit (t : Fin 3 → ℝ) (r p y : ℝ) (hp1 : -(Real.pi / 2) ≤ p) (hp2 : p ≤ Real.pi / 2) :
    atan2 (-explicit t r p y 2 0) (Real.sqrt (explicit t r p y 2 1 ^ 2 + explicit t r p y 2 2 ^ 2)) = p := by
  have hc : 0 ≤ Real.cos p := Real.cos_nonneg_of_neg_pi_div_two_le_of_le hp1 hp2
  have h1 : explicit t r p y 2 1 ^ 2 + explicit t r p y 2 2 ^ 2 = Real.cos p ^ 2 := by
    show (Real.cos p * Real.sin r) ^ 2 + (Real.cos p * Real.cos r) ^ 2 = _
    have := Real.sin_sq_add_cos_sq r
    linear_combination Real.cos p ^ 2 * this
  rw [h1, Real.sqrt_sq hc]
  show atan2 (- -Real.sin p) (Real.cos p) = p
  rw [neg_neg]
  have := atan2_of_cos_sin 1 p one_pos (by linarith [Real.pi_pos]) (by linarith [Real.pi_pos])
  simpa using this

/-- **C111.** The angles of a pose whose roll and yaw are in a turn and whose pitch is between the bands are found again. -/
theorem C111_angles_roundtrip (v : Fin 6 → ℝ) (hr1 : -Real.pi < v 3) (hr2 : v 3 ≤ Real.pi) (hy1 : -Real.pi < v 5) (hy2 : v 5 ≤ Real.pi)
    (hp1 : -(Real.pi / 2) ≤ v 4) (hp2 : v 4 ≤ Real.pi / 2) (hb : ¬ InBand (v 4)) :
    ∃ M, RPYToMatrix v = .ok M ∧ matrixToRPY M = v := by
  refine ⟨_, RPYToMatrix_eq v, ?_⟩
  have hp := tr2rpy_explicit ![v 0, v 1, v 2] (v 3) (v 4) (v 5) hp1 hp2
  obtain ⟨hb1, hb2⟩ := not_or.1 hb
  have hc : 0 < Real.cos (v 4) := by
    rcases (Real.cos_nonneg_of_neg_pi_div_two_le_of_le hp1 hp2).lt_or_eq with h | h
    · exact h
    · exfalso
      rcases hp2.lt_or_eq with h2 | h2
      · rcases hp1.lt_or_eq with h1 | h1
        · exact absurd (Real.cos_pos_of_mem_Ioo ⟨h1, h2⟩) (by rw [← h]; exact lt_irrefl _)
        · exact hb2 (by rw [← h1]; norm_num)
      · exact hb1 (by rw [h2]; norm_num)
  have hy : atan2 (Real.sin (v 5) * Real.cos (v 4)) (Real.cos (v 5) * Real.cos (v 4)) = v 5 := by
    rw [mul_comm, mul_comm (Real.cos (v 5))]; exact atan2_of_cos_sin _ _ hc hy1 hy2
  have hr : atan2 (Real.cos (v 4) * Real.sin (v 3)) (Real.cos (v 4) * Real.cos (v 3)) = v 3 := atan2_of_cos_sin _ _ hc hr1 hr2
  have htr : tr2rpy (explicit ![v 0, v 1, v 2] (v 3) (v 4) (v 5)) = (v 5, v 4, v 3) := by
    simp only [tr2rpy, hp, if_neg hb1, if_neg hb2]
    exact Prod.ext hy (Prod.ext rfl hr)
  simp only [matrixToRPY, htr]
  funext i
  fin_cases i <;> rfl

/-- **C111, counterexample.** The function documented as giving roll, pitch and yaw gives yaw, pitch and roll. -/
theorem C111_order_counterexample (r p y : ℝ) (hr1 : -Real.pi < r) (hr2 : r ≤ Real.pi) (hy1 : -Real.pi < y) (hy2 : y ≤ Real.pi)
    (hp1 : -(Real.pi / 2) ≤ p) (hp2 : p ≤ Real.pi / 2) (hb : ¬ InBand p) :
    ∃ M, rpy2tr r p y = .ok M ∧ tr2rpy M = (y, p, r) := by
  obtain ⟨M, h1, h2⟩ := C111_angles_roundtrip ![0, 0, 0, r, p, y] hr1 hr2 hy1 hy2 hp1 hp2 hb
  rw [RPYToMatrix_eq] at h1
  injection h1 with h1
  subst h1
  refine ⟨_, rpy2tr_eq r p y, ?_⟩
  have e : explicit 0 r p y = explicit ![(![0, 0, 0, r, p, y] : Fin 6 → ℝ) 0, (![0, 0, 0, r, p, y] : Fin 6 → ℝ) 1,
      (![0, 0, 0, r, p, y] : Fin 6 → ℝ) 2] r p y := by
    congr 1; funext i; fin_cases i <;> rfl
  rw [e]
  have a := congrFun h2 5
  have b := congrFun h2 4
  have c := congrFun h2 3
  exact Prod.ext a (Prod.ext b c)

/-- **C111, counterexample.** At every pitch of the band other than the pole there is a pose that the conversion to angles and back changes. -/
theorem C111_band_counterexample (p : ℝ) (hp1 : Real.pi / 2 - 0.001 < p) (hp2 : p < Real.pi / 2) :
    ∃ M N, RPYToMatrix ![0, 0, 0, 0, p, Real.pi / 2] = .ok M ∧ RPYToMatrix (matrixToRPY M) = .ok N ∧ N ≠ M := by
  refine ⟨_, _, RPYToMatrix_eq _, RPYToMatrix_eq _, ?_⟩
  show explicit _ _ _ _ ≠ explicit ![0, 0, 0] 0 p (Real.pi / 2)
  have hq1 : -(Real.pi / 2) ≤ p := by linarith [Real.pi_gt_three]
  have hp := tr2rpy_explicit ![0, 0, 0] 0 p (Real.pi / 2) hq1 hp2.le
  have hb : |p - Real.pi / 2| < 0.001 := by rw [abs_lt]; constructor <;> linarith
  have htr : tr2rpy (explicit ![0, 0, 0] 0 p (Real.pi / 2)) = (0, p, atan2 (explicit ![0, 0, 0] 0 p (Real.pi / 2) 0 1) (explicit ![0, 0, 0] 0 p (Real.pi / 2) 1 1)) := by
    simp only [tr2rpy, hp, if_pos hb]
  intro e
  have e0 := congrFun (congrFun e 0) 0
  change Real.cos (tr2rpy (explicit ![0, 0, 0] 0 p (Real.pi / 2))).1 * Real.cos (tr2rpy (explicit ![0, 0, 0] 0 p (Real.pi / 2))).2.1 =
    Real.cos (Real.pi / 2) * Real.cos p at e0
  rw [htr, Real.cos_pi_div_two, zero_mul] at e0
  simp only [Real.cos_zero, one_mul] at e0
  have := Real.cos_pos_of_mem_Ioo ⟨by linarith [Real.pi_gt_three], hp2⟩
  linarith

/-! ### The other functions -/

/-- **C111.** The distance vector goes from the position of the first argument to that of the second; it is zero exactly for equal positions. -/
theorem C111_distance (A B : Homo ℝ) :
    (∀ i : Fin 3, A i.castSucc 3 + distVector A B i = B i.castSucc 3) ∧ distVector B A = -distVector A B ∧
    (distVector A B = 0 ↔ ∀ i : Fin 3, A i.castSucc 3 = B i.castSucc 3) := by
  have h : ∀ i : Fin 3, distVector A B i = B i.castSucc 3 - A i.castSucc 3 := by intro i; fin_cases i <;> rfl
  have h' : ∀ i : Fin 3, distVector B A i = A i.castSucc 3 - B i.castSucc 3 := by intro i; fin_cases i <;> rfl
  refine ⟨fun i => by rw [h]; ring, by funext i; rw [h']; simp [h], fun e i => ?_, fun e => ?_⟩
  · have := congrFun e i
    rw [h] at this
    simp at this
    linarith
  · funext i
    rw [h, e]; simp

/-- **C111.** The matrix of a unit quaternion is a rotation, the one that the operators of the library compute. -/
theorem C111_quaternion (q : Fin 4 → ℝ) (hq : q 0 ^ 2 + q 1 ^ 2 + q 2 ^ 2 + q 3 ^ 2 = 1) :
    IsRot (quaternionToMatrix q) ∧ quaternionToMatrix q = (Quat.mk (q 3) (q 0) (q 1) (q 2)).toRot := by
  have e : quaternionToMatrix q = (Quat.mk (q 3) (q 0) (q 1) (q 2)).toRot := by
    ext i j
    fin_cases i <;> fin_cases j <;> simp [quaternionToMatrix, Quat.toRot] <;> ring
  refine ⟨?_, e⟩
  rw [e]
  exact C70_unit_quaternion_rotation _ (by simp only [Quat.sqNorm]; linarith)

theorem inner3_sqrt (u : Fin 3 → ℝ) : 0 ≤ inner3 u u := by
  unfold inner3; nlinarith [mul_self_nonneg (u 0), mul_self_nonneg (u 1), mul_self_nonneg (u 2)]

theorem normalise_cases (u : Fin 3 → ℝ) : (u = 0 ∧ normalise u = .ub) ∨
    ∃ e n, normalise u = .ok e ∧ 0 < n ∧ u = (fun i => n * e i) ∧ inner3 e e = 1 ∧ n ^ 2 = inner3 u u := by
  by_cases h : Real.sqrt (inner3 u u) = 0
  · left
    refine ⟨?_, by simp only [normalise, if_pos h]⟩
    have h2 := (Real.sqrt_eq_zero (inner3_sqrt u)).1 h
    unfold inner3 at h2
    funext i
    fin_cases i
    · show u 0 = 0; nlinarith [mul_self_nonneg (u 0), mul_self_nonneg (u 1), mul_self_nonneg (u 2)]
    · show u 1 = 0; nlinarith [mul_self_nonneg (u 0), mul_self_nonneg (u 1), mul_self_nonneg (u 2)]
    · show u 2 = 0; nlinarith [mul_self_nonneg (u 0), mul_self_nonneg (u 1), mul_self_nonneg (u 2)]
  · right
    have hpos : 0 < Real.sqrt (inner3 u u) := lt_of_le_of_ne (Real.sqrt_nonneg _) (Ne.symm h)
    have hsq : Real.sqrt (inner3 u u) ^ 2 = inner3 u u := Real.sq_sqrt (inner3_sqrt u)
    refine ⟨fun i => u i / Real.sqrt (inner3 u u), Real.sqrt (inner3 u u), by simp only [normalise, if_neg h], hpos, ?_, ?_, hsq⟩
    · funext i; field_simp
    · generalize Real.sqrt (inner3 u u) = n at *
      simp only [inner3] at hsq ⊢
      field_simp
      linarith

/-- **C111.** Given three independent vectors the generated matrix is orthogonal, its first column is the first vector divided by its norm, and
its determinant has the sign of that of the three vectors; on dependent vectors there is a division by zero. -/
theorem C111_orthonormal (v1 v2 v3 : Fin 3 → ℝ) :
    (Matrix.det !![v1 0, v2 0, v3 0; v1 1, v2 1, v3 1; v1 2, v2 2, v3 2] = 0 ∧ generateOrthonormalM v1 v2 v3 = .ub) ∨
    ∃ M n, generateOrthonormalM v1 v2 v3 = .ok M ∧ Mᵀ * M = 1 ∧ 0 < n ∧ n ^ 2 = v1 0 ^ 2 + v1 1 ^ 2 + v1 2 ^ 2 ∧
      (∀ i, v1 i = n * M i 0) ∧
      (0 < Matrix.det !![v1 0, v2 0, v3 0; v1 1, v2 1, v3 1; v1 2, v2 2, v3 2] ∧ M.det = 1 ∨
        Matrix.det !![v1 0, v2 0, v3 0; v1 1, v2 1, v3 1; v1 2, v2 2, v3 2] < 0 ∧ M.det = -1) := by
  have hdet : ∀ a b c : Fin 3 → ℝ, Matrix.det !![a 0, b 0, c 0; a 1, b 1, c 1; a 2, b 2, c 2] =
      a 0 * b 1 * c 2 - a 0 * c 1 * b 2 - b 0 * a 1 * c 2 + b 0 * c 1 * a 2 + c 0 * a 1 * b 2 - c 0 * b 1 * a 2 := by
    intro a b c; rw [Matrix.det_fin_three]; simp
  rcases normalise_cases v1 with ⟨h1, e1⟩ | ⟨a, n1, e1, hn1, hv1, ha, hq1⟩
  · left
    refine ⟨?_, by simp only [generateOrthonormalM, e1, Outcome.bind]⟩
    rw [hdet, h1]; simp
  rcases normalise_cases (fun i => v2 i - inner3 v2 a * a i) with ⟨h2, e2⟩ | ⟨b, n2, e2, hn2, hv2, hb, hq2⟩
  · left
    refine ⟨?_, by simp only [generateOrthonormalM, e1, e2, Outcome.bind]⟩
    have k : ∀ i, v2 i = inner3 v2 a * a i := fun i => by have := congrFun h2 i; simp at this; linarith
    rw [hdet, k 0, k 1, k 2, hv1]; ring
  have kb : ∀ i, v2 i = inner3 v2 a * a i + n2 * b i := fun i => by
    have := congrFun hv2 i; linarith
  have hab : inner3 a b = 0 := by
    have : n2 * inner3 a b = 0 := by
      have h : n2 * inner3 a b = inner3 a v2 - inner3 v2 a * inner3 a a := by
        have : inner3 a v2 = a 0 * (inner3 v2 a * a 0 + n2 * b 0) + a 1 * (inner3 v2 a * a 1 + n2 * b 1) +
            a 2 * (inner3 v2 a * a 2 + n2 * b 2) := by
          rw [← kb 0, ← kb 1, ← kb 2]; rfl
        rw [this]
        simp only [inner3]
        ring
      rw [h, ha]
      simp only [inner3]; ring
    rcases mul_eq_zero.1 this with h | h
    · exact absurd h hn2.ne'
    · exact h
  rcases normalise_cases (fun i => v3 i - inner3 v3 a * a i - inner3 v3 b * b i) with ⟨h3, e3⟩ | ⟨c, n3, e3, hn3, hv3, hc, hq3⟩
  · left
    refine ⟨?_, by simp only [generateOrthonormalM, e1, e2, e3, Outcome.bind]⟩
    have k : ∀ i, v3 i = inner3 v3 a * a i + inner3 v3 b * b i := fun i => by have := congrFun h3 i; simp at this; linarith
    rw [hdet, k 0, k 1, k 2, kb 0, kb 1, kb 2, hv1]; ring
  have kc : ∀ i, v3 i = inner3 v3 a * a i + inner3 v3 b * b i + n3 * c i := fun i => by
    have := congrFun hv3 i; linarith
  have hac : inner3 a c = 0 := by
    have : n3 * inner3 a c = 0 := by
      have h : n3 * inner3 a c = inner3 a v3 - inner3 v3 a * inner3 a a - inner3 v3 b * inner3 a b := by
        have : inner3 a v3 = a 0 * (inner3 v3 a * a 0 + inner3 v3 b * b 0 + n3 * c 0) +
            a 1 * (inner3 v3 a * a 1 + inner3 v3 b * b 1 + n3 * c 1) + a 2 * (inner3 v3 a * a 2 + inner3 v3 b * b 2 + n3 * c 2) := by
          rw [← kc 0, ← kc 1, ← kc 2]; rfl
        rw [this]
        simp only [inner3]
        ring
      rw [h, ha, hab]
      simp only [inner3]; ring
    rcases mul_eq_zero.1 this with h | h
    · exact absurd h hn3.ne'
    · exact h
  have hbc : inner3 b c = 0 := by
    have : n3 * inner3 b c = 0 := by
      have h : n3 * inner3 b c = inner3 b v3 - inner3 v3 a * inner3 a b - inner3 v3 b * inner3 b b := by
        have : inner3 b v3 = b 0 * (inner3 v3 a * a 0 + inner3 v3 b * b 0 + n3 * c 0) +
            b 1 * (inner3 v3 a * a 1 + inner3 v3 b * b 1 + n3 * c 1) + b 2 * (inner3 v3 a * a 2 + inner3 v3 b * b 2 + n3 * c 2) := by
          rw [← kc 0, ← kc 1, ← kc 2]; rfl
        rw [this]
        simp only [inner3]
        ring
      rw [h, hb, hab]
      simp only [inner3]; ring
    rcases mul_eq_zero.1 this with h | h
    · exact absurd h hn3.ne'
    · exact h
  right
  refine ⟨!![a 0, b 0, c 0; a 1, b 1, c 1; a 2, b 2, c 2], n1, by simp only [generateOrthonormalM, e1, e2, e3, Outcome.bind], ?_, hn1, ?_, ?_, ?_⟩
  · simp only [inner3] at ha hb hc hab hac hbc
    ext i j
    fin_cases i <;> fin_cases j <;> simp [Matrix.mul_apply, Fin.sum_univ_three] <;> linarith
  · rw [hq1]; simp only [inner3]; ring
  · intro i
    rw [hv1]
    fin_cases i <;> rfl
  · have hmul : Matrix.det !![v1 0, v2 0, v3 0; v1 1, v2 1, v3 1; v1 2, v2 2, v3 2] =
        (n1 * n2 * n3) * Matrix.det !![a 0, b 0, c 0; a 1, b 1, c 1; a 2, b 2, c 2] := by
      rw [hdet, hdet, kc 0, kc 1, kc 2, kb 0, kb 1, kb 2, hv1]; ring
    have hpos : 0 < n1 * n2 * n3 := by positivity
    have hsq : Matrix.det !![a 0, b 0, c 0; a 1, b 1, c 1; a 2, b 2, c 2] ^ 2 = 1 := by
      have : (!![a 0, b 0, c 0; a 1, b 1, c 1; a 2, b 2, c 2] : Matrix (Fin 3) (Fin 3) ℝ)ᵀ * !![a 0, b 0, c 0; a 1, b 1, c 1; a 2, b 2, c 2] = 1 := by
        simp only [inner3] at ha hb hc hab hac hbc
        ext i j
        fin_cases i <;> fin_cases j <;> simp [Matrix.mul_apply, Fin.sum_univ_three] <;> linarith
      have := congrArg Matrix.det this
      rw [Matrix.det_mul, Matrix.det_transpose, Matrix.det_one] at this
      rw [sq]; exact this
    rw [hmul]
    rcases sq_eq_one_iff.1 hsq with h | h
    · left; rw [h]; exact ⟨by linarith, rfl⟩
    · right; rw [h]; exact ⟨by linarith, rfl⟩

/-- **C111, counterexample.** The matrix, documented as a rotation, is a reflection for some values of the random vectors. -/
theorem C111_reflection_counterexample :
    ∃ M, generateOrthonormalM ![1, 0, 0] ![0, 0, 1 / 2] ![0, 1 / 2, 0] = .ok M ∧ M.det = -1 := by
  rcases C111_orthonormal ![1, 0, 0] ![0, 0, 1 / 2] ![0, 1 / 2, 0] with ⟨h, _⟩ | ⟨M, n, h, _, _, _, _, ⟨hd, _⟩ | ⟨_, hd⟩⟩
  · rw [Matrix.det_fin_three] at h; simp at h
  · rw [Matrix.det_fin_three] at hd; simp at hd; norm_num at hd
  · exact ⟨M, h, hd⟩

/-- A pose with a pitch outside of the band, and one at the pole. -/
theorem C111_case : ¬ InBand 0 ∧ InBand (Real.pi / 2) ∧ Transform 1 := by
  refine ⟨?_, Or.inl (by norm_num), ?_, rfl, rfl, rfl, rfl⟩
  · rintro (h | h)
    · rw [zero_sub, abs_neg, abs_of_pos (by positivity)] at h
      linarith [Real.pi_gt_three]
    · rw [zero_add, abs_of_pos (by positivity)] at h
      linarith [Real.pi_gt_three]
  · have : ((1 : Homo ℝ).submatrix Fin.castSucc Fin.castSucc : Matrix (Fin 3) (Fin 3) ℝ) = 1 := by
      ext i j; fin_cases i <;> fin_cases j <;> rfl
    rw [this]; exact isRot_one

end Verif.MatrixUtil
