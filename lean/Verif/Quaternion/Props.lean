import Verif.Quaternion.Model
import Mathlib.LinearAlgebra.Matrix.Adjugate
import Mathlib.LinearAlgebra.Matrix.NonsingularInverse
import Mathlib.Analysis.SpecialFunctions.Trigonometric.Bounds
import Mathlib.Tactic.LinearCombination
import Mathlib.Tactic.FieldSimp

/-!
# C139: quaternions and rotation matrices
-/

namespace Verif.Quaternion

open Matrix

/-- A rotation: the rows are orthonormal, and the determinant is one. -/
def Rotation (R : Matrix (Fin 3) (Fin 3) ℝ) : Prop := R * Rᵀ = 1 ∧ R.det = 1

/-- The squared length. -/
def sq (q : Quat) : ℝ := q.r ^ 2 + q.x ^ 2 + q.y ^ 2 + q.z ^ 2

/-- **C139.** The matrix of a quaternion of length one is a rotation; in general it is a rotation times the squared length. -/
theorem C139_rotation (q : Quat) : toMatrix q * (toMatrix q)ᵀ = (sq q ^ 2) • (1 : Matrix (Fin 3) (Fin 3) ℝ) ∧ (toMatrix q).det = sq q ^ 3 ∧
    (sq q = 1 → Rotation (toMatrix q)) := by
  have h1 : toMatrix q * (toMatrix q)ᵀ = (sq q ^ 2) • (1 : Matrix (Fin 3) (Fin 3) ℝ) := by
    ext i j
    fin_cases i <;> fin_cases j <;> simp [toMatrix, sq, Matrix.mul_apply, Fin.sum_univ_three] <;> ring
  have h2 : (toMatrix q).det = sq q ^ 3 := by
    simp [toMatrix, sq, Matrix.det_fin_three]
    ring
  exact ⟨h1, h2, fun h => ⟨by rw [h1, h]; simp, by rw [h2, h]; simp⟩⟩

/-- **C139.** Written in a third object, the product has the product of the matrices, and the operands stay. -/
theorem C139_multiply {a b c : Nat} (ha : a ≠ c) (hb : b ≠ c) (m : Mem) :
    toMatrix (multiply a b c m c) = toMatrix (m a) * toMatrix (m b) ∧ sq (multiply a b c m c) = sq (m a) * sq (m b) ∧
      ∀ d, d ≠ c → multiply a b c m d = m d := by
  refine ⟨?_, ?_, fun d hd => by simp [multiply, Mem.write, hd]⟩
  · ext i j
    fin_cases i <;> fin_cases j <;>
      simp [multiply, Mem.write, ha, hb, toMatrix, Matrix.mul_apply, Fin.sum_univ_three] <;> ring
  · simp [multiply, Mem.write, ha, hb, sq]
    ring

/-- **C139.** The conjugate has the transposed matrix, whichever object it is written in. -/
theorem C139_conjugate (a c : Nat) (m : Mem) :
    toMatrix (conjugate a c m c) = (toMatrix (m a))ᵀ ∧ ∀ d, d ≠ c → conjugate a c m d = m d := by
  refine ⟨?_, fun d hd => by simp [conjugate, Mem.write, hd]⟩
  by_cases h : a = c
  · subst h
    ext i j
    fin_cases i <;> fin_cases j <;> simp [conjugate, Mem.write, toMatrix] <;> ring
  · ext i j
    fin_cases i <;> fin_cases j <;> simp [conjugate, Mem.write, h, toMatrix] <;> ring

/-- **C139.** Counterexample: written in one of its operands, the product is wrong: the first unit times the second, in the object of the first or
of the second. -/
theorem C139_multiply_alias_counterexample (m : Mem) (h0 : m 0 = ⟨0, 1, 0, 0⟩) (h1 : m 1 = ⟨0, 0, 1, 0⟩) :
    toMatrix (multiply 0 1 0 m 0) ≠ toMatrix (m 0) * toMatrix (m 1) ∧ toMatrix (multiply 0 1 1 m 1) ≠ toMatrix (m 0) * toMatrix (m 1) := by
  constructor
  · intro h
    have h2 := congrFun (congrFun h 2) 2
    simp [multiply, Mem.write, h0, h1, toMatrix, Matrix.mul_apply, Fin.sum_univ_three] at h2
  · intro h
    have h2 := congrFun (congrFun h 2) 2
    simp [multiply, Mem.write, h0, h1, toMatrix, Matrix.mul_apply, Fin.sum_univ_three] at h2

/-- The relations between the entries of a rotation. -/
theorem Rotation.entries {R : Matrix (Fin 3) (Fin 3) ℝ} (h : Rotation R) :
    (∀ i j, R i 0 * R j 0 + R i 1 * R j 1 + R i 2 * R j 2 = if i = j then 1 else 0) ∧
    (∀ i j, R 0 i * R 0 j + R 1 i * R 1 j + R 2 i * R 2 j = if i = j then 1 else 0) := by
  have h1 : R * Rᵀ = 1 := h.1
  have h2 : Rᵀ * R = 1 := mul_eq_one_comm.1 h1
  refine ⟨fun i j => ?_, fun i j => ?_⟩
  · have := congrFun (congrFun h1 i) j
    rw [Matrix.mul_apply, Fin.sum_univ_three, Matrix.one_apply] at this
    simpa only [Matrix.transpose_apply] using this
  · have := congrFun (congrFun h2 i) j
    rw [Matrix.mul_apply, Fin.sum_univ_three, Matrix.one_apply] at this
    simpa only [Matrix.transpose_apply] using this

/-- Each entry of a rotation is its cofactor. -/
theorem Rotation.cofactors {R : Matrix (Fin 3) (Fin 3) ℝ} (h : Rotation R) :
    R 0 0 = R 1 1 * R 2 2 - R 1 2 * R 2 1 ∧ R 0 1 = R 1 2 * R 2 0 - R 1 0 * R 2 2 ∧ R 0 2 = R 1 0 * R 2 1 - R 1 1 * R 2 0 ∧
    R 1 0 = R 2 1 * R 0 2 - R 2 2 * R 0 1 ∧ R 1 1 = R 2 2 * R 0 0 - R 2 0 * R 0 2 ∧ R 1 2 = R 2 0 * R 0 1 - R 2 1 * R 0 0 ∧
    R 2 0 = R 0 1 * R 1 2 - R 0 2 * R 1 1 ∧ R 2 1 = R 0 2 * R 1 0 - R 0 0 * R 1 2 ∧ R 2 2 = R 0 0 * R 1 1 - R 0 1 * R 1 0 := by
  have hd : Matrix.adjugate R = Rᵀ := by
    have h1 : R * Matrix.adjugate R = 1 := by rw [Matrix.mul_adjugate, h.2, one_smul]
    have h2 : Rᵀ * R = 1 := mul_eq_one_comm.1 h.1
    calc Matrix.adjugate R = Rᵀ * R * Matrix.adjugate R := by rw [h2, Matrix.one_mul]
      _ = Rᵀ := by rw [Matrix.mul_assoc, h1, Matrix.mul_one]
  have e : ∀ i j, R i j = Matrix.adjugate R j i := fun i j => by rw [hd]; rfl
  refine ⟨?_, ?_, ?_, ?_, ?_, ?_, ?_, ?_, ?_⟩ <;> (rw [e]; simp [Matrix.adjugate_fin_three]; try ring)

/-- **C139.** From a rotation that is not a half turn, and back. The quaternion has length one and a positive real part. -/
theorem C139_fromMatrix {R : Matrix (Fin 3) (Fin 3) ℝ} (h : Rotation R) (ht : 0 < 1 + R 0 0 + R 1 1 + R 2 2) :
    ∃ q, fromMatrix R = some q ∧ toMatrix q = R ∧ sq q = 1 ∧ 0 < q.r := by
  obtain ⟨s, hs, hs2⟩ : ∃ s : ℝ, 0 < s ∧ s = √(1 + R 0 0 + R 1 1 + R 2 2) := ⟨_, Real.sqrt_pos.2 ht, rfl⟩
  have hs3 : s ^ 2 = 1 + R 0 0 + R 1 1 + R 2 2 := by rw [hs2, Real.sq_sqrt ht.le]
  have hq : fromMatrix R = some ⟨s / 2, (R 2 1 - R 1 2) / (2 * s), (R 0 2 - R 2 0) / (2 * s), (R 1 0 - R 0 1) / (2 * s)⟩ := by
    unfold fromMatrix factor
    norm_num only
    rw [if_pos ht, if_pos ht, ← hs2]
    simp only [Option.map_some, Option.some.injEq, Quat.mk.injEq]
    refine ⟨?_, ?_, ?_, ?_⟩ <;> (field_simp; try norm_num)
  obtain ⟨c00, c01, c02, c10, c11, c12, c20, c21, c22⟩ := h.cofactors
  obtain ⟨hr, hc⟩ := h.entries
  have r00 := hr 0 0
  have r11 := hr 1 1
  have r22 := hr 2 2
  have r01 := hr 0 1
  have r02 := hr 0 2
  have r12 := hr 1 2
  have k00 := hc 0 0
  have k11 := hc 1 1
  have k22 := hc 2 2
  have k01 := hc 0 1
  have k02 := hc 0 2
  have k12 := hc 1 2
  simp at r00 r11 r22 r01 r02 r12 k00 k11 k22 k01 k02 k12
  have hs0 : s ≠ 0 := hs.ne'
  have aa : (R 2 1 - R 1 2) * (R 2 1 - R 1 2) = (1 + R 0 0 - R 1 1 - R 2 2) * s ^ 2 := by
    rw [hs3]; linear_combination (r11 + k11 + r22 + k22 - r00 - k00) / 2 - 2 * c00
  have bb : (R 0 2 - R 2 0) * (R 0 2 - R 2 0) = (1 - R 0 0 + R 1 1 - R 2 2) * s ^ 2 := by
    rw [hs3]; linear_combination (r00 + k00 + r22 + k22 - r11 - k11) / 2 - 2 * c11
  have cc : (R 1 0 - R 0 1) * (R 1 0 - R 0 1) = (1 - R 0 0 - R 1 1 + R 2 2) * s ^ 2 := by
    rw [hs3]; linear_combination (r00 + k00 + r11 + k11 - r22 - k22) / 2 - 2 * c22
  have ab : (R 2 1 - R 1 2) * (R 0 2 - R 2 0) = (R 0 1 + R 1 0) * s ^ 2 := by
    rw [hs3]; linear_combination -c10 - c01 - k01 - r01
  have bc : (R 0 2 - R 2 0) * (R 1 0 - R 0 1) = (R 1 2 + R 2 1) * s ^ 2 := by
    rw [hs3]; linear_combination -c21 - c12 - k12 - r12
  have ca : (R 1 0 - R 0 1) * (R 2 1 - R 1 2) = (R 0 2 + R 2 0) * s ^ 2 := by
    rw [hs3]; linear_combination -c02 - c20 - k02 - r02
  have div : ∀ a b c : ℝ, a * b = c * s ^ 2 → a / (2 * s) * (b / (2 * s)) = c / 4 := by
    intro a b c e
    rw [div_mul_div_comm, e]
    field_simp
    norm_num
  have half : ∀ a : ℝ, s / 2 * (a / (2 * s)) = a / 4 := by
    intro a
    rw [div_mul_div_comm, div_eq_div_iff (by positivity) (by norm_num)]
    ring
  have ss : s / 2 * (s / 2) = (1 + R 0 0 + R 1 1 + R 2 2) / 4 := by linear_combination hs3 / 4
  refine ⟨_, hq, ?_, ?_, by simp only; positivity⟩
  · ext i j
    fin_cases i <;> fin_cases j <;> simp only [toMatrix, div _ _ _ aa, div _ _ _ bb, div _ _ _ cc, div _ _ _ ab, div _ _ _ bc, div _ _ _ ca,
      half, ss] <;> simp <;> ring
  · simp only [sq, pow_two, div _ _ _ aa, div _ _ _ bb, div _ _ _ cc, ss]
    ring

/-- **C139.** Counterexample: from a half turn, the quaternion is never that of the rotation. -/
theorem C139_half_turn_counterexample {R : Matrix (Fin 3) (Fin 3) ℝ} (h : Rotation R) (ht : 1 + R 0 0 + R 1 1 + R 2 2 = 0) {q : Quat}
    (hq : fromMatrix R = some q) : toMatrix q ≠ R := by
  intro he
  have h1 : sq q = 1 := by
    have h2 : sq q ^ 3 = 1 := by rw [← (C139_rotation q).2.1, he, h.2]
    exact (pow_eq_one_iff_of_nonneg (by unfold sq; positivity) (by norm_num)).1 h2
  unfold sq at h1
  obtain ⟨r, x, y, z⟩ := q
  simp only at h1
  have e00 := congrFun (congrFun he 0) 0
  have e11 := congrFun (congrFun he 1) 1
  have e22 := congrFun (congrFun he 2) 2
  have e01 := congrFun (congrFun he 0) 1
  have e10 := congrFun (congrFun he 1) 0
  have e02 := congrFun (congrFun he 0) 2
  have e20 := congrFun (congrFun he 2) 0
  have e12 := congrFun (congrFun he 1) 2
  have e21 := congrFun (congrFun he 2) 1
  simp [toMatrix] at e00 e11 e22 e01 e10 e02 e20 e12 e21
  have hr : r = 0 := by nlinarith
  subst hr
  unfold fromMatrix factor at hq
  norm_num only at hq
  rw [if_neg (by rw [ht]; exact lt_irrefl _)] at hq
  have hD : 1 + R 0 0 - R 1 1 - R 2 2 = 4 * x ^ 2 := by nlinarith
  rw [hD] at hq
  by_cases hx : 0 < 4 * x ^ 2
  swap
  · simp only [if_neg hx, Option.map_none, ite_self] at hq
    cases hq
  rw [if_pos hx] at hq
  have hx0 : x ≠ 0 := by rintro rfl; simp at hx
  obtain ⟨w, hw, hw2⟩ : ∃ w : ℝ, 0 < w ∧ w = √(4 * x ^ 2) := ⟨_, Real.sqrt_pos.2 hx, rfl⟩
  have hw3 : w ^ 2 = 4 * x ^ 2 := by rw [hw2, Real.sq_sqrt hx.le]
  rw [← hw2] at hq
  have hw0 : w ≠ 0 := hw.ne'
  have half : (1 / 2 : ℝ) * (1 / 2 / w) = 1 / (4 * w) := by field_simp; norm_num
  simp only [Option.map_some] at hq
  split_ifs at hq with ha hb
  · simp only [Option.some.injEq, Quat.mk.injEq, half] at hq
    obtain ⟨-, q1, -, -⟩ := hq
    have q2 : 4 * w * x = 1 := by rw [← q1]; field_simp
    nlinarith
  · simp only [Option.some.injEq, Quat.mk.injEq, half] at hq
    obtain ⟨-, q1, q2, -⟩ := hq
    have q3 : 4 * w * y = 1 := by rw [← q2]; field_simp
    have q4 : 2 * y = w := by
      have q5 : x * (2 * y) = x * w := by
        calc x * (2 * y) = (R 0 1 + R 1 0) * (1 / 2 / w) * w := by
              rw [mul_assoc, div_mul_cancel₀ _ hw0, ← e01, ← e10]; ring
          _ = x * w := by rw [q1]
      exact mul_left_cancel₀ hx0 q5
    nlinarith
  · simp only [Option.some.injEq, Quat.mk.injEq, half] at hq
    obtain ⟨-, q1, -, q2⟩ := hq
    have q3 : 4 * w * z = 1 := by rw [← q2]; field_simp
    have q4 : 2 * z = w := by
      have q5 : x * (2 * z) = x * w := by
        calc x * (2 * z) = (R 0 2 + R 2 0) * (1 / 2 / w) * w := by
              rw [mul_assoc, div_mul_cancel₀ _ hw0, ← e02, ← e20]; ring
          _ = x * w := by rw [q1]
      exact mul_left_cancel₀ hx0 q5
    nlinarith

/-- **C139.** Counterexample: for the half turns around an axis orthogonal to the first one, the numbers are not finite. -/
theorem C139_half_turn_infinite_counterexample {R : Matrix (Fin 3) (Fin 3) ℝ} (ht : 1 + R 0 0 + R 1 1 + R 2 2 = 0) (h0 : R 0 0 = -1) :
    fromMatrix R = none := by
  have hD : 1 + R 0 0 - R 1 1 - R 2 2 = 0 := by linarith
  unfold fromMatrix factor
  norm_num only
  rw [ht, hD]
  simp

/-- **C139.** From a quaternion of length one that is not a half turn to its matrix and back: the same quaternion, or its opposite when the real
part is negative. -/
theorem C139_back {q : Quat} (h : sq q = 1) (h0 : q.r ≠ 0) :
    fromMatrix (toMatrix q) = some (if 0 < q.r then q else ⟨-q.r, -q.x, -q.y, -q.z⟩) := by
  obtain ⟨r, x, y, z⟩ := q
  unfold sq at h
  simp only at h h0
  have ht : 1 + (r * r + x * x - y * y - z * z) + (r * r - x * x + y * y - z * z) + (r * r - x * x - y * y + z * z) = (2 * r) ^ 2 := by
    nlinarith
  have hp : 0 < (2 * r) ^ 2 := by positivity
  unfold fromMatrix factor
  norm_num only
  simp [toMatrix]
  rw [ht, if_pos hp, if_pos hp, Real.sqrt_sq_eq_abs]
  by_cases hr : 0 < r
  · rw [if_pos hr, abs_of_pos (by linarith)]
    simp only [Option.map_some, Option.some.injEq, Quat.mk.injEq]
    refine ⟨?_, ?_, ?_, ?_⟩ <;> field_simp <;> ring
  · have hn : r < 0 := lt_of_le_of_ne (not_lt.1 hr) h0
    rw [if_neg hr, abs_of_neg (by linarith)]
    simp only [Option.map_some, Option.some.injEq, Quat.mk.injEq]
    refine ⟨?_, ?_, ?_, ?_⟩ <;> field_simp <;> ring

/-- **C139.** Counterexample: the quaternion made from an axis times an angle is always longer than one, so that its matrix is never a rotation. -/
theorem C139_fromVector_counterexample {u : Fin 3 → ℝ} {q : Quat} (hq : fromVector u = some q) : 1 < sq q ∧ ¬Rotation (toMatrix q) := by
  have h1 : 1 < sq q := by
    unfold fromVector at hq
    simp only at hq
    obtain ⟨θ, hθ⟩ : ∃ θ : ℝ, θ = √(u 0 * u 0 + u 1 * u 1 + u 2 * u 2) := ⟨_, rfl⟩
    rw [← hθ] at hq
    have h0 : 0 ≤ θ := by rw [hθ]; exact Real.sqrt_nonneg _
    have hs : θ ^ 2 = u 0 * u 0 + u 1 * u 1 + u 2 * u 2 := by
      rw [hθ, Real.sq_sqrt (by nlinarith [mul_self_nonneg (u 0), mul_self_nonneg (u 1), mul_self_nonneg (u 2)])]
    split_ifs at hq with hz
    cases hq
    have hp : 0 < θ := lt_of_le_of_ne h0 (fun e => hz (by rw [← e, Real.sin_zero]))
    have hl : Real.sin θ ^ 2 < θ ^ 2 := Real.sin_sq_lt_sq hp.ne'
    have hpos : 0 < Real.sin θ ^ 2 := by positivity
    have h2 : sq ⟨u 0 / Real.sin θ, u 1 / Real.sin θ, u 2 / Real.sin θ, Real.cos θ⟩ = θ ^ 2 / Real.sin θ ^ 2 + Real.cos θ ^ 2 := by
      simp only [sq, hs]
      ring
    rw [h2]
    have h3 : 1 < θ ^ 2 / Real.sin θ ^ 2 := (one_lt_div hpos).2 hl
    nlinarith [sq_nonneg (Real.cos θ)]
  refine ⟨h1, fun hr => ?_⟩
  have h2 : sq q ^ 3 = 1 := by rw [← (C139_rotation q).2.1, hr.2]
  have := one_lt_pow₀ h1 (n := 3) (by norm_num)
  linarith

/-- A quarter turn around the last axis. -/
theorem C139_case : Rotation !![0, -1, 0; 1, 0, 0; 0, 0, 1] ∧
    0 < 1 + !![0, -1, 0; 1, 0, 0; 0, 0, (1 : ℝ)] 0 0 + !![0, -1, 0; 1, 0, 0; 0, 0, (1 : ℝ)] 1 1 + !![0, -1, 0; 1, 0, 0; 0, 0, (1 : ℝ)] 2 2 := by
  refine ⟨⟨?_, ?_⟩, by simp⟩
  · ext i j
    fin_cases i <;> fin_cases j <;> simp [Matrix.mul_apply, Fin.sum_univ_three]
  · simp [Matrix.det_fin_three]

/-- A half turn around the first axis, which the function does convert: to a quaternion of another matrix. -/
theorem C139_half_turn_case : Rotation !![1, 0, 0; 0, -1, 0; 0, 0, -1] ∧
    fromMatrix !![1, 0, 0; 0, -1, 0; 0, 0, -1] = some ⟨0, 1 / 8, 0, 0⟩ := by
  refine ⟨⟨?_, ?_⟩, ?_⟩
  · ext i j
    fin_cases i <;> fin_cases j <;> simp [Matrix.mul_apply, Fin.sum_univ_three]
  · simp [Matrix.det_fin_three]
  · have h : √(4 : ℝ) = 2 := by rw [show (4 : ℝ) = 2 ^ 2 by norm_num, Real.sqrt_sq (by norm_num)]
    simp [fromMatrix, factor]
    norm_num [h]

/-- A vector that the function converts. -/
theorem C139_fromVector_case : ∃ q, fromVector ![Real.pi / 2, 0, 0] = some q := by
  have h : √(Real.pi / 2 * (Real.pi / 2)) = Real.pi / 2 := Real.sqrt_mul_self (by positivity)
  simp [fromVector, h]

end Verif.Quaternion
