import Verif.Geometry.Convert
import Verif.Geometry.Props
import Mathlib.Analysis.Real.Pi.Bounds
import Mathlib.Tactic.Linarith
import Mathlib.Tactic.FieldSimp

/-!
# Property C81: the conversions between representations of a rotation are inverse of each other
-/
set_option linter.unusedSimpArgs false

namespace Verif.Geometry

open Matrix

/-- The identities between the entries of a rotation. -/
theorem IsRot.entries {R : Matrix (Fin 3) (Fin 3) ℝ} (h : IsRot R) :
    -- columns
    (R 0 0 * R 0 0 + R 1 0 * R 1 0 + R 2 0 * R 2 0 = 1) ∧ (R 0 1 * R 0 1 + R 1 1 * R 1 1 + R 2 1 * R 2 1 = 1) ∧
    (R 0 2 * R 0 2 + R 1 2 * R 1 2 + R 2 2 * R 2 2 = 1) ∧ (R 0 0 * R 0 1 + R 1 0 * R 1 1 + R 2 0 * R 2 1 = 0) ∧
    (R 0 0 * R 0 2 + R 1 0 * R 1 2 + R 2 0 * R 2 2 = 0) ∧ (R 0 1 * R 0 2 + R 1 1 * R 1 2 + R 2 1 * R 2 2 = 0) ∧
    -- rows
    (R 0 0 * R 0 0 + R 0 1 * R 0 1 + R 0 2 * R 0 2 = 1) ∧ (R 1 0 * R 1 0 + R 1 1 * R 1 1 + R 1 2 * R 1 2 = 1) ∧
    (R 2 0 * R 2 0 + R 2 1 * R 2 1 + R 2 2 * R 2 2 = 1) ∧ (R 0 0 * R 1 0 + R 0 1 * R 1 1 + R 0 2 * R 1 2 = 0) ∧
    (R 0 0 * R 2 0 + R 0 1 * R 2 1 + R 0 2 * R 2 2 = 0) ∧ (R 1 0 * R 2 0 + R 1 1 * R 2 1 + R 1 2 * R 2 2 = 0) := by
  have c := h.1
  have r := h.mul_transpose
  have ce : ∀ i j, (Rᵀ * R) i j = (1 : Matrix (Fin 3) (Fin 3) ℝ) i j := fun i j => by rw [c]
  have re : ∀ i j, (R * Rᵀ) i j = (1 : Matrix (Fin 3) (Fin 3) ℝ) i j := fun i j => by rw [r]
  simp only [Matrix.mul_apply, Fin.sum_univ_three, Matrix.transpose_apply] at ce re
  exact ⟨ce 0 0, ce 1 1, ce 2 2, by simpa using ce 0 1, by simpa using ce 0 2, by simpa using ce 1 2,
    re 0 0, re 1 1, re 2 2, by simpa using re 0 1, by simpa using re 0 2, by simpa using re 1 2⟩

/-- A rotation is its own cofactor matrix. -/
theorem IsRot.cofactors {R : Matrix (Fin 3) (Fin 3) ℝ} (h : IsRot R) :
    (R 0 0 = R 1 1 * R 2 2 - R 1 2 * R 2 1) ∧ (R 0 1 = R 1 2 * R 2 0 - R 1 0 * R 2 2) ∧ (R 0 2 = R 1 0 * R 2 1 - R 1 1 * R 2 0) ∧
    (R 1 0 = R 0 2 * R 2 1 - R 0 1 * R 2 2) ∧ (R 1 1 = R 0 0 * R 2 2 - R 0 2 * R 2 0) ∧ (R 1 2 = R 0 1 * R 2 0 - R 0 0 * R 2 1) ∧
    (R 2 0 = R 0 1 * R 1 2 - R 0 2 * R 1 1) ∧ (R 2 1 = R 0 2 * R 1 0 - R 0 0 * R 1 2) ∧ (R 2 2 = R 0 0 * R 1 1 - R 0 1 * R 1 0) := by
  have hi : R⁻¹ = Rᵀ := h.inv_eq
  rw [Matrix.inv_def, h.2] at hi
  simp only [Ring.inverse_one, one_smul] at hi
  have he : ∀ i j, R.adjugate j i = R i j := fun i j => by rw [hi]; rfl
  rw [Matrix.adjugate_fin_three] at he
  refine ⟨?_, ?_, ?_, ?_, ?_, ?_, ?_, ?_, ?_⟩
  · have := he 0 0; simp at this; linarith
  · have := he 0 1; simp at this; linarith
  · have := he 0 2; simp at this; linarith
  · have := he 1 0; simp at this; linarith
  · have := he 1 1; simp at this; linarith
  · have := he 1 2; simp at this; linarith
  · have := he 2 0; simp at this; linarith
  · have := he 2 1; simp at this; linarith
  · have := he 2 2; simp at this; linarith

/-- The identities used below, for nine numbers in the places of the entries. -/
structure R9 (a b c d e f g h i : ℝ) : Prop where
  s01 : b ^ 2 + d ^ 2 = 1 - a ^ 2 - e ^ 2 + i ^ 2
  s02 : c ^ 2 + g ^ 2 = 1 - a ^ 2 - i ^ 2 + e ^ 2
  s12 : f ^ 2 + h ^ 2 = 1 - e ^ 2 - i ^ 2 + a ^ 2
  p01 : b * d = a * e - i
  p02 : c * g = a * i - e
  p12 : f * h = e * i - a
  c01 : f * g = b + d * i
  c10 : c * h = d + b * i
  c02 : d * h = c + e * g
  c20 : b * f = g + c * e
  c12 : b * g = f + a * h
  c21 : c * d = h + a * f
  o01 : g * h + c * f = -(a * b + d * e) - (a * d + b * e)
  o02 : d * f + b * h = -(a * c + g * i) - (a * g + c * i)
  o12 : b * c + d * g = -(e * f + h * i) - (e * h + f * i)
  q01 : g * h - c * f = -(a * b + d * e) + (a * d + b * e)
  q02 : d * f - b * h = -(a * c + g * i) + (a * g + c * i)
  q12 : b * c - d * g = -(e * f + h * i) + (e * h + f * i)

theorem IsRot.r9 {R : Matrix (Fin 3) (Fin 3) ℝ} (h : IsRot R) :
    R9 (R 0 0) (R 0 1) (R 0 2) (R 1 0) (R 1 1) (R 1 2) (R 2 0) (R 2 1) (R 2 2) := by
  obtain ⟨c00, c11, c22, c01, c02, c12, r00, r11, r22, r01, r02, r12⟩ := h.entries
  obtain ⟨f00, f01, f02, f10, f11, f12, f20, f21, f22⟩ := h.cofactors
  constructor <;> grind

/-- Cyclic renumbering of the axes. -/
theorem R9.cycle {a b c d e f g h i : ℝ} (r : R9 a b c d e f g h i) : R9 e f d h i g b c a := by
  obtain ⟨h1, h2, h3, h4, h5, h6, h7, h8, h9, h10, h11, h12, h13, h14, h15, h16, h17, h18⟩ := r
  constructor <;> linarith

theorem R9.trace {a b c d e f g h i s u : ℝ} (r : R9 a b c d e f g h i) (hs : s ^ 2 = a + e + i + 1) (hu : 2 * s * u = 1)
    (w x y z : ℝ) (hw : w = s / 2) (hx : x = (h - f) * u) (hy : y = (c - g) * u) (hz : z = (d - b) * u) :
    w ^ 2 + x ^ 2 + y ^ 2 + z ^ 2 = 1 ∧
    1 - (2 * y * y + 2 * z * z) = a ∧ 2 * x * y - 2 * w * z = b ∧ 2 * x * z + 2 * w * y = c ∧
    2 * x * y + 2 * w * z = d ∧ 1 - (2 * x * x + 2 * z * z) = e ∧ 2 * y * z - 2 * w * x = f ∧
    2 * x * z - 2 * w * y = g ∧ 2 * y * z + 2 * w * x = h ∧ 1 - (2 * x * x + 2 * y * y) = i := by
  obtain ⟨h1, h2, h3, h4, h5, h6, h7, h8, h9, h10, h11, h12, h13, h14, h15, h16, h17, h18⟩ := r
  subst hw hx hy hz
  have hu2 : 4 * u ^ 2 * s ^ 2 = 1 := by
    have : 4 * u ^ 2 * s ^ 2 = (2 * s * u) ^ 2 := by ring
    rw [this, hu]; norm_num
  have e1 : (h - f) ^ 2 = s ^ 2 * (1 + a - e - i) := by rw [hs]; linear_combination h3 - 2 * h6
  have e2 : (c - g) ^ 2 = s ^ 2 * (1 + e - a - i) := by rw [hs]; linear_combination h2 - 2 * h5
  have e3 : (d - b) ^ 2 = s ^ 2 * (1 + i - a - e) := by rw [hs]; linear_combination h1 - 2 * h4
  have e12 : (h - f) * (c - g) = s ^ 2 * (b + d) := by rw [hs]; linear_combination h8 + h7 - h13
  have e13 : (h - f) * (d - b) = s ^ 2 * (c + g) := by rw [hs]; linear_combination h9 + h10 - h14
  have e23 : (c - g) * (d - b) = s ^ 2 * (f + h) := by rw [hs]; linear_combination h11 + h12 - h15
  refine ⟨?_, ?_, ?_, ?_, ?_, ?_, ?_, ?_, ?_, ?_⟩
  · linear_combination hs / 4 + u ^ 2 * (e1 + e2 + e3) + (3 - a - e - i) / 4 * hu2
  · linear_combination -2 * u ^ 2 * (e2 + e3) - (1 - a) * hu2
  · linear_combination 2 * u ^ 2 * e12 + (b + d) / 2 * hu2 - (d - b) / 2 * hu
  · linear_combination 2 * u ^ 2 * e13 + (c + g) / 2 * hu2 + (c - g) / 2 * hu
  · linear_combination 2 * u ^ 2 * e12 + (b + d) / 2 * hu2 + (d - b) / 2 * hu
  · linear_combination -2 * u ^ 2 * (e1 + e3) - (1 - e) * hu2
  · linear_combination 2 * u ^ 2 * e23 + (f + h) / 2 * hu2 - (h - f) / 2 * hu
  · linear_combination 2 * u ^ 2 * e13 + (c + g) / 2 * hu2 - (c - g) / 2 * hu
  · linear_combination 2 * u ^ 2 * e23 + (f + h) / 2 * hu2 + (h - f) / 2 * hu
  · linear_combination -2 * u ^ 2 * (e1 + e2) - (1 - i) * hu2

theorem R9.branch {a b c d e f g h i s u : ℝ} (r : R9 a b c d e f g h i) (hs : s ^ 2 = a - e - i + 1) (hu : 2 * s * u = 1)
    (w x y z : ℝ) (hw : w = (h - f) * u) (hx : x = s / 2) (hy : y = (d + b) * u) (hz : z = (g + c) * u) :
    w ^ 2 + x ^ 2 + y ^ 2 + z ^ 2 = 1 ∧
    1 - (2 * y * y + 2 * z * z) = a ∧ 2 * x * y - 2 * w * z = b ∧ 2 * x * z + 2 * w * y = c ∧
    2 * x * y + 2 * w * z = d ∧ 1 - (2 * x * x + 2 * z * z) = e ∧ 2 * y * z - 2 * w * x = f ∧
    2 * x * z - 2 * w * y = g ∧ 2 * y * z + 2 * w * x = h ∧ 1 - (2 * x * x + 2 * y * y) = i := by
  obtain ⟨h1, h2, h3, h4, h5, h6, h7, h8, h9, h10, h11, h12, h13, h14, h15, h16, h17, h18⟩ := r
  subst hw hx hy hz
  have hu2 : 4 * u ^ 2 * s ^ 2 = 1 := by
    have : 4 * u ^ 2 * s ^ 2 = (2 * s * u) ^ 2 := by ring
    rw [this, hu]; norm_num
  have e1 : (h - f) ^ 2 = s ^ 2 * (1 + a + e + i) := by rw [hs]; linear_combination h3 - 2 * h6
  have e2 : (d + b) ^ 2 = s ^ 2 * (1 + e - a - i) := by rw [hs]; linear_combination h1 + 2 * h4
  have e3 : (g + c) ^ 2 = s ^ 2 * (1 + i - a - e) := by rw [hs]; linear_combination h2 + 2 * h5
  have e12 : (h - f) * (d + b) = s ^ 2 * (c - g) := by rw [hs]; linear_combination h9 - h10 - h17
  have e13 : (h - f) * (g + c) = s ^ 2 * (d - b) := by rw [hs]; linear_combination h8 - h7 + h16
  have e23 : (d + b) * (g + c) = s ^ 2 * (f + h) := by rw [hs]; linear_combination h11 + h12 + h15
  refine ⟨?_, ?_, ?_, ?_, ?_, ?_, ?_, ?_, ?_, ?_⟩
  · linear_combination hs / 4 + u ^ 2 * (e1 + e2 + e3) + (3 - a + e + i) / 4 * hu2
  · linear_combination -2 * u ^ 2 * (e2 + e3) - (1 - a) * hu2
  · linear_combination -2 * u ^ 2 * e13 - (d - b) / 2 * hu2 + (d + b) / 2 * hu
  · linear_combination 2 * u ^ 2 * e12 + (c - g) / 2 * hu2 + (c + g) / 2 * hu
  · linear_combination 2 * u ^ 2 * e13 + (d - b) / 2 * hu2 + (d + b) / 2 * hu
  · linear_combination -2 * u ^ 2 * e3 - hs / 2 - (1 + i - a - e) / 2 * hu2
  · linear_combination 2 * u ^ 2 * e23 + (f + h) / 2 * hu2 - (h - f) / 2 * hu
  · linear_combination -2 * u ^ 2 * e12 - (c - g) / 2 * hu2 + (c + g) / 2 * hu
  · linear_combination 2 * u ^ 2 * e23 + (f + h) / 2 * hu2 + (h - f) / 2 * hu
  · linear_combination -2 * u ^ 2 * e2 - hs / 2 - (1 + e - a - i) / 2 * hu2

theorem sqrt_half {x : ℝ} (hx : 0 < x) : Real.sqrt x ^ 2 = x ∧ 2 * Real.sqrt x * (0.5 / Real.sqrt x) = 1 := by
  have h := Real.sqrt_pos.mpr hx
  refine ⟨Real.sq_sqrt hx.le, ?_⟩
  field_simp
  norm_num

theorem toRot_eq_of {q : Quat ℝ} {R : Matrix (Fin 3) (Fin 3) ℝ}
    (h : 1 - (2 * q.y * q.y + 2 * q.z * q.z) = R 0 0 ∧ 2 * q.x * q.y - 2 * q.w * q.z = R 0 1 ∧
      2 * q.x * q.z + 2 * q.w * q.y = R 0 2 ∧ 2 * q.x * q.y + 2 * q.w * q.z = R 1 0 ∧
      1 - (2 * q.x * q.x + 2 * q.z * q.z) = R 1 1 ∧ 2 * q.y * q.z - 2 * q.w * q.x = R 1 2 ∧
      2 * q.x * q.z - 2 * q.w * q.y = R 2 0 ∧ 2 * q.y * q.z + 2 * q.w * q.x = R 2 1 ∧
      1 - (2 * q.x * q.x + 2 * q.y * q.y) = R 2 2) : q.toRot = R := by
  obtain ⟨h1, h2, h3, h4, h5, h6, h7, h8, h9⟩ := h
  ext i j
  fin_cases i <;> fin_cases j <;> simp [Quat.toRot] <;> assumption

/-- The three branches, when the component is known to be large enough. -/
theorem branch_two {R : Matrix (Fin 3) (Fin 3) ℝ} (h : IsRot R) (hp : 0 < R 2 2 - R 0 0 - R 1 1 + 1) (q : Quat ℝ)
    (hq : q = ⟨(quatBranch R 2 0 1).1, (quatBranch R 2 0 1).2.2.1, (quatBranch R 2 0 1).2.2.2, (quatBranch R 2 0 1).2.1⟩) :
    q.sqNorm = 1 ∧ q.toRot = R := by
  obtain ⟨w, x, y, z⟩ := q
  simp only [Quat.mk.injEq, quatBranch] at hq
  obtain ⟨hw, hx, hy, hz⟩ := hq
  obtain ⟨hs, hu⟩ := sqrt_half hp
  obtain ⟨hn, m1, m2, m3, m4, m5, m6, m7, m8, m9⟩ :=
    h.r9.cycle.cycle.branch hs hu w z x y hw (by rw [hz]; ring) hx hy
  refine ⟨?_, toRot_eq_of ⟨?_, ?_, ?_, ?_, ?_, ?_, ?_, ?_, ?_⟩⟩
  · simp only [Quat.sqNorm]; linarith
  all_goals simp only; linarith

theorem branch_one {R : Matrix (Fin 3) (Fin 3) ℝ} (h : IsRot R) (hp : 0 < R 1 1 - R 2 2 - R 0 0 + 1) (q : Quat ℝ)
    (hq : q = ⟨(quatBranch R 1 2 0).1, (quatBranch R 1 2 0).2.2.2, (quatBranch R 1 2 0).2.1, (quatBranch R 1 2 0).2.2.1⟩) :
    q.sqNorm = 1 ∧ q.toRot = R := by
  obtain ⟨w, x, y, z⟩ := q
  simp only [Quat.mk.injEq, quatBranch] at hq
  obtain ⟨hw, hx, hy, hz⟩ := hq
  obtain ⟨hs, hu⟩ := sqrt_half hp
  obtain ⟨hn, m1, m2, m3, m4, m5, m6, m7, m8, m9⟩ :=
    h.r9.cycle.branch hs hu w y z x hw (by rw [hy]; ring) hz hx
  refine ⟨?_, toRot_eq_of ⟨?_, ?_, ?_, ?_, ?_, ?_, ?_, ?_, ?_⟩⟩
  · simp only [Quat.sqNorm]; linarith
  all_goals simp only; linarith

theorem branch_zero {R : Matrix (Fin 3) (Fin 3) ℝ} (h : IsRot R) (hp : 0 < R 0 0 - R 1 1 - R 2 2 + 1) (q : Quat ℝ)
    (hq : q = ⟨(quatBranch R 0 1 2).1, (quatBranch R 0 1 2).2.1, (quatBranch R 0 1 2).2.2.1, (quatBranch R 0 1 2).2.2.2⟩) :
    q.sqNorm = 1 ∧ q.toRot = R := by
  obtain ⟨w, x, y, z⟩ := q
  simp only [Quat.mk.injEq, quatBranch] at hq
  obtain ⟨hw, hx, hy, hz⟩ := hq
  obtain ⟨hs, hu⟩ := sqrt_half hp
  obtain ⟨hn, hm⟩ := h.r9.branch hs hu w x y z hw (by rw [hx]; ring) hy hz
  exact ⟨hn, toRot_eq_of hm⟩

/-- **C81, quaternions.** The quaternion computed for a rotation is a unit quaternion and converts back to the same
rotation, for every rotation (half turns included). -/
theorem C81_matrix_quaternion (R : Matrix (Fin 3) (Fin 3) ℝ) (h : IsRot R) :
    (quatOfRot R).sqNorm = 1 ∧ (quatOfRot R).toRot = R := by
  have r := h.r9
  unfold quatOfRot
  simp only
  by_cases ht : R 0 0 + R 1 1 + R 2 2 > 0
  · rw [if_pos ht]
    obtain ⟨hs, hu⟩ := sqrt_half (x := R 0 0 + R 1 1 + R 2 2 + 1) (by linarith)
    obtain ⟨hn, hm⟩ := r.trace hs hu _ _ _ _ rfl rfl rfl rfl
    have e : ∀ x : ℝ, 0.5 * x = x / 2 := fun x => by ring
    rw [e]
    exact ⟨hn, toRot_eq_of hm⟩
  · rw [if_neg ht]
    by_cases h1 : R 1 1 > R 0 0
    · by_cases h2 : R 2 2 > R 1 1
      · rw [if_pos (by rw [if_pos h1]; exact h2)]
        exact branch_two h (by linarith) _ rfl
      · rw [if_neg (by rw [if_pos h1]; exact h2), if_pos h1]
        exact branch_one h (by linarith) _ rfl
    · by_cases h2 : R 2 2 > R 0 0
      · rw [if_pos (by rw [if_neg h1]; exact h2)]
        exact branch_two h (by linarith) _ rfl
      · rw [if_neg (by rw [if_neg h1]; exact h2), if_neg h1]
        exact branch_zero h (by linarith) _ rfl

example : IsRot (!![-1, 0, 0; 0, 1, 0; 0, 0, -1] : Matrix (Fin 3) (Fin 3) ℝ) := by
  constructor
  · ext i j
    fin_cases i <;> fin_cases j <;> simp [Matrix.mul_apply, Fin.sum_univ_three]
  · rw [Matrix.det_fin_three]; simp

/-- The opposite quaternion. -/
def Quat.neg (q : Quat ℝ) : Quat ℝ := ⟨-q.w, -q.x, -q.y, -q.z⟩

theorem Quat.neg_toRot (q : Quat ℝ) : q.neg.toRot = q.toRot := by
  simp [Quat.neg, Quat.toRot]

theorem Quat.neg_sqNorm (q : Quat ℝ) : q.neg.sqNorm = q.sqNorm := by
  simp [Quat.neg, Quat.sqNorm]

/-- Two unit quaternions of the same rotation are equal or opposite. -/
theorem toRot_inj (p q : Quat ℝ) (hp : p.sqNorm = 1) (hq : q.sqNorm = 1) (h : p.toRot = q.toRot) : p = q ∨ p = q.neg := by
  have he : ∀ i j, p.toRot i j = q.toRot i j := fun i j => by rw [h]
  have a00 := he 0 0; have a01 := he 0 1; have a02 := he 0 2
  have a10 := he 1 0; have a11 := he 1 1; have a12 := he 1 2
  have a20 := he 2 0; have a21 := he 2 1; have a22 := he 2 2
  simp [Quat.toRot] at a00 a01 a02 a10 a11 a12 a20 a21 a22
  simp only [Quat.sqNorm] at hp hq
  have xx : p.x * p.x = q.x * q.x := by linarith
  have yy : p.y * p.y = q.y * q.y := by linarith
  have zz : p.z * p.z = q.z * q.z := by linarith
  have ww : p.w * p.w = q.w * q.w := by nlinarith
  have xy : p.x * p.y = q.x * q.y := by linarith
  have xz : p.x * p.z = q.x * q.z := by linarith
  have yz : p.y * p.z = q.y * q.z := by linarith
  have wx : p.w * p.x = q.w * q.x := by linarith
  have wy : p.w * p.y = q.w * q.y := by linarith
  have wz : p.w * p.z = q.w * q.z := by linarith
  have hd : (p.w * q.w + p.x * q.x + p.y * q.y + p.z * q.z) ^ 2 = 1 := by
    have : (p.w * q.w + p.x * q.x + p.y * q.y + p.z * q.z) ^ 2 =
        (q.w ^ 2 + q.x ^ 2 + q.y ^ 2 + q.z ^ 2) ^ 2 := by
      linear_combination q.w ^ 2 * ww + q.x ^ 2 * xx + q.y ^ 2 * yy + q.z ^ 2 * zz + 2 * q.w * q.x * wx + 2 * q.w * q.y * wy +
        2 * q.w * q.z * wz + 2 * q.x * q.y * xy + 2 * q.x * q.z * xz + 2 * q.y * q.z * yz
    rw [this, hq]; norm_num
  have z4 : ∀ a b c d : ℝ, a ^ 2 + b ^ 2 + c ^ 2 + d ^ 2 = 0 → a = 0 ∧ b = 0 ∧ c = 0 ∧ d = 0 := by
    intro a b c d h
    have ha := sq_nonneg a; have hb := sq_nonneg b; have hc := sq_nonneg c; have hd := sq_nonneg d
    refine ⟨pow_eq_zero_iff (n := 2) (by norm_num) |>.mp (by linarith), pow_eq_zero_iff (n := 2) (by norm_num) |>.mp (by linarith),
      pow_eq_zero_iff (n := 2) (by norm_num) |>.mp (by linarith), pow_eq_zero_iff (n := 2) (by norm_num) |>.mp (by linarith)⟩
  rcases mul_self_eq_one_iff.mp ((sq _).symm.trans hd) with hd | hd
  · left
    obtain ⟨e1, e2, e3, e4⟩ := z4 (p.w - q.w) (p.x - q.x) (p.y - q.y) (p.z - q.z) (by linear_combination hp + hq - 2 * hd)
    ext <;> linarith
  · right
    obtain ⟨e1, e2, e3, e4⟩ := z4 (p.w + q.w) (p.x + q.x) (p.y + q.y) (p.z + q.z) (by linear_combination hp + hq + 2 * hd)
    ext <;> simp only [Quat.neg] <;> linarith

/-- **C81, quaternions, the other way.** Converting a unit quaternion to a matrix and back gives the quaternion or its
opposite. -/
theorem C81_quaternion_matrix (q : Quat ℝ) (hq : q.sqNorm = 1) : quatOfRot q.toRot = q ∨ quatOfRot q.toRot = q.neg := by
  obtain ⟨h1, h2⟩ := C81_matrix_quaternion q.toRot (C70_unit_quaternion_rotation q hq)
  exact toRot_inj _ _ h1 hq h2

example : (⟨3 / 5, 0, 4 / 5, 0⟩ : Quat ℝ).sqNorm = 1 := by norm_num [Quat.sqNorm]

/-! ### Angle and axis -/

theorem atan2_cos_sin (x y n : ℝ) (hn : 0 < n) (h : n ^ 2 = x ^ 2 + y ^ 2) :
    n * Real.cos (atan2 y x) = x ∧ n * Real.sin (atan2 y x) = y := by
  have hz : (⟨x, y⟩ : ℂ) ≠ 0 := by
    intro e
    have h1 := congrArg Complex.re e
    have h2 := congrArg Complex.im e
    simp at h1 h2
    rw [h1, h2] at h
    nlinarith
  have hnorm : ‖(⟨x, y⟩ : ℂ)‖ = n := by
    rw [Complex.norm_eq_sqrt_sq_add_sq]
    simp only
    rw [← h]
    exact Real.sqrt_sq hn.le
  unfold atan2
  rw [Complex.cos_arg hz, Complex.sin_arg, hnorm]
  constructor <;> field_simp

theorem atan2_of_cos_sin (n th : ℝ) (hn : 0 < n) (h1 : -Real.pi < th) (h2 : th ≤ Real.pi) :
    atan2 (n * Real.sin th) (n * Real.cos th) = th := by
  unfold atan2
  have : (⟨n * Real.cos th, n * Real.sin th⟩ : ℂ) = (n : ℂ) * (Complex.cos th + Complex.sin th * Complex.I) := by
    apply Complex.ext
    · simp [← Complex.ofReal_cos, ← Complex.ofReal_sin]
    · simp [← Complex.ofReal_cos, ← Complex.ofReal_sin]
  rw [this, Complex.arg_mul_cos_add_sin_mul_I hn ⟨h1, h2⟩]

/-- The quaternion and the matrix of an angle and a unit axis are the same rotation. -/
theorem quatOfAngleAxis_toRot (th : ℝ) (u : Fin 3 → ℝ) :
    (quatOfAngleAxis th u).toRot = angleAxisMatrix th u ∨ u 0 ^ 2 + u 1 ^ 2 + u 2 ^ 2 ≠ 1 := by
  by_cases hu : u 0 ^ 2 + u 1 ^ 2 + u 2 ^ 2 = 1
  · left
    have h := Real.sin_sq_add_cos_sq (0.5 * th)
    have hc : Real.cos th = 2 * Real.cos (0.5 * th) ^ 2 - 1 := by
      rw [← Real.cos_two_mul]; congr 1; ring
    have hs : Real.sin th = 2 * Real.sin (0.5 * th) * Real.cos (0.5 * th) := by
      rw [← Real.sin_two_mul]; congr 1; ring
    apply toRot_eq_of
    simp only [quatOfAngleAxis, angleAxisMatrix, hc, hs]
    generalize Real.cos (0.5 * th) = c at *
    generalize Real.sin (0.5 * th) = s at *
    have hs2 : s ^ 2 = 1 - c ^ 2 := by linarith
    refine ⟨?_, ?_, ?_, ?_, ?_, ?_, ?_, ?_, ?_⟩ <;> simp
    · linear_combination -2 * (u 1 ^ 2 + u 2 ^ 2) * hs2 - 2 * (1 - c ^ 2) * hu
    · linear_combination 2 * u 0 * u 1 * hs2
    · linear_combination 2 * u 0 * u 2 * hs2
    · linear_combination 2 * u 0 * u 1 * hs2
    · linear_combination -2 * (u 0 ^ 2 + u 2 ^ 2) * hs2 - 2 * (1 - c ^ 2) * hu
    · linear_combination 2 * u 1 * u 2 * hs2
    · linear_combination 2 * u 0 * u 2 * hs2
    · linear_combination 2 * u 1 * u 2 * hs2
    · linear_combination -2 * (u 0 ^ 2 + u 1 ^ 2) * hs2 - 2 * (1 - c ^ 2) * hu
  · exact Or.inr hu

/-- What the conversion of a unit quaternion to an angle and an axis gives. -/
theorem angleAxisOfQuat_spec (q : Quat ℝ) (hq : q.sqNorm = 1) :
    0 ≤ (angleAxisOfQuat q).1 ∧ (angleAxisOfQuat q).1 ≤ Real.pi ∧
    (angleAxisOfQuat q).2 0 ^ 2 + (angleAxisOfQuat q).2 1 ^ 2 + (angleAxisOfQuat q).2 2 ^ 2 = 1 ∧
    (quatOfAngleAxis (angleAxisOfQuat q).1 (angleAxisOfQuat q).2 = q ∨
      quatOfAngleAxis (angleAxisOfQuat q).1 (angleAxisOfQuat q).2 = q.neg) := by
  simp only [Quat.sqNorm] at hq
  unfold angleAxisOfQuat
  simp only
  have hsq := Real.sq_sqrt (show 0 ≤ q.x ^ 2 + q.y ^ 2 + q.z ^ 2 by positivity)
  have hnn := Real.sqrt_nonneg (q.x ^ 2 + q.y ^ 2 + q.z ^ 2)
  generalize Real.sqrt (q.x ^ 2 + q.y ^ 2 + q.z ^ 2) = n at *
  by_cases hn : n ≠ 0
  · rw [if_pos hn]
    have hpos : 0 < n := lt_of_le_of_ne hnn (Ne.symm hn)
    have haw : |q.w| ^ 2 = q.w ^ 2 := sq_abs _
    obtain ⟨hc, hs⟩ := atan2_cos_sin |q.w| n 1 one_pos (by nlinarith)
    have harg1 : 0 ≤ atan2 n |q.w| := by
      unfold atan2
      rw [Complex.arg_nonneg_iff]
      exact hpos.le
    have harg2 : atan2 n |q.w| ≤ Real.pi / 2 := by
      unfold atan2
      rw [Complex.arg_le_pi_div_two_iff]
      exact Or.inl (abs_nonneg _)
    have hsplit : (if q.w < 0 then -n else n) = (if q.w < 0 then -1 else 1) * n := by split_ifs <;> ring
    have hsg : (if q.w < 0 then (-1 : ℝ) else 1) ^ 2 = 1 := by split_ifs <;> norm_num
    refine ⟨by simp only; linarith, by simp only; linarith, ?_, ?_⟩
    · simp only [hsplit]
      generalize (if q.w < 0 then (-1 : ℝ) else 1) = g at hsg
      have hg : g ≠ 0 := by rintro rfl; norm_num at hsg
      simp
      field_simp
      rw [hsg]
      linarith
    · have e : (0.5 : ℝ) * (2 * atan2 n |q.w|) = atan2 n |q.w| := by ring
      by_cases hw : q.w < 0
      · right
        simp only [quatOfAngleAxis, if_pos hw, e]
        rw [abs_of_neg hw] at hc hs ⊢
        rw [one_mul] at hc hs
        ext
        · exact hc
        all_goals simp [Quat.neg, hs]; field_simp
      · left
        simp only [quatOfAngleAxis, if_neg hw, e]
        rw [abs_of_nonneg (not_lt.mp hw)] at hc hs ⊢
        rw [one_mul] at hc hs
        ext
        · exact hc
        all_goals simp [hs]; field_simp
  · rw [if_neg hn]
    simp only [not_not] at hn
    rw [hn] at hsq
    have hx : q.x = 0 := by nlinarith [sq_nonneg q.x, sq_nonneg q.y, sq_nonneg q.z]
    have hy : q.y = 0 := by nlinarith [sq_nonneg q.x, sq_nonneg q.y, sq_nonneg q.z]
    have hz : q.z = 0 := by nlinarith [sq_nonneg q.x, sq_nonneg q.y, sq_nonneg q.z]
    refine ⟨le_refl _, Real.pi_pos.le, by simp, ?_⟩
    rw [hx, hy, hz] at hq
    rcases mul_self_eq_one_iff.mp (show q.w * q.w = 1 by linarith) with hw | hw
    · left
      ext <;> simp [quatOfAngleAxis, hx, hy, hz, hw]
    · right
      ext <;> simp [quatOfAngleAxis, hx, hy, hz, hw, Quat.neg]

/-- **C81, angle and axis.** The angle computed for a rotation is between zero and half a turn, the axis is a unit vector, and
both give back the same rotation, as a matrix and as a quaternion. -/
theorem C81_matrix_angle_axis (R : Matrix (Fin 3) (Fin 3) ℝ) (h : IsRot R) :
    0 ≤ (angleAxisOfRot R).1 ∧ (angleAxisOfRot R).1 ≤ Real.pi ∧
    (angleAxisOfRot R).2 0 ^ 2 + (angleAxisOfRot R).2 1 ^ 2 + (angleAxisOfRot R).2 2 ^ 2 = 1 ∧
    angleAxisMatrix (angleAxisOfRot R).1 (angleAxisOfRot R).2 = R ∧
    (quatOfAngleAxis (angleAxisOfRot R).1 (angleAxisOfRot R).2).toRot = R := by
  obtain ⟨h1, h2⟩ := C81_matrix_quaternion R h
  obtain ⟨a1, a2, a3, a4⟩ := angleAxisOfQuat_spec (quatOfRot R) h1
  have hq : (quatOfAngleAxis (angleAxisOfRot R).1 (angleAxisOfRot R).2).toRot = R := by
    unfold angleAxisOfRot
    rcases a4 with a4 | a4
    · rw [a4, h2]
    · rw [a4, Quat.neg_toRot, h2]
  refine ⟨a1, a2, a3, ?_, hq⟩
  rcases quatOfAngleAxis_toRot (angleAxisOfRot R).1 (angleAxisOfRot R).2 with e | e
  · rw [← e, hq]
  · exact absurd a3 e

theorem angleAxisMatrix_zero (u : Fin 3 → ℝ) : angleAxisMatrix 0 u = 1 := by
  ext i j
  fin_cases i <;> fin_cases j <;> simp [angleAxisMatrix]

/-- The rotation vector `angle * axis` gives back the rotation. -/
theorem utheta_back (R : Matrix (Fin 3) (Fin 3) ℝ) (h : IsRot R) (t : Fin 3 → ℝ) :
    poseUThetaToHomo ![t 0, t 1, t 2, (angleAxisOfRot R).1 * (angleAxisOfRot R).2 0, (angleAxisOfRot R).1 * (angleAxisOfRot R).2 1,
      (angleAxisOfRot R).1 * (angleAxisOfRot R).2 2] = ⟨R, t⟩ := by
  obtain ⟨a1, a2, a3, a4, -⟩ := C81_matrix_angle_axis R h
  generalize angleAxisOfRot R = r at *
  obtain ⟨th, u⟩ := r
  simp only at a1 a2 a3 a4
  have hth : Real.sqrt ((th * u 0) ^ 2 + (th * u 1) ^ 2 + (th * u 2) ^ 2) = th := by
    have : (th * u 0) ^ 2 + (th * u 1) ^ 2 + (th * u 2) ^ 2 = th ^ 2 := by linear_combination th ^ 2 * a3
    rw [this, Real.sqrt_sq a1]
  have e3 : (![t 0, t 1, t 2, th * u 0, th * u 1, th * u 2] : Fin 6 → ℝ) 3 = th * u 0 := rfl
  have e4 : (![t 0, t 1, t 2, th * u 0, th * u 1, th * u 2] : Fin 6 → ℝ) 4 = th * u 1 := rfl
  have e5 : (![t 0, t 1, t 2, th * u 0, th * u 1, th * u 2] : Fin 6 → ℝ) 5 = th * u 2 := rfl
  unfold poseUThetaToHomo
  simp only [e3, e4, e5, hth]
  congr 1
  · split_ifs with hp
    · rw [← a4]
      congr 1
      ext i
      fin_cases i <;> simp <;> field_simp
    · have : th = 0 := le_antisymm (not_lt.mp hp) a1
      rw [← a4, this, angleAxisMatrix_zero]
  · ext i
    fin_cases i <;> rfl

/-- **C81, poses and rotation vectors.** A rigid pose converted to a position and a rotation vector, and back, is the same
pose. -/
theorem C81_pose_utheta (m : Pose ℝ) (h : IsRot m.R) : poseUThetaToHomo (homoToPoseUTheta m) = m :=
  utheta_back m.R h m.t

/-- **C81, from roll-pitch-yaw to a rotation vector.** Both vectors are the same pose. -/
theorem C81_rpy_utheta (v : Fin 6 → ℝ) : poseUThetaToHomo (poseRpyToPoseUTheta v) = poseRpyToHomo v :=
  utheta_back _ (C71_rpy _ _ _).1 ![v 0, v 1, v 2]

/-- **C81, poses and quaternions.** -/
theorem C81_pose_quaternion (m : Pose ℝ) (h : IsRot m.R) : poseQuatToHomo (homoToPoseQuat m) = m := by
  obtain ⟨-, h2⟩ := C81_matrix_quaternion m.R h
  apply Pose.ext
  · exact h2
  · ext i
    fin_cases i <;> rfl

/-! ### Rotation vectors, the other way -/

theorem angleAxisOfQuat_of_angleAxis (th : ℝ) (u : Fin 3 → ℝ) (h0 : 0 < th) (h1 : th < Real.pi)
    (hu : u 0 ^ 2 + u 1 ^ 2 + u 2 ^ 2 = 1) (q : Quat ℝ) (hq : q = quatOfAngleAxis th u ∨ q = (quatOfAngleAxis th u).neg) :
    angleAxisOfQuat q = (th, u) := by
  have e : (0.5 : ℝ) * th = th / 2 := by ring
  have hsin : 0 < Real.sin (th / 2) := Real.sin_pos_of_pos_of_lt_pi (by linarith) (by linarith [Real.pi_pos])
  have hcos : 0 < Real.cos (th / 2) := Real.cos_pos_of_mem_Ioo ⟨by linarith [Real.pi_pos], by linarith⟩
  have hat : atan2 (Real.sin (th / 2)) (Real.cos (th / 2)) = th / 2 := by
    have := atan2_of_cos_sin 1 (th / 2) one_pos (by linarith [Real.pi_pos]) (by linarith)
    simpa using this
  have hn : Real.sqrt (q.x ^ 2 + q.y ^ 2 + q.z ^ 2) = Real.sin (th / 2) := by
    have : q.x ^ 2 + q.y ^ 2 + q.z ^ 2 = Real.sin (th / 2) ^ 2 := by
      rcases hq with rfl | rfl <;> simp only [quatOfAngleAxis, Quat.neg, e] <;>
        linear_combination Real.sin (th / 2) ^ 2 * hu
    rw [this, Real.sqrt_sq hsin.le]
  have hw : |q.w| = Real.cos (th / 2) := by
    rcases hq with rfl | rfl
    · simp only [quatOfAngleAxis, e, abs_of_pos hcos]
    · simp only [quatOfAngleAxis, Quat.neg, e, abs_neg, abs_of_pos hcos]
  unfold angleAxisOfQuat
  simp only [hn, hw]
  rw [if_pos hsin.ne', hat]
  refine Prod.ext (by simp only; ring) ?_
  rcases hq with rfl | rfl
  · rw [if_neg (by simp only [quatOfAngleAxis, e]; linarith)]
    ext i
    fin_cases i <;> simp [quatOfAngleAxis, e] <;> field_simp
  · rw [if_pos (by simp only [quatOfAngleAxis, Quat.neg, e]; linarith)]
    ext i
    fin_cases i <;> simp [quatOfAngleAxis, Quat.neg, e] <;> field_simp

/-- **C81, rotation vectors, the other way.** A position and a rotation vector shorter than half a turn, converted to a pose
and back, are unchanged. -/
theorem C81_utheta_pose (v : Fin 6 → ℝ) (h : v 3 ^ 2 + v 4 ^ 2 + v 5 ^ 2 < Real.pi ^ 2) :
    homoToPoseUTheta (poseUThetaToHomo v) = v := by
  have hsq := Real.sq_sqrt (show 0 ≤ v 3 ^ 2 + v 4 ^ 2 + v 5 ^ 2 by positivity)
  have hnn := Real.sqrt_nonneg (v 3 ^ 2 + v 4 ^ 2 + v 5 ^ 2)
  have hlt : Real.sqrt (v 3 ^ 2 + v 4 ^ 2 + v 5 ^ 2) < Real.pi := by
    rw [Real.sqrt_lt' Real.pi_pos]; exact h
  unfold homoToPoseUTheta poseUThetaToHomo
  simp only
  generalize Real.sqrt (v 3 ^ 2 + v 4 ^ 2 + v 5 ^ 2) = th at *
  by_cases hp : th > 0
  · rw [if_pos hp]
    have hu : (![v 3 / th, v 4 / th, v 5 / th] : Fin 3 → ℝ) 0 ^ 2 + (![v 3 / th, v 4 / th, v 5 / th] : Fin 3 → ℝ) 1 ^ 2 +
        (![v 3 / th, v 4 / th, v 5 / th] : Fin 3 → ℝ) 2 ^ 2 = 1 := by
      simp
      field_simp
      linarith
    have hr := angleAxisMatrix_isRot th _ hu
    obtain ⟨q1, q2⟩ := C81_matrix_quaternion _ hr
    have hq : quatOfRot (angleAxisMatrix th ![v 3 / th, v 4 / th, v 5 / th]) = quatOfAngleAxis th ![v 3 / th, v 4 / th, v 5 / th] ∨
        quatOfRot (angleAxisMatrix th ![v 3 / th, v 4 / th, v 5 / th]) =
          (quatOfAngleAxis th ![v 3 / th, v 4 / th, v 5 / th]).neg := by
      apply toRot_inj _ _ q1
      · simp only [Quat.sqNorm, quatOfAngleAxis]
        have := Real.sin_sq_add_cos_sq (0.5 * th)
        linear_combination this + Real.sin (0.5 * th) ^ 2 * hu
      · rcases quatOfAngleAxis_toRot th ![v 3 / th, v 4 / th, v 5 / th] with e | e
        · rw [e, q2]
        · exact absurd hu e
    have := angleAxisOfQuat_of_angleAxis th _ hp hlt hu _ hq
    unfold angleAxisOfRot
    rw [this]
    ext i
    fin_cases i <;> simp <;> field_simp
  · rw [if_neg hp]
    have h0 : th = 0 := le_antisymm (not_lt.mp hp) hnn
    rw [h0] at hsq
    have h3 : v 3 = 0 := by nlinarith [sq_nonneg (v 3), sq_nonneg (v 4), sq_nonneg (v 5)]
    have h4 : v 4 = 0 := by nlinarith [sq_nonneg (v 3), sq_nonneg (v 4), sq_nonneg (v 5)]
    have h5 : v 5 = 0 := by nlinarith [sq_nonneg (v 3), sq_nonneg (v 4), sq_nonneg (v 5)]
    have hq : quatOfRot 1 = ⟨1, 0, 0, 0⟩ := by
      have h4' : Real.sqrt (1 + 1 + 1 + 1) = 2 := by
        rw [show (1 + 1 + 1 + 1 : ℝ) = 2 ^ 2 by norm_num, Real.sqrt_sq (by norm_num)]
      unfold quatOfRot
      simp
      rw [if_pos (by norm_num), h4']
      norm_num
    have ha : angleAxisOfRot 1 = (0, ![1, 0, 0]) := by
      unfold angleAxisOfRot
      rw [hq]
      simp [angleAxisOfQuat]
    rw [ha]
    ext i
    fin_cases i <;> simp [h3, h4, h5]

/-- The half-turn about `x` and the half-turn about `-x` are the same rotation: one of the two rotation vectors cannot be
given back. -/
theorem C81_half_turn_counterexample :
    ¬ ∀ v : Fin 6 → ℝ, v 3 ^ 2 + v 4 ^ 2 + v 5 ^ 2 ≤ Real.pi ^ 2 → homoToPoseUTheta (poseUThetaToHomo v) = v := by
  intro h
  have hs : ∀ a : ℝ, a ^ 2 = Real.pi ^ 2 → poseUThetaToHomo ![0, 0, 0, a, 0, 0] =
      ⟨!![1, 0, 0; 0, -1, 0; 0, 0, -1], ![0, 0, 0]⟩ := by
    intro a ha
    have e3 : (![0, 0, 0, a, 0, 0] : Fin 6 → ℝ) 3 = a := rfl
    have e4 : (![0, 0, 0, a, 0, 0] : Fin 6 → ℝ) 4 = 0 := rfl
    have e5 : (![0, 0, 0, a, 0, 0] : Fin 6 → ℝ) 5 = 0 := rfl
    have hsq : Real.sqrt (a ^ 2 + 0 ^ 2 + 0 ^ 2) = Real.pi := by
      rw [show a ^ 2 + 0 ^ 2 + 0 ^ 2 = Real.pi ^ 2 by linarith, Real.sqrt_sq Real.pi_pos.le]
    have hpi := Real.pi_pos.ne'
    unfold poseUThetaToHomo
    simp only [e3, e4, e5, hsq]
    rw [if_pos Real.pi_pos]
    apply Pose.ext
    · ext i j
      fin_cases i <;> fin_cases j <;> simp [angleAxisMatrix]
      rw [show a / Real.pi * (a / Real.pi) = a ^ 2 / Real.pi ^ 2 by field_simp, ha]
      field_simp
      norm_num
    · ext i
      fin_cases i <;> rfl
  have h1 := h ![0, 0, 0, Real.pi, 0, 0] (by
    show Real.pi ^ 2 + 0 ^ 2 + 0 ^ 2 ≤ Real.pi ^ 2
    linarith)
  have h2 := h ![0, 0, 0, -Real.pi, 0, 0] (by
    show (-Real.pi) ^ 2 + 0 ^ 2 + 0 ^ 2 ≤ Real.pi ^ 2
    linarith [neg_sq Real.pi])
  rw [hs _ rfl] at h1
  rw [hs _ (neg_sq _)] at h2
  have := congrFun (h1.symm.trans h2) 3
  have e : Real.pi = -Real.pi := this
  linarith [Real.pi_pos]

/-! ### Roll-pitch-yaw -/

theorem rpyToMatrix_eq (r p y : ℝ) : rpyToMatrix r p y = elementary .z y * (elementary .y p * elementary .x r) := by
  unfold rpyToMatrix
  rw [C70_mul_composes _ _ _ (angleAxisQuat_unit _ _), C70_mul_composes _ _ (angleAxisQuat_unit _ _)
    (angleAxisQuat_unit _ _), angleAxisQuat_toRot, angleAxisQuat_toRot, angleAxisQuat_toRot, Matrix.mul_assoc]
  rw [C70_norm_mul, angleAxisQuat_unit, angleAxisQuat_unit, mul_one]

theorem elementary_z_back (y : ℝ) (R : Matrix (Fin 3) (Fin 3) ℝ) : elementary .z y * (elementary .z (-y) * R) = R := by
  rw [← Matrix.mul_assoc]
  have : elementary .z y * elementary .z (-y) = 1 := by
    have h := Real.sin_sq_add_cos_sq y
    ext i j
    fin_cases i <;> fin_cases j <;> simp [elementary, Matrix.mul_apply, Fin.sum_univ_three] <;> nlinarith
  rw [this, Matrix.one_mul]

/-- **C81, roll-pitch-yaw.** The angles computed for a rotation give back the rotation, for every rotation (gimbal lock
included); a pose keeps its position. -/
theorem C81_matrix_rpy (R : Matrix (Fin 3) (Fin 3) ℝ) (h : IsRot R) :
    rpyToMatrix (matrixToRpy R).1 (matrixToRpy R).2.1 (matrixToRpy R).2.2 = R := by
  obtain ⟨c00, c11, c22, c01, c02, c12, r00, r11, r22, r01, r02, r12⟩ := h.entries
  rw [rpyToMatrix_eq]
  unfold matrixToRpy eulerAngles
  simp only
  have hc2 := Real.sq_sqrt (show 0 ≤ R 2 2 ^ 2 + R 2 1 ^ 2 by positivity)
  have hc2n := Real.sqrt_nonneg (R 2 2 ^ 2 + R 2 1 ^ 2)
  generalize Real.sqrt (R 2 2 ^ 2 + R 2 1 ^ 2) = c2 at *
  have hk : c2 ^ 2 = R 0 0 ^ 2 + R 1 0 ^ 2 := by linear_combination hc2 + r22 - c00
  have hk2 : (1 : ℝ) ^ 2 = c2 ^ 2 + (-R 2 0) ^ 2 := by linear_combination -hc2 - r22
  have hk3 : (1 : ℝ) ^ 2 = (-c2) ^ 2 + (-R 2 0) ^ 2 := by linear_combination -hc2 - r22
  clear c00 c11 c22 c01 c02 c12 r00 r11 r22 r01 r02 r12 hc2
  have hy0 : c2 * Real.cos (atan2 (R 1 0) (R 0 0)) = R 0 0 ∧ c2 * Real.sin (atan2 (R 1 0) (R 0 0)) = R 1 0 := by
    by_cases h0 : c2 = 0
    · have hs : R 0 0 ^ 2 + R 1 0 ^ 2 = 0 := by
        rw [← hk, h0]; norm_num
      have e0 : R 0 0 = 0 := by nlinarith [sq_nonneg (R 0 0), sq_nonneg (R 1 0)]
      have e1 : R 1 0 = 0 := by nlinarith [sq_nonneg (R 0 0), sq_nonneg (R 1 0)]
      simp [h0, e0, e1]
    · exact atan2_cos_sin _ _ c2 (lt_of_le_of_ne hc2n (Ne.symm h0)) hk
  generalize atan2 (R 1 0) (R 0 0) = y0 at *
  obtain ⟨y, p, cp, sp, hyp⟩ : ∃ y p, (y = if y0 < 0 then y0 + Real.pi else y0) ∧
      (p = if y0 < 0 then atan2 (-R 2 0) (-c2) else atan2 (-R 2 0) c2) ∧
      Real.cos p * Real.cos y = R 0 0 ∧ Real.cos p * Real.sin y = R 1 0 ∧ Real.sin p = -R 2 0 := by
    refine ⟨_, _, rfl, rfl, ?_⟩
    split_ifs with hneg
    · obtain ⟨k1, k2⟩ := atan2_cos_sin (-c2) (-R 2 0) 1 one_pos hk3
      rw [one_mul] at k1 k2
      rw [k1, k2, Real.cos_add_pi, Real.sin_add_pi]
      exact ⟨by linarith [hy0.1], by linarith [hy0.2], rfl⟩
    · obtain ⟨k1, k2⟩ := atan2_cos_sin c2 (-R 2 0) 1 one_pos hk2
      rw [one_mul] at k1 k2
      rw [k1, k2]
      exact ⟨hy0.1, hy0.2, rfl⟩
  rw [← cp, ← sp]
  obtain ⟨hcc, hcs, hsp⟩ := hyp
  have hR' := (elementary_isRot .z (-y)).mul h
  have hy1 := Real.sin_sq_add_cos_sq y
  have a00 : (elementary .z (-y) * R) 0 0 = Real.cos p := by
    simp [elementary, Matrix.mul_apply, Fin.sum_univ_three, ← hcc, ← hcs]
    linear_combination Real.cos p * hy1
  have a10 : (elementary .z (-y) * R) 1 0 = 0 := by
    simp [elementary, Matrix.mul_apply, Fin.sum_univ_three, ← hcc, ← hcs]
    ring
  have a20 : (elementary .z (-y) * R) 2 0 = -Real.sin p := by
    simp [elementary, Matrix.mul_apply, Fin.sum_univ_three, hsp]
  have a11 : (elementary .z (-y) * R) 1 1 = Real.cos y * R 1 1 - Real.sin y * R 0 1 := by
    simp [elementary, Matrix.mul_apply, Fin.sum_univ_three]
    ring
  have a12 : (elementary .z (-y) * R) 1 2 = -(Real.sin y * R 0 2 - Real.cos y * R 1 2) := by
    simp [elementary, Matrix.mul_apply, Fin.sum_univ_three]
    ring
  obtain ⟨-, -, -, -, -, -, -, b11, -⟩ := hR'.entries
  obtain ⟨-, f01, f02, -, -, -, -, f21, f22⟩ := hR'.cofactors
  obtain ⟨k1, k2⟩ := atan2_cos_sin (Real.cos y * R 1 1 - Real.sin y * R 0 1) (Real.sin y * R 0 2 - Real.cos y * R 1 2) 1 one_pos
    (by rw [a10, a11, a12] at b11; linear_combination -b11)
  rw [one_mul] at k1 k2
  generalize atan2 (Real.sin y * R 0 2 - Real.cos y * R 1 2) (Real.cos y * R 1 1 - Real.sin y * R 0 1) = r at *
  rw [← k1] at a11
  rw [← k2] at a12
  have hmain : elementary .y p * elementary .x r = elementary .z (-y) * R := by
    rw [a10, a12, a20] at f01
    rw [a10, a11, a20] at f02
    rw [a10, a00, a12] at f21
    rw [a10, a00, a11] at f22
    generalize elementary .z (-y) * R = M at *
    ext i j
    fin_cases i <;> fin_cases j <;> simp [elementary, Matrix.mul_apply, Fin.sum_univ_three] <;> linarith
  rw [hmain, elementary_z_back]

/-- **C81, poses and roll-pitch-yaw.** -/
theorem C81_pose_rpy (m : Pose ℝ) (h : IsRot m.R) : poseRpyToHomo (homoToPoseRpy m) = m := by
  apply Pose.ext
  · exact C81_matrix_rpy m.R h
  · ext i
    fin_cases i <;> rfl

/-- **C81, quaternions and roll-pitch-yaw.** The angles of a unit quaternion give back the quaternion, up to its sign. -/
theorem C81_quaternion_rpy (q : Quat ℝ) (hq : q.sqNorm = 1) :
    rpyToQuat (quatToRpy q).1 (quatToRpy q).2.1 (quatToRpy q).2.2 = q ∨
      rpyToQuat (quatToRpy q).1 (quatToRpy q).2.1 (quatToRpy q).2.2 = q.neg := by
  unfold rpyToQuat quatToRpy
  rw [C81_matrix_rpy q.toRot (C70_unit_quaternion_rotation q hq)]
  exact C81_quaternion_matrix q hq

/-- **C81, roll-pitch-yaw, the other way.** Angles with a yaw strictly between zero and half a turn, away from gimbal lock,
are given back exactly. -/
theorem C81_rpy_matrix (r p y : ℝ) (hr1 : -Real.pi < r) (hr2 : r ≤ Real.pi) (hp1 : -Real.pi < p) (hp2 : p ≤ Real.pi)
    (hp : Real.cos p ≠ 0) (hy1 : 0 < y) (hy2 : y < Real.pi) : matrixToRpy (rpyToMatrix r p y) = (r, p, y) := by
  have hpi := Real.pi_pos
  have m00 : rpyToMatrix r p y 0 0 = Real.cos p * Real.cos y := by
    rw [rpyToMatrix_eq]; simp [elementary, Matrix.mul_apply, Fin.sum_univ_three]; ring
  have m10 : rpyToMatrix r p y 1 0 = Real.cos p * Real.sin y := by
    rw [rpyToMatrix_eq]; simp [elementary, Matrix.mul_apply, Fin.sum_univ_three]; ring
  have m20 : rpyToMatrix r p y 2 0 = -Real.sin p := by
    rw [rpyToMatrix_eq]; simp [elementary, Matrix.mul_apply, Fin.sum_univ_three]
  have m21 : rpyToMatrix r p y 2 1 = Real.cos p * Real.sin r := by
    rw [rpyToMatrix_eq]; simp [elementary, Matrix.mul_apply, Fin.sum_univ_three]
  have m22 : rpyToMatrix r p y 2 2 = Real.cos p * Real.cos r := by
    rw [rpyToMatrix_eq]; simp [elementary, Matrix.mul_apply, Fin.sum_univ_three]
  have m01 : rpyToMatrix r p y 0 1 = Real.cos y * Real.sin p * Real.sin r - Real.sin y * Real.cos r := by
    rw [rpyToMatrix_eq]; simp [elementary, Matrix.mul_apply, Fin.sum_univ_three]; ring
  have m02 : rpyToMatrix r p y 0 2 = Real.cos y * Real.sin p * Real.cos r + Real.sin y * Real.sin r := by
    rw [rpyToMatrix_eq]; simp [elementary, Matrix.mul_apply, Fin.sum_univ_three]; ring
  have m11 : rpyToMatrix r p y 1 1 = Real.sin y * Real.sin p * Real.sin r + Real.cos y * Real.cos r := by
    rw [rpyToMatrix_eq]; simp [elementary, Matrix.mul_apply, Fin.sum_univ_three]; ring
  have m12 : rpyToMatrix r p y 1 2 = Real.sin y * Real.sin p * Real.cos r - Real.cos y * Real.sin r := by
    rw [rpyToMatrix_eq]; simp [elementary, Matrix.mul_apply, Fin.sum_univ_three]; ring
  have hyy := Real.sin_sq_add_cos_sq y
  have hrr := Real.sin_sq_add_cos_sq r
  have hc2 : Real.sqrt ((Real.cos p * Real.cos r) ^ 2 + (Real.cos p * Real.sin r) ^ 2) = |Real.cos p| := by
    rw [show (Real.cos p * Real.cos r) ^ 2 + (Real.cos p * Real.sin r) ^ 2 = Real.cos p ^ 2 by
      linear_combination Real.cos p ^ 2 * hrr, Real.sqrt_sq_eq_abs]
  have s1 : Real.sin y * (Real.cos y * Real.sin p * Real.cos r + Real.sin y * Real.sin r) -
      Real.cos y * (Real.sin y * Real.sin p * Real.cos r - Real.cos y * Real.sin r) = Real.sin r := by
    linear_combination Real.sin r * hyy
  have c1 : Real.cos y * (Real.sin y * Real.sin p * Real.sin r + Real.cos y * Real.cos r) -
      Real.sin y * (Real.cos y * Real.sin p * Real.sin r - Real.sin y * Real.cos r) = Real.cos r := by
    linear_combination Real.cos r * hyy
  have hpat : atan2 (Real.sin p) (Real.cos p) = p := by
    have := atan2_of_cos_sin 1 p one_pos hp1 hp2
    simpa using this
  have hrat : atan2 (Real.sin r) (Real.cos r) = r := by
    have := atan2_of_cos_sin 1 r one_pos hr1 hr2
    simpa using this
  unfold matrixToRpy eulerAngles
  simp only [m00, m10, m20, m21, m22, m01, m02, m11, m12, hc2, neg_neg]
  rcases lt_or_gt_of_ne hp with hn | hpos
  · have hy0 : atan2 (Real.cos p * Real.sin y) (Real.cos p * Real.cos y) = y - Real.pi := by
      have := atan2_of_cos_sin (-Real.cos p) (y - Real.pi) (by linarith) (by linarith) (by linarith)
      rw [Real.sin_sub_pi, Real.cos_sub_pi] at this
      simpa using this
    rw [hy0, if_pos (by linarith), if_pos (by linarith), abs_of_neg hn, neg_neg, hpat, sub_add_cancel, s1, c1, hrat]
  · have hy0 : atan2 (Real.cos p * Real.sin y) (Real.cos p * Real.cos y) = y :=
      atan2_of_cos_sin (Real.cos p) y hpos (by linarith) (by linarith)
    rw [hy0, if_neg (by linarith), if_neg (by linarith), abs_of_pos hpos, hpat, s1, c1, hrat]

example : -Real.pi < 0 ∧ Real.cos 0 ≠ 0 ∧ (0 : ℝ) < 1 ∧ (1 : ℝ) < Real.pi := by
  refine ⟨by linarith [Real.pi_pos], by simp, one_pos, by linarith [Real.pi_gt_three]⟩

/-- **C81, roll-pitch-yaw, counterexample.** A negative yaw is never given back: the conversion returns the other triple of
angles for the same rotation. -/
theorem C81_negative_yaw_counterexample :
    ¬ ∀ r p y : ℝ, |r| < Real.pi / 2 → |p| < Real.pi / 2 → |y| < Real.pi / 2 → matrixToRpy (rpyToMatrix r p y) = (r, p, y) := by
  intro h
  have hpi := Real.pi_gt_three
  have h1 := h 0 0 (-1) (by rw [abs_zero]; linarith) (by rw [abs_zero]; linarith) (by rw [abs_neg, abs_one]; linarith)
  have hy : (matrixToRpy (rpyToMatrix 0 0 (-1))).2.2 = -1 := by rw [h1]
  unfold matrixToRpy eulerAngles at hy
  simp only at hy
  have hb := Complex.arg_mem_Ioc ⟨rpyToMatrix 0 0 (-1) 0 0, rpyToMatrix 0 0 (-1) 1 0⟩
  unfold atan2 at hy
  split_ifs at hy with hneg
  · have := hb.1
    linarith
  · linarith

end Verif.Geometry
