import Verif.RobotUtils.Joints
import Verif.Geometry.Props
import Mathlib.Tactic.LinearCombination
import Mathlib.Analysis.Real.Pi.Bounds

/-!
# Properties C73 and C74: velocities and base poses of the two conventions
-/
set_option linter.unusedSimpArgs false

namespace Verif.RobotUtils

open Geometry Matrix

/-! ### Velocities (C73) -/

section Velocity

variable {F : Type} [Field F]

theorem seg3_ok (v : List F) (k : Nat) (h : k + 2 < v.length) : seg3 v k = .ok ![v[k], v[k + 1], v[k + 2]] := by
  rw [seg3, rd_of_lt _ _ (by omega), Outcome.bind_ok, rd_of_lt _ _ (by omega), Outcome.bind_ok, rd_of_lt _ _ h]
  rfl

theorem quatOf_ok (q : List F) (h : 6 < q.length) : quatOf q = .ok ⟨q[6], q[3], q[4], q[5]⟩ := by
  rw [quatOf, rd_of_lt _ _ h, Outcome.bind_ok, rd_of_lt _ _ (by omega), Outcome.bind_ok, rd_of_lt _ _ (by omega),
    Outcome.bind_ok, rd_of_lt _ _ (by omega)]
  rfl

/-- The orientation stored in a configuration: four numbers after the position, the scalar last. -/
def IsUnit4 (q : List F) : Prop := ∃ p0 p1 p2 x y z w rest, q = p0 :: p1 :: p2 :: x :: y :: z :: w :: rest ∧
  w ^ 2 + x ^ 2 + y ^ 2 + z ^ 2 = 1

theorem six (v : List F) (h : 6 ≤ v.length) :
    ∃ a b c d e f r, v = a :: b :: c :: d :: e :: f :: r := by
  match v, h with
  | a :: b :: c :: d :: e :: f :: r, _ => exact ⟨a, b, c, d, e, f, r, rfl⟩

theorem vec3_eta (w : Fin 3 → F) : ![w 0, w 1, w 2] = w := by ext i; fin_cases i <;> rfl

/-- **C73.** Converting the velocity of a floating-base robot from one convention to the other and back, at the same
configuration, gives the velocity back, in both directions. -/
theorem C73_velocity_roundtrip (j : Joints) {m : List Int} (hm : IsPermutation m) (h0 : m ≠ []) (q v b1 b2 : List F)
    (hq : q.length = m.length + 7) (hu : IsUnit4 q) (hv : v.length = m.length + 6) (h1 : b1.length = m.length + 6)
    (h2 : b2.length = m.length + 6) :
    (∃ s, velocityUrdfToSot (setUrdfToSot j m) q v b1 = .ok (true, s) ∧
      velocitySotToUrdf (setUrdfToSot j m) q s b2 = .ok (true, v)) ∧
    (∃ u, velocitySotToUrdf (setUrdfToSot j m) q v b1 = .ok (true, u) ∧
      velocityUrdfToSot (setUrdfToSot j m) q u b2 = .ok (true, v)) := by
  obtain ⟨p0, p1, p2, x, y, z, w, rest, rfl, hun⟩ := hu
  obtain ⟨va, vb, vc, vd, ve, vf, vr, rfl⟩ := six v (by omega)
  have hz : m.length ≠ 0 := by simpa using h0
  have hvr : vr.length = m.length := by simpa using hv
  have hrot := C70_unit_quaternion_rotation (F := F) ⟨w, x, y, z⟩ hun
  have hqt : quatOf (p0 :: p1 :: p2 :: x :: y :: z :: w :: rest) = .ok ⟨w, x, y, z⟩ := by
    rw [quatOf_ok _ (by simp)]
    rfl
  set R := (⟨w, x, y, z⟩ : Quat F).toRot with hR
  have hback : ∀ a : Fin 3 → F, Rᵀ *ᵥ (R *ᵥ a) = a := by
    intro a; rw [Matrix.mulVec_mulVec, hrot.1, Matrix.one_mulVec]
  have hforth : ∀ a : Fin 3 → F, R *ᵥ (Rᵀ *ᵥ a) = a := by
    intro a; rw [Matrix.mulVec_mulVec, mul_eq_one_comm.mp hrot.1, Matrix.one_mulVec]
  have hs3 : ∀ (a b : Fin 3 → F) (t : List F),
      seg3 ([a 0, a 1, a 2, b 0, b 1, b 2] ++ t) 0 = .ok a ∧ seg3 ([a 0, a 1, a 2, b 0, b 1, b 2] ++ t) 3 = .ok b := by
    intro a b t
    constructor
    · rw [seg3_ok _ _ (by simp)]
      exact congrArg _ (vec3_eta a)
    · rw [seg3_ok _ _ (by simp)]
      exact congrArg _ (vec3_eta b)
  have hv6 : va :: vb :: vc :: vd :: ve :: vf :: vr = [(![va, vb, vc] : Fin 3 → F) 0, (![va, vb, vc] : Fin 3 → F) 1,
      (![va, vb, vc] : Fin 3 → F) 2, (![vd, ve, vf] : Fin 3 → F) 0, (![vd, ve, vf] : Fin 3 → F) 1,
      (![vd, ve, vf] : Fin 3 → F) 2] ++ vr := rfl
  rw [hv6]
  generalize (![va, vb, vc] : Fin 3 → F) = a
  generalize (![vd, ve, vf] : Fin 3 → F) = b
  have fwd : ∀ (a b : Fin 3 → F) (t buf : List F), t.length = m.length → buf.length = m.length + 6 → ∀ r,
      jointsUrdfToSot (setUrdfToSot j m) t (buf.drop 6) = .ok (true, r) →
      velocityUrdfToSot (setUrdfToSot j m) (p0 :: p1 :: p2 :: x :: y :: z :: w :: rest)
        ([a 0, a 1, a 2, b 0, b 1, b 2] ++ t) buf =
        .ok (true, [(R *ᵥ a) 0, (R *ᵥ a) 1, (R *ᵥ a) 2, (R *ᵥ b) 0, (R *ᵥ b) 1, (R *ᵥ b) 2] ++ r) := by
    intro a b t buf ht hb r hr
    have hl : ([a 0, a 1, a 2, b 0, b 1, b 2] ++ t).length = m.length + 6 := by
      simp only [List.length_append, List.length_cons, List.length_nil, ht]; omega
    unfold velocityUrdfToSot
    simp only [setUrdfToSot]
    rw [if_neg (by simp only [hq, hl, hb]; simp), if_neg hz, hqt, Outcome.bind_ok, (hs3 a b t).1, Outcome.bind_ok,
      (hs3 a b t).2, Outcome.bind_ok]
    simp only [setUrdfToSot] at hr
    have hd : ([a 0, a 1, a 2, b 0, b 1, b 2] ++ t).drop 6 = t := rfl
    rw [hd, hr]
    rfl
  have bwd : ∀ (a b : Fin 3 → F) (t buf : List F), t.length = m.length → buf.length = m.length + 6 → ∀ r,
      jointsSotToUrdf (setUrdfToSot j m) t (buf.drop 6) = .ok (true, r) →
      velocitySotToUrdf (setUrdfToSot j m) (p0 :: p1 :: p2 :: x :: y :: z :: w :: rest)
        ([a 0, a 1, a 2, b 0, b 1, b 2] ++ t) buf =
        .ok (true, [(Rᵀ *ᵥ a) 0, (Rᵀ *ᵥ a) 1, (Rᵀ *ᵥ a) 2, (Rᵀ *ᵥ b) 0, (Rᵀ *ᵥ b) 1, (Rᵀ *ᵥ b) 2] ++ r) := by
    intro a b t buf ht hb r hr
    have hl : ([a 0, a 1, a 2, b 0, b 1, b 2] ++ t).length = m.length + 6 := by
      simp only [List.length_append, List.length_cons, List.length_nil, ht]; omega
    unfold velocitySotToUrdf
    simp only [setUrdfToSot]
    rw [if_neg (by simp only [hq, hl, hb]; simp), if_neg hz, hqt, Outcome.bind_ok, (hs3 a b t).1, Outcome.bind_ok,
      (hs3 a b t).2, Outcome.bind_ok]
    simp only [setUrdfToSot] at hr
    have hd : ([a 0, a 1, a 2, b 0, b 1, b 2] ++ t).drop 6 = t := rfl
    rw [hd, hr]
    rfl
  obtain ⟨⟨s, hs1, hs2⟩, ⟨u, hu1, hu2⟩⟩ := C43_roundtrip j hm h0 vr (b1.drop 6) (b2.drop 6) hvr (by simp [h1])
    (by simp [h2])
  have hsl : s.length = m.length := by
    obtain ⟨r, hr, hrl, -⟩ := urdfToSot_spec j hm h0 vr (b1.drop 6) hvr (by simp [h1])
    rw [hr] at hs1
    cases hs1
    exact hrl
  have hul : u.length = m.length := by
    obtain ⟨r, hr, hrl, -⟩ := sotToUrdf_spec j hm h0 vr (b1.drop 6) (by simp [h1]) hvr
    rw [hr] at hu1
    cases hu1
    exact hrl
  refine ⟨⟨_, fwd a b vr b1 hvr h1 s hs1, ?_⟩, ⟨_, bwd a b vr b1 hvr h1 u hu1, ?_⟩⟩
  · rw [bwd (R *ᵥ a) (R *ᵥ b) s b2 hsl h2 vr hs2, hback, hback]
  · rw [fwd (Rᵀ *ᵥ a) (Rᵀ *ᵥ b) u b2 hul h2 vr hu2, hforth, hforth]

/-- A case: three joints, a quarter turn about the vertical would need roots; this is a half turn about `x`. -/
example : IsPermutation [2, 0, 1] ∧ IsUnit4 ([5, 6, 7, 1, 0, 0, 0, 1, 2, 3] : List ℚ) := by
  refine ⟨by unfold IsPermutation; decide, 5, 6, 7, 1, 0, 0, 0, [1, 2, 3], rfl, by norm_num⟩

/-- **C73.** What the conversion does to the base: both halves of the base velocity are turned by the orientation of the
base, from the base axes to the world axes. -/
theorem C73_velocity_of_base (j : Joints) (n : Nat) (hj : j.nb = some (n + 1)) (q v b : List F) (r : List F)
    (hr : velocityUrdfToSot j q v b = .ok (true, r)) :
    ∃ qt : Quat F, quatOf q = .ok qt ∧ ∃ l a l' a' : Fin 3 → F, seg3 v 0 = .ok l ∧ seg3 v 3 = .ok a ∧
      seg3 r 0 = .ok l' ∧ seg3 r 3 = .ok a' ∧ l' = qt.toRot *ᵥ l ∧ a' = qt.toRot *ᵥ a := by
  unfold velocityUrdfToSot at hr
  simp only [hj] at hr
  split at hr
  · simp at hr
  · rw [if_neg (by omega)] at hr
    simp only [Outcome.bind_eq_ok, Outcome.map_eq_ok] at hr
    obtain ⟨qt, hqt, l, hl, a, ha, s, hs, e⟩ := hr
    refine ⟨qt, hqt, l, a, qt.toRot *ᵥ l, qt.toRot *ᵥ a, hl, ha, ?_, ?_, rfl, rfl⟩
    · simp only [Prod.mk.injEq, true_and] at e
      rw [← e, seg3_ok _ _ (by simp)]
      exact congrArg _ (vec3_eta (qt.toRot *ᵥ l))
    · simp only [Prod.mk.injEq, true_and] at e
      rw [← e, seg3_ok _ _ (by simp)]
      exact congrArg _ (vec3_eta (qt.toRot *ᵥ a))

example : velocityUrdfToSot (setUrdfToSot .new [0]) [0, 0, 0, 1, 0, 0, 0, 9] [1, 2, 3, 4, 5, 6, 7] [0, 0, 0, 0, 0, 0, 0] =
    .ok (true, [1, -2, -3, 4, -5, -6, (7 : ℚ)]) := by
  simp [velocityUrdfToSot, setUrdfToSot, quatOf, seg3, rd, Quat.toRot, Matrix.mulVec, dotProduct, Fin.sum_univ_three,
    jointsUrdfToSot, scatter, wrI]
  norm_num

end Velocity

/-! ### Base poses (C74) -/

theorem cos_sin_atan2 (x y ρ : ℝ) (hρ : 0 < ρ) (h : x ^ 2 + y ^ 2 = ρ ^ 2) :
    ρ * Real.cos (atan2 y x) = x ∧ ρ * Real.sin (atan2 y x) = y := by
  have hn : ‖(⟨x, y⟩ : ℂ)‖ = ρ := by
    rw [Complex.norm_def, Complex.normSq_mk]
    rw [show x * x + y * y = ρ ^ 2 by rw [← h]; ring, Real.sqrt_sq hρ.le]
  constructor
  · have := Complex.norm_mul_cos_arg ⟨x, y⟩
    rwa [hn] at this
  · have := Complex.norm_mul_sin_arg ⟨x, y⟩
    rwa [hn] at this

theorem atan2_polar (ρ θ : ℝ) (hρ : 0 < ρ) (h1 : -Real.pi < θ) (h2 : θ ≤ Real.pi) :
    atan2 (ρ * Real.sin θ) (ρ * Real.cos θ) = θ := by
  have := Complex.arg_mul_cos_add_sin_mul_I hρ (θ := θ) ⟨h1, h2⟩
  refine Eq.trans ?_ this
  rw [atan2]
  congr 1
  apply Complex.ext
  · simp [Complex.mul_re, Complex.cos_ofReal_re, Complex.sin_ofReal_im, Complex.sin_ofReal_re, Complex.cos_ofReal_im]
  · simp [Complex.mul_im, Complex.cos_ofReal_re, Complex.sin_ofReal_im, Complex.sin_ofReal_re, Complex.cos_ofReal_im]

theorem rpyToMatrix_eq (r p y : ℝ) : rpyToMatrix r p y = elementary .z y * elementary .y p * elementary .x r := by
  unfold rpyToMatrix
  rw [C70_mul_composes _ _ _ (angleAxisQuat_unit _ _), C70_mul_composes _ _ (angleAxisQuat_unit _ _)
    (angleAxisQuat_unit _ _), angleAxisQuat_toRot, angleAxisQuat_toRot, angleAxisQuat_toRot]
  rw [C70_norm_mul, angleAxisQuat_unit, angleAxisQuat_unit, mul_one]

/-- The entries of the rotation of three angles. -/
theorem rpyToMatrix_entries (r p y : ℝ) : rpyToMatrix r p y =
    !![Real.cos y * Real.cos p, Real.cos y * Real.sin p * Real.sin r - Real.sin y * Real.cos r,
        Real.cos y * Real.sin p * Real.cos r + Real.sin y * Real.sin r;
      Real.sin y * Real.cos p, Real.sin y * Real.sin p * Real.sin r + Real.cos y * Real.cos r,
        Real.sin y * Real.sin p * Real.cos r - Real.cos y * Real.sin r;
      -Real.sin p, Real.cos p * Real.sin r, Real.cos p * Real.cos r] := by
  rw [rpyToMatrix_eq]
  ext i j
  fin_cases i <;> fin_cases j <;> simp [elementary, Matrix.mul_apply, Fin.sum_univ_three] <;> ring

/-- The equations of a rotation matrix used here. -/
theorem isRot_eqs {R : Matrix (Fin 3) (Fin 3) ℝ} (h : IsRot R) :
    (R 2 0 ^ 2 + R 2 1 ^ 2 + R 2 2 ^ 2 = 1) ∧ (R 0 0 ^ 2 + R 1 0 ^ 2 + R 2 0 ^ 2 = 1) ∧
    (R 0 1 ^ 2 + R 1 1 ^ 2 + R 2 1 ^ 2 = 1) ∧
    (R 0 0 * R 2 0 + R 0 1 * R 2 1 + R 0 2 * R 2 2 = 0) ∧ (R 1 0 * R 2 0 + R 1 1 * R 2 1 + R 1 2 * R 2 2 = 0) ∧
    (R 0 0 = R 1 1 * R 2 2 - R 1 2 * R 2 1) ∧ (R 1 0 = R 0 2 * R 2 1 - R 0 1 * R 2 2) ∧
    (R 0 2 = R 1 0 * R 2 1 - R 1 1 * R 2 0) ∧ (R 1 2 = R 0 1 * R 2 0 - R 0 0 * R 2 1) := by
  have h1 := h.1
  have h2 := h.mul_transpose
  have hadj : R.adjugate = Rᵀ := by
    have := Matrix.inv_def R
    rw [h.2, Ring.inverse_one, one_smul, h.inv_eq] at this
    exact this.symm
  have e1 : ∀ i j, (Rᵀ * R) i j = (1 : Matrix (Fin 3) (Fin 3) ℝ) i j := fun i j => by rw [h1]
  have e2 : ∀ i j, (R * Rᵀ) i j = (1 : Matrix (Fin 3) (Fin 3) ℝ) i j := fun i j => by rw [h2]
  have e3 : ∀ i j, R.adjugate i j = R j i := fun i j => by rw [hadj]; rfl
  simp only [Matrix.mul_apply, Fin.sum_univ_three, Matrix.transpose_apply] at e1 e2
  have a1 := e2 2 2
  have a2 := e1 0 0
  have a3 := e1 1 1
  have a4 := e2 0 2
  have a5 := e2 1 2
  simp only [Matrix.one_apply_eq] at a1 a2 a3
  rw [Matrix.one_apply_ne (by decide)] at a4 a5
  have c1 := e3 0 0
  have c2 := e3 0 1
  have c3 := e3 2 0
  have c4 := e3 2 1
  simp only [Matrix.adjugate_fin_three, Matrix.of_apply, Matrix.cons_val', Matrix.cons_val_zero, Matrix.cons_val_one,
    Matrix.cons_val_two, Matrix.cons_val_fin_one, Matrix.cons_val, Matrix.vecHead, Matrix.vecTail,
    Function.comp_apply, Fin.succ_zero_eq_one] at c1 c2 c3 c4
  refine ⟨by linear_combination a1, by linear_combination a2, by linear_combination a3, by linear_combination a4,
    by linear_combination a5, by linear_combination -c1, by linear_combination -c2, by linear_combination -c3,
    by linear_combination -c4⟩

/-- The angles extracted describe the same rotation, away from the window around the singular pitch. -/
theorem rpyOf_regular {R : Matrix (Fin 3) (Fin 3) ℝ} (h : IsRot R) (ε : ℝ) (hε : 0 < ε)
    (hw : ¬ |(|(rpyOf ε R).2.1| - Real.pi / 2)| < ε) :
    rpyToMatrix (rpyOf ε R).1 (rpyOf ε R).2.1 (rpyOf ε R).2.2 = R := by
  obtain ⟨e1, e2, e3, e4, e5, c1, c2, c3, c4⟩ := isRot_eqs h
  set m := Real.sqrt (R 2 1 * R 2 1 + R 2 2 * R 2 2) with hm
  have hm2 : m ^ 2 = R 2 1 ^ 2 + R 2 2 ^ 2 := by
    rw [hm, Real.sq_sqrt (add_nonneg (mul_self_nonneg _) (mul_self_nonneg _))]; ring
  have hm0 : 0 ≤ m := Real.sqrt_nonneg _
  have hp := cos_sin_atan2 m (-R 2 0) 1 one_pos (by rw [hm2]; linear_combination e1)
  rw [one_mul, one_mul] at hp
  have hpe : (rpyOf ε R).2.1 = atan2 (-R 2 0) m := by
    unfold rpyOf; simp only [← hm]; split <;> rfl
  rw [hpe] at hw
  have hmp : 0 < m := by
    rcases hm0.lt_or_eq with h | h
    · exact h
    · exfalso
      apply hw
      rw [← h] at hp ⊢
      have hc : Real.cos (atan2 (-R 2 0) 0) = 0 := hp.1
      have hle := Complex.abs_arg_le_pi_div_two_iff.mpr (show 0 ≤ (⟨0, -R 2 0⟩ : ℂ).re from le_refl _)
      have : |atan2 (-R 2 0) 0| = Real.pi / 2 := by
        rcases hle.lt_or_eq with hlt | heq
        · have := Real.cos_pos_of_mem_Ioo (x := atan2 (-R 2 0) 0) (by rw [abs_lt] at hlt; exact ⟨hlt.1, hlt.2⟩)
          rw [hc] at this
          exact absurd this (lt_irrefl _)
        · exact heq
      rw [this]
      simpa using hε
  have hy := cos_sin_atan2 (R 0 0) (R 1 0) m hmp (by rw [hm2]; linear_combination e2 - e1)
  have hr := cos_sin_atan2 (R 2 2) (R 2 1) m hmp (by rw [hm2]; ring)
  have hval : rpyOf ε R = (atan2 (R 2 1) (R 2 2), atan2 (-R 2 0) m, atan2 (R 1 0) (R 0 0)) := by
    unfold rpyOf; simp only [← hm]; rw [if_neg hw]
  rw [hval]
  simp only
  rw [rpyToMatrix_entries]
  set cy := Real.cos (atan2 (R 1 0) (R 0 0))
  set sy := Real.sin (atan2 (R 1 0) (R 0 0))
  set cr := Real.cos (atan2 (R 2 1) (R 2 2))
  set sr := Real.sin (atan2 (R 2 1) (R 2 2))
  rw [hp.1, hp.2]
  have hne : m ≠ 0 := hmp.ne'
  have hcy : cy = R 0 0 / m := by rw [eq_div_iff hne]; linear_combination hy.1
  have hsy : sy = R 1 0 / m := by rw [eq_div_iff hne]; linear_combination hy.2
  have hcr : cr = R 2 2 / m := by rw [eq_div_iff hne]; linear_combination hr.1
  have hsr : sr = R 2 1 / m := by rw [eq_div_iff hne]; linear_combination hr.2
  rw [hcy, hsy, hcr, hsr]
  ext i j
  fin_cases i <;> fin_cases j
  · simp; field_simp
  · show R 0 0 / m * -R 2 0 * (R 2 1 / m) - R 1 0 / m * (R 2 2 / m) = R 0 1
    field_simp
    rw [hm2]
    linear_combination -(R 2 1) * e4 - (R 2 2) * c2
  · show R 0 0 / m * -R 2 0 * (R 2 2 / m) + R 1 0 / m * (R 2 1 / m) = R 0 2
    field_simp
    rw [hm2]
    linear_combination -(R 2 2) * e4 + (R 2 1) * c2
  · simp; field_simp
  · show R 1 0 / m * -R 2 0 * (R 2 1 / m) + R 0 0 / m * (R 2 2 / m) = R 1 1
    field_simp
    rw [hm2]
    linear_combination -(R 2 1) * e5 + (R 2 2) * c1
  · show R 1 0 / m * -R 2 0 * (R 2 2 / m) - R 0 0 / m * (R 2 1 / m) = R 1 2
    field_simp
    rw [hm2]
    linear_combination -(R 2 2) * e5 - (R 2 1) * c1
  · simp
  · simp; field_simp
  · simp; field_simp

/-- At the singular pitch itself the angles describe the same rotation too. -/
theorem rpyOf_singular {R : Matrix (Fin 3) (Fin 3) ℝ} (h : IsRot R) (ε : ℝ) (hε : 0 < ε) (h1 : R 2 1 = 0) (h2 : R 2 2 = 0) :
    rpyToMatrix (rpyOf ε R).1 (rpyOf ε R).2.1 (rpyOf ε R).2.2 = R := by
  obtain ⟨e1, e2, e3, e4, e5, c1, c2, c3, c4⟩ := isRot_eqs h
  by_cases hw : ¬ |(|(rpyOf ε R).2.1| - Real.pi / 2)| < ε
  · exact rpyOf_regular h ε hε hw
  · rw [not_not] at hw
    set m := Real.sqrt (R 2 1 * R 2 1 + R 2 2 * R 2 2) with hm
    have hm0 : m = 0 := by rw [hm, h1, h2]; simp
    have hpe : (rpyOf ε R).2.1 = atan2 (-R 2 0) m := by
      unfold rpyOf; simp only [← hm]; split <;> rfl
    rw [hpe] at hw
    have hval : rpyOf ε R = (0, atan2 (-R 2 0) m, -atan2 (R 0 1) (R 1 1)) := by
      unfold rpyOf; simp only [← hm]; rw [if_pos hw]
    have hp := cos_sin_atan2 m (-R 2 0) 1 one_pos (by rw [hm0]; rw [h1, h2] at e1; linear_combination e1)
    have hy := cos_sin_atan2 (R 1 1) (R 0 1) 1 one_pos (by rw [h1] at e3; linear_combination e3)
    rw [one_mul, one_mul] at hp hy
    rw [hval]
    simp only
    rw [rpyToMatrix_entries, Real.cos_neg, Real.sin_neg, hp.1, hp.2, hy.1, hy.2, Real.cos_zero, Real.sin_zero, hm0]
    rw [h1, h2] at e1 e4 e5 c1 c2
    rw [h1] at c3 c4 e3
    ext i j
    fin_cases i <;> fin_cases j
    · simp; linarith
    · simp
    · show R 1 1 * -R 2 0 * 1 + -R 0 1 * 0 = R 0 2
      linear_combination -c3
    · simp; linarith
    · simp
    · show -R 0 1 * -R 2 0 * 1 - R 1 1 * 0 = R 1 2
      linear_combination -c4
    · simp
    · simp [h1]
    · simp [h2]

/-- **C74.** The roll-pitch-yaw form of a base pose with a unit quaternion keeps the position and describes the same
orientation, unless the pitch is within 0.001 of a right angle without being one. -/
theorem C74_same_pose (p0 p1 p2 x y z w : ℝ) (hu : w ^ 2 + x ^ 2 + y ^ 2 + z ^ 2 = 1) :
    ∃ r p a, baseUrdfToSot [p0, p1, p2, x, y, z, w] = .ok [p0, p1, p2, r, p, a] ∧
      ((¬ |(|p| - Real.pi / 2)| < 0.001 ∨ ((⟨w, x, y, z⟩ : Quat ℝ).toRot 2 1 = 0 ∧ (⟨w, x, y, z⟩ : Quat ℝ).toRot 2 2 = 0)) →
        rpyToMatrix r p a = (⟨w, x, y, z⟩ : Quat ℝ).toRot) := by
  have hrot : IsRot (⟨w, x, y, z⟩ : Quat ℝ).toRot := C70_unit_quaternion_rotation (F := ℝ) ⟨w, x, y, z⟩ hu
  refine ⟨(rpyOf 0.001 (⟨w, x, y, z⟩ : Quat ℝ).toRot).1, (rpyOf 0.001 (⟨w, x, y, z⟩ : Quat ℝ).toRot).2.1,
    (rpyOf 0.001 (⟨w, x, y, z⟩ : Quat ℝ).toRot).2.2, ?_, ?_⟩
  · unfold baseUrdfToSot
    rw [if_neg (by simp), quatOf_ok _ (by simp), Outcome.bind_ok, seg3_ok _ _ (by simp)]
    rfl
  · rintro (h | h)
    · exact rpyOf_regular hrot 0.001 (by norm_num) h
    · exact rpyOf_singular hrot 0.001 (by norm_num) h.1 h.2

example : (1 / 2 : ℝ) ^ 2 + (1 / 2) ^ 2 + (1 / 2) ^ 2 + (1 / 2) ^ 2 = 1 := by norm_num

/-- The angles of the rotation of three angles in range, away from the singular pitch. -/
theorem rpyOf_rpyToMatrix (ε r p y : ℝ) (hε : 0 < ε) (hp : |p| ≤ Real.pi / 2 - ε) (hr : -Real.pi < r ∧ r ≤ Real.pi)
    (hy : -Real.pi < y ∧ y ≤ Real.pi) : rpyOf ε (rpyToMatrix r p y) = (r, p, y) := by
  have hp' := abs_le.mp hp
  have hcp : 0 < Real.cos p := Real.cos_pos_of_mem_Ioo ⟨by linarith, by linarith⟩
  rw [rpyToMatrix_entries]
  have hm : Real.sqrt (Real.cos p * Real.sin r * (Real.cos p * Real.sin r) + Real.cos p * Real.cos r * (Real.cos p * Real.cos r)) =
      Real.cos p := by
    rw [show Real.cos p * Real.sin r * (Real.cos p * Real.sin r) + Real.cos p * Real.cos r * (Real.cos p * Real.cos r) =
      Real.cos p ^ 2 by linear_combination (Real.cos p ^ 2) * Real.sin_sq_add_cos_sq r, Real.sqrt_sq hcp.le]
  have hpp : atan2 (Real.sin p) (Real.cos p) = p := by
    have := atan2_polar 1 p one_pos (by linarith [Real.pi_pos]) (by linarith [Real.pi_pos])
    rwa [one_mul, one_mul] at this
  have hyy : atan2 (Real.sin y * Real.cos p) (Real.cos y * Real.cos p) = y := by
    rw [mul_comm, mul_comm (Real.cos y)]
    exact atan2_polar _ y hcp hy.1 hy.2
  have hrr := atan2_polar _ r hcp hr.1 hr.2
  have hw : ¬ |(|p| - Real.pi / 2)| < ε := by
    rw [abs_sub_comm, abs_of_nonneg (by linarith)]
    linarith
  unfold rpyOf
  simp [hm, hpp, hyy, hrr, hw]

/-- **C74.** From angles in range and at least 0.001 away from the singular pitch, converting to a quaternion and back
gives the same numbers. -/
theorem C74_angles_roundtrip (p0 p1 p2 r p y : ℝ) (hp : |p| ≤ Real.pi / 2 - 0.001) (hr : -Real.pi < r ∧ r ≤ Real.pi)
    (hy : -Real.pi < y ∧ y ≤ Real.pi) :
    ∃ u, baseSotToUrdf [p0, p1, p2, r, p, y] = .ok u ∧ baseUrdfToSot u = .ok [p0, p1, p2, r, p, y] := by
  set qt := ((angleAxisQuat .z y).mul (angleAxisQuat .y p)).mul (angleAxisQuat .x r) with hqt
  refine ⟨[p0, p1, p2, qt.x, qt.y, qt.z, qt.w], ?_, ?_⟩
  · unfold baseSotToUrdf
    rw [if_neg (by simp), seg3_ok _ _ (by simp), Outcome.bind_ok, seg3_ok _ _ (by simp)]
    rfl
  · unfold baseUrdfToSot
    rw [if_neg (by simp), quatOf_ok _ (by simp), Outcome.bind_ok, seg3_ok _ _ (by simp), Outcome.map_ok]
    have : (⟨qt.w, qt.x, qt.y, qt.z⟩ : Quat ℝ).toRot = rpyToMatrix r p y := rfl
    simp only [List.getElem_cons_succ, List.getElem_cons_zero, baseSe3ToSot, this]
    rw [rpyOf_rpyToMatrix 0.001 r p y (by norm_num) hp hr hy]
    rfl

example : |(1 : ℝ)| ≤ Real.pi / 2 - 0.001 ∧ (-Real.pi < 3 ∧ (3 : ℝ) ≤ Real.pi) := by
  have := Real.pi_gt_three
  have h2 := Real.pi_gt_d2
  rw [abs_one]
  refine ⟨by linarith, by linarith, by linarith⟩

/-- **C74 is limited to that.** Within 0.001 of the singular pitch the roll is dropped: a base with roll `1` and pitch
`π/2 - 0.0005` is converted to angles that describe another orientation. -/
theorem C74_near_singularity_counterexample :
    let R := rpyToMatrix 1 (Real.pi / 2 - 0.0005) 0
    IsRot R ∧ rpyToMatrix (rpyOf 0.001 R).1 (rpyOf 0.001 R).2.1 (rpyOf 0.001 R).2.2 ≠ R := by
  intro R
  refine ⟨(C71_rpy _ _ _).1, ?_⟩
  have hcp : 0 < Real.cos (Real.pi / 2 - 0.0005) :=
    Real.cos_pos_of_mem_Ioo ⟨by linarith [Real.pi_gt_three], by linarith⟩
  have hm : Real.sqrt (R 2 1 * R 2 1 + R 2 2 * R 2 2) = Real.cos (Real.pi / 2 - 0.0005) := by
    simp only [R]
    rw [rpyToMatrix_entries]
    show Real.sqrt (Real.cos (Real.pi / 2 - 0.0005) * Real.sin 1 * (Real.cos (Real.pi / 2 - 0.0005) * Real.sin 1) +
      Real.cos (Real.pi / 2 - 0.0005) * Real.cos 1 * (Real.cos (Real.pi / 2 - 0.0005) * Real.cos 1)) = _
    rw [show Real.cos (Real.pi / 2 - 0.0005) * Real.sin 1 * (Real.cos (Real.pi / 2 - 0.0005) * Real.sin 1) +
      Real.cos (Real.pi / 2 - 0.0005) * Real.cos 1 * (Real.cos (Real.pi / 2 - 0.0005) * Real.cos 1) =
      Real.cos (Real.pi / 2 - 0.0005) ^ 2 by
        linear_combination (Real.cos (Real.pi / 2 - 0.0005) ^ 2) * Real.sin_sq_add_cos_sq 1, Real.sqrt_sq hcp.le]
  have h20 : -R 2 0 = Real.sin (Real.pi / 2 - 0.0005) := by
    simp only [R]
    rw [rpyToMatrix_entries]
    simp
  have hpp : atan2 (-R 2 0) (Real.cos (Real.pi / 2 - 0.0005)) = Real.pi / 2 - 0.0005 := by
    rw [h20]
    have := atan2_polar 1 (Real.pi / 2 - 0.0005) one_pos (by linarith [Real.pi_gt_three]) (by linarith [Real.pi_pos])
    rwa [one_mul, one_mul] at this
  have hroll : (rpyOf 0.001 R).1 = 0 := by
    unfold rpyOf
    simp only [hm, hpp]
    rw [if_pos]
    rw [abs_of_pos (show (0 : ℝ) < Real.pi / 2 - 0.0005 by linarith [Real.pi_gt_three]), show Real.pi / 2 - 0.0005 - Real.pi / 2 = (-0.0005 : ℝ) by ring]
    norm_num [abs_lt]
  intro e
  have h21 : R 2 1 = 0 := by
    rw [← e, hroll, rpyToMatrix_entries]
    simp
  have h21' : R 2 1 = Real.cos (Real.pi / 2 - 0.0005) * Real.sin 1 := by
    simp only [R]
    rw [rpyToMatrix_entries]
    simp
  have hs1 : 0 < Real.sin 1 := Real.sin_pos_of_pos_of_lt_pi one_pos (by linarith [Real.pi_gt_three])
  rw [h21'] at h21
  exact absurd h21 (mul_pos hcp hs1).ne'

/-- **C74.** Full configurations: from angles in range, the conversion to the other convention and back returns every
number. -/
theorem C74_config_roundtrip (j : Joints) {m : List Int} (hm : IsPermutation m) (h0 : m ≠ []) (p0 p1 p2 r p y : ℝ)
    (t b1 b2 : List ℝ) (ht : t.length = m.length) (h1 : b1.length = m.length + 7) (h2 : b2.length = m.length + 6)
    (hp : |p| ≤ Real.pi / 2 - 0.001) (hr : -Real.pi < r ∧ r ≤ Real.pi) (hy : -Real.pi < y ∧ y ≤ Real.pi) :
    ∃ u, configSotToUrdf (setUrdfToSot j m) ([p0, p1, p2, r, p, y] ++ t) b1 = .ok (true, u) ∧
      configUrdfToSot (setUrdfToSot j m) u b2 = .ok (true, [p0, p1, p2, r, p, y] ++ t) := by
  obtain ⟨ub, hub1, hub2⟩ := C74_angles_roundtrip p0 p1 p2 r p y hp hr hy
  have hubl : ub.length = 7 := by
    unfold baseUrdfToSot at hub2
    split at hub2
    · simp at hub2
    · rename_i h
      simpa using h
  obtain ⟨-, ⟨u, hu1, hu2⟩⟩ := C43_roundtrip j hm h0 t (b1.drop 7) (b2.drop 6) ht (by simp [h1]) (by simp [h2])
  have hul : u.length = m.length := by
    obtain ⟨r', hr', hrl, -⟩ := sotToUrdf_spec j hm h0 t (b1.drop 7) (by simp [h1]) ht
    rw [hr'] at hu1
    cases hu1
    exact hrl
  refine ⟨ub ++ u, ?_, ?_⟩
  · unfold configSotToUrdf
    simp only [setUrdfToSot]
    rw [if_neg (by simp only [List.length_append, List.length_cons, List.length_nil, ht, h1]; omega)]
    have e1 : ([p0, p1, p2, r, p, y] ++ t).take 6 = [p0, p1, p2, r, p, y] := rfl
    have e2 : ([p0, p1, p2, r, p, y] ++ t).drop 6 = t := rfl
    simp only [setUrdfToSot] at hu1
    rw [e1, e2, hub1, Outcome.bind_ok, hu1]
    rfl
  · unfold configUrdfToSot
    simp only [setUrdfToSot]
    rw [if_neg (by simp only [List.length_append, hul, hubl, h2]; omega)]
    have e1 : (ub ++ u).take 7 = ub := by rw [← hubl]; simp
    have e2 : (ub ++ u).drop 7 = u := by rw [← hubl]; simp
    simp only [setUrdfToSot] at hu2
    rw [e1, e2, hub2, Outcome.bind_ok, hu2]
    rfl

/-- **C74.** With an empty mapping the conversion of a configuration reports success although the conversion of its
joints reports failure. -/
theorem C74_empty_mapping_counterexample (j : Joints) (p0 p1 p2 r p y : ℝ) (b : List ℝ) (hb : b.length = 7) :
    (∃ u, configSotToUrdf (setUrdfToSot j []) [p0, p1, p2, r, p, y] b = .ok (true, u)) ∧
    jointsSotToUrdf (setUrdfToSot j []) ([] : List ℝ) [] = .ok (false, []) := by
  refine ⟨?_, rfl⟩
  have hd : b.drop 7 = [] := by rw [List.drop_eq_nil_of_le (by omega)]
  unfold configSotToUrdf
  simp only [setUrdfToSot]
  rw [if_neg (by simp [hb])]
  have : baseSotToUrdf [p0, p1, p2, r, p, y] = .ok
      (let quat := ((angleAxisQuat .z y).mul (angleAxisQuat .y p)).mul (angleAxisQuat .x r)
       [p0, p1, p2, quat.x, quat.y, quat.z, quat.w]) := by
    unfold baseSotToUrdf
    rw [if_neg (by simp), seg3_ok _ _ (by simp), Outcome.bind_ok, seg3_ok _ _ (by simp)]
    rfl
  simp only [List.take_succ_cons, List.take_nil, List.drop_succ_cons, List.drop_nil, List.drop_zero, List.take_zero, this, hd,
    Outcome.bind_ok]
  exact ⟨_, rfl⟩

end Verif.RobotUtils
