import Verif.Geometry.Lemmas
import Mathlib.Analysis.Calculus.Deriv.Mul
import Mathlib.Analysis.Calculus.Deriv.Add
import Mathlib.Data.Matrix.Mul
import Mathlib.Analysis.SpecialFunctions.Trigonometric.Basic
import Mathlib.Tactic.SplitIfs
import Mathlib.Tactic.FieldSimp
import Mathlib.Tactic.Positivity
import Mathlib.Tactic.Linarith

/-!
# Properties of twist matrices (C55), operational points (C56), rotations from angles (C57, C71),
quaternions (C70) and pose conversions (C72)
-/
set_option linter.unusedSectionVars false

namespace Verif.Geometry

open Matrix

variable {F : Type} [Field F]

/-! ## C55: twist matrices -/

/-- C55. What the twist matrix of a pose `(R, t)` does to a velocity made of a linear part `v` and an
angular part `w`: `(R v + t × R w, R w)`. -/
theorem C55_twist_action (m : Pose F) (v w : Fin 3 → F) :
    twist m *ᵥ Sum.elim v w = Sum.elim (m.R *ᵥ v + m.t ⨯₃ (m.R *ᵥ w)) (m.R *ᵥ w) := by
  rw [twist, Matrix.fromBlocks_mulVec]
  simp only [Sum.elim_comp_inl, Sum.elim_comp_inr, Matrix.zero_mulVec, zero_add]
  rw [← Matrix.mulVec_mulVec, skew_mulVec]

/-- C55. The twist matrix of a product of rigid poses is the product of the twist matrices. -/
theorem C55_twist_mul (a b : Pose F) (ha : IsRot a.R) : twist (a.mul b) = twist a * twist b := by
  simp only [twist, Pose.mul, Matrix.fromBlocks_multiply, Matrix.mul_zero, Matrix.zero_mul, add_zero,
    zero_add]
  congr 1
  rw [skew_add, Matrix.add_mul, ← Matrix.mul_assoc, ha.skew_comm, Matrix.mul_assoc, Matrix.mul_assoc]

/-- C55. The inverse of a rigid pose is its inverse, is rigid, and its twist matrix is the inverse of the
twist matrix. -/
theorem C55_twist_inv (a : Pose F) (ha : IsRot a.R) :
    a.inv.mul a = Pose.one ∧ a.mul a.inv = Pose.one ∧ IsRot a.inv.R ∧
      twist a.inv * twist a = 1 ∧ twist a * twist a.inv = 1 ∧ (twist a)⁻¹ = twist a.inv := by
  have h1 : a.inv.mul a = Pose.one := by
    ext i j
    · simp [Pose.mul, Pose.inv, Pose.one, ha.inv_eq, ha.1]
    · simp [Pose.mul, Pose.inv, Pose.one]
  have h2 : a.mul a.inv = Pose.one := by
    ext i j
    · simp [Pose.mul, Pose.inv, Pose.one, ha.inv_eq, ha.mul_transpose]
    · simp [Pose.mul, Pose.inv, Pose.one, ha.inv_eq, Matrix.mulVec_neg, Matrix.mulVec_mulVec,
        ha.mul_transpose]
  have hr : IsRot a.inv.R := ha.inv
  have h0 : twist (Pose.one : Pose F) = 1 := by
    have : skew (0 : Fin 3 → F) = 0 := by
      ext i j; fin_cases i <;> fin_cases j <;> simp [skew]
    rw [twist]
    simp [Pose.one, this]
  have h3 : twist a.inv * twist a = 1 := by rw [← C55_twist_mul _ _ hr, h1, h0]
  have h4 : twist a * twist a.inv = 1 := by rw [← C55_twist_mul _ _ ha, h2, h0]
  exact ⟨h1, h2, hr, h3, h4, Matrix.inv_eq_left_inv h3⟩

/-- C55. The product of poses acts as the composition on points, and is associative. -/
theorem C55_pose_action (a b : Pose F) (p : Fin 3 → F) :
    (a.mul b).R *ᵥ p + (a.mul b).t = a.R *ᵥ (b.R *ᵥ p + b.t) + a.t := by
  simp only [Pose.mul, Matrix.mulVec_add, Matrix.mulVec_mulVec, add_assoc]

/-- A pose meeting the hypotheses: quarter turn about `z` and a translation. -/
example : IsRot (!![0, -1, 0; 1, 0, 0; 0, 0, 1] : Matrix (Fin 3) (Fin 3) ℚ) := by
  refine ⟨?_, ?_⟩
  · ext i j
    fin_cases i <;> fin_cases j <;> simp [Matrix.mul_apply, Fin.sum_univ_three]
  · simp [Matrix.det_fin_three]

/-! ## C56: operational point modifier -/

/-- C56. The modified pose is the pose followed by the fixed transform: a point `p` of the new frame is
where the transform puts it, seen from the old frame. -/
theorem C56_position (o : OpPoint F) (m : Pose F) (p : Fin 3 → F) :
    (opPosition o m).R *ᵥ p + (opPosition o m).t =
      m.R *ᵥ (o.transformation.R *ᵥ p + o.transformation.t) + m.t := C55_pose_action _ _ _

variable {ι : Type} [Fintype ι]

theorem opJacobian_world (o : OpPoint F) (ho : o.isEndEffector = false)
    (J : Matrix (Fin 3 ⊕ Fin 3) ι F) (m : Pose F) (q : ι → F) :
    (fun i => (opJacobian o J m *ᵥ q) (.inl i)) =
        (fun i => (J *ᵥ q) (.inl i)) + (fun i => (J *ᵥ q) (.inr i)) ⨯₃ (m.R *ᵥ o.transformation.t) ∧
      (fun i => (opJacobian o J m *ᵥ q) (.inr i)) = (fun i => (J *ᵥ q) (.inr i)) := by
  have key : ∀ (a b c : Fin 3 ⊕ Fin 3) (x y : F), ∑ j, (J a j - x * J b j + y * J c j) * q j =
      ∑ j, J a j * q j + ((∑ j, J c j * q j) * y - (∑ j, J b j * q j) * x) := by
    intro a b c x y
    rw [Finset.sum_mul, Finset.sum_mul, ← Finset.sum_sub_distrib, ← Finset.sum_add_distrib]
    apply Finset.sum_congr rfl
    intro j _
    ring
  refine ⟨?_, ?_⟩
  · ext i
    have hc : ∀ i, (opJacobian o J m *ᵥ q) (.inl i) = ∑ j, opJacobian o J m (.inl i) j * q j :=
      fun i => rfl
    rw [hc]
    unfold opJacobian
    rw [if_neg (by simp [ho])]
    fin_cases i <;>
      simp [cross_apply, Matrix.mulVec, dotProduct, key]
  · ext i
    unfold opJacobian
    rw [if_neg (by simp [ho])]
    simp [Matrix.mulVec, dotProduct]

theorem opJacobian_end (o : OpPoint F) (ho : o.isEndEffector = true)
    (J : Matrix (Fin 3 ⊕ Fin 3) ι F) (m : Pose F) (q : ι → F) (hT : IsRot o.transformation.R) :
    o.transformation.R *ᵥ (fun i => (opJacobian o J m *ᵥ q) (.inl i)) =
        (fun i => (J *ᵥ q) (.inl i)) + (fun i => (J *ᵥ q) (.inr i)) ⨯₃ o.transformation.t ∧
      o.transformation.R *ᵥ (fun i => (opJacobian o J m *ᵥ q) (.inr i)) =
        (fun i => (J *ᵥ q) (.inr i)) := by
  have h : opJacobian o J m *ᵥ q = twist o.transformation.inv *ᵥ Sum.elim
      (fun i => (J *ᵥ q) (.inl i)) (fun i => (J *ᵥ q) (.inr i)) := by
    rw [opJacobian, if_pos ho, ← Matrix.mulVec_mulVec]
    congr 1
    ext i
    cases i <;> rfl
  rw [h, C55_twist_action]
  simp only [Sum.elim_inl, Sum.elim_inr, Pose.inv, hT.inv_eq]
  generalize (fun i => (J *ᵥ q) (Sum.inl i)) = v
  generalize (fun i => (J *ᵥ q) (Sum.inr i)) = w
  set R := o.transformation.R
  set t := o.transformation.t
  refine ⟨?_, ?_⟩
  · show R *ᵥ (Rᵀ *ᵥ v + -(Rᵀ *ᵥ t) ⨯₃ (Rᵀ *ᵥ w)) = v + w ⨯₃ t
    have e : -(Rᵀ *ᵥ t) ⨯₃ (Rᵀ *ᵥ w) = -(Rᵀ *ᵥ (t ⨯₃ w)) := by
      rw [← skew_mulVec, skew_neg, Matrix.neg_mulVec, Matrix.mulVec_mulVec, hT.transpose.skew_comm,
        ← Matrix.mulVec_mulVec, skew_mulVec]
    rw [e, Matrix.mulVec_add, Matrix.mulVec_neg, Matrix.mulVec_mulVec, Matrix.mulVec_mulVec,
      hT.mul_transpose, Matrix.one_mulVec, Matrix.one_mulVec, cross_anticomm]
  · show R *ᵥ (Rᵀ *ᵥ w) = w
    rw [Matrix.mulVec_mulVec, hT.mul_transpose, Matrix.one_mulVec]

/-- C56. World mode (`isEndEffector` off), as a statement on motions: let the pose `(R, p)` of the point
move so that, at time `τ`, its velocity is what the input Jacobian says for the joint velocity `q`
(`ṗ = v`, `Ṙ = [w]× R` with `(v, w) = J q`). Then the pose given by the entity moves with the velocity
that the output Jacobian says for the same joint velocity. -/
theorem C56_world_jacobian (o : OpPoint ℝ) (ho : o.isEndEffector = false)
    (J : Matrix (Fin 3 ⊕ Fin 3) ι ℝ) (q : ι → ℝ) (m : ℝ → Pose ℝ) (τ : ℝ)
    (hp : ∀ i, HasDerivAt (fun s => (m s).t i) ((J *ᵥ q) (.inl i)) τ)
    (hR : ∀ i j, HasDerivAt (fun s => (m s).R i j)
      ((skew (fun k => (J *ᵥ q) (.inr k)) * (m τ).R) i j) τ) :
    let V := opJacobian o J (m τ) *ᵥ q
    (∀ i, HasDerivAt (fun s => (opPosition o (m s)).t i) (V (.inl i)) τ) ∧
      ∀ i j, HasDerivAt (fun s => (opPosition o (m s)).R i j)
        ((skew (fun k => V (.inr k)) * (opPosition o (m τ)).R) i j) τ := by
  intro V
  obtain ⟨h1, h2⟩ := opJacobian_world o ho J (m τ) q
  refine ⟨?_, ?_⟩
  · intro i
    have hV : V (.inl i) = ((skew (fun k => (J *ᵥ q) (.inr k)) * (m τ).R) *ᵥ o.transformation.t) i
        + (J *ᵥ q) (.inl i) := by
      have := congrFun h1 i
      simp only [Pi.add_apply] at this
      show (opJacobian o J (m τ) *ᵥ q) (.inl i) = _
      rw [this, ← Matrix.mulVec_mulVec, skew_mulVec, add_comm]
    rw [hV]
    have : (fun s => (opPosition o (m s)).t i) = fun s =>
        (∑ j, (m s).R i j * o.transformation.t j) + (m s).t i := by
      funext s; rfl
    rw [this]
    apply HasDerivAt.add _ (hp i)
    show HasDerivAt _ (∑ j, (skew (fun k => (J *ᵥ q) (.inr k)) * (m τ).R) i j * o.transformation.t j) τ
    exact HasDerivAt.fun_sum fun j _ => (hR i j).mul_const _
  · intro i j
    show HasDerivAt (fun s => ∑ k, (m s).R i k * o.transformation.R k j) _ τ
    have e : (skew (fun k => V (.inr k)) * (opPosition o (m τ)).R) i j =
        ∑ k, (skew (fun k => (J *ᵥ q) (.inr k)) * (m τ).R) i k * o.transformation.R k j := by
      show (skew (fun k => (opJacobian o J (m τ) *ᵥ q) (.inr k)) *
        ((m τ).R * o.transformation.R)) i j = _
      rw [h2, ← Matrix.mul_assoc, Matrix.mul_apply]
    rw [e]
    exact HasDerivAt.fun_sum fun k _ => (hR i k).mul_const _

/-- C56. End-effector mode: velocities are expressed in the moving frames (`ṗ = R v`, `Ṙ = R [w]×` with
`(v, w) = J q`). With a rigid transform, the pose given by the entity moves with the velocity that the
output Jacobian says, expressed in the new frame. -/
theorem C56_end_effector_jacobian (o : OpPoint ℝ) (ho : o.isEndEffector = true)
    (hT : IsRot o.transformation.R)
    (J : Matrix (Fin 3 ⊕ Fin 3) ι ℝ) (q : ι → ℝ) (m : ℝ → Pose ℝ) (τ : ℝ)
    (hp : ∀ i, HasDerivAt (fun s => (m s).t i) (((m τ).R *ᵥ fun k => (J *ᵥ q) (.inl k)) i) τ)
    (hR : ∀ i j, HasDerivAt (fun s => (m s).R i j)
      (((m τ).R * skew (fun k => (J *ᵥ q) (.inr k))) i j) τ) :
    let V := opJacobian o J (m τ) *ᵥ q
    (∀ i, HasDerivAt (fun s => (opPosition o (m s)).t i)
        (((opPosition o (m τ)).R *ᵥ fun k => V (.inl k)) i) τ) ∧
      ∀ i j, HasDerivAt (fun s => (opPosition o (m s)).R i j)
        (((opPosition o (m τ)).R * skew (fun k => V (.inr k))) i j) τ := by
  intro V
  obtain ⟨h1, h2⟩ := opJacobian_end o ho J (m τ) q hT
  refine ⟨?_, ?_⟩
  · intro i
    have e : ((opPosition o (m τ)).R *ᵥ fun k => V (.inl k)) i =
        (((m τ).R * skew (fun k => (J *ᵥ q) (.inr k))) *ᵥ o.transformation.t) i +
        ((m τ).R *ᵥ fun k => (J *ᵥ q) (.inl k)) i := by
      show (((m τ).R * o.transformation.R) *ᵥ fun k => (opJacobian o J (m τ) *ᵥ q) (.inl k)) i = _
      rw [← Matrix.mulVec_mulVec, h1, Matrix.mulVec_add, ← Matrix.mulVec_mulVec, skew_mulVec,
        Pi.add_apply, add_comm]
    rw [e]
    show HasDerivAt (fun s => (∑ j, (m s).R i j * o.transformation.t j) + (m s).t i) _ τ
    apply HasDerivAt.add _ (hp i)
    show HasDerivAt _ (∑ j, ((m τ).R * skew (fun k => (J *ᵥ q) (.inr k))) i j *
      o.transformation.t j) τ
    exact HasDerivAt.fun_sum fun j _ => (hR i j).mul_const _
  · intro i j
    show HasDerivAt (fun s => ∑ k, (m s).R i k * o.transformation.R k j) _ τ
    have e : ((opPosition o (m τ)).R * skew (fun k => V (.inr k))) i j =
        ∑ k, ((m τ).R * skew (fun k => (J *ᵥ q) (.inr k))) i k * o.transformation.R k j := by
      show (((m τ).R * o.transformation.R) *
        skew (fun k => (opJacobian o J (m τ) *ᵥ q) (.inr k))) i j = _
      rw [Matrix.mul_assoc, ← hT.skew_comm, h2, ← Matrix.mul_assoc, Matrix.mul_apply]
    rw [e]
    exact HasDerivAt.fun_sum fun k _ => (hR i k).mul_const _

/-- A motion meeting the hypotheses: a point translating at unit speed along `x`, one joint. -/
example : let J : Matrix (Fin 3 ⊕ Fin 3) (Fin 1) ℝ := fun i _ => if i = .inl 0 then 1 else 0
    let m : ℝ → Pose ℝ := fun s => ⟨1, ![s, 0, 0]⟩
    (∀ i, HasDerivAt (fun s => (m s).t i) ((J *ᵥ fun _ => 1) (.inl i)) 3) ∧
      ∀ i j, HasDerivAt (fun s => (m s).R i j)
        ((skew (fun k => (J *ᵥ fun _ => 1) (.inr k)) * (m 3).R) i j) 3 := by
  intro J m
  refine ⟨?_, ?_⟩
  · intro i
    fin_cases i
    · simpa [J, m, Matrix.mulVec, dotProduct] using hasDerivAt_id' (3 : ℝ)
    · simpa [J, m, Matrix.mulVec, dotProduct] using hasDerivAt_const (3 : ℝ) (0 : ℝ)
    · simpa [J, m, Matrix.mulVec, dotProduct] using hasDerivAt_const (3 : ℝ) (0 : ℝ)
  · intro i j
    have : skew (fun k => (J *ᵥ fun _ => 1) (Sum.inr k)) = 0 := by
      ext a b
      fin_cases a <;> fin_cases b <;> simp [skew, J, Matrix.mulVec, dotProduct]
    rw [this]
    simpa [m] using hasDerivAt_const (3 : ℝ) ((1 : Matrix (Fin 3) (Fin 3) ℝ) i j)

/-! ## C57: rotation from a list of axes and angles -/

/-- Specification: rotation of `v` by `angle` about the unit vector `u` (Rodrigues). -/
noncomputable def rotateAbout (u : Fin 3 → ℝ) (angle : ℝ) (v : Fin 3 → ℝ) : Fin 3 → ℝ :=
  fun i => Real.cos angle * v i + Real.sin angle * (u ⨯₃ v) i
    + (1 - Real.cos angle) * (u 0 * v 0 + u 1 * v 1 + u 2 * v 2) * u i

/-- The unit vector of an axis. -/
def unit : Axis → Fin 3 → ℝ
  | .x => ![1, 0, 0]
  | .y => ![0, 1, 0]
  | .z => ![0, 0, 1]

theorem elementary_apply (a : Axis) (th : ℝ) (v : Fin 3 → ℝ) :
    elementary a th *ᵥ v = rotateAbout (unit a) th v := by
  ext i
  cases a <;> fin_cases i <;>
    simp [elementary, rotateAbout, unit, cross_apply, Matrix.mulVec, dotProduct, Fin.sum_univ_three] <;>
    ring

theorem elementary_isRot (a : Axis) (th : ℝ) : IsRot (elementary a th) := by
  have h := Real.sin_sq_add_cos_sq th
  refine ⟨?_, ?_⟩
  · ext i j
    cases a <;> fin_cases i <;> fin_cases j <;>
      simp [elementary, Matrix.mul_apply, Fin.sum_univ_three] <;> linarith
  · cases a <;> simp [elementary, Matrix.det_fin_three] <;> linarith

theorem rotLoop_spec (angles : List ℝ) : ∀ (axes : List Axis) (i : Nat) (res : Matrix (Fin 3) (Fin 3) ℝ),
    IsRot res → i + axes.length ≤ angles.length →
    ∃ M, rotLoop angles i axes res = .ok M ∧ IsRot M ∧
      ∀ v, M *ᵥ v = res *ᵥ ((axes.zip (angles.drop i)).foldr
        (fun p w => rotateAbout (unit p.1) p.2 w) v) := by
  intro axes
  induction axes with
  | nil => intro i res h _; exact ⟨res, rfl, h, by simp⟩
  | cons a as ih =>
    intro i res h hl
    simp only [List.length_cons] at hl
    have hi : i < angles.length := by omega
    obtain ⟨M, h1, h2, h3⟩ := ih (i + 1) (res * elementary a angles[i])
      (h.mul (elementary_isRot _ _)) (by omega)
    refine ⟨M, ?_, h2, ?_⟩
    · rw [rotLoop, rd_of_lt angles i hi, Outcome.bind_ok, h1]
    · intro v
      rw [h3, List.drop_eq_getElem_cons hi, List.zip_cons_cons, List.foldr_cons, ← elementary_apply,
        Matrix.mulVec_mulVec]

/-- C57. For any list of axes and at least as many angles, the call succeeds, the result is orthogonal
with determinant one, and it is the composition, in order, of the right-handed rotations about each axis
by each angle. -/
theorem C57_rotation (axes : List Axis) (angles : List ℝ) (h : axes.length ≤ angles.length) :
    ∃ M, computeRotation axes angles = .ok M ∧ Mᵀ * M = 1 ∧ M.det = 1 ∧
      ∀ v, M *ᵥ v = (axes.zip angles).foldr (fun p w => rotateAbout (unit p.1) p.2 w) v := by
  obtain ⟨M, h1, h2, h3⟩ := rotLoop_spec angles axes 0 1 isRot_one (by omega)
  exact ⟨M, h1, h2.1, h2.2, by simpa using h3⟩

/-- C57, precondition. Fewer angles than axes: read out of range. -/
theorem C57_missing_angle_ub (axes : List Axis) (angles : List ℝ) (h : angles.length < axes.length) :
    computeRotation axes angles = .ub := by
  have key : ∀ (axes : List Axis) (i : Nat) (res : Matrix (Fin 3) (Fin 3) ℝ),
      i ≤ angles.length → angles.length < i + axes.length → rotLoop angles i axes res = .ub := by
    intro axes
    induction axes with
    | nil => intro i res h1 h2; simp at h2; omega
    | cons a as ih =>
      intro i res h1 h2
      simp only [List.length_cons] at h2
      rw [rotLoop]
      by_cases hi : i < angles.length
      · rw [rd_of_lt angles i hi, Outcome.bind_ok]
        exact ih _ _ (by omega) (by omega)
      · rw [rd_eq_ub.mpr (by omega)]; rfl
  exact key axes 0 1 (by omega) (by omega)

/-- C57. The entity as shipped has no axis (no command sets them): it always gives the identity. -/
theorem C57_shipped_identity (angles : List ℝ) : computeRotation [] angles = .ok 1 := rfl

/-- A quarter turn about `z` sends `x` to `y`. -/
example : rotateAbout (unit .z) (Real.pi / 2) ![1, 0, 0] = ![0, 1, 0] := by
  ext i
  fin_cases i <;> simp [rotateAbout, unit, cross_apply]

/-! ## C70: quaternions -/

/-- Squared norm. -/
def Quat.sqNorm (a : Quat F) : F := a.w ^ 2 + a.x ^ 2 + a.y ^ 2 + a.z ^ 2

/-- C70. The matrix of a unit quaternion is orthogonal with determinant one. -/
theorem C70_unit_quaternion_rotation (a : Quat F) (ha : a.sqNorm = 1) :
    a.toRotᵀ * a.toRot = 1 ∧ a.toRot.det = 1 := by
  unfold Quat.sqNorm at ha
  have hw : a.w ^ 2 = 1 - a.x ^ 2 - a.y ^ 2 - a.z ^ 2 := by linear_combination ha
  refine ⟨?_, ?_⟩
  · ext i j
    fin_cases i <;> fin_cases j <;>
      simp [Quat.toRot, Matrix.mul_apply, Fin.sum_univ_three] <;> ring_nf <;> simp only [hw] <;> ring
  · rw [Matrix.det_fin_three]
    simp [Quat.toRot]
    ring_nf
    have hw4 : a.w ^ 4 = (1 - a.x ^ 2 - a.y ^ 2 - a.z ^ 2) ^ 2 := by rw [← hw]; ring
    simp only [hw]
    ring

/-- C70. The norm is multiplicative, so that products of unit quaternions are unit. -/
theorem C70_norm_mul (a b : Quat F) : (a.mul b).sqNorm = a.sqNorm * b.sqNorm := by
  simp only [Quat.sqNorm, Quat.mul]; ring

/-- C70. The quaternion product is the composition of rotations. -/
theorem C70_mul_composes (a b : Quat F) (ha : a.sqNorm = 1) (hb : b.sqNorm = 1) :
    (a.mul b).toRot = a.toRot * b.toRot := Quat.toRot_mul_aux a b ha hb

/-- C70. The quaternion given by the inverter is the inverse of a unit quaternion, on both sides, and its
matrix is the inverse rotation. -/
theorem C70_conj_inverse (a : Quat F) (ha : a.sqNorm = 1) :
    a.mul a.conj = ⟨1, 0, 0, 0⟩ ∧ a.conj.mul a = ⟨1, 0, 0, 0⟩ ∧ a.conj.toRot = a.toRot⁻¹ := by
  unfold Quat.sqNorm at ha
  refine ⟨?_, ?_, ?_⟩
  · ext <;> simp [Quat.mul, Quat.conj] <;> ring_nf
    linear_combination ha
  · ext <;> simp [Quat.mul, Quat.conj] <;> ring_nf
    linear_combination ha
  · have h := C70_unit_quaternion_rotation a ha
    rw [IsRot.inv_eq h]
    ext i j
    fin_cases i <;> fin_cases j <;> simp [Quat.toRot, Quat.conj] <;> ring

/-- C70, precondition. For a quaternion that is not unit, the output of the inverter is not the inverse. -/
theorem C70_conj_not_inverse_counterexample :
    (⟨2, 0, 0, 0⟩ : Quat ℚ).mul (⟨2, 0, 0, 0⟩ : Quat ℚ).conj = ⟨4, 0, 0, 0⟩ := by
  simp [Quat.mul, Quat.conj]; norm_num

example : (⟨1/2, 1/2, 1/2, 1/2⟩ : Quat ℚ).sqNorm = 1 := by norm_num [Quat.sqNorm]

/-! ## C71: roll-pitch-yaw and axis-angle -/

theorem angleAxisQuat_unit (a : Axis) (th : ℝ) : (angleAxisQuat a th).sqNorm = 1 := by
  have := Real.sin_sq_add_cos_sq (th / 2)
  cases a <;> simp [angleAxisQuat, Quat.sqNorm]

theorem angleAxisQuat_toRot (a : Axis) (th : ℝ) : (angleAxisQuat a th).toRot = elementary a th := by
  have h := Real.sin_sq_add_cos_sq (th / 2)
  have hc : Real.cos th = 2 * Real.cos (th / 2) ^ 2 - 1 := by
    rw [← Real.cos_two_mul]; congr 1; ring
  have hs : Real.sin th = 2 * Real.sin (th / 2) * Real.cos (th / 2) := by
    rw [← Real.sin_two_mul]; congr 1; ring
  ext i j
  cases a <;> fin_cases i <;> fin_cases j <;>
    simp [angleAxisQuat, Quat.toRot, elementary, hc, hs] <;> nlinarith

/-- C71. The matrix of roll, pitch, yaw is a rotation: about `x` by the roll, then about `y` by the pitch,
then about `z` by the yaw, with fixed axes. -/
theorem C71_rpy (r p y : ℝ) :
    IsRot (rpyToMatrix r p y) ∧ ∀ v, rpyToMatrix r p y *ᵥ v =
      rotateAbout ![0, 0, 1] y (rotateAbout ![0, 1, 0] p (rotateAbout ![1, 0, 0] r v)) := by
  have e : rpyToMatrix r p y = elementary .z y * elementary .y p * elementary .x r := by
    unfold rpyToMatrix
    rw [C70_mul_composes _ _ _ (angleAxisQuat_unit _ _), C70_mul_composes _ _ (angleAxisQuat_unit _ _)
      (angleAxisQuat_unit _ _), angleAxisQuat_toRot, angleAxisQuat_toRot, angleAxisQuat_toRot]
    rw [C70_norm_mul, angleAxisQuat_unit, angleAxisQuat_unit, mul_one]
  rw [e]
  refine ⟨((elementary_isRot _ _).mul (elementary_isRot _ _)).mul (elementary_isRot _ _), ?_⟩
  intro v
  rw [← Matrix.mulVec_mulVec, ← Matrix.mulVec_mulVec, elementary_apply, elementary_apply,
    elementary_apply]
  rfl

/-- C71. The pose built from a position and roll-pitch-yaw angles is rigid, at that position. -/
theorem C71_pose_rpy (v : Fin 6 → ℝ) :
    (poseRpyToHomo v).t = ![v 0, v 1, v 2] ∧ IsRot (poseRpyToHomo v).R ∧
      (poseRpyToHomo v).R = rpyToMatrix (v 3) (v 4) (v 5) := ⟨rfl, (C71_rpy _ _ _).1, rfl⟩

theorem angleAxisMatrix_apply (th : ℝ) (u v : Fin 3 → ℝ) :
    angleAxisMatrix th u *ᵥ v = rotateAbout u th v := by
  ext i
  fin_cases i <;>
    simp [angleAxisMatrix, rotateAbout, cross_apply, Matrix.mulVec, dotProduct, Fin.sum_univ_three] <;>
    ring

theorem angleAxisMatrix_isRot (th : ℝ) (u : Fin 3 → ℝ) (hu : u 0 ^ 2 + u 1 ^ 2 + u 2 ^ 2 = 1) :
    IsRot (angleAxisMatrix th u) := by
  have h := Real.sin_sq_add_cos_sq th
  have hs : Real.sin th ^ 2 = 1 - Real.cos th ^ 2 := by linear_combination h
  have h2 : u 2 ^ 2 = 1 - u 0 ^ 2 - u 1 ^ 2 := by linear_combination hu
  have h3 : u 2 ^ 3 = (1 - u 0 ^ 2 - u 1 ^ 2) * u 2 := by rw [← h2]; ring
  have h4 : u 2 ^ 4 = (1 - u 0 ^ 2 - u 1 ^ 2) ^ 2 := by rw [← h2]; ring
  refine ⟨?_, ?_⟩
  · ext i j
    fin_cases i <;> fin_cases j <;>
      simp [angleAxisMatrix, Matrix.mul_apply, Fin.sum_univ_three] <;> ring_nf <;>
      simp only [hs, h4, h3, h2] <;> ring
  · rw [Matrix.det_fin_three]
    simp [angleAxisMatrix]
    ring_nf
    simp only [hs, h4, h2]
    ring

/-- C71. The pose built from a position and a rotation vector `w` is rigid, at that position, and turns by
the angle `‖w‖` about `w`; a zero rotation vector gives the identity rotation. -/
theorem C71_pose_utheta (v : Fin 6 → ℝ) :
    (poseUThetaToHomo v).t = ![v 0, v 1, v 2] ∧ IsRot (poseUThetaToHomo v).R ∧
      (v 3 = 0 ∧ v 4 = 0 ∧ v 5 = 0 → (poseUThetaToHomo v).R = 1) ∧
      ∀ th, 0 < th → th ^ 2 = v 3 ^ 2 + v 4 ^ 2 + v 5 ^ 2 → ∀ p,
        (poseUThetaToHomo v).R *ᵥ p = rotateAbout ((1 / th) • ![v 3, v 4, v 5]) th p := by
  refine ⟨rfl, ?_, ?_, ?_⟩
  · unfold poseUThetaToHomo
    simp only
    split_ifs with h
    · apply angleAxisMatrix_isRot
      have hs := Real.sq_sqrt (show 0 ≤ v 3 ^ 2 + v 4 ^ 2 + v 5 ^ 2 by positivity)
      generalize Real.sqrt (v 3 ^ 2 + v 4 ^ 2 + v 5 ^ 2) = th at *
      simp
      field_simp
      linarith
    · exact isRot_one
  · rintro ⟨h3, h4, h5⟩
    simp [poseUThetaToHomo, h3, h4, h5]
  · intro th h0 hsq p
    have hs : Real.sqrt (v 3 ^ 2 + v 4 ^ 2 + v 5 ^ 2) = th := by
      rw [← hsq]; exact Real.sqrt_sq h0.le
    unfold poseUThetaToHomo
    simp only [hs]
    rw [if_pos h0, angleAxisMatrix_apply]
    congr 1
    ext i
    fin_cases i <;> simp <;> field_simp

/-! ## C72: conversions of poses -/

/-- C72. Poses and 12-component vectors: the two conversions are inverse of each other. -/
theorem C72_se3_roundtrip (m : Pose F) (v : Fin 12 → F) :
    se3VectorToHomo (homoToSE3Vector m) = m ∧ homoToSE3Vector (se3VectorToHomo v) = v := by
  refine ⟨?_, ?_⟩
  · ext i j
    · fin_cases i <;> fin_cases j <;> rfl
    · fin_cases i <;> rfl
  · ext i
    fin_cases i <;> rfl

/-- C72, disagreement. The conversion of a skew-symmetric matrix to a vector gives the opposite of the
vector whose cross product the matrix is (the `Tx` of the twist matrix). -/
theorem C72_skew_to_vector_opposite (t v : Fin 3 → F) :
    skewSymToVector (skew t) = -t ∧ skew t *ᵥ v = t ⨯₃ v := by
  refine ⟨?_, skew_mulVec t v⟩
  ext i
  fin_cases i <;> simp [skewSymToVector, skew]

/-- C72, disagreement, on a concrete matrix. -/
theorem C72_skew_to_vector_counterexample :
    skewSymToVector (skew (![1, 2, 3] : Fin 3 → ℚ)) ≠ ![1, 2, 3] := by
  rw [(C72_skew_to_vector_opposite (![1, 2, 3] : Fin 3 → ℚ) 0).1]
  intro h
  have := congrFun h 0
  norm_num at this

end Verif.Geometry
