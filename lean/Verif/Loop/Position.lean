import Verif.Loop.Part

/-!
# C151: the base driven by a task on the position only, on some axes only, or on the orientation only

The feature FeaturePoint6d (src/feature/feature-point6d.cpp) on an operational point of the base with a selection of its components, as
`gotoNd` of the Python library sets it (src/dynamic_graph/sot/core/meta_tasks.py), in the closed loop of the stack and of the device.
-/

namespace Verif.Loop

open Matrix Verif.Sot Verif.Device Verif.Geometry Verif.Point6d Verif.Se3 Verif.Spatial Verif.Features Filter Topology

/-! ### The shortest velocity that gives a velocity to a point -/

/-- The shortest motion that gives the velocity `u` to the point at `L`. -/
noncomputable def pull (L u : Fin 3 → ℝ) : Fin 3 ⊕ Fin 3 → ℝ :=
  Sum.elim ((1 + L ⬝ᵥ L)⁻¹ • (u + (L ⬝ᵥ u) • L)) ((1 + L ⬝ᵥ L)⁻¹ • (skew L *ᵥ u))

theorem pull_pos (L : Fin 3 → ℝ) : 0 < 1 + L ⬝ᵥ L := by linarith [Point6d.dot_self_nonneg L]

theorem pull_solves (L u : Fin 3 → ℝ) : transPart (pull L u) - skew L *ᵥ rotPart (pull L u) = u := by
  have h := (pull_pos L).ne'
  show (1 + L ⬝ᵥ L)⁻¹ • (u + (L ⬝ᵥ u) • L) - skew L *ᵥ ((1 + L ⬝ᵥ L)⁻¹ • (skew L *ᵥ u)) = u
  rw [mulVec_smul, ← smul_sub, inv_smul_eq_iff₀ h]
  ext i
  fin_cases i <;> simp [skew, Matrix.mulVec, dotProduct, Fin.sum_univ_three] <;> ring

theorem pull_row (L u : Fin 3 → ℝ) : rotPart (pull L u) = skew L *ᵥ transPart (pull L u) := by
  show (1 + L ⬝ᵥ L)⁻¹ • (skew L *ᵥ u) = skew L *ᵥ ((1 + L ⬝ᵥ L)⁻¹ • (u + (L ⬝ᵥ u) • L))
  rw [mulVec_smul, mulVec_add, mulVec_smul, skew_self, smul_zero, add_zero]

theorem pull_sq (L u : Fin 3 → ℝ) : pull L u ⬝ᵥ pull L u ≤ u ⬝ᵥ u := by
  have h : pull L u ⬝ᵥ pull L u = transPart (pull L u) ⬝ᵥ u := by
    have h1 := congrArg (fun x => transPart (pull L u) ⬝ᵥ x) (pull_solves L u)
    refine Eq.trans ?_ h1
    beta_reduce
    rw [sum_sq, len_sq, len_sq, dotProduct_sub, sub_eq_add_neg]
    congr 1
    rw [dotProduct_mulVec, ← mulVec_transpose, skew_transpose, neg_mulVec, neg_dotProduct, neg_neg, ← pull_row]
  have h2 : transPart (pull L u) ⬝ᵥ u = (1 + L ⬝ᵥ L)⁻¹ * (u ⬝ᵥ u + (L ⬝ᵥ u) ^ 2) := by
    show ((1 + L ⬝ᵥ L)⁻¹ • (u + (L ⬝ᵥ u) • L)) ⬝ᵥ u = _
    rw [smul_dotProduct, add_dotProduct, smul_dotProduct, smul_eq_mul, smul_eq_mul, pow_two]
  have h3 := lagrange L u
  rw [h, h2, inv_mul_le_iff₀ (pull_pos L)]
  nlinarith [Point6d.dot_self_nonneg (skew L *ᵥ u)]

theorem pull_turn (L u : Fin 3 → ℝ) : len (rotPart (pull L u)) ≤ len u / 2 := by
  show len ((1 + L ⬝ᵥ L)⁻¹ • (skew L *ᵥ u)) ≤ _
  rw [len_smul, abs_of_pos (inv_pos.mpr (pull_pos L)), inv_mul_le_iff₀ (pull_pos L), ← len_sq]
  have h := skew_len L u
  nlinarith [sq_nonneg (len L - 1), len_nonneg u]

theorem pull_scale (c : ℝ) (L u : Fin 3 → ℝ) : pull L (c • u) = c • pull L u := by
  funext r
  rcases r with i | i
  · show ((1 + L ⬝ᵥ L)⁻¹ • (c • u + (L ⬝ᵥ (c • u)) • L)) i = c * ((1 + L ⬝ᵥ L)⁻¹ • (u + (L ⬝ᵥ u) • L)) i
    rw [dotProduct_smul]
    simp only [Pi.smul_apply, Pi.add_apply, smul_eq_mul]
    ring
  · show ((1 + L ⬝ᵥ L)⁻¹ • (skew L *ᵥ (c • u))) i = c * ((1 + L ⬝ᵥ L)⁻¹ • (skew L *ᵥ u)) i
    rw [mulVec_smul]
    simp only [Pi.smul_apply, smul_eq_mul]
    ring

/-! ### The rows of the position -/

/-- The way from the operational point to the reference, seen from the base at `M`. -/
noncomputable def wayTo (B Md M : Pose ℝ) : Fin 3 → ℝ := M.Rᵀ *ᵥ (Md.t - (M.mul B).t)

/-- The point of the base that the task pulls: the operational point, or its reference. -/
noncomputable def handle (fr : Frame) (B Md M : Pose ℝ) : Fin 3 → ℝ :=
  match fr with
  | .desired => B.t
  | .current => B.t + wayTo B Md M

/-- The axes of the error, seen from the base. -/
noncomputable def axesOf (fr : Frame) (B Md M : Pose ℝ) : Matrix (Fin 3) (Fin 3) ℝ :=
  match fr with
  | .desired => Md.R⁻¹ * M.R
  | .current => -B.Rᵀ

section
variable {th maxSq gain dt : ℝ} {fr : Frame} {B Md M : Pose ℝ}

/-- The three rows of the position. -/
noncomputable def posE (fr : Frame) (B Md M : Pose ℝ) : Fin 3 → ℝ := transPart (errorFull fr (M.mul B) (some Md))

/-- Their derivatives. -/
noncomputable def posJ (fr : Frame) (B Md M : Pose ℝ) : Matrix (Fin 3) (Fin 3 ⊕ Fin 3) ℝ :=
  Matrix.of fun i => jacobianFull fr (M.mul B) (some Md) (twist B.inv) (.inl i)

theorem posRows : p6Rows fr [0, 1, 2] B Md = ⟨3, posE fr B Md, posJ fr B Md⟩ := by
  unfold p6Rows
  congr 1
  · funext M i
    match i with
    | 0 | 1 | 2 => rfl
  · funext M i
    match i with
    | 0 | 1 | 2 => rfl

theorem posK (v : Fin 3 ⊕ Fin 3 → ℝ) : posJ fr B Md M *ᵥ v = transPart (jacobianFull fr (M.mul B) (some Md) (twist B.inv) *ᵥ v) := rfl

theorem lin_inv (hB : IsRot B.R) (v : Fin 3 ⊕ Fin 3 → ℝ) :
    linPart (twist B.inv) v = B.Rᵀ *ᵥ (transPart v - skew B.t *ᵥ rotPart v) ∧ angPart (twist B.inv) v = B.Rᵀ *ᵥ rotPart v := by
  have h1 : twist B.inv *ᵥ v = Sum.elim (B.R⁻¹ *ᵥ transPart v + (skew (-(B.R⁻¹ *ᵥ B.t)) * B.R⁻¹) *ᵥ rotPart v) (B.R⁻¹ *ᵥ rotPart v) := by
    conv_lhs => rw [split6 v, twist]
    rw [fromBlocks_mulVec]
    simp only [Sum.elim_comp_inl, Sum.elim_comp_inr, Matrix.zero_mulVec, zero_add]
    rfl
  have h2 : skew (-(B.R⁻¹ *ᵥ B.t)) * B.R⁻¹ = -(B.Rᵀ * skew B.t) := by
    rw [Point6d.skew_neg, hB.inv_eq, Matrix.neg_mul, hB.transpose.skew_comm]
  rw [h2, hB.inv_eq] at h1
  constructor
  · show (fun i => (twist B.inv *ᵥ v) (.inl i)) = _
    rw [h1]
    show B.Rᵀ *ᵥ transPart v + -(B.Rᵀ * skew B.t) *ᵥ rotPart v = _
    rw [neg_mulVec, ← mulVec_mulVec, mulVec_sub, sub_eq_add_neg]
  · show (fun i => (twist B.inv *ᵥ v) (.inr i)) = _
    rw [h1]
    rfl

theorem axes_orth (hB : IsRot B.R) (hd : IsRot Md.R) (hM : IsRot M.R) :
    (axesOf fr B Md M)ᵀ * axesOf fr B Md M = 1 ∧ axesOf fr B Md M * (axesOf fr B Md M)ᵀ = 1 := by
  cases fr
  · have h := hd.inv.mul hM
    exact ⟨h.1, h.mul_transpose⟩
  · show (-B.Rᵀ)ᵀ * -B.Rᵀ = 1 ∧ -B.Rᵀ * (-B.Rᵀ)ᵀ = 1
    rw [transpose_neg, transpose_transpose, neg_mul_neg, neg_mul_neg]
    exact ⟨hB.mul_transpose, hB.1⟩

theorem cross_rot {R : Matrix (Fin 3) (Fin 3) ℝ} (h : IsRot R) (a b : Fin 3 → ℝ) : skew (R *ᵥ a) *ᵥ (R *ᵥ b) = R *ᵥ (skew a *ᵥ b) := by
  rw [mulVec_mulVec, mulVec_mulVec, h.skew_comm]

theorem way_current (hB : IsRot B.R) (hM : IsRot M.R) : transPart (errorFull .current (M.mul B) (some Md)) = B.Rᵀ *ᵥ wayTo B Md M := by
  have h : IsRot (M.mul B).R := hM.mul hB
  rw [current_trans, h.inv_eq, wayTo, mulVec_mulVec, ← transpose_mul]
  rfl

theorem posK_lever (hB : IsRot B.R) (hd : IsRot Md.R) (hM : IsRot M.R) (v : Fin 3 ⊕ Fin 3 → ℝ) :
    posJ fr B Md M *ᵥ v = axesOf fr B Md M *ᵥ (transPart v - skew (handle fr B Md M) *ᵥ rotPart v) := by
  obtain ⟨l1, l2⟩ := lin_inv hB v
  rw [posK]
  cases fr
  · rw [jac_desired_trans, l1, mulVec_mulVec]
    show (Md.R⁻¹ * (M.R * B.R) * B.Rᵀ) *ᵥ _ = (Md.R⁻¹ * M.R) *ᵥ _
    rw [← Matrix.mul_assoc, Matrix.mul_assoc _ B.R, hB.mul_transpose, Matrix.mul_one]
    rfl
  · rw [jac_current_trans, l1, l2, ← current_trans, way_current hB hM, cross_skew, cross_rot hB.transpose]
    show _ = -B.Rᵀ *ᵥ (transPart v - skew (B.t + wayTo B Md M) *ᵥ rotPart v)
    rw [Point6d.skew_add, add_mulVec, skew_swap (wayTo B Md M), neg_mulVec, ← mulVec_neg, ← mulVec_neg, ← mulVec_sub]
    congr 1
    abel

theorem posE_lever (hB : IsRot B.R) (hd : IsRot Md.R) (hM : IsRot M.R) :
    posE fr B Md M = -(axesOf fr B Md M *ᵥ wayTo B Md M) := by
  cases fr
  · show Md.R⁻¹ *ᵥ (M.mul B).t + -(Md.R⁻¹ *ᵥ Md.t) = -((Md.R⁻¹ * M.R) *ᵥ (M.Rᵀ *ᵥ (Md.t - (M.mul B).t)))
    rw [mulVec_mulVec, Matrix.mul_assoc, hM.mul_transpose, Matrix.mul_one, mulVec_sub, neg_sub, sub_eq_add_neg]
  · rw [posE, way_current hB hM]
    show _ = -(-B.Rᵀ *ᵥ wayTo B Md M)
    rw [neg_mulVec, neg_neg]

theorem orth_dot {Z : Matrix (Fin 3) (Fin 3) ℝ} (h : Zᵀ * Z = 1) (a b : Fin 3 → ℝ) : Z *ᵥ a ⬝ᵥ Z *ᵥ b = a ⬝ᵥ b := by
  rw [dotProduct_mulVec, ← mulVec_transpose, mulVec_mulVec, h, one_mulVec]

theorem sum_dot (x y : Fin 3 ⊕ Fin 3 → ℝ) : x ⬝ᵥ y = transPart x ⬝ᵥ transPart y + rotPart x ⬝ᵥ rotPart y := by
  rw [dotProduct, Fintype.sum_sum_type]
  rfl

theorem posReady (hB : IsRot B.R) (hd : IsRot Md.R) (hM : IsRot M.R) (ht : th < 1) (hl : gain ^ 2 * len (wayTo B Md M) ^ 2 ≤ maxSq) :
    (p6Rows fr [0, 1, 2] B Md).Ready th maxSq gain M (pull (handle fr B Md M) (gain • wayTo B Md M)) := by
  rw [posRows]
  obtain ⟨z1, z2⟩ := axes_orth (fr := fr) hB hd hM
  refine ⟨?_, ⟨axesOf fr B Md M *ᵥ transPart (pull (handle fr B Md M) (gain • wayTo B Md M)), ?_⟩, ⟨1, ht, fun y => ?_⟩, ?_⟩
  · show posJ fr B Md M *ᵥ _ = -gain • posE fr B Md M
    rw [posK_lever hB hd hM, pull_solves, posE_lever hB hd hM, mulVec_smul, smul_neg, neg_smul, neg_neg]
  · apply dotProduct_eq
    intro x
    rw [mulVec_transpose, ← dotProduct_mulVec]
    show _ = (axesOf fr B Md M *ᵥ transPart (pull (handle fr B Md M) (gain • wayTo B Md M))) ⬝ᵥ (posJ fr B Md M *ᵥ x)
    rw [posK_lever hB hd hM, orth_dot z1, dotProduct_sub, dotProduct_mulVec _ (skew _), ← mulVec_transpose, skew_transpose, neg_mulVec, neg_dotProduct, sub_neg_eq_add,
      ← pull_row, sum_dot]
  · refine ⟨Sum.elim ((axesOf fr B Md M)ᵀ *ᵥ y) 0, ?_, ?_⟩
    · show posJ fr B Md M *ᵥ _ = y
      rw [posK_lever hB hd hM]
      show axesOf fr B Md M *ᵥ ((axesOf fr B Md M)ᵀ *ᵥ y - _ *ᵥ (0 : Fin 3 → ℝ)) = y
      rw [mulVec_zero, sub_zero, mulVec_mulVec, z2, one_mulVec]
    · rw [one_pow, one_mul, sum_dot]
      show (axesOf fr B Md M)ᵀ *ᵥ y ⬝ᵥ (axesOf fr B Md M)ᵀ *ᵥ y + (0 : Fin 3 → ℝ) ⬝ᵥ 0 ≤ _
      rw [orth_dot (by rw [transpose_transpose, z2]), zero_dotProduct, add_zero]
  · refine (pull_sq _ _).trans ?_
    rw [← len_sq, len_smul, mul_pow, sq_abs]
    exact hl

/-! ### The motion -/

theorem exp3_neg_leftJac (x : Fin 3 → ℝ) : exp3 (-x) * leftJac x = leftJac (-x) := by
  have h := leftJac_add (-1) 1 x
  rw [one_smul, one_smul, neg_add_cancel, zero_smul, neg_one_smul, neg_one_smul, ← sub_eq_add_neg, sub_eq_zero] at h
  exact h

theorem exp3_transpose (x : Fin 3 → ℝ) : (exp3 x)ᵀ = exp3 (-x) := by
  have h := exp3_add (-1) 1 x
  rw [one_smul, neg_add_cancel, zero_smul, exp3_zero, neg_one_smul] at h
  rw [← (isRot_exp3 x).inv_eq]
  exact Matrix.inv_eq_left_inv h

theorem exp3_mulVec (x y : Fin 3 → ℝ) : exp3 x *ᵥ y = y + leftJac x *ᵥ (skew x *ᵥ y) := by
  conv_lhs => rw [exp3_leftJac]
  rw [add_mulVec, one_mulVec, mulVec_mulVec]

/-- The way after a motion of the base. -/
theorem way_moved (hM : IsRot M.R) (v : Fin 3 ⊕ Fin 3 → ℝ) :
    exp3 (rotPart v) *ᵥ wayTo B Md (M.mul (exp6 (pair v))) =
      wayTo B Md M - leftJac (rotPart v) *ᵥ (transPart v - skew B.t *ᵥ rotPart v) := by
  have h1 : (M.mul (exp6 (pair v))).R = M.R * exp3 (rotPart v) := rfl
  have h2 : ((M.mul (exp6 (pair v))).mul B).t = M.R *ᵥ (exp3 (rotPart v) *ᵥ B.t) + (M.R *ᵥ (leftJac (rotPart v) *ᵥ transPart v) + M.t) := by
    show (M.R * exp3 (rotPart v)) *ᵥ B.t + (M.R *ᵥ (leftJac (rotPart v) *ᵥ transPart v) + M.t) = _
    rw [← mulVec_mulVec]
  have h3 : (M.mul B).t = M.R *ᵥ B.t + M.t := rfl
  have hR : ∀ x, M.Rᵀ *ᵥ (M.R *ᵥ x) = x := fun x => by rw [mulVec_mulVec, hM.1, one_mulVec]
  rw [wayTo, wayTo, h1, transpose_mul, mulVec_mulVec, ← Matrix.mul_assoc, (isRot_exp3 _).mul_transpose, Matrix.one_mul, h2, h3, exp3_mulVec]
  simp only [mulVec_sub, mulVec_add, hR]
  rw [skew_swap (rotPart v), mulVec_neg]
  abel

/-- The same, seen from the base after the motion. -/
theorem way_moved' (hM : IsRot M.R) (v : Fin 3 ⊕ Fin 3 → ℝ) :
    wayTo B Md (M.mul (exp6 (pair v))) =
      wayTo B Md M - leftJac (-rotPart v) *ᵥ (transPart v - skew (B.t + wayTo B Md M) *ᵥ rotPart v) := by
  have h := congrArg ((exp3 (rotPart v))ᵀ *ᵥ ·) (way_moved (B := B) (Md := Md) hM v)
  beta_reduce at h
  rw [mulVec_mulVec, (isRot_exp3 _).1, one_mulVec, exp3_transpose, mulVec_sub, mulVec_mulVec, exp3_neg_leftJac, exp3_mulVec] at h
  rw [h, Point6d.skew_add, add_mulVec, ← sub_sub, mulVec_sub _ (transPart v - _), Point6d.skew_neg, neg_mulVec, mulVec_neg,
    skew_swap (wayTo B Md M) (rotPart v), mulVec_neg]
  abel

/-- The turn of the base in one period. -/
noncomputable def posTurn (fr : Frame) (B Md : Pose ℝ) (c : ℝ) (M : Pose ℝ) : Fin 3 → ℝ := c • rotPart (pull (handle fr B Md M) (wayTo B Md M))

theorem way_step (hM : IsRot M.R) (c : ℝ) :
    len (wayTo B Md (M.mul (exp6 (pair (c • pull (handle fr B Md M) (wayTo B Md M)))))) =
      len (reduced c (match fr with | .desired => posTurn fr B Md c M | .current => -posTurn fr B Md c M) (wayTo B Md M)) := by
  have ht : ∀ L u : Fin 3 → ℝ, transPart (c • pull L u) - skew L *ᵥ rotPart (c • pull L u) = c • u := fun L u => by
    rw [← pull_scale, pull_solves]
  cases fr
  · have h := way_moved (B := B) (Md := Md) hM (c • pull (handle .desired B Md M) (wayTo B Md M))
    have h1 : transPart (c • pull (handle .desired B Md M) (wayTo B Md M)) - skew B.t *ᵥ rotPart (c • pull (handle .desired B Md M) (wayTo B Md M)) =
      c • wayTo B Md M := ht _ _
    rw [h1, mulVec_smul] at h
    rw [← len_rot (isRot_exp3 (rotPart (c • pull (handle .desired B Md M) (wayTo B Md M)))), h]
    rfl
  · have h := way_moved' (B := B) (Md := Md) hM (c • pull (handle .current B Md M) (wayTo B Md M))
    have h1 : transPart (c • pull (handle .current B Md M) (wayTo B Md M)) -
        skew (B.t + wayTo B Md M) *ᵥ rotPart (c • pull (handle .current B Md M) (wayTo B Md M)) = c • wayTo B Md M := ht _ _
    rw [h1, mulVec_smul] at h
    rw [h]
    rfl

theorem handle_way : skew (handle fr B Md M) *ᵥ wayTo B Md M = skew B.t *ᵥ wayTo B Md M := by
  cases fr
  · rfl
  · show skew (B.t + wayTo B Md M) *ᵥ wayTo B Md M = _
    rw [Point6d.skew_add, add_mulVec, skew_self, add_zero]

theorem posTurn_eq (c : ℝ) : posTurn fr B Md c M = (c * (1 + len (handle fr B Md M) ^ 2)⁻¹) • (skew B.t *ᵥ wayTo B Md M) := by
  show c • ((1 + handle fr B Md M ⬝ᵥ handle fr B Md M)⁻¹ • (skew (handle fr B Md M) *ᵥ wayTo B Md M)) = _
  rw [handle_way, smul_smul, len_sq]

theorem posTurn_len {c : ℝ} (hc : 0 ≤ c) : len (posTurn fr B Md c M) ≤ c * len (wayTo B Md M) / 2 ∧
    len (posTurn fr B Md c M) ≤ c * len B.t * len (wayTo B Md M) := by
  constructor
  · rw [posTurn, len_smul, abs_of_nonneg hc]
    have := mul_le_mul_of_nonneg_left (pull_turn (handle fr B Md M) (wayTo B Md M)) hc
    linarith
  · have h1 : 0 ≤ (1 + len (handle fr B Md M) ^ 2)⁻¹ := by positivity
    have h2 : (1 + len (handle fr B Md M) ^ 2)⁻¹ ≤ 1 := inv_le_one_of_one_le₀ (by nlinarith [sq_nonneg (len (handle fr B Md M))])
    rw [posTurn_eq, len_smul, abs_of_nonneg (mul_nonneg hc h1)]
    have h3 := skew_len B.t (wayTo B Md M)
    have h4 : c * (1 + len (handle fr B Md M) ^ 2)⁻¹ ≤ c := mul_le_of_le_one_right hc h2
    calc _ ≤ c * len (skew B.t *ᵥ wayTo B Md M) := mul_le_mul_of_nonneg_right h4 (len_nonneg _)
      _ ≤ c * (len B.t * len (wayTo B Md M)) := mul_le_mul_of_nonneg_left h3 hc
      _ = _ := by ring

theorem len_neg (x : Fin 3 → ℝ) : len (-x) = len x := by
  rw [← neg_one_smul ℝ, len_smul, abs_neg, abs_one, one_mul]

/-- The distance to the reference after one period. -/
theorem way_shorter (hM : IsRot M.R) {c : ℝ} (hc : 0 ≤ c) (h1 : c * len (wayTo B Md M) ≤ 2) :
    len (wayTo B Md (M.mul (exp6 (pair (c • pull (handle fr B Md M) (wayTo B Md M)))))) ^ 2 ≤
      ((1 - c) ^ 2 + c * (c * len (wayTo B Md M)) ^ 2 / 8) * len (wayTo B Md M) ^ 2 := by
  obtain ⟨t1, -⟩ := posTurn_len (fr := fr) (B := B) (Md := Md) (M := M) hc
  have key : ∀ x, len x = len (posTurn fr B Md c M) → len (reduced c x (wayTo B Md M)) ^ 2 ≤
      ((1 - c) ^ 2 + c * (c * len (wayTo B Md M)) ^ 2 / 8) * len (wayTo B Md M) ^ 2 := by
    intro x hx
    refine (reduced_near (by rw [hx]; linarith) hc _).trans ?_
    apply mul_le_mul_of_nonneg_right _ (sq_nonneg _)
    rw [hx]
    have h2 := pow_le_pow_left₀ (len_nonneg _) t1 2
    have h3 := mul_le_mul_of_nonneg_left h2 hc
    nlinarith
  rw [way_step hM]
  cases fr
  · exact key _ rfl
  · exact key _ (len_neg _)

end

/-! ### The position only -/

theorem picked_position {sel : Nat → Bool} (h1 : ∀ i, i < 3 → sel i = true) (h2 : ∀ i, 3 ≤ i → i < 6 → sel i = false) :
    picked sel 6 = [0, 1, 2] := by
  simp [picked, List.range_succ, List.filter_cons, h1, h2]

section
variable (svd : ∀ {m c : ℕ} (A : Matrix (Fin m) (Fin c) ℝ), Svd A) {th maxSq : ℝ} {fr : Frame} {sel : Nat → Bool} {o : OpPoint ℝ}
  {ref : Option (Pose ℝ)} {gain : ℝ} {selec : Flags.Flags} {dt : ℝ} {joints : List ℝ} (ho : o.isEndEffector = true)
  (hB : IsRot o.transformation.R) (hd : IsRot (goalOf ref).R) (hsel : ∀ j : Nat, j < 6 → Flags.call selec (j : Int) = .ok true) (hth : 0 ≤ th)
  (ht1 : th < 1)

/-- The distance from the operational point to its reference, for the base `b`. -/
noncomputable def distTo (o : OpPoint ℝ) (ref : Option (Pose ℝ)) (b : Fin 6 → ℝ) : ℝ := len ((goalOf ref).t - (opPose o b).t)

omit ho hB hd hsel hth ht1 in
theorem distTo_way (b : Fin 6 → ℝ) : len (wayTo o.transformation (goalOf ref) (poseRpyToHomo b)) = distTo o ref b :=
  len_rot (pose_isRot b).transpose _

include ho hB hd hsel hth ht1

theorem pos_step (h1 : ∀ i, i < 3 → sel i = true) (h2 : ∀ i, 3 ≤ i → i < 6 → sel i = false) {d0 : Dev ℝ} (hm : d0.mode = .oneInteg)
    (hs0 : d0.sanity = false) {s : St} {b : Fin 6 → ℝ}
    (hi : SInv [(p6Rows fr [0, 1, 2] o.transformation (goalOf ref)).task (6 + joints.length) gain selec] d0 s (List.ofFn b ++ joints))
    (hl : gain ^ 2 * distTo o ref b ^ 2 ≤ maxSq) :
    ∃ s' b', step (p6SelLoop svd (6 + joints.length) th maxSq fr sel o ref gain selec dt) s = .ok s' ∧
      SInv [(p6Rows fr [0, 1, 2] o.transformation (goalOf ref)).task (6 + joints.length) gain selec] d0 s' (List.ofFn b' ++ joints) ∧
      s'.reports = s.reports ++ [[]] ∧
      poseRpyToHomo b' = (poseRpyToHomo b).mul (exp6 (pair ((gain * dt) • pull (handle fr o.transformation (goalOf ref) (poseRpyToHomo b))
        (wayTo o.transformation (goalOf ref) (poseRpyToHomo b))))) := by
  rw [p6SelLoop_eq svd (by omega) th maxSq fr sel ho]
  unfold p6Part
  rw [picked_position h1 h2]
  obtain ⟨s', b', e1, e2, e3, e4⟩ := PartFeat.step svd (dt := dt) (maxSq := maxSq) rfl hsel hth hm hs0 hi
    (posReady hB hd (pose_isRot b) ht1 (by rw [distTo_way]; exact hl))
  refine ⟨s', b', e1, e2, e3, ?_⟩
  rw [e4, ← pair_smul, pull_scale, smul_smul, mul_comm dt gain]

/-- The whole trajectory. -/
theorem pos_trajectory (h1 : ∀ i, i < 3 → sel i = true) (h2 : ∀ i, 3 ≤ i → i < 6 → sel i = false) {d : Dev ℝ} {b : Fin 6 → ℝ}
    (hm : d.mode = .oneInteg) (hs0 : d.sanity = false) (hst : d.state = nums (List.ofFn b ++ joints))
    (hsh : d.stateSOUT = nums (List.ofFn b ++ joints)) (hl : gain ^ 2 * distTo o ref b ^ 2 ≤ maxSq)
    (hdec : ∀ b1 b2, distTo o ref b1 ≤ distTo o ref b →
      poseRpyToHomo b2 = (poseRpyToHomo b1).mul (exp6 (pair ((gain * dt) • pull (handle fr o.transformation (goalOf ref) (poseRpyToHomo b1))
        (wayTo o.transformation (goalOf ref) (poseRpyToHomo b1))))) → distTo o ref b2 ≤ distTo o ref b) :
    ∃ base : Nat → Fin 6 → ℝ, base 0 = b ∧ ∀ k,
      (∃ s, steps (p6SelLoop svd (6 + joints.length) th maxSq fr sel o ref gain selec dt) k
          (start (p6SelLoop svd (6 + joints.length) th maxSq fr sel o ref gain selec dt) d) = .ok s ∧
        s.dev.state = nums (List.ofFn (base k) ++ joints) ∧ s.reports = List.replicate k []) ∧
      distTo o ref (base k) ≤ distTo o ref b ∧
      poseRpyToHomo (base (k + 1)) = (poseRpyToHomo (base k)).mul (exp6 (pair ((gain * dt) •
        pull (handle fr o.transformation (goalOf ref) (poseRpyToHomo (base k))) (wayTo o.transformation (goalOf ref) (poseRpyToHomo (base k)))))) := by
  obtain ⟨f, f0, fk⟩ := chain (α := St × (Fin 6 → ℝ))
    (P := fun k x => steps (p6SelLoop svd (6 + joints.length) th maxSq fr sel o ref gain selec dt) k
          (start (p6SelLoop svd (6 + joints.length) th maxSq fr sel o ref gain selec dt) d) = .ok x.1 ∧
        SInv [(p6Rows fr [0, 1, 2] o.transformation (goalOf ref)).task (6 + joints.length) gain selec] d x.1 (List.ofFn x.2 ++ joints) ∧
        x.1.reports = List.replicate k [] ∧ distTo o ref x.2 ≤ distTo o ref b)
    (R := fun _ x y => poseRpyToHomo y.2 = (poseRpyToHomo x.2).mul (exp6 (pair ((gain * dt) •
        pull (handle fr o.transformation (goalOf ref) (poseRpyToHomo x.2)) (wayTo o.transformation (goalOf ref) (poseRpyToHomo x.2))))))
    (a := (start (p6SelLoop svd (6 + joints.length) th maxSq fr sel o ref gain selec dt) d, b))
    ⟨rfl, PartFeat.start hst hsh _ rfl, rfl, le_rfl⟩ (by
      rintro k ⟨s, b1⟩ ⟨a1, a2, a3, a4⟩
      simp only [] at a1 a2 a3 a4
      have hle : gain ^ 2 * distTo o ref b1 ^ 2 ≤ maxSq := by
        have hp : 0 ≤ distTo o ref b1 := len_nonneg _
        refine le_trans ?_ hl
        gcongr
      obtain ⟨s', b', e1, e2, e3, e4⟩ := pos_step svd (dt := dt) ho hB hd hsel hth ht1 h1 h2 hm hs0 a2 hle
      refine ⟨(s', b'), ⟨?_, e2, by simp only []; rw [e3, a3, ← List.replicate_succ'], hdec b1 b' a4 e4⟩, e4⟩
      show (steps _ k _).bind _ = _
      rw [a1]; exact e1)
  refine ⟨fun k => (f k).2, by simp only []; rw [f0], fun k => ?_⟩
  obtain ⟨⟨a1, a2, a3, a4⟩, a5⟩ := fk k
  exact ⟨⟨(f k).1, a1, a2.state, a3⟩, a4, a5⟩

omit ho hB hd hsel hth ht1 in
/-- What one step of a position task does to the distance and to the base. -/
theorem pos_moved {b b' : Fin 6 → ℝ} (h0 : 0 < gain * dt) (h2 : gain * dt * distTo o ref b ≤ 2)
    (h : poseRpyToHomo b' = (poseRpyToHomo b).mul (exp6 (pair ((gain * dt) • pull (handle fr o.transformation (goalOf ref) (poseRpyToHomo b))
        (wayTo o.transformation (goalOf ref) (poseRpyToHomo b)))))) :
    distTo o ref b' ^ 2 ≤ ((1 - gain * dt) ^ 2 + gain * dt * (gain * dt * distTo o ref b) ^ 2 / 8) * distTo o ref b ^ 2 ∧
    (∃ x, (poseRpyToHomo b').R = (poseRpyToHomo b).R * exp3 x ∧ len x ≤ gain * dt * distTo o ref b / 2 ∧
      len x ≤ gain * dt * len o.transformation.t * distTo o ref b) ∧
    len ((poseRpyToHomo b').t - (poseRpyToHomo b).t) ≤ gain * dt * distTo o ref b := by
  obtain ⟨t1, t2⟩ := posTurn_len (fr := fr) (B := o.transformation) (Md := goalOf ref) (M := poseRpyToHomo b) h0.le
  have hw := way_shorter (fr := fr) (B := o.transformation) (Md := goalOf ref) (pose_isRot b) h0.le (by rw [distTo_way]; exact h2)
  rw [← h] at hw
  rw [distTo_way] at t1 t2
  rw [distTo_way, distTo_way] at hw
  refine ⟨hw, ⟨posTurn fr o.transformation (goalOf ref) (gain * dt) (poseRpyToHomo b), ?_, t1, t2⟩, ?_⟩
  · rw [h]; rfl
  · set u := wayTo o.transformation (goalOf ref) (poseRpyToHomo b) with hu
    set L := handle fr o.transformation (goalOf ref) (poseRpyToHomo b) with hL
    have e : (poseRpyToHomo b').t - (poseRpyToHomo b).t =
        (poseRpyToHomo b).R *ᵥ (leftJac ((gain * dt) • rotPart (pull L u)) *ᵥ ((gain * dt) • transPart (pull L u))) := by
      rw [h]
      show _ *ᵥ _ + (poseRpyToHomo b).t - _ = _
      rw [add_sub_cancel_right]
      rfl
    rw [e, len_rot (pose_isRot b)]
    refine (leftJac_len _ _).trans ?_
    rw [len_smul, abs_of_pos h0]
    refine mul_le_mul_of_nonneg_left ?_ h0.le
    rw [← distTo_way, ← hu]
    apply le_of_sq_le_sq _ (len_nonneg u)
    have h5 := pull_sq L u
    rw [sum_sq, ← len_sq u] at h5
    nlinarith [sq_nonneg (len (rotPart (pull L u)))]

/-- How fast the distance decreases at least: the square of the factor of one period, for the gain times the period `c` and the first distance
`D`. -/
noncomputable def posRate (c D : ℝ) : ℝ := (1 - c) ^ 2 + c * (c * D) ^ 2 / 8

omit ho hB hd hsel hth ht1 in
theorem pos_decreases {b b1 b2 : Fin 6 → ℝ} (h0 : 0 < gain * dt) (hD : gain * dt * distTo o ref b ≤ 2) (hb : distTo o ref b1 ≤ distTo o ref b)
    (h : poseRpyToHomo b2 = (poseRpyToHomo b1).mul (exp6 (pair ((gain * dt) • pull (handle fr o.transformation (goalOf ref) (poseRpyToHomo b1))
        (wayTo o.transformation (goalOf ref) (poseRpyToHomo b1)))))) :
    distTo o ref b2 ^ 2 ≤ posRate (gain * dt) (distTo o ref b) * distTo o ref b1 ^ 2 := by
  have hp : 0 ≤ distTo o ref b1 := len_nonneg _
  refine (pos_moved h0 ((mul_le_mul_of_nonneg_left hb h0.le).trans hD) h).1.trans ?_
  apply mul_le_mul_of_nonneg_right _ (sq_nonneg _)
  unfold posRate
  gcongr

/-- **C151, position.** With the position alone selected, in either frame and wherever the operational point is on the base: when the first
way is at most `2 / (gain dt)` long and the rate below is less than one, no step fails or is reported, the joints do not move, and each period
multiplies the square of the distance from the operational point to its reference by the rate at most. The base turns by at most the half of
`gain dt` times the distance, and by at most `gain dt` times the distance times the length of the lever arm. -/
theorem C151_position (h1 : ∀ i, i < 3 → sel i = true) (h2 : ∀ i, 3 ≤ i → i < 6 → sel i = false) {d : Dev ℝ} {b : Fin 6 → ℝ}
    (hm : d.mode = .oneInteg) (hs0 : d.sanity = false) (hst : d.state = nums (List.ofFn b ++ joints))
    (hsh : d.stateSOUT = nums (List.ofFn b ++ joints)) (h0 : 0 < gain * dt) (hD : gain * dt * distTo o ref b ≤ 2)
    (hrate : posRate (gain * dt) (distTo o ref b) < 1) (hl : gain ^ 2 * distTo o ref b ^ 2 ≤ maxSq) :
    ∃ base : Nat → Fin 6 → ℝ, base 0 = b ∧ ∀ k,
      (∃ s, steps (p6SelLoop svd (6 + joints.length) th maxSq fr sel o ref gain selec dt) k
          (start (p6SelLoop svd (6 + joints.length) th maxSq fr sel o ref gain selec dt) d) = .ok s ∧
        s.dev.state = nums (List.ofFn (base k) ++ joints) ∧ s.reports = List.replicate k []) ∧
      distTo o ref (base (k + 1)) ^ 2 ≤ posRate (gain * dt) (distTo o ref b) * distTo o ref (base k) ^ 2 ∧
      (∃ x, (poseRpyToHomo (base (k + 1))).R = (poseRpyToHomo (base k)).R * exp3 x ∧ len x ≤ gain * dt * distTo o ref (base k) / 2 ∧
        len x ≤ gain * dt * len o.transformation.t * distTo o ref (base k)) ∧
      len ((poseRpyToHomo (base (k + 1))).t - (poseRpyToHomo (base k)).t) ≤ gain * dt * distTo o ref (base k) := by
  obtain ⟨base, g0, g⟩ := pos_trajectory svd (fr := fr) (dt := dt) ho hB hd hsel hth ht1 h1 h2 hm hs0 hst hsh hl (by
    intro b1 b2 hb h
    have h3 := pos_decreases h0 hD hb h
    have hp : 0 ≤ distTo o ref b1 := len_nonneg _
    refine le_trans ?_ hb
    apply le_of_sq_le_sq _ hp
    nlinarith [sq_nonneg (distTo o ref b1)])
  refine ⟨base, g0, fun k => ?_⟩
  obtain ⟨a1, a2, a3⟩ := g k
  obtain ⟨-, m2, m3⟩ := pos_moved h0 ((mul_le_mul_of_nonneg_left a2 h0.le).trans hD) a3
  exact ⟨a1, pos_decreases h0 hD a2 a3, m2, m3⟩

omit ho hB hd hsel hth ht1 in
theorem turn_entry {R : Matrix (Fin 3) (Fin 3) ℝ} (hR : IsRot R) (x : Fin 3 → ℝ) (i j : Fin 3) : |(R * exp3 x) i j - R i j| ≤ len x := by
  have h1 : (R * exp3 x) i j - R i j = (R *ᵥ (leftJac x *ᵥ (skew x *ᵥ Pi.single j 1))) i := by
    rw [exp3_leftJac, Matrix.mul_add, Matrix.mul_one, Matrix.add_apply, add_sub_cancel_left, mulVec_mulVec, mulVec_mulVec, mulVec_single_one, Matrix.mul_assoc]
    rfl
  rw [h1]
  refine (abs_le_len _ i).trans ?_
  rw [len_rot hR]
  refine (leftJac_len _ _).trans ((skew_len _ _).trans ?_)
  have : len (Pi.single j (1 : ℝ) : Fin 3 → ℝ) = 1 := by
    simp [len]
  rw [this, mul_one]

omit ho hB hd hsel hth ht1 in
theorem isRot_limit {R : Nat → Matrix (Fin 3) (Fin 3) ℝ} {S : Matrix (Fin 3) (Fin 3) ℝ} (h : ∀ k, IsRot (R k)) (hl : Tendsto R atTop (𝓝 S)) : IsRot S := by
  constructor
  · have hc : Continuous fun Y : Matrix (Fin 3) (Fin 3) ℝ => Yᵀ * Y := by fun_prop
    have h1 := (hc.tendsto S).comp hl
    exact tendsto_nhds_unique h1 (tendsto_const_nhds.congr fun k => (h k).1.symm)
  · have hc : Continuous fun Y : Matrix (Fin 3) (Fin 3) ℝ => Y.det := by fun_prop
    have h1 := (hc.tendsto S).comp hl
    exact tendsto_nhds_unique h1 (tendsto_const_nhds.congr fun k => (h k).2.symm)

/-- **C151, rest.** Under the same hypotheses the base comes to rest: its pose tends to one where the operational point is at the position of
its reference. -/
theorem C151_rest (h1 : ∀ i, i < 3 → sel i = true) (h2 : ∀ i, 3 ≤ i → i < 6 → sel i = false) {d : Dev ℝ} {b : Fin 6 → ℝ}
    (hm : d.mode = .oneInteg) (hs0 : d.sanity = false) (hst : d.state = nums (List.ofFn b ++ joints))
    (hsh : d.stateSOUT = nums (List.ofFn b ++ joints)) (h0 : 0 < gain * dt) (hD : gain * dt * distTo o ref b ≤ 2)
    (hrate : posRate (gain * dt) (distTo o ref b) < 1) (hl : gain ^ 2 * distTo o ref b ^ 2 ≤ maxSq) :
    ∃ (base : Nat → Fin 6 → ℝ) (rest : Pose ℝ), IsRot rest.R ∧ (rest.mul o.transformation).t = (goalOf ref).t ∧
      (∀ k, ∃ s, steps (p6SelLoop svd (6 + joints.length) th maxSq fr sel o ref gain selec dt) k
          (start (p6SelLoop svd (6 + joints.length) th maxSq fr sel o ref gain selec dt) d) = .ok s ∧
        s.dev.state = nums (List.ofFn (base k) ++ joints)) ∧
      (∀ i j, Tendsto (fun k => (poseRpyToHomo (base k)).R i j) atTop (𝓝 (rest.R i j))) ∧
      ∀ i, Tendsto (fun k => (poseRpyToHomo (base k)).t i) atTop (𝓝 (rest.t i)) := by
  obtain ⟨base, g0, g⟩ := C151_position svd (fr := fr) (dt := dt) ho hB hd hsel hth ht1 h1 h2 hm hs0 hst hsh h0 hD hrate hl
  set D := distTo o ref b with hDd
  set r := √(posRate (gain * dt) D) with hr
  have hr0 : 0 ≤ r := Real.sqrt_nonneg _
  have hr1 : r < 1 := by
    rw [hr, Real.sqrt_lt' one_pos, one_pow]
    exact hrate
  have hrs : r ^ 2 = posRate (gain * dt) D := Real.sq_sqrt (by unfold posRate; positivity)
  have hdist : ∀ k, distTo o ref (base k) ≤ D * r ^ k := by
    intro k
    induction k with
    | zero => rw [g0, pow_zero, mul_one]
    | succ k ih =>
      have hp : 0 ≤ distTo o ref (base k) := len_nonneg _
      have hs : distTo o ref (base (k + 1)) ≤ r * distTo o ref (base k) := by
        apply le_of_sq_le_sq _ (mul_nonneg hr0 hp)
        rw [mul_pow, hrs]
        exact (g k).2.1
      calc _ ≤ r * distTo o ref (base k) := hs
        _ ≤ r * (D * r ^ k) := mul_le_mul_of_nonneg_left ih hr0
        _ = D * r ^ (k + 1) := by ring
  have hR : ∀ i j, ∃ l, Tendsto (fun k => (poseRpyToHomo (base k)).R i j) atTop (𝓝 l) := by
    intro i j
    refine cauchySeq_tendsto_of_complete (cauchySeq_of_le_geometric r (gain * dt * D) hr1 fun k => ?_)
    obtain ⟨x, x1, x2, -⟩ := (g k).2.2.1
    rw [dist_comm, Real.dist_eq, x1]
    refine (turn_entry (pose_isRot _) x i j).trans (x2.trans ?_)
    have := mul_le_mul_of_nonneg_left (hdist k) h0.le
    have hp : 0 ≤ gain * dt * distTo o ref (base k) := mul_nonneg h0.le (len_nonneg _)
    linarith
  have ht : ∀ i, ∃ l, Tendsto (fun k => (poseRpyToHomo (base k)).t i) atTop (𝓝 l) := by
    intro i
    refine cauchySeq_tendsto_of_complete (cauchySeq_of_le_geometric r (gain * dt * D) hr1 fun k => ?_)
    rw [dist_comm, Real.dist_eq, ← Pi.sub_apply]
    refine (abs_le_len _ i).trans ((g k).2.2.2.trans ?_)
    have := mul_le_mul_of_nonneg_left (hdist k) h0.le
    linarith
  choose R hR using hR
  choose t ht using ht
  have hRm : Tendsto (fun k => (poseRpyToHomo (base k)).R) atTop (𝓝 (R : Matrix (Fin 3) (Fin 3) ℝ)) :=
    tendsto_pi_nhds.mpr fun i => tendsto_pi_nhds.mpr fun j => hR i j
  have htm : Tendsto (fun k => (poseRpyToHomo (base k)).t) atTop (𝓝 t) := tendsto_pi_nhds.mpr ht
  refine ⟨base, ⟨R, t⟩, isRot_limit (fun k => pose_isRot _) hRm, ?_, fun k => ?_, hR, ht⟩
  · have hc : Continuous fun Y : Matrix (Fin 3) (Fin 3) ℝ × (Fin 3 → ℝ) => Y.1 *ᵥ o.transformation.t + Y.2 := by fun_prop
    have l1 := (hc.tendsto (R, t)).comp (hRm.prodMk_nhds htm)
    have l2 : Tendsto (fun k => (opPose o (base k)).t) atTop (𝓝 (goalOf ref).t) := by
      refine tendsto_pi_nhds.mpr fun i => ?_
      rw [tendsto_iff_dist_tendsto_zero]
      refine squeeze_zero (fun k => dist_nonneg) (g := fun k => D * r ^ k) (fun k => ?_) ?_
      · rw [dist_comm, Real.dist_eq, ← Pi.sub_apply]
        exact (abs_le_len _ i).trans (hdist k)
      · have := (tendsto_pow_atTop_nhds_zero_of_lt_one hr0 hr1).const_mul D
        rwa [mul_zero] at this
    exact tendsto_nhds_unique l1 l2
  · obtain ⟨s, s1, s2, -⟩ := (g k).1
    exact ⟨s, s1, s2⟩

omit ho hB hd hsel hth ht1 in
theorem way_parallel {b : Fin 6 → ℝ}
    (hp : ((poseRpyToHomo b).R *ᵥ o.transformation.t) ⨯₃ ((goalOf ref).t - (opPose o b).t) = 0) :
    skew o.transformation.t *ᵥ wayTo o.transformation (goalOf ref) (poseRpyToHomo b) = 0 := by
  have h := cross_rot (pose_isRot b) o.transformation.t (wayTo o.transformation (goalOf ref) (poseRpyToHomo b))
  have h2 : (poseRpyToHomo b).R *ᵥ wayTo o.transformation (goalOf ref) (poseRpyToHomo b) = (goalOf ref).t - (opPose o b).t := by
    show _ *ᵥ (_ *ᵥ _) = _
    rw [mulVec_mulVec, (pose_isRot b).mul_transpose, one_mulVec]
    rfl
  rw [h2, skew_mulVec, hp] at h
  have h3 := congrArg ((poseRpyToHomo b).Rᵀ *ᵥ ·) h
  beta_reduce at h3
  rw [mulVec_zero, mulVec_mulVec, (pose_isRot b).1, one_mulVec] at h3
  exact h3.symm

omit ho hB hd hsel hth ht1 in
/-- A step along the lever arm. -/
theorem straight_step {b b' : Fin 6 → ℝ} (hp : ((poseRpyToHomo b).R *ᵥ o.transformation.t) ⨯₃ ((goalOf ref).t - (opPose o b).t) = 0)
    (h : poseRpyToHomo b' = (poseRpyToHomo b).mul (exp6 (pair ((gain * dt) • pull (handle fr o.transformation (goalOf ref) (poseRpyToHomo b))
        (wayTo o.transformation (goalOf ref) (poseRpyToHomo b)))))) :
    (poseRpyToHomo b').R = (poseRpyToHomo b).R ∧ (goalOf ref).t - (opPose o b').t = (1 - gain * dt) • ((goalOf ref).t - (opPose o b).t) := by
  have hz := way_parallel hp
  set u := wayTo o.transformation (goalOf ref) (poseRpyToHomo b) with hu
  set L := handle fr o.transformation (goalOf ref) (poseRpyToHomo b) with hL
  have hrot : rotPart (pull L u) = 0 := by
    show (1 + L ⬝ᵥ L)⁻¹ • (skew L *ᵥ u) = 0
    rw [hL, hu, handle_way, ← hu, hz, smul_zero]
  have htr : transPart (pull L u) = u := by
    have := pull_solves L u
    rwa [hrot, mulVec_zero, sub_zero] at this
  have hpair : pair ((gain * dt) • pull L u) = ((gain * dt) • u, 0) := by
    show ((gain * dt) • transPart (pull L u), (gain * dt) • rotPart (pull L u)) = _
    rw [hrot, htr, smul_zero]
  have he : exp6 ((gain * dt) • u, 0) = ⟨1, (gain * dt) • u⟩ := by
    unfold exp6
    simp only [exp3_zero, leftJac_zero, one_mulVec]
  rw [hpair, he] at h
  have hR : (poseRpyToHomo b').R = (poseRpyToHomo b).R := by
    rw [h]; exact Matrix.mul_one _
  refine ⟨hR, ?_⟩
  have ht : (poseRpyToHomo b').t = (gain * dt) • ((goalOf ref).t - (opPose o b).t) + (poseRpyToHomo b).t := by
    rw [h]
    show (poseRpyToHomo b).R *ᵥ ((gain * dt) • u) + (poseRpyToHomo b).t = _
    rw [mulVec_smul]
    congr 2
    rw [hu]
    show _ *ᵥ (_ *ᵥ _) = _
    rw [mulVec_mulVec, (pose_isRot b).mul_transpose, one_mulVec]
    rfl
  have e : ∀ b, (opPose o b).t = (poseRpyToHomo b).R *ᵥ o.transformation.t + (poseRpyToHomo b).t := fun b => rfl
  rw [e b', hR, ht, sub_smul, one_smul, e b]
  abel

/-- **C151, straight.** When the lever arm is null or along the way to the reference, the base does not turn and the operational point goes
straight: after `k` periods the way is the first one times `(1 - gain dt)^k`. -/
theorem C151_straight (h1 : ∀ i, i < 3 → sel i = true) (h2 : ∀ i, 3 ≤ i → i < 6 → sel i = false) {d : Dev ℝ} {b : Fin 6 → ℝ}
    (hm : d.mode = .oneInteg) (hs0 : d.sanity = false) (hst : d.state = nums (List.ofFn b ++ joints))
    (hsh : d.stateSOUT = nums (List.ofFn b ++ joints)) (h0 : 0 ≤ gain * dt) (h3 : gain * dt ≤ 2)
    (hp : ((poseRpyToHomo b).R *ᵥ o.transformation.t) ⨯₃ ((goalOf ref).t - (opPose o b).t) = 0)
    (hl : gain ^ 2 * distTo o ref b ^ 2 ≤ maxSq) (k : Nat) :
    ∃ s b', steps (p6SelLoop svd (6 + joints.length) th maxSq fr sel o ref gain selec dt) k
          (start (p6SelLoop svd (6 + joints.length) th maxSq fr sel o ref gain selec dt) d) = .ok s ∧
        s.dev.state = nums (List.ofFn b' ++ joints) ∧ s.reports = List.replicate k [] ∧
      (poseRpyToHomo b').R = (poseRpyToHomo b).R ∧ (goalOf ref).t - (opPose o b').t = (1 - gain * dt) ^ k • ((goalOf ref).t - (opPose o b).t) := by
  suffices hk : ∃ s b', steps (p6SelLoop svd (6 + joints.length) th maxSq fr sel o ref gain selec dt) k
          (start (p6SelLoop svd (6 + joints.length) th maxSq fr sel o ref gain selec dt) d) = .ok s ∧
        SInv [(p6Rows fr [0, 1, 2] o.transformation (goalOf ref)).task (6 + joints.length) gain selec] d s (List.ofFn b' ++ joints) ∧
        s.reports = List.replicate k [] ∧
      (poseRpyToHomo b').R = (poseRpyToHomo b).R ∧ (goalOf ref).t - (opPose o b').t = (1 - gain * dt) ^ k • ((goalOf ref).t - (opPose o b).t) by
    obtain ⟨s, b', a1, a2, a3, a4, a5⟩ := hk
    exact ⟨s, b', a1, a2.state, a3, a4, a5⟩
  induction k with
  | zero => exact ⟨_, b, rfl, PartFeat.start hst hsh _ rfl, rfl, rfl, by rw [pow_zero, one_smul]⟩
  | succ k ih =>
    obtain ⟨s, b1, a1, a2, a3, a4, a5⟩ := ih
    have hp1 : ((poseRpyToHomo b1).R *ᵥ o.transformation.t) ⨯₃ ((goalOf ref).t - (opPose o b1).t) = 0 := by
      rw [a4, a5, map_smul, hp, smul_zero]
    have hl1 : gain ^ 2 * distTo o ref b1 ^ 2 ≤ maxSq := by
      refine le_trans ?_ hl
      have : distTo o ref b1 ≤ distTo o ref b := by
        show len _ ≤ len _
        rw [a5, len_smul, abs_pow]
        have hc : |1 - gain * dt| ≤ 1 := abs_le.mpr ⟨by linarith, by linarith⟩
        exact mul_le_of_le_one_left (len_nonneg _) (pow_le_one₀ (abs_nonneg _) hc)
      have hpos : 0 ≤ distTo o ref b1 := len_nonneg _
      gcongr
    obtain ⟨s', b', e1, e2, e3, e4⟩ := pos_step svd (fr := fr) (dt := dt) ho hB hd hsel hth ht1 h1 h2 hm hs0 a2 hl1
    obtain ⟨r1, r2⟩ := straight_step hp1 e4
    refine ⟨s', b', ?_, e2, by rw [e3, a3, ← List.replicate_succ'], r1.trans a4, ?_⟩
    · show (steps _ k _).bind _ = _
      rw [a1]; exact e1
    · rw [r2, a5, smul_smul, pow_succ, mul_comm]

/-- **C151, the rest moves.** What is not selected is not held: when the lever arm is not along the way, the first period turns the base,
although the orientation is not asked for. -/
theorem C151_turns (h1 : ∀ i, i < 3 → sel i = true) (h2 : ∀ i, 3 ≤ i → i < 6 → sel i = false) {d : Dev ℝ} {b : Fin 6 → ℝ}
    (hm : d.mode = .oneInteg) (hs0 : d.sanity = false) (hst : d.state = nums (List.ofFn b ++ joints))
    (hsh : d.stateSOUT = nums (List.ofFn b ++ joints)) (h0 : 0 < gain * dt) (hD : gain * dt * distTo o ref b ≤ 2)
    (hl : gain ^ 2 * distTo o ref b ^ 2 ≤ maxSq)
    (hp : ((poseRpyToHomo b).R *ᵥ o.transformation.t) ⨯₃ ((goalOf ref).t - (opPose o b).t) ≠ 0) :
    ∃ s b', steps (p6SelLoop svd (6 + joints.length) th maxSq fr sel o ref gain selec dt) 1
          (start (p6SelLoop svd (6 + joints.length) th maxSq fr sel o ref gain selec dt) d) = .ok s ∧
        s.dev.state = nums (List.ofFn b' ++ joints) ∧ (poseRpyToHomo b').R ≠ (poseRpyToHomo b).R := by
  obtain ⟨s', b', e1, e2, -, e4⟩ := pos_step svd (fr := fr) (dt := dt) (gain := gain) (selec := selec) ho hB hd hsel hth ht1 h1 h2 hm hs0
    (PartFeat.start hst hsh (p6SelLoop svd (6 + joints.length) th maxSq fr sel o ref gain selec dt) rfl) hl
  refine ⟨s', b', e1, e2.state, fun hR => hp ?_⟩
  have hturn : (poseRpyToHomo b').R = (poseRpyToHomo b).R * exp3 (posTurn fr o.transformation (goalOf ref) (gain * dt) (poseRpyToHomo b)) := by
    rw [e4]; rfl
  rw [hR] at hturn
  have hone : exp3 (posTurn fr o.transformation (goalOf ref) (gain * dt) (poseRpyToHomo b)) = 1 := by
    have h3 := congrArg ((poseRpyToHomo b).Rᵀ * ·) hturn
    beta_reduce at h3
    rw [← Matrix.mul_assoc, (pose_isRot b).1, Matrix.one_mul] at h3
    exact h3.symm
  have hzero : posTurn fr o.transformation (goalOf ref) (gain * dt) (poseRpyToHomo b) = 0 := by
    have hlen := (posTurn_len (fr := fr) (B := o.transformation) (Md := goalOf ref) (M := poseRpyToHomo b) h0.le).1
    rw [distTo_way] at hlen
    rw [← rotVec_exp3 (w := posTurn fr o.transformation (goalOf ref) (gain * dt) (poseRpyToHomo b)) (by linarith [Real.pi_gt_three]), hone]
    exact (rotVec_eq_zero isRot_one).mpr rfl
  rw [posTurn_eq, smul_eq_zero] at hzero
  have hz := hzero.resolve_left (mul_ne_zero h0.ne' (by positivity))
  have h := cross_rot (pose_isRot b) o.transformation.t (wayTo o.transformation (goalOf ref) (poseRpyToHomo b))
  have h5 : (poseRpyToHomo b).R *ᵥ wayTo o.transformation (goalOf ref) (poseRpyToHomo b) = (goalOf ref).t - (opPose o b).t := by
    show _ *ᵥ (_ *ᵥ _) = _
    rw [mulVec_mulVec, (pose_isRot b).mul_transpose, one_mulVec]
    rfl
  rw [h5, skew_mulVec, hz, mulVec_zero] at h
  exact h

end
end Verif.Loop
