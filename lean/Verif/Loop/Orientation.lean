import Verif.Loop.Position

/-!
# C151, continued: the orientation only, and some axes of the position only
-/

namespace Verif.Loop

open Matrix Verif.Sot Verif.Device Verif.Geometry Verif.Point6d Verif.Se3 Verif.Spatial Verif.Features Filter Topology

/-! ### The orientation only -/

/-- The sense of the rotation error. -/
def sense (fr : Frame) : ℝ :=
  match fr with
  | .desired => -1
  | .current => 1

theorem sense_sq (fr : Frame) : sense fr * sense fr = 1 := by cases fr <;> norm_num [sense]

theorem exp3_frame {R : Matrix (Fin 3) (Fin 3) ℝ} (h : IsRot R) (w : Fin 3 → ℝ) : exp3 (R *ᵥ w) * R = R * exp3 w := by
  have hl : len (R *ᵥ w) = len w := len_rot h w
  have hs : R * skew w = skew (R *ᵥ w) * R := by rw [h.skew_comm]
  have hs2 : R * (skew w * skew w) = skew (R *ᵥ w) * skew (R *ᵥ w) * R := by
    rw [← Matrix.mul_assoc, hs, Matrix.mul_assoc, hs, Matrix.mul_assoc]
  unfold exp3 poly
  rw [hl, Matrix.mul_add, Matrix.mul_add, Matrix.add_mul, Matrix.add_mul, Matrix.mul_one, Matrix.one_mul, Matrix.mul_smul, Matrix.mul_smul,
    Matrix.smul_mul, Matrix.smul_mul, hs, hs2]

theorem exp6_turn (x : Fin 3 → ℝ) : exp6 ((0 : Fin 3 → ℝ), x) = ⟨exp3 x, 0⟩ := by
  unfold exp6
  simp only [mulVec_zero]

section
variable {th maxSq gain dt : ℝ} {fr : Frame} {B Md M : Pose ℝ}

/-- The three rows of the orientation. -/
noncomputable def rotE (fr : Frame) (B Md M : Pose ℝ) : Fin 3 → ℝ := rotPart (errorFull fr (M.mul B) (some Md))

/-- Their derivatives. -/
noncomputable def rotJ (fr : Frame) (B Md M : Pose ℝ) : Matrix (Fin 3) (Fin 3 ⊕ Fin 3) ℝ :=
  Matrix.of fun i => jacobianFull fr (M.mul B) (some Md) (twist B.inv) (.inr i)

theorem rotRows : p6Rows fr [3, 4, 5] B Md = ⟨3, rotE fr B Md, rotJ fr B Md⟩ := by
  unfold p6Rows
  congr 1
  · funext M i
    match i with
    | 0 | 1 | 2 => rfl
  · funext M i
    match i with
    | 0 | 1 | 2 => rfl

/-- The axes of the rotation error, seen from the base. -/
noncomputable def rotAxes (fr : Frame) (B Md M : Pose ℝ) : Matrix (Fin 3) (Fin 3) ℝ := (-sense fr) • (Md.R⁻¹ * M.R)

theorem rotK (hB : IsRot B.R) (v : Fin 3 ⊕ Fin 3 → ℝ) : rotJ fr B Md M *ᵥ v = rotAxes fr B Md M *ᵥ rotPart v := by
  obtain ⟨-, l2⟩ := lin_inv hB v
  have h : (Md.R⁻¹ * (M.mul B).R) *ᵥ (B.Rᵀ *ᵥ rotPart v) = (Md.R⁻¹ * M.R) *ᵥ rotPart v := by
    show (Md.R⁻¹ * (M.R * B.R)) *ᵥ _ = _
    rw [mulVec_mulVec, ← Matrix.mul_assoc, Matrix.mul_assoc _ B.R, hB.mul_transpose, Matrix.mul_one]
  show rotPart (jacobianFull fr (M.mul B) (some Md) (twist B.inv) *ᵥ v) = _
  cases fr
  · rw [jac_desired_rot, l2, h]
    show _ = (-(-1 : ℝ) • (Md.R⁻¹ * M.R)) *ᵥ _
    rw [neg_neg, one_smul]
  · rw [jac_current_rot, l2, h]
    show _ = (-(1 : ℝ) • (Md.R⁻¹ * M.R)) *ᵥ _
    rw [neg_smul, one_smul, neg_mulVec]

theorem rotAxes_orth (hd : IsRot Md.R) (hM : IsRot M.R) :
    (rotAxes fr B Md M)ᵀ * rotAxes fr B Md M = 1 ∧ rotAxes fr B Md M * (rotAxes fr B Md M)ᵀ = 1 := by
  have h := hd.inv.mul hM
  have hs : -sense fr * -sense fr = 1 := by rw [neg_mul_neg, sense_sq]
  unfold rotAxes
  rw [transpose_smul, Matrix.smul_mul, Matrix.mul_smul, Matrix.smul_mul, Matrix.mul_smul, smul_smul, smul_smul, hs, one_smul, one_smul]
  exact ⟨h.1, h.mul_transpose⟩

theorem rotReady (hB : IsRot B.R) (hd : IsRot Md.R) (hM : IsRot M.R) (ht : th < 1) (hl : gain ^ 2 * len (rotE fr B Md M) ^ 2 ≤ maxSq) :
    (p6Rows fr [3, 4, 5] B Md).Ready th maxSq gain M (Sum.elim 0 ((gain * sense fr) • (B.R *ᵥ rotE fr B Md M))) := by
  rw [rotRows]
  obtain ⟨z1, z2⟩ := rotAxes_orth (fr := fr) (B := B) hd hM
  have hrot : ∀ a b : Fin 3 → ℝ, rotPart (Sum.elim a b) = b := fun a b => rfl
  refine ⟨?_, ⟨rotAxes fr B Md M *ᵥ ((gain * sense fr) • (B.R *ᵥ rotE fr B Md M)), ?_⟩, ⟨1, ht, fun y => ?_⟩, ?_⟩
  · show rotJ fr B Md M *ᵥ _ = -gain • rotE fr B Md M
    rw [rotK hB, hrot, rotAxes, mulVec_smul, smul_mulVec, mulVec_mulVec, Matrix.mul_assoc]
    have hf : (Md.R⁻¹ * (M.R * B.R)) *ᵥ rotE fr B Md M = rotE fr B Md M := (rot_fixed fr (F := M.mul B) (hM.mul hB) hd).2
    rw [hf, smul_smul]
    congr 1
    have := sense_sq fr
    linear_combination (-gain) * this
  · apply dotProduct_eq
    intro x
    rw [mulVec_transpose, ← dotProduct_mulVec]
    show _ = (rotAxes fr B Md M *ᵥ ((gain * sense fr) • (B.R *ᵥ rotE fr B Md M))) ⬝ᵥ (rotJ fr B Md M *ᵥ x)
    rw [rotK hB, orth_dot z1, sum_dot]
    show (0 : Fin 3 → ℝ) ⬝ᵥ _ + _ = _
    rw [zero_dotProduct, zero_add]
    rfl
  · refine ⟨Sum.elim 0 ((rotAxes fr B Md M)ᵀ *ᵥ y), ?_, ?_⟩
    · show rotJ fr B Md M *ᵥ _ = y
      rw [rotK hB, hrot, mulVec_mulVec, z2, one_mulVec]
    · rw [one_pow, one_mul, sum_dot]
      show (0 : Fin 3 → ℝ) ⬝ᵥ 0 + (rotAxes fr B Md M)ᵀ *ᵥ y ⬝ᵥ (rotAxes fr B Md M)ᵀ *ᵥ y ≤ _
      rw [orth_dot (by rw [transpose_transpose, z2]), zero_dotProduct, zero_add]
  · rw [sum_dot]
    show (0 : Fin 3 → ℝ) ⬝ᵥ 0 + ((gain * sense fr) • (B.R *ᵥ rotE fr B Md M)) ⬝ᵥ ((gain * sense fr) • (B.R *ᵥ rotE fr B Md M)) ≤ _
    rw [zero_dotProduct, zero_add, ← len_sq, len_smul, len_rot hB, mul_pow, sq_abs, mul_pow, pow_two (sense fr), sense_sq, mul_one]
    exact hl

/-- The rotation between the frames after a motion. -/
theorem rot_moved (hB : IsRot B.R) (hd : IsRot Md.R) (hM : IsRot M.R) (c : ℝ) :
    (relative fr ((M.mul ⟨exp3 ((c * sense fr) • (B.R *ᵥ rotE fr B Md M)), 0⟩).mul B) (some Md)).R = exp3 ((1 - c) • rotE fr B Md M) := by
  have h := (p6_moved fr hd (F := M.mul B) (hM.mul hB) c).1
  have hv : rotPart (c • p6Velocity fr Md (M.mul B) 1) = (c * sense fr) • rotE fr B Md M := by
    cases fr
    · show c • (-(1 : ℝ) • _) = (c * -1 : ℝ) • rotE .desired B Md M
      rw [smul_smul]; rfl
    · show c • ((1 : ℝ) • _) = (c * 1 : ℝ) • rotE .current B Md M
      rw [smul_smul]; rfl
  have hR : ((M.mul B).mul (exp6 (pair (c • p6Velocity fr Md (M.mul B) 1)))).R =
      ((M.mul ⟨exp3 ((c * sense fr) • (B.R *ᵥ rotE fr B Md M)), 0⟩).mul B).R := by
    show M.R * B.R * exp3 (rotPart (c • p6Velocity fr Md (M.mul B) 1)) = M.R * exp3 ((c * sense fr) • (B.R *ᵥ rotE fr B Md M)) * B.R
    rw [hv, ← mulVec_smul, Matrix.mul_assoc, Matrix.mul_assoc, exp3_frame hB]
  have hrel : ∀ F G : Pose ℝ, F.R = G.R → (relative fr F (some Md)).R = (relative fr G (some Md)).R := by
    intro F G e
    cases fr
    · show Md.R⁻¹ * F.R = Md.R⁻¹ * G.R
      rw [e]
    · show F.R⁻¹ * Md.R = G.R⁻¹ * Md.R
      rw [e]
  rw [← hrel _ _ hR]
  exact h

end

theorem picked_orientation {sel : Nat → Bool} (h1 : ∀ i, i < 3 → sel i = false) (h2 : ∀ i, 3 ≤ i → i < 6 → sel i = true) :
    picked sel 6 = [3, 4, 5] := by
  simp [picked, List.range_succ, List.filter_cons, h1, h2]

section
variable (svd : ∀ {m c : ℕ} (A : Matrix (Fin m) (Fin c) ℝ), Svd A) {th maxSq : ℝ} {fr : Frame} {sel : Nat → Bool} {o : OpPoint ℝ}
  {ref : Option (Pose ℝ)} {gain : ℝ} {selec : Flags.Flags} {dt : ℝ} {joints : List ℝ} (ho : o.isEndEffector = true)
  (hB : IsRot o.transformation.R) (hd : IsRot (goalOf ref).R) (hsel : ∀ j : Nat, j < 6 → Flags.call selec (j : Int) = .ok true) (hth : 0 ≤ th)
  (ht1 : th < 1)

include ho hB hd hsel hth ht1

/-- **C151, orientation.** With the orientation alone selected, in either frame and wherever the operational point is on the base: no step
fails or is reported, the joints do not move, the base turns about its own origin, which stays where it was, and after `k` periods the rotation
error is `(1 - gain dt)^k` times the first one. -/
theorem C151_orientation (h1 : ∀ i, i < 3 → sel i = false) (h2 : ∀ i, 3 ≤ i → i < 6 → sel i = true) {d : Dev ℝ} {b : Fin 6 → ℝ}
    (hm : d.mode = .oneInteg) (hs0 : d.sanity = false) (hst : d.state = nums (List.ofFn b ++ joints))
    (hsh : d.stateSOUT = nums (List.ofFn b ++ joints)) (h0 : 0 < gain * dt) (h3 : gain * dt < 2)
    (hl : gain ^ 2 * len (rotPart (opError fr o ref b)) ^ 2 ≤ maxSq) (k : Nat) :
    ∃ s b', steps (p6SelLoop svd (6 + joints.length) th maxSq fr sel o ref gain selec dt) k
          (start (p6SelLoop svd (6 + joints.length) th maxSq fr sel o ref gain selec dt) d) = .ok s ∧
        s.dev.state = nums (List.ofFn b' ++ joints) ∧ s.reports = List.replicate k [] ∧
      (poseRpyToHomo b').t = (poseRpyToHomo b).t ∧ rotPart (opError fr o ref b') = (1 - gain * dt) ^ k • rotPart (opError fr o ref b) := by
  have hg : ∀ b, rotPart (opError fr o ref b) = rotE fr o.transformation (goalOf ref) (poseRpyToHomo b) := fun b =>
    congrArg rotPart (error_goal _ _ _)
  have hc : |1 - gain * dt| < 1 := abs_lt.mpr ⟨by linarith, by linarith⟩
  suffices hk : ∃ s b', steps (p6SelLoop svd (6 + joints.length) th maxSq fr sel o ref gain selec dt) k
          (start (p6SelLoop svd (6 + joints.length) th maxSq fr sel o ref gain selec dt) d) = .ok s ∧
        SInv [(p6Rows fr [3, 4, 5] o.transformation (goalOf ref)).task (6 + joints.length) gain selec] d s (List.ofFn b' ++ joints) ∧
        s.reports = List.replicate k [] ∧
      (poseRpyToHomo b').t = (poseRpyToHomo b).t ∧ rotPart (opError fr o ref b') = (1 - gain * dt) ^ k • rotPart (opError fr o ref b) by
    obtain ⟨s, b', a1, a2, a3, a4, a5⟩ := hk
    exact ⟨s, b', a1, a2.state, a3, a4, a5⟩
  induction k with
  | zero => exact ⟨_, b, rfl, PartFeat.start hst hsh _ rfl, rfl, rfl, by rw [pow_zero, one_smul]⟩
  | succ k ih =>
    obtain ⟨s, b1, a1, a2, a3, a4, a5⟩ := ih
    have hle : len (rotPart (opError fr o ref b1)) ≤ len (rotPart (opError fr o ref b)) := by
      rw [a5, len_smul, abs_pow]
      exact mul_le_of_le_one_left (len_nonneg _) (pow_le_one₀ (abs_nonneg _) hc.le)
    have hl1 : gain ^ 2 * len (rotE fr o.transformation (goalOf ref) (poseRpyToHomo b1)) ^ 2 ≤ maxSq := by
      refine le_trans ?_ hl
      rw [← hg]
      exact mul_le_mul_of_nonneg_left (pow_le_pow_left₀ (len_nonneg _) hle 2) (sq_nonneg gain)
    have hang : len (rotPart (opError fr o ref b1)) ≤ Real.pi := opError_angle hB hd b1
    have hstep : ∃ s' b', step (p6SelLoop svd (6 + joints.length) th maxSq fr sel o ref gain selec dt) s = .ok s' ∧
        SInv [(p6Rows fr [3, 4, 5] o.transformation (goalOf ref)).task (6 + joints.length) gain selec] d s' (List.ofFn b' ++ joints) ∧
        s'.reports = s.reports ++ [[]] ∧ poseRpyToHomo b' = (poseRpyToHomo b1).mul
          ⟨exp3 ((gain * dt * sense fr) • (o.transformation.R *ᵥ rotE fr o.transformation (goalOf ref) (poseRpyToHomo b1))), 0⟩ := by
      rw [p6SelLoop_eq svd (by omega) th maxSq fr sel ho]
      unfold p6Part
      rw [picked_orientation h1 h2]
      obtain ⟨s', b', e1, e2, e3, e4⟩ := PartFeat.step svd (dt := dt) (maxSq := maxSq) rfl hsel hth hm hs0 a2
        (rotReady hB hd (pose_isRot b1) ht1 hl1)
      refine ⟨s', b', e1, e2, e3, ?_⟩
      have hp : dt • pair (Sum.elim 0 ((gain * sense fr) • (o.transformation.R *ᵥ rotE fr o.transformation (goalOf ref) (poseRpyToHomo b1)))) =
          ((0 : Fin 3 → ℝ), (gain * dt * sense fr) • (o.transformation.R *ᵥ rotE fr o.transformation (goalOf ref) (poseRpyToHomo b1))) := by
        show (dt • (0 : Fin 3 → ℝ), dt • ((gain * sense fr) • _)) = _
        rw [smul_zero, smul_smul]
        congr 2
        ring
      rw [e4, hp, exp6_turn]
    obtain ⟨s', b', e1, e2, e3, e4⟩ := hstep
    refine ⟨s', b', ?_, e2, by rw [e3, a3, ← List.replicate_succ'], ?_, ?_⟩
    · show (steps _ k _).bind _ = _
      rw [a1]; exact e1
    · rw [← a4, e4]
      show (poseRpyToHomo b1).R *ᵥ 0 + (poseRpyToHomo b1).t = _
      rw [mulVec_zero, zero_add]
    · have hmv := rot_moved (fr := fr) hB hd (pose_isRot b1) (gain * dt)
      rw [← e4] at hmv
      have hone : rotPart (opError fr o ref b') = (1 - gain * dt) • rotPart (opError fr o ref b1) := by
        rw [hg b', hg b1]
        show rotVec (relative fr ((poseRpyToHomo b').mul o.transformation) (some (goalOf ref))).R = _
        rw [hmv, rotVec_exp3]
        rw [len_smul, ← hg]
        have hpi := Real.pi_pos
        nlinarith [abs_nonneg (1 - gain * dt), len_nonneg (rotPart (opError fr o ref b1))]
      rw [hone, a5, smul_smul, pow_succ, mul_comm]

end

/-! ### Some axes of the position only -/

/-- The components that are selected, the others being null. -/
def onlySel (sel : Nat → Bool) (y : Fin 3 → ℝ) : Fin 3 → ℝ := fun a => if sel a then y a else 0

theorem picked_lt {sel : Nat → Bool} (h2 : ∀ i, 3 ≤ i → i < 6 → sel i = false) {r : Nat} (hr : r ∈ picked sel 6) : r < 3 ∧ sel r = true := by
  simp only [picked, List.mem_filter, List.mem_range] at hr
  refine ⟨?_, hr.2⟩
  by_contra hc
  rw [h2 r (by omega) hr.1] at hr
  simp at hr

theorem sum_picked {sel : Nat → Bool} (h2 : ∀ i, 3 ≤ i → i < 6 → sel i = false) (f : Nat → ℝ) :
    (∑ i : Fin (picked sel 6).length, f (picked sel 6)[i]) = ∑ a : Fin 3, if sel a then f a else 0 := by
  have h : (∑ i : Fin (picked sel 6).length, f (picked sel 6)[i]) = ((picked sel 6).map f).sum := by
    simp
  rw [h, Fin.sum_univ_three]
  have h3 := h2 3 (by omega) (by omega)
  have h4 := h2 4 (by omega) (by omega)
  have h5 := h2 5 (by omega) (by omega)
  rcases e0 : sel 0 <;> rcases e1 : sel 1 <;> rcases e2 : sel 2 <;>
    simp [picked, List.range_succ, List.filter_cons, h3, h4, h5, e0, e1, e2] <;> ring

theorem at6_trans {v : Fin 3 ⊕ Fin 3 → α} {r : Nat} (hr : r < 3) : at6 v r = v (.inl ⟨r, hr⟩) := by
  match r, hr with
  | 0, _ => rfl
  | 1, _ => rfl
  | 2, _ => rfl

section
variable {th maxSq gain dt : ℝ} {B Md M : Pose ℝ} {sel : Nat → Bool}

/-- The way to the reference, in its axes. -/
noncomputable def coordsTo (B Md M : Pose ℝ) : Fin 3 → ℝ := Md.R⁻¹ *ᵥ (Md.t - (M.mul B).t)

theorem axes_way (hM : IsRot M.R) : (Md.R⁻¹ * M.R) *ᵥ wayTo B Md M = coordsTo B Md M := by
  rw [wayTo, mulVec_mulVec, Matrix.mul_assoc, hM.mul_transpose, Matrix.mul_one]
  rfl

/-- The selected rows. -/
noncomputable def axE (sel : Nat → Bool) (B Md M : Pose ℝ) : Fin (picked sel 6).length → ℝ := fun i =>
  at6 (errorFull .desired (M.mul B) (some Md)) (picked sel 6)[i]

/-- Their derivatives. -/
noncomputable def axJ (sel : Nat → Bool) (B Md M : Pose ℝ) : Matrix (Fin (picked sel 6).length) (Fin 3 ⊕ Fin 3) ℝ :=
  Matrix.of fun i => at6 (jacobianFull .desired (M.mul B) (some Md) (twist B.inv)) (picked sel 6)[i]

theorem axRows : p6Part .desired sel B Md = ⟨(picked sel 6).length, axE sel B Md, axJ sel B Md⟩ := rfl

theorem axesK (h2 : ∀ i, 3 ≤ i → i < 6 → sel i = false) (hB : IsRot B.R) (h0 : B.t = 0) (hd : IsRot Md.R) (hM : IsRot M.R)
    (v : Fin 3 ⊕ Fin 3 → ℝ) (i : Fin (picked sel 6).length) :
    (axJ sel B Md M *ᵥ v) i = ((Md.R⁻¹ * M.R) *ᵥ transPart v) ⟨(picked sel 6)[i], (picked_lt h2 (List.getElem_mem _)).1⟩ := by
  have hr : (picked sel 6)[i] < 3 := (picked_lt h2 (List.getElem_mem (h := i.2))).1
  have h := congrFun (posK_lever (fr := .desired) hB hd hM v) ⟨(picked sel 6)[i], hr⟩
  have hh : handle .desired B Md M = 0 := h0
  rw [hh, skew_zero, Matrix.zero_mulVec, sub_zero] at h
  rw [show (Md.R⁻¹ * M.R) = axesOf .desired B Md M from rfl, ← h]
  exact congrArg (· ⬝ᵥ v) (at6_trans (v := fun r => jacobianFull .desired (M.mul B) (some Md) (twist B.inv) r) hr)

theorem axesE (h2 : ∀ i, 3 ≤ i → i < 6 → sel i = false) (hB : IsRot B.R) (hd : IsRot Md.R) (hM : IsRot M.R)
    (i : Fin (picked sel 6).length) :
    axE sel B Md M i = -coordsTo B Md M ⟨(picked sel 6)[i], (picked_lt h2 (List.getElem_mem _)).1⟩ := by
  have hr : (picked sel 6)[i] < 3 := (picked_lt h2 (List.getElem_mem (h := i.2))).1
  have h := congrFun (posE_lever (fr := .desired) hB hd hM) ⟨(picked sel 6)[i], hr⟩
  rw [show axesOf .desired B Md M = Md.R⁻¹ * M.R from rfl, axes_way hM] at h
  show at6 (errorFull .desired (M.mul B) (some Md)) (picked sel 6)[i] = _
  rw [at6_trans hr]
  exact h

theorem axesReady (h2 : ∀ i, 3 ≤ i → i < 6 → sel i = false) (hB : IsRot B.R) (h0 : B.t = 0) (hd : IsRot Md.R) (hM : IsRot M.R) (ht : th < 1)
    (hl : gain ^ 2 * len (wayTo B Md M) ^ 2 ≤ maxSq) :
    (p6Part .desired sel B Md).Ready th maxSq gain M (Sum.elim (gain • ((Md.R⁻¹ * M.R)ᵀ *ᵥ onlySel sel (coordsTo B Md M))) 0) := by
  rw [axRows]
  have hQ : IsRot (Md.R⁻¹ * M.R) := hd.inv.mul hM
  have htr : ∀ a b : Fin 3 → ℝ, transPart (Sum.elim a b) = a := fun a b => rfl
  have hQl : ∀ y, (Md.R⁻¹ * M.R) *ᵥ ((Md.R⁻¹ * M.R)ᵀ *ᵥ y) = y := fun y => by rw [mulVec_mulVec, hQ.mul_transpose, one_mulVec]
  -- the sum over the selected rows
  have hsum : ∀ y x : Fin 3 → ℝ, (∑ i : Fin (picked sel 6).length, y ⟨(picked sel 6)[i], (picked_lt h2 (List.getElem_mem _)).1⟩ *
      x ⟨(picked sel 6)[i], (picked_lt h2 (List.getElem_mem _)).1⟩) = onlySel sel y ⬝ᵥ x := by
    intro y x
    have h := sum_picked h2 (fun r => if hr : r < 3 then y ⟨r, hr⟩ * x ⟨r, hr⟩ else 0)
    beta_reduce at h
    have e1 : ∀ i : Fin (picked sel 6).length, (if hr : (picked sel 6)[i] < 3 then y ⟨(picked sel 6)[i], hr⟩ * x ⟨(picked sel 6)[i], hr⟩ else 0) =
        y ⟨(picked sel 6)[i], (picked_lt h2 (List.getElem_mem _)).1⟩ * x ⟨(picked sel 6)[i], (picked_lt h2 (List.getElem_mem _)).1⟩ := fun i =>
      dif_pos (picked_lt h2 (List.getElem_mem _)).1
    simp only [e1] at h
    rw [h, dotProduct]
    refine Finset.sum_congr rfl fun a _ => ?_
    rw [dif_pos a.2, onlySel]
    split_ifs
    · rfl
    · rw [zero_mul]
  refine ⟨?_, ⟨fun i => gain * coordsTo B Md M ⟨(picked sel 6)[i], (picked_lt h2 (List.getElem_mem _)).1⟩, ?_⟩, ⟨1, ht, fun y => ?_⟩, ?_⟩
  · show axJ sel B Md M *ᵥ _ = -gain • axE sel B Md M
    funext i
    rw [axesK h2 hB h0 hd hM, htr, mulVec_smul, hQl]
    show gain * onlySel sel (coordsTo B Md M) _ = -gain * axE sel B Md M i
    rw [axesE h2 hB hd hM, onlySel]
    beta_reduce
    rw [if_pos (show sel (picked sel 6)[i] = true from (picked_lt h2 (List.getElem_mem _)).2)]
    ring
  · apply dotProduct_eq
    intro x
    have e0 : (axJ sel B Md M)ᵀ *ᵥ (fun i : Fin (picked sel 6).length => gain * coordsTo B Md M ⟨(picked sel 6)[i], (picked_lt h2 (List.getElem_mem _)).1⟩) ⬝ᵥ x =
        (fun i : Fin (picked sel 6).length => gain * coordsTo B Md M ⟨(picked sel 6)[i], (picked_lt h2 (List.getElem_mem _)).1⟩) ⬝ᵥ axJ sel B Md M *ᵥ x := by
      rw [mulVec_transpose, ← dotProduct_mulVec]
    refine Eq.trans ?_ e0.symm
    rw [sum_dot, htr]
    show _ + (0 : Fin 3 → ℝ) ⬝ᵥ _ = ∑ i : Fin (picked sel 6).length, _ * (axJ sel B Md M *ᵥ x) i
    rw [zero_dotProduct, add_zero, smul_dotProduct]
    have e : ∀ i : Fin (picked sel 6).length, gain * coordsTo B Md M ⟨(picked sel 6)[i], (picked_lt h2 (List.getElem_mem _)).1⟩ * (axJ sel B Md M *ᵥ x) i =
        gain * (coordsTo B Md M ⟨(picked sel 6)[i], (picked_lt h2 (List.getElem_mem _)).1⟩ *
          ((Md.R⁻¹ * M.R) *ᵥ transPart x) ⟨(picked sel 6)[i], (picked_lt h2 (List.getElem_mem _)).1⟩) := fun i => by
      rw [axesK h2 hB h0 hd hM, mul_assoc]
    refine Eq.trans ?_ (Finset.sum_congr rfl fun i _ => (e i).symm)
    rw [← Finset.mul_sum, hsum, smul_eq_mul, mulVec_transpose, ← dotProduct_mulVec]
  · -- the value asked of each axis
    have hex : ∃ x : Fin 3 → ℝ, (∀ i : Fin (picked sel 6).length, x ⟨(picked sel 6)[i], (picked_lt h2 (List.getElem_mem _)).1⟩ = y i) ∧
        x ⬝ᵥ x ≤ y ⬝ᵥ y := by
      have hnd : (picked sel 6).Nodup := List.Nodup.filter _ List.nodup_range
      refine ⟨fun a => ∑ i : Fin (picked sel 6).length, if (picked sel 6)[i] = a.val then y i else 0, fun i => ?_, ?_⟩
      · beta_reduce
        rw [Finset.sum_eq_single i]
        · rw [if_pos rfl]
        · intro j _ hj
          rw [if_neg]
          intro he
          exact hj (Fin.ext ((List.Nodup.getElem_inj_iff hnd).mp he))
        · intro h; exact absurd (Finset.mem_univ _) h
      · set x : Fin 3 → ℝ := fun a => ∑ i : Fin (picked sel 6).length, if (picked sel 6)[i] = a.val then y i else 0 with hx
        have hxi : ∀ i : Fin (picked sel 6).length, x ⟨(picked sel 6)[i], (picked_lt h2 (List.getElem_mem _)).1⟩ = y i := by
          intro i
          rw [hx]
          beta_reduce
          rw [Finset.sum_eq_single i]
          · rw [if_pos rfl]
          · intro j _ hj
            rw [if_neg]
            intro he
            exact hj (Fin.ext ((List.Nodup.getElem_inj_iff hnd).mp he))
          · intro h; exact absurd (Finset.mem_univ _) h
        have hon : onlySel sel x = x := by
          funext a
          rw [onlySel]
          split_ifs with hs
          · rfl
          · rw [hx]
            beta_reduce
            refine (Finset.sum_eq_zero fun i _ => if_neg fun he => hs ?_).symm
            rw [← he]
            exact (picked_lt h2 (List.getElem_mem _)).2
        have h := hsum x x
        rw [hon] at h
        rw [← h]
        exact le_of_eq (Finset.sum_congr rfl fun i _ => by rw [hxi])
    obtain ⟨x, x1, x2⟩ := hex
    refine ⟨Sum.elim ((Md.R⁻¹ * M.R)ᵀ *ᵥ x) 0, ?_, ?_⟩
    · show axJ sel B Md M *ᵥ _ = y
      funext i
      rw [axesK h2 hB h0 hd hM, htr, hQl]
      exact x1 i
    · rw [one_pow, one_mul, sum_dot]
      show (Md.R⁻¹ * M.R)ᵀ *ᵥ x ⬝ᵥ (Md.R⁻¹ * M.R)ᵀ *ᵥ x + (0 : Fin 3 → ℝ) ⬝ᵥ 0 ≤ _
      rw [orth_dot (by rw [transpose_transpose, hQ.mul_transpose]), zero_dotProduct, add_zero]
      exact x2
  · rw [sum_dot]
    show (gain • _) ⬝ᵥ (gain • _) + (0 : Fin 3 → ℝ) ⬝ᵥ 0 ≤ _
    rw [zero_dotProduct, add_zero, ← len_sq, len_smul, len_rot hQ.transpose, mul_pow, sq_abs]
    refine le_trans (mul_le_mul_of_nonneg_left ?_ (sq_nonneg gain)) hl
    have hw : len (coordsTo B Md M) = len (wayTo B Md M) := by rw [← axes_way hM, len_rot hQ]
    rw [← hw, len_sq, len_sq, dotProduct, dotProduct]
    refine Finset.sum_le_sum fun a _ => ?_
    rw [onlySel]
    split_ifs
    · exact le_rfl
    · rw [mul_zero]; exact mul_self_nonneg _

end

section
variable (svd : ∀ {m c : ℕ} (A : Matrix (Fin m) (Fin c) ℝ), Svd A) {th maxSq : ℝ} {sel : Nat → Bool} {o : OpPoint ℝ}
  {ref : Option (Pose ℝ)} {gain : ℝ} {selec : Flags.Flags} {dt : ℝ} {joints : List ℝ} (ho : o.isEndEffector = true)
  (hB : IsRot o.transformation.R) (hd : IsRot (goalOf ref).R) (hsel : ∀ j : Nat, j < 6 → Flags.call selec (j : Int) = .ok true) (hth : 0 ≤ th)
  (ht1 : th < 1)

include ho hB hd hsel hth ht1

/-- **C151, axes.** With any of the axes of the position selected and no axis of the orientation, in the frame of the reference, and with the
operational point at the origin of the base: no step fails or is reported, the joints do not move and the base does not turn; along the axes of
the reference, the selected coordinates of the way are multiplied by `1 - gain dt` at each period and the others do not change. -/
theorem C151_axes (h2 : ∀ i, 3 ≤ i → i < 6 → sel i = false) (hat : o.transformation.t = 0) {d : Dev ℝ} {b : Fin 6 → ℝ}
    (hm : d.mode = .oneInteg) (hs0 : d.sanity = false) (hst : d.state = nums (List.ofFn b ++ joints))
    (hsh : d.stateSOUT = nums (List.ofFn b ++ joints)) (h0 : 0 ≤ gain * dt) (h3 : gain * dt ≤ 2)
    (hl : gain ^ 2 * distTo o ref b ^ 2 ≤ maxSq) (k : Nat) :
    ∃ s b', steps (p6SelLoop svd (6 + joints.length) th maxSq .desired sel o ref gain selec dt) k
          (start (p6SelLoop svd (6 + joints.length) th maxSq .desired sel o ref gain selec dt) d) = .ok s ∧
        s.dev.state = nums (List.ofFn b' ++ joints) ∧ s.reports = List.replicate k [] ∧
      (poseRpyToHomo b').R = (poseRpyToHomo b).R ∧
      ∀ a : Fin 3, ((goalOf ref).Rᵀ *ᵥ ((goalOf ref).t - (opPose o b').t)) a =
        (if sel a then (1 - gain * dt) ^ k else 1) * ((goalOf ref).Rᵀ *ᵥ ((goalOf ref).t - (opPose o b).t)) a := by
  have hco : ∀ b, (goalOf ref).Rᵀ *ᵥ ((goalOf ref).t - (opPose o b).t) = coordsTo o.transformation (goalOf ref) (poseRpyToHomo b) := fun b => by
    rw [← hd.inv_eq]; rfl
  have hlen : ∀ b, len (coordsTo o.transformation (goalOf ref) (poseRpyToHomo b)) = distTo o ref b := fun b => len_rot hd.inv _
  simp only [hco]
  have hc : |1 - gain * dt| ≤ 1 := abs_le.mpr ⟨by linarith, by linarith⟩
  suffices hk : ∃ s b', steps (p6SelLoop svd (6 + joints.length) th maxSq .desired sel o ref gain selec dt) k
          (start (p6SelLoop svd (6 + joints.length) th maxSq .desired sel o ref gain selec dt) d) = .ok s ∧
        SInv [(p6Part .desired sel o.transformation (goalOf ref)).task (6 + joints.length) gain selec] d s (List.ofFn b' ++ joints) ∧
        s.reports = List.replicate k [] ∧ (poseRpyToHomo b').R = (poseRpyToHomo b).R ∧
      ∀ a : Fin 3, coordsTo o.transformation (goalOf ref) (poseRpyToHomo b') a =
        (if sel a then (1 - gain * dt) ^ k else 1) * coordsTo o.transformation (goalOf ref) (poseRpyToHomo b) a by
    obtain ⟨s, b', a1, a2, a3, a4, a5⟩ := hk
    exact ⟨s, b', a1, a2.state, a3, a4, a5⟩
  induction k with
  | zero => exact ⟨_, b, rfl, PartFeat.start hst hsh _ rfl, rfl, rfl, fun a => by split_ifs <;> simp⟩
  | succ k ih =>
    obtain ⟨s, b1, a1, a2, a3, a4, a5⟩ := ih
    have hle : distTo o ref b1 ≤ distTo o ref b := by
      rw [← hlen, ← hlen]
      apply le_of_sq_le_sq _ (len_nonneg _)
      rw [len_sq, len_sq, dotProduct, dotProduct]
      refine Finset.sum_le_sum fun a _ => ?_
      rw [a5 a]
      have hf : |if sel a then (1 - gain * dt) ^ k else 1| ≤ 1 := by
        split_ifs
        · rw [abs_pow]; exact pow_le_one₀ (abs_nonneg _) hc
        · rw [abs_one]
      have hf2 := (sq_le_one_iff_abs_le_one _).mpr hf
      nlinarith [mul_self_nonneg (coordsTo o.transformation (goalOf ref) (poseRpyToHomo b) a)]
    have hl1 : gain ^ 2 * len (wayTo o.transformation (goalOf ref) (poseRpyToHomo b1)) ^ 2 ≤ maxSq := by
      rw [distTo_way]
      refine le_trans ?_ hl
      have hpos : 0 ≤ distTo o ref b1 := len_nonneg _
      gcongr
    have hstep : ∃ s' b', step (p6SelLoop svd (6 + joints.length) th maxSq .desired sel o ref gain selec dt) s = .ok s' ∧
        SInv [(p6Part .desired sel o.transformation (goalOf ref)).task (6 + joints.length) gain selec] d s' (List.ofFn b' ++ joints) ∧
        s'.reports = s.reports ++ [[]] ∧ poseRpyToHomo b' = (poseRpyToHomo b1).mul ⟨1, (gain * dt) • (((goalOf ref).R⁻¹ * (poseRpyToHomo b1).R)ᵀ *ᵥ
          onlySel sel (coordsTo o.transformation (goalOf ref) (poseRpyToHomo b1)))⟩ := by
      rw [p6SelLoop_eq svd (by omega) th maxSq .desired sel ho]
      obtain ⟨s', b', e1, e2, e3, e4⟩ := PartFeat.step svd (dt := dt) (maxSq := maxSq) rfl hsel hth hm hs0 a2
        (axesReady h2 hB hat hd (pose_isRot b1) ht1 hl1)
      refine ⟨s', b', e1, e2, e3, ?_⟩
      have hp : dt • pair (Sum.elim (gain • (((goalOf ref).R⁻¹ * (poseRpyToHomo b1).R)ᵀ *ᵥ onlySel sel (coordsTo o.transformation (goalOf ref) (poseRpyToHomo b1)))) 0) =
          ((gain * dt) • (((goalOf ref).R⁻¹ * (poseRpyToHomo b1).R)ᵀ *ᵥ onlySel sel (coordsTo o.transformation (goalOf ref) (poseRpyToHomo b1))), (0 : Fin 3 → ℝ)) := by
        show (dt • (gain • _), dt • (0 : Fin 3 → ℝ)) = _
        rw [smul_zero, smul_smul, mul_comm dt gain]
      have he : ∀ u : Fin 3 → ℝ, exp6 (u, (0 : Fin 3 → ℝ)) = ⟨1, u⟩ := fun u => by
        unfold exp6
        simp only [exp3_zero, leftJac_zero, one_mulVec]
      rw [e4, hp, he]
    obtain ⟨s', b', e1, e2, e3, e4⟩ := hstep
    have hR : (poseRpyToHomo b').R = (poseRpyToHomo b1).R := by
      rw [e4]; exact Matrix.mul_one _
    refine ⟨s', b', ?_, e2, by rw [e3, a3, ← List.replicate_succ'], hR.trans a4, fun a => ?_⟩
    · show (steps _ k _).bind _ = _
      rw [a1]; exact e1
    · have hF : ∀ M : Pose ℝ, (M.mul o.transformation).t = M.t := fun M => by
        show M.R *ᵥ o.transformation.t + M.t = _
        rw [hat, mulVec_zero, zero_add]
      have ht : (poseRpyToHomo b').t = (gain * dt) • ((goalOf ref).R *ᵥ onlySel sel (coordsTo o.transformation (goalOf ref) (poseRpyToHomo b1))) +
          (poseRpyToHomo b1).t := by
        rw [e4]
        show (poseRpyToHomo b1).R *ᵥ _ + _ = _
        rw [mulVec_smul, mulVec_mulVec, transpose_mul, ← Matrix.mul_assoc, (pose_isRot b1).mul_transpose, Matrix.one_mul, hd.inv_eq,
          transpose_transpose]
      have hnew : coordsTo o.transformation (goalOf ref) (poseRpyToHomo b') = coordsTo o.transformation (goalOf ref) (poseRpyToHomo b1) -
          (gain * dt) • onlySel sel (coordsTo o.transformation (goalOf ref) (poseRpyToHomo b1)) := by
        have hi : ∀ x, (goalOf ref).R⁻¹ *ᵥ ((goalOf ref).R *ᵥ x) = x := fun x => by rw [mulVec_mulVec, hd.inv_eq, hd.1, one_mulVec]
        set m := onlySel sel (coordsTo o.transformation (goalOf ref) (poseRpyToHomo b1)) with hmd
        rw [coordsTo, coordsTo, hF, hF, ht]
        simp only [mulVec_sub, mulVec_add, mulVec_smul, hi]
        abel
      rw [hnew, Pi.sub_apply, Pi.smul_apply, smul_eq_mul, onlySel, a5 a]
      split_ifs
      · rw [pow_succ]; ring
      · ring

end

/-! ### Cases -/

/-- The base at the origin. -/
theorem origin_case : ∃ b : Fin 6 → ℝ, poseRpyToHomo b = ⟨1, 0⟩ :=
  ⟨homoToPoseRpy (⟨1, 0⟩ : Pose ℝ), C81_pose_rpy _ isRot_one⟩

/-- An operational point one meter to the left of the base. -/
noncomputable def aside : OpPoint ℝ := ⟨⟨1, ![0, 1, 0]⟩, true⟩

/-- **C151, case of the position.** A base at the origin, an operational point one meter to its left and a reference one meter in front of that
point, with two joints, the threshold `1e-4`, the gain 5 and the period of a tenth of a second, in both frames: the base comes to rest with
the point on its reference, and it has turned at the first step. -/
theorem C151_case (svd : ∀ {m c : ℕ} (A : Matrix (Fin m) (Fin c) ℝ), Svd A) (fr : Frame) :
    ∃ (b : Fin 6 → ℝ) (d : Dev ℝ) (base : Nat → Fin 6 → ℝ) (rest : Pose ℝ), poseRpyToHomo b = ⟨1, 0⟩ ∧
      d.state = nums (List.ofFn b ++ [5, 7]) ∧ IsRot rest.R ∧ rest.R *ᵥ ![0, 1, 0] + rest.t = ![1, 1, 0] ∧
      (∀ k, ∃ s, steps (p6SelLoop svd 8 (1 / 10000) 10000 fr (fun i => decide (i < 3)) aside (some ⟨1, ![1, 1, 0]⟩) 5 (Flags.ofBool true) (1 / 10)) k
          (start (p6SelLoop svd 8 (1 / 10000) 10000 fr (fun i => decide (i < 3)) aside (some ⟨1, ![1, 1, 0]⟩) 5 (Flags.ofBool true) (1 / 10)) d) =
            .ok s ∧
        s.dev.state = nums (List.ofFn (base k) ++ [5, 7])) ∧
      (∀ i j, Tendsto (fun k => (poseRpyToHomo (base k)).R i j) atTop (𝓝 (rest.R i j))) ∧
      (∀ i, Tendsto (fun k => (poseRpyToHomo (base k)).t i) atTop (𝓝 (rest.t i))) ∧
      ∃ s b', steps (p6SelLoop svd 8 (1 / 10000) 10000 fr (fun i => decide (i < 3)) aside (some ⟨1, ![1, 1, 0]⟩) 5 (Flags.ofBool true) (1 / 10)) 1
          (start (p6SelLoop svd 8 (1 / 10000) 10000 fr (fun i => decide (i < 3)) aside (some ⟨1, ![1, 1, 0]⟩) 5 (Flags.ofBool true) (1 / 10)) d) =
            .ok s ∧
        s.dev.state = nums (List.ofFn b' ++ [5, 7]) ∧ (poseRpyToHomo b').R ≠ 1 := by
  obtain ⟨b, hb⟩ := origin_case
  have hop : (opPose aside b).t = ![0, 1, 0] := by
    rw [opPose, hb]
    show (1 : Matrix (Fin 3) (Fin 3) ℝ) *ᵥ ![0, 1, 0] + 0 = _
    rw [one_mulVec, add_zero]
  have hw : (goalOf (some (⟨1, ![1, 1, 0]⟩ : Pose ℝ))).t - (opPose aside b).t = ![1, 0, 0] := by
    rw [hop]
    show (![1, 1, 0] : Fin 3 → ℝ) - ![0, 1, 0] = _
    ext i; fin_cases i <;> simp
  have hD : distTo aside (some ⟨1, ![1, 1, 0]⟩) b = 1 := by
    rw [distTo, hw, len]
    simp [dotProduct, Fin.sum_univ_three]
  let d : Dev ℝ := { init with sanity := false, state := nums (List.ofFn b ++ [5, 7]), stateSOUT := nums (List.ofFn b ++ [5, 7]) }
  obtain ⟨base, rest, g1, g2, g3, g4, g5⟩ := C151_rest svd (th := 1 / 10000) (maxSq := 10000) (fr := fr) (sel := fun i => decide (i < 3)) (o := aside)
    (ref := some ⟨1, ![1, 1, 0]⟩) (gain := 5) (dt := 1 / 10) (joints := [5, 7]) (selec := Flags.ofBool true) rfl isRot_one isRot_one
    (fun j _ => by simp [Flags.call, Flags.ofBool]) (by norm_num) (by norm_num) (fun i h => by simp [h]) (fun i h _ => by simp [h]) (d := d) (b := b)
    rfl rfl rfl rfl (by norm_num) (by rw [hD]; norm_num) (by rw [hD, posRate]; norm_num) (by rw [hD]; norm_num)
  obtain ⟨s, b', t1, t2, t3⟩ := C151_turns svd (th := 1 / 10000) (maxSq := 10000) (fr := fr) (sel := fun i => decide (i < 3)) (o := aside)
    (ref := some ⟨1, ![1, 1, 0]⟩) (gain := 5) (dt := 1 / 10) (joints := [5, 7]) (selec := Flags.ofBool true) rfl isRot_one isRot_one
    (fun j _ => by simp [Flags.call, Flags.ofBool]) (by norm_num) (by norm_num) (fun i h => by simp [h]) (fun i h _ => by simp [h]) (d := d) (b := b)
    rfl rfl rfl rfl (by norm_num) (by rw [hD]; norm_num) (by rw [hD]; norm_num) (by
      rw [hw, hb]
      show ((1 : Matrix (Fin 3) (Fin 3) ℝ) *ᵥ ![0, 1, 0]) ⨯₃ ![1, 0, 0] ≠ 0
      rw [one_mulVec]
      intro h
      have := congrFun h 2
      simp [cross_apply] at this)
  exact ⟨b, d, base, rest, hb, rfl, g1, g2, g3, g4, g5, s, b', t1, t2, by rw [hb] at t3; exact t3⟩

/-- **C151, case of the axes.** The axes x and z of the position selected, the base at the origin and the reference at `(1, 2, 3)`: after `k` periods
the base has not turned, and what remains to go is `2^-k`, 2 and `3 2^-k`. -/
theorem C151_axes_case (svd : ∀ {m c : ℕ} (A : Matrix (Fin m) (Fin c) ℝ), Svd A) (k : Nat) :
    ∃ (b : Fin 6 → ℝ) (d : Dev ℝ) (s : St) (b' : Fin 6 → ℝ), poseRpyToHomo b = ⟨1, 0⟩ ∧ d.state = nums (List.ofFn b ++ [5, 7]) ∧
      steps (p6SelLoop svd 8 (1 / 10000) 10000 .desired (fun i => i == 0 || i == 2) plain (some ⟨1, ![1, 2, 3]⟩) 5 (Flags.ofBool true) (1 / 10)) k
          (start (p6SelLoop svd 8 (1 / 10000) 10000 .desired (fun i => i == 0 || i == 2) plain (some ⟨1, ![1, 2, 3]⟩) 5 (Flags.ofBool true) (1 / 10)) d) =
            .ok s ∧
        s.dev.state = nums (List.ofFn b' ++ [5, 7]) ∧ (poseRpyToHomo b').R = 1 ∧
      ![1, 2, 3] - (poseRpyToHomo b').t = ![(1 / 2) ^ k, 2, 3 * (1 / 2) ^ k] := by
  obtain ⟨b, hb⟩ := origin_case
  have hop : ∀ b, (opPose plain b).t = (poseRpyToHomo b).t := fun b => by
    show (poseRpyToHomo b).R *ᵥ 0 + _ = _
    rw [mulVec_zero, zero_add]
  have hw : (goalOf (some (⟨1, ![1, 2, 3]⟩ : Pose ℝ))).t - (opPose plain b).t = ![1, 2, 3] := by
    rw [hop, hb]
    exact sub_zero _
  have hD : distTo plain (some ⟨1, ![1, 2, 3]⟩) b ^ 2 = 14 := by
    rw [distTo, hw, len_sq]
    simp [dotProduct, Fin.sum_univ_three]; norm_num
  let d : Dev ℝ := { init with sanity := false, state := nums (List.ofFn b ++ [5, 7]), stateSOUT := nums (List.ofFn b ++ [5, 7]) }
  obtain ⟨s, b', a1, a2, -, a4, a5⟩ := C151_axes svd (th := 1 / 10000) (maxSq := 10000) (sel := fun i => i == 0 || i == 2) (o := plain)
    (ref := some ⟨1, ![1, 2, 3]⟩) (gain := 5) (dt := 1 / 10) (joints := [5, 7]) (selec := Flags.ofBool true) rfl isRot_one isRot_one
    (fun j _ => by simp [Flags.call, Flags.ofBool]) (by norm_num) (by norm_num) (fun i h _ => by simp; omega) rfl (d := d) (b := b)
    rfl rfl rfl rfl (by norm_num) (by norm_num) (by rw [hD]; norm_num) k
  refine ⟨b, d, s, b', hb, rfl, a1, a2, by rw [a4, hb], ?_⟩
  rw [hw] at a5
  have e : (goalOf (some (⟨1, ![1, 2, 3]⟩ : Pose ℝ))).Rᵀ *ᵥ ((goalOf (some (⟨1, ![1, 2, 3]⟩ : Pose ℝ))).t - (opPose plain b').t) =
      ![1, 2, 3] - (poseRpyToHomo b').t := by
    rw [hop]
    show (1 : Matrix (Fin 3) (Fin 3) ℝ)ᵀ *ᵥ _ = _
    rw [transpose_one, one_mulVec]
    rfl
  have e2 : (goalOf (some (⟨1, ![1, 2, 3]⟩ : Pose ℝ))).Rᵀ *ᵥ ![1, 2, 3] = ![1, 2, 3] := by
    show (1 : Matrix (Fin 3) (Fin 3) ℝ)ᵀ *ᵥ _ = _
    rw [transpose_one, one_mulVec]
  funext a
  have h := a5 a
  rw [e, e2] at h
  rw [h]
  have hc : (1 : ℝ) - 5 * (1 / 10) = 1 / 2 := by norm_num
  rw [hc]
  fin_cases a
  · simp
  · simp
  · simp; ring

/-- **C151, case of the orientation.** A base exactly half a turn away from its reference, in both frames: it does not leave `(1, 2, 3)`, and after
`k` periods the rotation error is the first one times `2^-k`. -/
theorem C151_orientation_case (svd : ∀ {m c : ℕ} (A : Matrix (Fin m) (Fin c) ℝ), Svd A) (fr : Frame) (k : Nat) :
    ∃ (b : Fin 6 → ℝ) (d : Dev ℝ) (s : St) (b' : Fin 6 → ℝ), poseRpyToHomo b = ⟨!![-1, 0, 0; 0, -1, 0; 0, 0, 1], ![1, 2, 3]⟩ ∧
      d.state = nums (List.ofFn b ++ [5, 7]) ∧
      steps (p6SelLoop svd 8 (1 / 10000) 10000 fr (fun i => decide (3 ≤ i)) plain (some ⟨1, 0⟩) 5 (Flags.ofBool true) (1 / 10)) k
          (start (p6SelLoop svd 8 (1 / 10000) 10000 fr (fun i => decide (3 ≤ i)) plain (some ⟨1, 0⟩) 5 (Flags.ofBool true) (1 / 10)) d) = .ok s ∧
        s.dev.state = nums (List.ofFn b' ++ [5, 7]) ∧ (poseRpyToHomo b').t = ![1, 2, 3] ∧
      rotPart (opError fr plain (some ⟨1, 0⟩) b') = (1 / 2 : ℝ) ^ k • rotPart (opError fr plain (some ⟨1, 0⟩) b) := by
  obtain ⟨b, hpose, hb⟩ := half_case
  obtain ⟨-, hang2⟩ := hb fr
  let d : Dev ℝ := { init with sanity := false, state := nums (List.ofFn b ++ [5, 7]), stateSOUT := nums (List.ofFn b ++ [5, 7]) }
  obtain ⟨s, b', a1, a2, -, a4, a5⟩ := C151_orientation svd (th := 1 / 10000) (maxSq := 10000) (fr := fr) (sel := fun i => decide (3 ≤ i)) (o := plain)
    (ref := some ⟨1, 0⟩) (gain := 5) (dt := 1 / 10) (joints := [5, 7]) (selec := Flags.ofBool true) rfl isRot_one isRot_one
    (fun j _ => by simp [Flags.call, Flags.ofBool]) (by norm_num) (by norm_num) (fun i h => by simp; omega) (fun i h _ => by simp; omega) (d := d) (b := b)
    rfl rfl rfl rfl (by norm_num) (by norm_num) (by nlinarith) k
  refine ⟨b, d, s, b', hpose, rfl, a1, a2, by rw [a4, hpose], ?_⟩
  rw [a5]
  norm_num

/-- **C151, case of a straight way.** The whole position selected, the operational point at the origin of the base, the base at the origin and the
reference at `(1, 2, 3)`, in both frames: after `k` periods the base has not turned, and `2^-k` of the way remains. -/
theorem C151_straight_case (svd : ∀ {m c : ℕ} (A : Matrix (Fin m) (Fin c) ℝ), Svd A) (fr : Frame) (k : Nat) :
    ∃ (b : Fin 6 → ℝ) (d : Dev ℝ) (s : St) (b' : Fin 6 → ℝ), poseRpyToHomo b = ⟨1, 0⟩ ∧ d.state = nums (List.ofFn b ++ [5, 7]) ∧
      steps (p6SelLoop svd 8 (1 / 10000) 10000 fr (fun i => decide (i < 3)) plain (some ⟨1, ![1, 2, 3]⟩) 5 (Flags.ofBool true) (1 / 10)) k
          (start (p6SelLoop svd 8 (1 / 10000) 10000 fr (fun i => decide (i < 3)) plain (some ⟨1, ![1, 2, 3]⟩) 5 (Flags.ofBool true) (1 / 10)) d) =
            .ok s ∧
        s.dev.state = nums (List.ofFn b' ++ [5, 7]) ∧ (poseRpyToHomo b').R = 1 ∧
      ![1, 2, 3] - (poseRpyToHomo b').t = (1 / 2 : ℝ) ^ k • ![1, 2, 3] := by
  obtain ⟨b, hb⟩ := origin_case
  have hop : ∀ b, (opPose plain b).t = (poseRpyToHomo b).t := fun b => by
    show (poseRpyToHomo b).R *ᵥ 0 + _ = _
    rw [mulVec_zero, zero_add]
  have hw : (goalOf (some (⟨1, ![1, 2, 3]⟩ : Pose ℝ))).t - (opPose plain b).t = ![1, 2, 3] := by
    rw [hop, hb]
    exact sub_zero _
  have hD : distTo plain (some ⟨1, ![1, 2, 3]⟩) b ^ 2 = 14 := by
    rw [distTo, hw, len_sq]
    simp [dotProduct, Fin.sum_univ_three]; norm_num
  let d : Dev ℝ := { init with sanity := false, state := nums (List.ofFn b ++ [5, 7]), stateSOUT := nums (List.ofFn b ++ [5, 7]) }
  obtain ⟨s, b', a1, a2, -, a4, a5⟩ := C151_straight svd (th := 1 / 10000) (maxSq := 10000) (fr := fr) (sel := fun i => decide (i < 3)) (o := plain)
    (ref := some ⟨1, ![1, 2, 3]⟩) (gain := 5) (dt := 1 / 10) (joints := [5, 7]) (selec := Flags.ofBool true) rfl isRot_one isRot_one
    (fun j _ => by simp [Flags.call, Flags.ofBool]) (by norm_num) (by norm_num) (fun i h => by simp [h]) (fun i h _ => by simp [h]) (d := d) (b := b)
    rfl rfl rfl rfl (by norm_num) (by norm_num) (by
      show (_ *ᵥ (0 : Fin 3 → ℝ)) ⨯₃ _ = 0
      rw [mulVec_zero, map_zero]; rfl) (by rw [hD]; norm_num) k
  refine ⟨b, d, s, b', hb, rfl, a1, a2, by rw [a4, hb], ?_⟩
  rw [hw, hop] at a5
  refine a5.trans ?_
  norm_num

end Verif.Loop
