import Verif.Loop.BaseTask
import Verif.Se3.Turned

/-!
# C145: the base of the robot driven by a pose task, representation R3xSO3

As in C142, with the other representation of the error (include/sot/core/feature-pose.hxx): the difference of the positions and the vector of
the rotation. The control is computed as if the frame went straight to the desired position, but the device keeps the velocity in the frame of
the base during the period (src/tools/device.cpp:40-65), and the path turns with the base.
-/

namespace Verif.Loop

open Matrix Verif.Sot Verif.Device Verif.Geometry Verif.Point6d Verif.Se3 Verif.Spatial Verif.Features Filter Topology

/-- What the task reads from the pose feature (include/sot/core/feature-pose.hxx:148-203, 231-247), for the representation R3xSO3. -/
noncomputable def r3Feat (N : Nat) (oMja jaMfa jbMfb Mdes : Pose ℝ) : Feat where
  err q := poseComputeError (fun _ => true) oMja jaMfa (basePose q) jbMfb Mdes (List.replicate 6 0)
  jac q := (poseComputeJacobian (fun _ => true) oMja jaMfa (basePose q) jbMfb Mdes none (baseJac N) (List.replicate 6 0)).map fun rows =>
    ⟨6, N, fun i j => if h : j < N then (rows[i]?).map fun r => r ⟨j, h⟩ else none⟩

/-- A robot of `N` degrees of freedom driven by that task. -/
noncomputable def r3Loop (svd : ∀ {m c : ℕ} (A : Matrix (Fin m) (Fin c) ℝ), Svd A) (N : Nat) (th maxSq : ℝ) (oMja jaMfa jbMfb Mdes : Pose ℝ)
    (gain : ℝ) (selec : Flags.Flags) (dt : ℝ) : Params where
  svd := svd
  n := N
  th := th
  maxSq := maxSq
  ff := freeFlyer
  tasks := [⟨[r3Feat N oMja jaMfa jbMfb Mdes], gain, selec⟩]
  dt := dt

/-! ### The feature as a function of the joints -/

/-- The error and its derivative. -/
noncomputable def r3Base (oMja jaMfa jbMfb Mdes : Pose ℝ) : BaseFeat where
  E M := poseDifference Mdes (faMfb oMja jaMfa M jbMfb)
  K M := dDifference1 Mdes (faMfb oMja jaMfa M jbMfb) * applyTop (faRfb oMja jaMfa M jbMfb) (twist jbMfb.inv)

theorem r3Feat_eq {N : Nat} (hN : 6 ≤ N) (oMja jaMfa jbMfb Mdes : Pose ℝ) :
    r3Feat N oMja jaMfa jbMfb Mdes = ((r3Base oMja jaMfa jbMfb Mdes).map N).feat := by
  have he : ∀ q, (r3Feat N oMja jaMfa jbMfb Mdes).err q = ((r3Base oMja jaMfa jbMfb Mdes).map N).feat.err q := by
    intro q
    have h := (C97_selected (ι := Fin N) (fun _ => true) oMja jaMfa (basePose q) jbMfb Mdes none 0 0 (List.replicate 6 (0 : ℝ))
      (List.replicate 6 0) (by simp; rfl) (by simp; rfl)).1
    simp only [r3Feat, Map.feat]
    rw [h, picked_all]
    show _ = Outcome.ok (List.ofFn fun i : Fin 6 => at6 _ i.val)
    rw [basePose_vec hN]
    simp [List.ofFn_succ, r3Base]
  have hj : ∀ q, (r3Feat N oMja jaMfa jbMfb Mdes).jac q = ((r3Base oMja jaMfa jbMfb Mdes).map N).feat.jac q := by
    intro q
    have h := (C97_selected (fun _ => true) oMja jaMfa (basePose q) jbMfb Mdes none (baseJac N) 0 (List.replicate 6 (0 : ℝ))
      (List.replicate 6 (0 : Fin N → ℝ)) (by simp; rfl) (by simp; rfl)).2.1
    simp only [r3Feat, Map.feat]
    rw [h, picked_all, Outcome.map_ok]
    show _ = Outcome.ok _
    congr 2
    funext i j
    show _ = if h : i < 6 ∧ j < N then some (at6 ((r3Base oMja jaMfa jbMfb Mdes).K (basePose (List.ofFn (vec N q))) * baseJac N) i ⟨j, h.2⟩)
      else none
    rw [basePose_vec hN]
    by_cases hj : j < N
    · match i with
      | 0 | 1 | 2 | 3 | 4 | 5 => simp [hj, r3Base, poseJacobian]
      | i + 6 => simp [hj]
    · simp [hj]
  unfold r3Feat at *
  unfold Map.feat at *
  rw [Feat.mk.injEq]
  exact ⟨funext he, funext hj⟩

theorem r3Loop_eq (svd : ∀ {m c : ℕ} (A : Matrix (Fin m) (Fin c) ℝ), Svd A) {N : Nat} (hN : 6 ≤ N) (th maxSq : ℝ)
    (oMja jaMfa jbMfb Mdes : Pose ℝ) (gain : ℝ) (selec : Flags.Flags) (dt : ℝ) :
    r3Loop svd N th maxSq oMja jaMfa jbMfb Mdes gain selec dt =
      stackLoop svd N th maxSq freeFlyer [(r3Base oMja jaMfa jbMfb Mdes).task N gain selec] dt := by
  unfold r3Loop stackLoop
  rw [r3Feat_eq hN]
  rfl

/-! ### The velocity -/

/-- What one step asks of the error `e`: away from the half turn, within the threshold of the pseudo-inverses and within the limit of the
control. -/
structure R3Small (th maxSq gain : ℝ) (jbMfb : Pose ℝ) (e : Fin 3 ⊕ Fin 3 → ℝ) : Prop where
  angle : len (rotPart e) < Real.pi
  threshold : th ^ 2 * (2 + len jbMfb.t ^ 2) < 1
  limit : gain ^ 2 * ((2 + len jbMfb.t ^ 2) * (e ⬝ᵥ e)) ≤ maxSq

section
variable {th maxSq : ℝ} {oMja jaMfa jbMfb Mdes : Pose ℝ} {gain : ℝ} {selec : Flags.Flags} {dt : ℝ}

theorem R3Small.mono {e e' : Fin 3 ⊕ Fin 3 → ℝ} (h : R3Small th maxSq gain jbMfb e) (h1 : len (rotPart e') ≤ len (rotPart e))
    (h2 : len (transPart e') ≤ len (transPart e)) : R3Small th maxSq gain jbMfb e' := by
  refine ⟨h1.trans_lt h.angle, h.threshold, le_trans ?_ h.limit⟩
  rw [sum_sq, sum_sq e]
  have := len_nonneg (rotPart e')
  have := len_nonneg (transPart e')
  gcongr

theorem applyTop_mulVec (R : Matrix (Fin 3) (Fin 3) ℝ) (X : Matrix (Fin 3 ⊕ Fin 3) (Fin 3 ⊕ Fin 3) ℝ) (x : Fin 3 ⊕ Fin 3 → ℝ) :
    applyTop R X *ᵥ x = Sum.elim (R *ᵥ transPart (X *ᵥ x)) (rotPart (X *ᵥ x)) := by
  funext r
  rcases r with i | i
  · simp only [applyTop, mulVec, dotProduct, Sum.elim_inl, transPart, Finset.sum_mul, Finset.mul_sum]
    rw [Finset.sum_comm]
    simp only [mul_assoc]
  · rfl

/-- The derivative of the error, for a velocity of the frame of the feature in its own frame. -/
theorem r3K (ha : IsRot oMja.R) (hfa : IsRot jaMfa.R) (hfb : IsRot jbMfb.R) (M : Pose ℝ) (u : Fin 3 ⊕ Fin 3 → ℝ) :
    (r3Base oMja jaMfa jbMfb Mdes).K M *ᵥ (twist jbMfb *ᵥ u) =
      Sum.elim ((faMfb oMja jaMfa M jbMfb).R *ᵥ transPart u) ((rightJac (rotVec (Mdes.Rᵀ * (faMfb oMja jaMfa M jbMfb).R)))⁻¹ *ᵥ rotPart u) := by
  obtain ⟨-, -, -, i2, i3, -⟩ := C55_twist_inv jbMfb hfb
  show (dDifference1 _ _ * applyTop _ _) *ᵥ _ = _
  rw [← mulVec_mulVec, applyTop_mulVec, mulVec_mulVec _ (twist jbMfb.inv), i2, one_mulVec, dDifference1, fromBlocks_mulVec, faRfb_eq _ _ ha hfa]
  simp only [Sum.elim_comp_inl, Sum.elim_comp_inr, one_mulVec, zero_mulVec, add_zero, zero_add]

/-- The velocity of the frame of the feature, in its own frame. -/
noncomputable def r3Velocity (Mdes F : Pose ℝ) (gain : ℝ) : Fin 3 ⊕ Fin 3 → ℝ :=
  Sum.elim (-gain • (F.Rᵀ *ᵥ (F.t - Mdes.t))) (-gain • rotVec (Mdes.Rᵀ * F.R))

theorem r3Ready (ha : IsRot oMja.R) (hfa : IsRot jaMfa.R) (hfb : IsRot jbMfb.R) {M : Pose ℝ} (hM : IsRot M.R)
    (hs : R3Small th maxSq gain jbMfb (poseDifference Mdes (faMfb oMja jaMfa M jbMfb))) :
    (r3Base oMja jaMfa jbMfb Mdes).Ready th maxSq gain M (twist jbMfb *ᵥ r3Velocity Mdes (faMfb oMja jaMfa M jbMfb) gain) := by
  set F := faMfb oMja jaMfa M jbMfb with hF
  have hFr : IsRot F.R := faMfb_isRot ha hfa hM hfb
  set w := rotVec (Mdes.Rᵀ * F.R) with hw
  have hu : IsUnit (rightJac w).det := (det_rightJac_ne w (lt_of_lt_of_le hs.angle (by linarith [Real.pi_pos]))).isUnit
  have hp : 0 < 2 + len jbMfb.t ^ 2 := by positivity
  have hFl : ∀ x, F.R *ᵥ (F.Rᵀ *ᵥ x) = x := fun x => by rw [mulVec_mulVec, hFr.mul_transpose, one_mulVec]
  have t1 : ∀ a b : Fin 3 → ℝ, transPart (Sum.elim a b) = a := fun a b => rfl
  have t2 : ∀ a b : Fin 3 → ℝ, rotPart (Sum.elim a b) = b := fun a b => rfl
  refine ⟨?_, ⟨1 / √(2 + len jbMfb.t ^ 2), ?_, fun y => ?_⟩, ?_⟩
  · rw [r3K ha hfa hfb, ← hF, ← hw]
    have h1 : (rightJac w)⁻¹ *ᵥ w = w := by
      have := congrArg ((rightJac w)⁻¹ *ᵥ ·) (rightJac_self w)
      simp only [mulVec_mulVec, nonsing_inv_mul _ hu, one_mulVec] at this
      exact this.symm
    show Sum.elim (F.R *ᵥ (-gain • (F.Rᵀ *ᵥ (F.t - Mdes.t)))) ((rightJac w)⁻¹ *ᵥ (-gain • w)) = -gain • Sum.elim (F.t - Mdes.t) w
    rw [mulVec_smul, mulVec_smul, h1, hFl]
    funext r; cases r <;> rfl
  · rw [lt_div_iff₀ (Real.sqrt_pos.mpr hp)]
    apply lt_of_pow_lt_pow_left₀ 2 zero_le_one
    rw [mul_pow, Real.sq_sqrt hp.le, one_pow]
    exact hs.threshold
  · refine ⟨twist jbMfb *ᵥ Sum.elim (F.Rᵀ *ᵥ transPart y) (rightJac w *ᵥ rotPart y), ?_, ?_⟩
    · rw [r3K ha hfa hfb, ← hF, ← hw, t1, t2, hFl, mulVec_mulVec, nonsing_inv_mul _ hu, one_mulVec]
      exact (split6 y).symm
    · rw [div_pow, one_pow, Real.sq_sqrt hp.le, div_mul_eq_mul_div, one_mul, div_le_iff₀ hp]
      refine (twist_len hfb _).trans ?_
      rw [sum_sq, sum_sq y, t1, t2, len_rot hFr.transpose, mul_comm]
      have l2 := pow_le_pow_left₀ (len_nonneg _) (rightJac_len w (rotPart y)) 2
      gcongr
  · refine (twist_len hfb _).trans (le_trans ?_ hs.limit)
    rw [sum_sq, sum_sq (poseDifference Mdes F)]
    show (2 + len jbMfb.t ^ 2) * (len (-gain • (F.Rᵀ *ᵥ (F.t - Mdes.t))) ^ 2 + len (-gain • w) ^ 2) ≤
      gain ^ 2 * ((2 + len jbMfb.t ^ 2) * (len (F.t - Mdes.t) ^ 2 + len w ^ 2))
    rw [len_smul, len_smul, len_rot hFr.transpose, mul_pow, mul_pow, sq_abs, neg_sq]
    exact le_of_eq (by ring)

/-- The errors after a step, in the desired frame. -/
theorem r3_moved (hd : IsRot Mdes.R) {F : Pose ℝ} (hF : IsRot F.R) (s : ℝ) :
    (F.mul (exp6 (pair (s • r3Velocity Mdes F 1)))).R = Mdes.R * exp3 ((1 - s) • rotVec (Mdes.Rᵀ * F.R)) ∧
    Mdes.Rᵀ *ᵥ ((F.mul (exp6 (pair (s • r3Velocity Mdes F 1)))).t - Mdes.t) =
      reduced s ((-s) • rotVec (Mdes.Rᵀ * F.R)) (Mdes.Rᵀ *ᵥ (F.t - Mdes.t)) := by
  set w := rotVec (Mdes.Rᵀ * F.R) with hw
  have hX : IsRot (Mdes.Rᵀ * F.R) := hd.transpose.mul hF
  have hexp : exp3 w = Mdes.Rᵀ * F.R := exp3_rotVec hX
  have hFR : F.R = Mdes.R * exp3 w := by rw [hexp, ← Matrix.mul_assoc, hd.mul_transpose, Matrix.one_mul]
  have hrot : rotPart (s • r3Velocity Mdes F 1) = (-s) • w := by
    show s • (-(1 : ℝ) • w) = _
    rw [smul_smul, mul_neg_one]
  have htr : transPart (s • r3Velocity Mdes F 1) = (-s) • (F.Rᵀ *ᵥ (F.t - Mdes.t)) := by
    show s • (-(1 : ℝ) • (F.Rᵀ *ᵥ (F.t - Mdes.t))) = _
    rw [smul_smul, mul_neg_one]
  constructor
  · show F.R * exp3 (rotPart (s • r3Velocity Mdes F 1)) = _
    rw [hrot, hFR, Matrix.mul_assoc]
    congr 1
    have := exp3_add 1 (-s) w
    rwa [one_smul, ← sub_eq_add_neg] at this
  · show Mdes.Rᵀ *ᵥ (F.R *ᵥ (leftJac (rotPart (s • r3Velocity Mdes F 1)) *ᵥ transPart (s • r3Velocity Mdes F 1)) + F.t - Mdes.t) = _
    have hkey : Mdes.Rᵀ *ᵥ (F.R *ᵥ (leftJac ((-s) • w) *ᵥ (F.Rᵀ *ᵥ (F.t - Mdes.t)))) = leftJac ((-s) • w) *ᵥ (Mdes.Rᵀ *ᵥ (F.t - Mdes.t)) := by
      have h1 : F.Rᵀ = (exp3 w)ᵀ * Mdes.Rᵀ := by rw [← transpose_mul, ← hFR]
      rw [mulVec_mulVec, ← hexp, h1, ← mulVec_mulVec, mulVec_mulVec, mulVec_mulVec, leftJac_conj]
    rw [hrot, htr, add_sub_assoc, mulVec_add, mulVec_smul, mulVec_smul, mulVec_smul, hkey, reduced, neg_smul, add_comm, ← sub_eq_add_neg]

end

/-! ### Steps -/

/-- A sequence whose every term is chosen from the one before. -/
theorem chain {α : Type} {P : Nat → α → Prop} {R : Nat → α → α → Prop} {a : α} (h0 : P 0 a) (h : ∀ k x, P k x → ∃ y, P (k + 1) y ∧ R k x y) :
    ∃ f : Nat → α, f 0 = a ∧ ∀ k, P k (f k) ∧ R k (f k) (f (k + 1)) := by
  classical
  choose! g g1 g2 using h
  let f : Nat → α := fun k => Nat.rec a (fun k x => g k x) k
  have hp : ∀ k, P k (f k) := by
    intro k
    induction k with
    | zero => exact h0
    | succ k ih => exact g1 k _ ih
  exact ⟨f, rfl, fun k => ⟨hp k, g2 k _ (hp k)⟩⟩

section
variable (svd : ∀ {m c : ℕ} (A : Matrix (Fin m) (Fin c) ℝ), Svd A) {th maxSq : ℝ} {oMja jaMfa jbMfb Mdes : Pose ℝ} {gain : ℝ}
  {selec : Flags.Flags} {dt : ℝ} {joints : List ℝ} (ha : IsRot oMja.R) (hfa : IsRot jaMfa.R) (hfb : IsRot jbMfb.R) (hd : IsRot Mdes.R)
  (hsel : ∀ j : Nat, j < 6 → Flags.call selec (j : Int) = .ok true) (hth : 0 ≤ th)

include ha hfa hfb hsel hth in
/-- One step of the loop. -/
theorem r3_step {d0 : Dev ℝ} (hm : d0.mode = .oneInteg) (hs0 : d0.sanity = false) {s : St} {b : Fin 6 → ℝ}
    (hi : SInv [(r3Base oMja jaMfa jbMfb Mdes).task (6 + joints.length) gain selec] d0 s (List.ofFn b ++ joints))
    (hs : R3Small th maxSq gain jbMfb (poseDifference Mdes (faMfb oMja jaMfa (poseRpyToHomo b) jbMfb))) :
    ∃ s' b', step (r3Loop svd (6 + joints.length) th maxSq oMja jaMfa jbMfb Mdes gain selec dt) s = .ok s' ∧
      SInv [(r3Base oMja jaMfa jbMfb Mdes).task (6 + joints.length) gain selec] d0 s' (List.ofFn b' ++ joints) ∧
      s'.reports = s.reports ++ [[]] ∧
      faMfb oMja jaMfa (poseRpyToHomo b') jbMfb = (faMfb oMja jaMfa (poseRpyToHomo b) jbMfb).mul
        (exp6 (pair ((gain * dt) • r3Velocity Mdes (faMfb oMja jaMfa (poseRpyToHomo b) jbMfb) 1))) := by
  rw [r3Loop_eq svd (by omega)]
  obtain ⟨s', b', e1, e2, e3, e4⟩ := BaseFeat.step svd (dt := dt) rfl hsel hth hm hs0 hi (r3Ready ha hfa hfb (pose_isRot b) hs)
  refine ⟨s', b', e1, e2, e3, ?_⟩
  set F := faMfb oMja jaMfa (poseRpyToHomo b) jbMfb with hF
  have hv : dt • r3Velocity Mdes F gain = (gain * dt) • r3Velocity Mdes F 1 := by
    funext r
    rcases r with i | i
    · show dt * (-gain * _) = gain * dt * (-1 * _); ring
    · show dt * (-gain * _) = gain * dt * (-1 * _); ring
  rw [e4, ← pair_smul, ← mulVec_smul, hv, faMfb_moved hfb]

/-- The start. -/
theorem r3_start (gain : ℝ) (selec : Flags.Flags) (dt th maxSq : ℝ) (oMja jaMfa jbMfb Mdes : Pose ℝ) {d : Dev ℝ} {b : Fin 6 → ℝ}
    (hst : d.state = nums (List.ofFn b ++ joints)) (hsh : d.stateSOUT = nums (List.ofFn b ++ joints)) :
    SInv [(r3Base oMja jaMfa jbMfb Mdes).task (6 + joints.length) gain selec] d
      (start (r3Loop svd (6 + joints.length) th maxSq oMja jaMfa jbMfb Mdes gain selec dt) d) (List.ofFn b ++ joints) :=
  ⟨.refl d, hst, hsh, by simp; omega, .cons (good_new _ _) .nil⟩

include hd in
/-- The parts of the error after a step. -/
theorem r3_parts {F : Pose ℝ} (hF : IsRot F.R) {s : ℝ} (hs : |1 - s| * len (rotPart (poseDifference Mdes F)) < Real.pi) {F' : Pose ℝ}
    (h : F' = F.mul (exp6 (pair (s • r3Velocity Mdes F 1)))) :
    rotPart (poseDifference Mdes F') = (1 - s) • rotPart (poseDifference Mdes F) ∧
    Mdes.Rᵀ *ᵥ transPart (poseDifference Mdes F') =
      reduced s ((-s) • rotPart (poseDifference Mdes F)) (Mdes.Rᵀ *ᵥ transPart (poseDifference Mdes F)) := by
  obtain ⟨h1, h2⟩ := r3_moved hd hF s
  rw [← h] at h1 h2
  refine ⟨?_, h2⟩
  show rotVec (Mdes.Rᵀ * F'.R) = (1 - s) • rotVec (Mdes.Rᵀ * F.R)
  rw [h1, ← Matrix.mul_assoc, hd.1, Matrix.one_mul, rotVec_exp3]
  rw [len_smul]
  exact hs

include ha hfa hfb hd hsel hth

/-- **C145, one step.** During the period the frame of the feature has a constant velocity in its own frame: the opposite of the position
error, seen from that frame, and of the rotation error, times the gain. Then the rotation error is multiplied by `1 - gain dt`. -/
theorem C145_step {d : Dev ℝ} {b : Fin 6 → ℝ} (hm : d.mode = .oneInteg) (hs0 : d.sanity = false) (hst : d.state = nums (List.ofFn b ++ joints))
    (hsh : d.stateSOUT = nums (List.ofFn b ++ joints))
    (hs : R3Small th maxSq gain jbMfb (poseDifference Mdes (faMfb oMja jaMfa (poseRpyToHomo b) jbMfb))) :
    ∃ s b' N, steps (r3Loop svd (6 + joints.length) th maxSq oMja jaMfa jbMfb Mdes gain selec dt) 1
        (start (r3Loop svd (6 + joints.length) th maxSq oMja jaMfa jbMfb Mdes gain selec dt) d) = .ok s ∧
      s.dev.state = nums (List.ofFn b' ++ joints) ∧ s.reports = [[]] ∧
      (∀ t, BodyTwist N (-gain • ((faMfb oMja jaMfa (poseRpyToHomo b) jbMfb).Rᵀ *ᵥ ((faMfb oMja jaMfa (poseRpyToHomo b) jbMfb).t - Mdes.t)))
        (-gain • rotPart (poseDifference Mdes (faMfb oMja jaMfa (poseRpyToHomo b) jbMfb))) t) ∧
      N 0 = faMfb oMja jaMfa (poseRpyToHomo b) jbMfb ∧ N dt = faMfb oMja jaMfa (poseRpyToHomo b') jbMfb ∧
      (|1 - gain * dt| * len (rotPart (poseDifference Mdes (faMfb oMja jaMfa (poseRpyToHomo b) jbMfb))) < Real.pi →
        rotPart (poseDifference Mdes (faMfb oMja jaMfa (poseRpyToHomo b') jbMfb)) =
          (1 - gain * dt) • rotPart (poseDifference Mdes (faMfb oMja jaMfa (poseRpyToHomo b) jbMfb))) := by
  obtain ⟨s', b', e1, e2, e3, e4⟩ := r3_step svd (dt := dt) ha hfa hfb hsel hth hm hs0
    (r3_start svd gain selec dt th maxSq oMja jaMfa jbMfb Mdes hst hsh) hs
  set F := faMfb oMja jaMfa (poseRpyToHomo b) jbMfb with hF
  have hv : dt • r3Velocity Mdes F gain = (gain * dt) • r3Velocity Mdes F 1 := by
    funext r
    rcases r with i | i
    · show dt * (-gain * _) = gain * dt * (-1 * _); ring
    · show dt * (-gain * _) = gain * dt * (-1 * _); ring
  refine ⟨s', b', fun t => F.mul (exp6 (t • pair (r3Velocity Mdes F gain))), e1, e2.state, e3, fun t => exp6_twist F _ t,
    by simp only [zero_smul, exp6_zero, pose_mul_one], ?_, fun h => (r3_parts hd (faMfb_isRot ha hfa (pose_isRot b) hfb) h e4).1⟩
  simp only []
  rw [e4, ← pair_smul, hv]

/-- The whole trajectory, with the recursion of the position error. -/
theorem r3_trajectory {d : Dev ℝ} {b : Fin 6 → ℝ} (hm : d.mode = .oneInteg) (hs0 : d.sanity = false)
    (hst : d.state = nums (List.ofFn b ++ joints)) (hsh : d.stateSOUT = nums (List.ofFn b ++ joints))
    (h0 : 0 ≤ gain * dt) (h4 : Real.pi * (gain * dt) ≤ 4)
    (hq : gain * dt * len (rotPart (poseDifference Mdes (faMfb oMja jaMfa (poseRpyToHomo b) jbMfb))) ≤ Real.pi / 2)
    (hs : R3Small th maxSq gain jbMfb (poseDifference Mdes (faMfb oMja jaMfa (poseRpyToHomo b) jbMfb))) :
    ∃ base : Nat → Fin 6 → ℝ, base 0 = b ∧ ∀ k,
      (∃ s, steps (r3Loop svd (6 + joints.length) th maxSq oMja jaMfa jbMfb Mdes gain selec dt) k
          (start (r3Loop svd (6 + joints.length) th maxSq oMja jaMfa jbMfb Mdes gain selec dt) d) = .ok s ∧
        s.dev.state = nums (List.ofFn (base k) ++ joints) ∧ s.reports = List.replicate k []) ∧
      rotPart (poseDifference Mdes (faMfb oMja jaMfa (poseRpyToHomo (base k)) jbMfb)) =
        (1 - gain * dt) ^ k • rotPart (poseDifference Mdes (faMfb oMja jaMfa (poseRpyToHomo b) jbMfb)) ∧
      len (transPart (poseDifference Mdes (faMfb oMja jaMfa (poseRpyToHomo (base (k + 1))) jbMfb))) ≤
        len (transPart (poseDifference Mdes (faMfb oMja jaMfa (poseRpyToHomo (base k)) jbMfb))) ∧
      Mdes.Rᵀ *ᵥ transPart (poseDifference Mdes (faMfb oMja jaMfa (poseRpyToHomo (base (k + 1))) jbMfb)) =
        reduced (gain * dt) ((-(gain * dt)) • rotPart (poseDifference Mdes (faMfb oMja jaMfa (poseRpyToHomo (base k)) jbMfb)))
          (Mdes.Rᵀ *ᵥ transPart (poseDifference Mdes (faMfb oMja jaMfa (poseRpyToHomo (base k)) jbMfb))) := by
  set e : (Fin 6 → ℝ) → Fin 3 ⊕ Fin 3 → ℝ := fun b => poseDifference Mdes (faMfb oMja jaMfa (poseRpyToHomo b) jbMfb) with he
  have hl : ∀ v, len (Mdes.Rᵀ *ᵥ v) = len v := len_rot hd.transpose
  have h2 : gain * dt ≤ 2 := by nlinarith [Real.pi_gt_three]
  have hc : |1 - gain * dt| ≤ 1 := abs_le.mpr ⟨by linarith, by linarith⟩
  have hck : ∀ k : Nat, |(1 - gain * dt) ^ k| ≤ 1 := fun k => by rw [abs_pow]; exact pow_le_one₀ (abs_nonneg _) hc
  obtain ⟨f, f0, fk⟩ := chain (α := St × (Fin 6 → ℝ))
    (P := fun k x => steps (r3Loop svd (6 + joints.length) th maxSq oMja jaMfa jbMfb Mdes gain selec dt) k
          (start (r3Loop svd (6 + joints.length) th maxSq oMja jaMfa jbMfb Mdes gain selec dt) d) = .ok x.1 ∧
        SInv [(r3Base oMja jaMfa jbMfb Mdes).task (6 + joints.length) gain selec] d x.1 (List.ofFn x.2 ++ joints) ∧
        x.1.reports = List.replicate k [] ∧ rotPart (e x.2) = (1 - gain * dt) ^ k • rotPart (e b) ∧
        len (transPart (e x.2)) ≤ len (transPart (e b)))
    (R := fun _ x y => len (transPart (e y.2)) ≤ len (transPart (e x.2)) ∧
      Mdes.Rᵀ *ᵥ transPart (e y.2) = reduced (gain * dt) ((-(gain * dt)) • rotPart (e x.2)) (Mdes.Rᵀ *ᵥ transPart (e x.2)))
    (a := (start (r3Loop svd (6 + joints.length) th maxSq oMja jaMfa jbMfb Mdes gain selec dt) d, b))
    ⟨rfl, r3_start svd gain selec dt th maxSq oMja jaMfa jbMfb Mdes hst hsh, rfl, by simp, le_rfl⟩ (by
      rintro k ⟨s, b1⟩ ⟨a1, a2, a3, a4, a5⟩
      simp only [] at a1 a2 a3 a4 a5
      have hr : len (rotPart (e b1)) ≤ len (rotPart (e b)) := by
        rw [a4, len_smul]
        have := mul_le_mul_of_nonneg_right (hck k) (len_nonneg (rotPart (e b)))
        linarith
      have hsm : R3Small th maxSq gain jbMfb (e b1) := hs.mono hr a5
      obtain ⟨s', b', e1, e2, e3, e4⟩ := r3_step svd (dt := dt) ha hfa hfb hsel hth hm hs0 a2 hsm
      have hbound : |1 - gain * dt| * len (rotPart (e b1)) < Real.pi := by
        have := mul_le_mul_of_nonneg_right hc (len_nonneg (rotPart (e b1)))
        linarith [hsm.angle]
      obtain ⟨g1, g2⟩ := r3_parts hd (faMfb_isRot ha hfa (pose_isRot b1) hfb) hbound e4
      have hle : len (transPart (e b')) ≤ len (transPart (e b1)) := by
        rw [← hl (transPart (e b')), ← hl (transPart (e b1))]
        show len (Mdes.Rᵀ *ᵥ transPart (poseDifference Mdes (faMfb oMja jaMfa (poseRpyToHomo b') jbMfb))) ≤ _
        rw [g2]
        refine reduced_len ?_ h0 h4 _
        rw [len_smul, abs_neg, abs_of_nonneg h0]
        exact (mul_le_mul_of_nonneg_left hr h0).trans hq
      refine ⟨(s', b'), ⟨?_, e2, by simp only []; rw [e3, a3, ← List.replicate_succ'], ?_, hle.trans a5⟩, hle, g2⟩
      · show (steps _ k _).bind _ = _
        rw [a1]; exact e1
      · refine g1.trans ?_
        show (1 - gain * dt) • rotPart (e b1) = _
        rw [a4, smul_smul, pow_succ, mul_comm])
  refine ⟨fun k => (f k).2, by simp only []; rw [f0], fun k => ?_⟩
  obtain ⟨⟨a1, a2, a3, a4, -⟩, a6, a7⟩ := fk k
  exact ⟨⟨(f k).1, a1, a2.state, a3⟩, a4, a6, a7⟩

/-- **C145, trajectory.** When the base turns by at most a quarter of a turn in the first period and the gain times the period is at most
`4 / π`: after `k` steps the rotation error is exactly the first one times `(1 - gain dt)^k`, the position error never becomes longer, the joints
do not move and no task is reported. -/
theorem C145_trajectory {d : Dev ℝ} {b : Fin 6 → ℝ} (hm : d.mode = .oneInteg) (hs0 : d.sanity = false)
    (hst : d.state = nums (List.ofFn b ++ joints)) (hsh : d.stateSOUT = nums (List.ofFn b ++ joints))
    (h0 : 0 ≤ gain * dt) (h4 : Real.pi * (gain * dt) ≤ 4)
    (hq : gain * dt * len (rotPart (poseDifference Mdes (faMfb oMja jaMfa (poseRpyToHomo b) jbMfb))) ≤ Real.pi / 2)
    (hs : R3Small th maxSq gain jbMfb (poseDifference Mdes (faMfb oMja jaMfa (poseRpyToHomo b) jbMfb))) :
    ∃ base : Nat → Fin 6 → ℝ, base 0 = b ∧ ∀ k,
      (∃ s, steps (r3Loop svd (6 + joints.length) th maxSq oMja jaMfa jbMfb Mdes gain selec dt) k
          (start (r3Loop svd (6 + joints.length) th maxSq oMja jaMfa jbMfb Mdes gain selec dt) d) = .ok s ∧
        s.dev.state = nums (List.ofFn (base k) ++ joints) ∧ s.reports = List.replicate k []) ∧
      rotPart (poseDifference Mdes (faMfb oMja jaMfa (poseRpyToHomo (base k)) jbMfb)) =
        (1 - gain * dt) ^ k • rotPart (poseDifference Mdes (faMfb oMja jaMfa (poseRpyToHomo b) jbMfb)) ∧
      len (transPart (poseDifference Mdes (faMfb oMja jaMfa (poseRpyToHomo (base (k + 1))) jbMfb))) ≤
        len (transPart (poseDifference Mdes (faMfb oMja jaMfa (poseRpyToHomo (base k)) jbMfb))) := by
  obtain ⟨base, g0, g⟩ := r3_trajectory svd (dt := dt) ha hfa hfb hd hsel hth hm hs0 hst hsh h0 h4 hq hs
  exact ⟨base, g0, fun k => ⟨(g k).1, (g k).2.1, (g k).2.2.1⟩⟩

/-- **C145, convergence.** With a positive gain, under the same hypotheses, the error tends to zero and the pose of the base to the only one
where the frame of the feature has the desired pose; the joints do not move. -/
theorem C145_converges {d : Dev ℝ} {b : Fin 6 → ℝ} (hm : d.mode = .oneInteg) (hs0 : d.sanity = false)
    (hst : d.state = nums (List.ofFn b ++ joints)) (hsh : d.stateSOUT = nums (List.ofFn b ++ joints))
    (h0 : 0 < gain * dt) (h4 : Real.pi * (gain * dt) ≤ 4)
    (hq : gain * dt * len (rotPart (poseDifference Mdes (faMfb oMja jaMfa (poseRpyToHomo b) jbMfb))) ≤ Real.pi / 2)
    (hs : R3Small th maxSq gain jbMfb (poseDifference Mdes (faMfb oMja jaMfa (poseRpyToHomo b) jbMfb))) :
    ∃ (base : Nat → Fin 6 → ℝ) (goal : Pose ℝ), faMfb oMja jaMfa goal jbMfb = Mdes ∧
      (∀ k, ∃ s, steps (r3Loop svd (6 + joints.length) th maxSq oMja jaMfa jbMfb Mdes gain selec dt) k
          (start (r3Loop svd (6 + joints.length) th maxSq oMja jaMfa jbMfb Mdes gain selec dt) d) = .ok s ∧
        s.dev.state = nums (List.ofFn (base k) ++ joints)) ∧
      (∀ r, Tendsto (fun k => poseDifference Mdes (faMfb oMja jaMfa (poseRpyToHomo (base k)) jbMfb) r) atTop (𝓝 0)) ∧
      (∀ i j, Tendsto (fun k => (poseRpyToHomo (base k)).R i j) atTop (𝓝 (goal.R i j))) ∧
      ∀ i, Tendsto (fun k => (poseRpyToHomo (base k)).t i) atTop (𝓝 (goal.t i)) := by
  obtain ⟨base, g0, g⟩ := r3_trajectory svd (dt := dt) ha hfa hfb hd hsel hth hm hs0 hst hsh h0.le h4 hq hs
  have h2 : gain * dt < 2 := by nlinarith [Real.pi_gt_three]
  set F : Nat → Pose ℝ := fun k => faMfb oMja jaMfa (poseRpyToHomo (base k)) jbMfb with hF
  set w := rotPart (poseDifference Mdes (faMfb oMja jaMfa (poseRpyToHomo b) jbMfb)) with hw
  have hFr : ∀ k, IsRot (F k).R := fun k => faMfb_isRot ha hfa (pose_isRot _) hfb
  have hc0 : Tendsto (fun k : Nat => (1 - gain * dt) ^ k) atTop (𝓝 0) :=
    tendsto_pow_atTop_nhds_zero_of_abs_lt_one (abs_lt.mpr ⟨by linarith, by linarith⟩)
  have hz : Tendsto (fun k => len (transPart (poseDifference Mdes (F k)))) atTop (𝓝 0) := by
    have := reduced_tendsto h0 h2 (w := w) (z := fun k => Mdes.Rᵀ *ᵥ transPart (poseDifference Mdes (F k))) fun k => by
      rw [← (g k).2.1]; exact (g k).2.2.2
    simpa only [len_rot hd.transpose] using this
  have hpos : ∀ i, Tendsto (fun k => transPart (poseDifference Mdes (F k)) i) atTop (𝓝 0) := fun i =>
    squeeze_zero_norm (fun k => by rw [Real.norm_eq_abs]; exact abs_le_len _ i) hz
  have hrot : ∀ k, (F k).R = Mdes.R * exp3 ((1 - gain * dt) ^ k • w) := by
    intro k
    rw [← (g k).2.1]
    show _ = Mdes.R * exp3 (rotVec (Mdes.Rᵀ * (F k).R))
    rw [exp3_rotVec (hd.transpose.mul (hFr k)), ← Matrix.mul_assoc, hd.mul_transpose, Matrix.one_mul]
  have hFt : Tendsto (fun k => (F k).t) atTop (𝓝 Mdes.t) := tendsto_pi_nhds.mpr fun i => by
    have := (hpos i).add_const (Mdes.t i)
    rw [zero_add] at this
    refine this.congr fun k => ?_
    show (F k).t i - Mdes.t i + Mdes.t i = _
    ring
  have hexp : Tendsto (fun k : Nat => exp3 ((1 - gain * dt) ^ k • w)) atTop (𝓝 1) := by
    refine tendsto_pi_nhds.mpr fun i => tendsto_pi_nhds.mpr fun j => ?_
    have h1 := (exp3_deriv w 0 i j).continuousAt.tendsto.comp hc0
    rw [zero_smul, exp3_zero] at h1
    exact h1
  have hFR : Tendsto (fun k => (F k).R) atTop (𝓝 Mdes.R) := by
    have hcont : Continuous fun X : Matrix (Fin 3) (Fin 3) ℝ => Mdes.R * X := by fun_prop
    have h1 := (hcont.tendsto 1).comp hexp
    rw [Matrix.mul_one] at h1
    exact h1.congr fun k => (hrot k).symm
  have hA : IsRot (oMja.mul jaMfa).R := ha.mul hfa
  have hback : faMfb oMja jaMfa (((oMja.mul jaMfa).mul Mdes).mul jbMfb.inv) jbMfb = Mdes := by
    rw [faMfb, pose_mul_assoc, pose_mul_assoc _ _ jbMfb, inv_mul_self hfb, pose_mul_one, ← pose_mul_assoc, inv_mul_self hA, pose_one_mul]
  have hbase : ∀ k, poseRpyToHomo (base k) = ((oMja.mul jaMfa).mul (F k)).mul jbMfb.inv := fun k => by
    show _ = ((oMja.mul jaMfa).mul (faMfb _ _ _ _)).mul jbMfb.inv
    rw [faMfb, pose_mul_assoc, pose_mul_assoc _ jbMfb, mul_inv_self hfb, pose_mul_one, Pose.mul_inv_mul hA]
  refine ⟨base, ((oMja.mul jaMfa).mul Mdes).mul jbMfb.inv, hback, fun k => ?_, fun r => ?_, fun i j => ?_, fun i => ?_⟩
  · obtain ⟨s, s1, s2, -⟩ := (g k).1
    exact ⟨s, s1, s2⟩
  · rcases r with i | i
    · exact hpos i
    · have h1 := hc0.mul_const (w i)
      rw [zero_mul] at h1
      exact h1.congr fun k => (congrFun (g k).2.1 i).symm
  · simp only [hbase, Pose.mul]
    have hcont : Continuous fun X : Matrix (Fin 3) (Fin 3) ℝ => (oMja.R * jaMfa.R * X * jbMfb.inv.R) i j := by fun_prop
    exact (hcont.tendsto _).comp hFR
  · simp only [hbase, Pose.mul]
    have hcont : Continuous fun X : Matrix (Fin 3) (Fin 3) ℝ × (Fin 3 → ℝ) =>
        ((oMja.R * jaMfa.R * X.1) *ᵥ jbMfb.inv.t + ((oMja.R * jaMfa.R) *ᵥ X.2 + (oMja.R *ᵥ jaMfa.t + oMja.t))) i := by fun_prop
    have := (hcont.tendsto (Mdes.R, Mdes.t)).comp (hFR.prodMk_nhds hFt)
    simpa only [Function.comp_def] using this

/-- **C145, straight.** Without a rotation error, the frame goes straight: after `k` steps the whole error is the first one times
`(1 - gain dt)^k`. -/
theorem C145_straight {d : Dev ℝ} {b : Fin 6 → ℝ} (hm : d.mode = .oneInteg) (hs0 : d.sanity = false)
    (hst : d.state = nums (List.ofFn b ++ joints)) (hsh : d.stateSOUT = nums (List.ofFn b ++ joints)) (h0 : 0 ≤ gain * dt) (h2 : gain * dt ≤ 2)
    (hr : (faMfb oMja jaMfa (poseRpyToHomo b) jbMfb).R = Mdes.R)
    (hs : R3Small th maxSq gain jbMfb (poseDifference Mdes (faMfb oMja jaMfa (poseRpyToHomo b) jbMfb))) (k : Nat) :
    ∃ s b', steps (r3Loop svd (6 + joints.length) th maxSq oMja jaMfa jbMfb Mdes gain selec dt) k
        (start (r3Loop svd (6 + joints.length) th maxSq oMja jaMfa jbMfb Mdes gain selec dt) d) = .ok s ∧
      s.dev.state = nums (List.ofFn b' ++ joints) ∧ s.reports = List.replicate k [] ∧
      (faMfb oMja jaMfa (poseRpyToHomo b') jbMfb).R = Mdes.R ∧
      (faMfb oMja jaMfa (poseRpyToHomo b') jbMfb).t - Mdes.t =
        (1 - gain * dt) ^ k • ((faMfb oMja jaMfa (poseRpyToHomo b) jbMfb).t - Mdes.t) := by
  have hc : |1 - gain * dt| ≤ 1 := abs_le.mpr ⟨by linarith, by linarith⟩
  have hck : ∀ k : Nat, |(1 - gain * dt) ^ k| ≤ 1 := fun k => by rw [abs_pow]; exact pow_le_one₀ (abs_nonneg _) hc
  have hzero : ∀ F : Pose ℝ, F.R = Mdes.R → rotPart (poseDifference Mdes F) = 0 := by
    intro F h
    show rotVec (Mdes.Rᵀ * F.R) = 0
    rw [h, hd.1]
    exact (rotVec_eq_zero isRot_one).mpr rfl
  suffices hk : ∃ s b', steps (r3Loop svd (6 + joints.length) th maxSq oMja jaMfa jbMfb Mdes gain selec dt) k
        (start (r3Loop svd (6 + joints.length) th maxSq oMja jaMfa jbMfb Mdes gain selec dt) d) = .ok s ∧
      SInv [(r3Base oMja jaMfa jbMfb Mdes).task (6 + joints.length) gain selec] d s (List.ofFn b' ++ joints) ∧ s.reports = List.replicate k [] ∧
      (faMfb oMja jaMfa (poseRpyToHomo b') jbMfb).R = Mdes.R ∧
      (faMfb oMja jaMfa (poseRpyToHomo b') jbMfb).t - Mdes.t =
        (1 - gain * dt) ^ k • ((faMfb oMja jaMfa (poseRpyToHomo b) jbMfb).t - Mdes.t) by
    obtain ⟨s, b', a1, a2, a3, a4, a5⟩ := hk
    exact ⟨s, b', a1, a2.state, a3, a4, a5⟩
  induction k with
  | zero => exact ⟨_, b, rfl, r3_start svd gain selec dt th maxSq oMja jaMfa jbMfb Mdes hst hsh, rfl, hr, by simp⟩
  | succ k ih =>
    obtain ⟨s, b1, a1, a2, a3, a4, a5⟩ := ih
    have hsm : R3Small th maxSq gain jbMfb (poseDifference Mdes (faMfb oMja jaMfa (poseRpyToHomo b1) jbMfb)) := by
      refine hs.mono (by rw [hzero _ a4, len_zero]; exact len_nonneg _) ?_
      show len ((faMfb oMja jaMfa (poseRpyToHomo b1) jbMfb).t - Mdes.t) ≤ len ((faMfb oMja jaMfa (poseRpyToHomo b) jbMfb).t - Mdes.t)
      rw [a5, len_smul]
      have := mul_le_mul_of_nonneg_right (hck k) (len_nonneg ((faMfb oMja jaMfa (poseRpyToHomo b) jbMfb).t - Mdes.t))
      linarith
    obtain ⟨s', b', e1, e2, e3, e4⟩ := r3_step svd (dt := dt) ha hfa hfb hsel hth hm hs0 a2 hsm
    obtain ⟨m1, m2⟩ := r3_moved hd (faMfb_isRot ha hfa (pose_isRot b1) hfb) (gain * dt)
    rw [← e4, show rotVec (Mdes.Rᵀ * (faMfb oMja jaMfa (poseRpyToHomo b1) jbMfb).R) = 0 from hzero _ a4, smul_zero] at m1 m2
    rw [exp3_zero, Matrix.mul_one] at m1
    rw [reduced_zero, a5] at m2
    refine ⟨s', b', ?_, e2, by rw [e3, a3, ← List.replicate_succ'], m1, ?_⟩
    · show (steps _ k _).bind _ = _
      rw [a1]; exact e1
    · have := congrArg (Mdes.R *ᵥ ·) m2
      simp only [mulVec_smul, mulVec_mulVec, hd.mul_transpose, one_mulVec] at this
      rw [this, smul_smul, pow_succ, mul_comm]

/-- Two steps, with the position error after the first one. -/
theorem r3_twice {d : Dev ℝ} {b : Fin 6 → ℝ} (hm : d.mode = .oneInteg) (hs0 : d.sanity = false)
    (hst : d.state = nums (List.ofFn b ++ joints)) (hsh : d.stateSOUT = nums (List.ofFn b ++ joints)) (h1 : gain * dt = 1)
    (hs : R3Small th (maxSq / 4) gain jbMfb (poseDifference Mdes (faMfb oMja jaMfa (poseRpyToHomo b) jbMfb))) :
    (∃ s b', steps (r3Loop svd (6 + joints.length) th maxSq oMja jaMfa jbMfb Mdes gain selec dt) 1
        (start (r3Loop svd (6 + joints.length) th maxSq oMja jaMfa jbMfb Mdes gain selec dt) d) = .ok s ∧
      s.dev.state = nums (List.ofFn b' ++ joints) ∧ (faMfb oMja jaMfa (poseRpyToHomo b') jbMfb).R = Mdes.R ∧
      Mdes.Rᵀ *ᵥ ((faMfb oMja jaMfa (poseRpyToHomo b') jbMfb).t - Mdes.t) =
        reduced 1 (-rotPart (poseDifference Mdes (faMfb oMja jaMfa (poseRpyToHomo b) jbMfb)))
          (Mdes.Rᵀ *ᵥ ((faMfb oMja jaMfa (poseRpyToHomo b) jbMfb).t - Mdes.t))) ∧
    ∀ k, ∃ s b', steps (r3Loop svd (6 + joints.length) th maxSq oMja jaMfa jbMfb Mdes gain selec dt) (k + 2)
        (start (r3Loop svd (6 + joints.length) th maxSq oMja jaMfa jbMfb Mdes gain selec dt) d) = .ok s ∧
      s.dev.state = nums (List.ofFn b' ++ joints) ∧ faMfb oMja jaMfa (poseRpyToHomo b') jbMfb = Mdes := by
  set F := faMfb oMja jaMfa (poseRpyToHomo b) jbMfb with hF
  have hl : ∀ v, len (Mdes.Rᵀ *ᵥ v) = len v := len_rot hd.transpose
  have hmax : 0 ≤ maxSq / 4 := le_trans (by
    have : 0 ≤ poseDifference Mdes F ⬝ᵥ poseDifference Mdes F := by rw [sum_sq]; positivity
    positivity) hs.limit
  have hs1 : R3Small th maxSq gain jbMfb (poseDifference Mdes F) := ⟨hs.angle, hs.threshold, hs.limit.trans (by linarith)⟩
  have hzero : ∀ F : Pose ℝ, F.R = Mdes.R → rotPart (poseDifference Mdes F) = 0 := by
    intro F h
    show rotVec (Mdes.Rᵀ * F.R) = 0
    rw [h, hd.1]
    exact (rotVec_eq_zero isRot_one).mpr rfl
  obtain ⟨s1, b1, e1, e2, e3, e4⟩ := r3_step svd (dt := dt) ha hfa hfb hsel hth hm hs0
    (r3_start svd gain selec dt th maxSq oMja jaMfa jbMfb Mdes hst hsh) hs1
  obtain ⟨m1, m2⟩ := r3_moved hd (faMfb_isRot ha hfa (pose_isRot b) hfb) (gain * dt)
  rw [← e4, h1] at m1 m2
  rw [sub_self, zero_smul, exp3_zero, Matrix.mul_one] at m1
  rw [neg_one_smul] at m2
  have hlen : len (transPart (poseDifference Mdes (faMfb oMja jaMfa (poseRpyToHomo b1) jbMfb))) ≤ 2 * len (transPart (poseDifference Mdes F)) := by
    rw [← hl, ← hl (transPart (poseDifference Mdes F))]
    show len (Mdes.Rᵀ *ᵥ ((faMfb oMja jaMfa (poseRpyToHomo b1) jbMfb).t - Mdes.t)) ≤ _
    rw [m2, reduced, one_smul, sub_eq_add_neg]
    refine (len_add _ _).trans ?_
    rw [show ∀ v : Fin 3 → ℝ, -v = (-1 : ℝ) • v from fun v => by simp, len_smul, abs_neg, abs_one, one_mul, two_mul]
    exact add_le_add le_rfl (leftJac_len _ _)
  have hsm : R3Small th maxSq gain jbMfb (poseDifference Mdes (faMfb oMja jaMfa (poseRpyToHomo b1) jbMfb)) := by
    refine ⟨by rw [hzero _ m1, len_zero]; exact Real.pi_pos, hs.threshold, ?_⟩
    have h3 := hs.limit
    rw [sum_sq] at h3 ⊢
    rw [hzero _ m1, len_zero]
    have h5 := pow_le_pow_left₀ (len_nonneg _) hlen 2
    have h6 : len (transPart (poseDifference Mdes (faMfb oMja jaMfa (poseRpyToHomo b1) jbMfb))) ^ 2 + 0 ^ 2 ≤
      4 * (len (transPart (poseDifference Mdes F)) ^ 2 + len (rotPart (poseDifference Mdes F)) ^ 2) := by
      nlinarith [sq_nonneg (len (rotPart (poseDifference Mdes F)))]
    have h7 : gain ^ 2 * ((2 + len jbMfb.t ^ 2) * (len (transPart (poseDifference Mdes (faMfb oMja jaMfa (poseRpyToHomo b1) jbMfb))) ^ 2 + 0 ^ 2)) ≤
        gain ^ 2 * ((2 + len jbMfb.t ^ 2) * (4 * (len (transPart (poseDifference Mdes F)) ^ 2 + len (rotPart (poseDifference Mdes F)) ^ 2))) := by
      gcongr
    linarith
  refine ⟨⟨s1, b1, e1, e2.state, m1, m2⟩, fun k => ?_⟩
  suffices hk : ∃ s b', steps (r3Loop svd (6 + joints.length) th maxSq oMja jaMfa jbMfb Mdes gain selec dt) (k + 2)
        (start (r3Loop svd (6 + joints.length) th maxSq oMja jaMfa jbMfb Mdes gain selec dt) d) = .ok s ∧
      SInv [(r3Base oMja jaMfa jbMfb Mdes).task (6 + joints.length) gain selec] d s (List.ofFn b' ++ joints) ∧
      faMfb oMja jaMfa (poseRpyToHomo b') jbMfb = Mdes by
    obtain ⟨s, b', a1, a2, a3⟩ := hk
    exact ⟨s, b', a1, a2.state, a3⟩
  have hnext : ∀ {s : St} {b2 : Fin 6 → ℝ}, SInv [(r3Base oMja jaMfa jbMfb Mdes).task (6 + joints.length) gain selec] d s (List.ofFn b2 ++ joints) →
      (faMfb oMja jaMfa (poseRpyToHomo b2) jbMfb).R = Mdes.R →
      R3Small th maxSq gain jbMfb (poseDifference Mdes (faMfb oMja jaMfa (poseRpyToHomo b2) jbMfb)) →
      ∃ s' b', step (r3Loop svd (6 + joints.length) th maxSq oMja jaMfa jbMfb Mdes gain selec dt) s = .ok s' ∧
        SInv [(r3Base oMja jaMfa jbMfb Mdes).task (6 + joints.length) gain selec] d s' (List.ofFn b' ++ joints) ∧
        faMfb oMja jaMfa (poseRpyToHomo b') jbMfb = Mdes := by
    intro s b2 hi hR hsm
    obtain ⟨s', b', c1, c2, -, c4⟩ := r3_step svd (dt := dt) ha hfa hfb hsel hth hm hs0 hi hsm
    obtain ⟨n1, n2⟩ := r3_moved hd (faMfb_isRot ha hfa (pose_isRot b2) hfb) (gain * dt)
    rw [← c4, h1] at n1 n2
    rw [sub_self, zero_smul, exp3_zero, Matrix.mul_one] at n1
    rw [show rotVec (Mdes.Rᵀ * (faMfb oMja jaMfa (poseRpyToHomo b2) jbMfb).R) = 0 from hzero _ hR, smul_zero, reduced_zero, sub_self, zero_smul] at n2
    refine ⟨s', b', c1, c2, Pose.ext n1 ?_⟩
    have := congrArg (Mdes.R *ᵥ ·) n2
    simp only [mulVec_mulVec, hd.mul_transpose, one_mulVec, mulVec_zero] at this
    exact sub_eq_zero.mp this
  induction k with
  | zero =>
    obtain ⟨s', b', c1, c2, c3⟩ := hnext e2 m1 hsm
    refine ⟨s', b', ?_, c2, c3⟩
    show (step _ _).bind _ = _
    rw [e1]
    exact c1
  | succ k ih =>
    obtain ⟨s, b2, a1, a2, a3⟩ := ih
    have hz : poseDifference Mdes (faMfb oMja jaMfa (poseRpyToHomo b2) jbMfb) = 0 :=
      (C97_error_zero _ _ (faMfb_isRot ha hfa (pose_isRot b2) hfb) hd).mpr a3
    obtain ⟨s', b', c1, c2, c3⟩ := hnext a2 (by rw [a3]) (by
      rw [hz]
      refine ⟨?_, hs.threshold, ?_⟩
      · show len (0 : Fin 3 → ℝ) < _
        rw [len_zero]; exact Real.pi_pos
      · rw [zero_dotProduct, mul_zero, mul_zero]; linarith)
    refine ⟨s', b', ?_, c2, c3⟩
    show (steps _ (k + 2) _).bind _ = _
    rw [a1]; exact c1

/-- **C145, in two steps.** When the gain times the period is one, the first step removes the rotation error, the second one the position error,
for any rotation error below the half turn: the desired pose is reached exactly, and kept. The limit allows the position error to double. -/
theorem C145_twice {d : Dev ℝ} {b : Fin 6 → ℝ} (hm : d.mode = .oneInteg) (hs0 : d.sanity = false)
    (hst : d.state = nums (List.ofFn b ++ joints)) (hsh : d.stateSOUT = nums (List.ofFn b ++ joints)) (h1 : gain * dt = 1)
    (hs : R3Small th (maxSq / 4) gain jbMfb (poseDifference Mdes (faMfb oMja jaMfa (poseRpyToHomo b) jbMfb))) :
    (∃ s b', steps (r3Loop svd (6 + joints.length) th maxSq oMja jaMfa jbMfb Mdes gain selec dt) 1
        (start (r3Loop svd (6 + joints.length) th maxSq oMja jaMfa jbMfb Mdes gain selec dt) d) = .ok s ∧
      s.dev.state = nums (List.ofFn b' ++ joints) ∧ (faMfb oMja jaMfa (poseRpyToHomo b') jbMfb).R = Mdes.R) ∧
    ∀ k, ∃ s b', steps (r3Loop svd (6 + joints.length) th maxSq oMja jaMfa jbMfb Mdes gain selec dt) (k + 2)
        (start (r3Loop svd (6 + joints.length) th maxSq oMja jaMfa jbMfb Mdes gain selec dt) d) = .ok s ∧
      s.dev.state = nums (List.ofFn b' ++ joints) ∧ faMfb oMja jaMfa (poseRpyToHomo b') jbMfb = Mdes := by
  obtain ⟨⟨s, b', e1, e2, e3, -⟩, h⟩ := r3_twice svd (dt := dt) ha hfa hfb hd hsel hth hm hs0 hst hsh h1 hs
  exact ⟨⟨s, b', e1, e2, e3⟩, h⟩

end

/-! ### Cases -/

theorem len_z (x : ℝ) : len ![0, 0, x] = |x| := by
  rw [len]
  simp [dotProduct, Fin.sum_univ_three, Real.sqrt_mul_self_eq_abs]

theorem poseDifference_one {w : Fin 3 → ℝ} (hw : len w < Real.pi) (p : Fin 3 → ℝ) :
    poseDifference ⟨1, 0⟩ (faMfb ⟨1, 0⟩ ⟨1, 0⟩ ⟨exp3 w, p⟩ ⟨1, 0⟩) = Sum.elim p w := by
  rw [faMfb_one, poseDifference]
  simp only [transpose_one, Matrix.one_mul, sub_zero, rotVec_exp3 hw]

/-- **C145, growth.** With the gain times the period equal to one and an angle of 150 degrees about the vertical, the position error becomes
longer at the first step, although every hypothesis but the quarter of a turn holds; after two steps it is zero. -/
theorem C145_grows_counterexample (svd : ∀ {m c : ℕ} (A : Matrix (Fin m) (Fin c) ℝ), Svd A) :
    ∃ (b : Fin 6 → ℝ) (d : Dev ℝ), d.state = nums (List.ofFn b ++ [5, 7]) ∧
      poseDifference ⟨1, 0⟩ (faMfb ⟨1, 0⟩ ⟨1, 0⟩ (poseRpyToHomo b) ⟨1, 0⟩) = Sum.elim ![1, 0, 0] ![0, 0, 5 * Real.pi / 6] ∧
      (∃ s b', steps (r3Loop svd 8 (1 / 10000) 10000 ⟨1, 0⟩ ⟨1, 0⟩ ⟨1, 0⟩ ⟨1, 0⟩ 10 (Flags.ofBool true) (1 / 10)) 1
          (start (r3Loop svd 8 (1 / 10000) 10000 ⟨1, 0⟩ ⟨1, 0⟩ ⟨1, 0⟩ ⟨1, 0⟩ 10 (Flags.ofBool true) (1 / 10)) d) = .ok s ∧
        s.dev.state = nums (List.ofFn b' ++ [5, 7]) ∧
        len (transPart (poseDifference ⟨1, 0⟩ (faMfb ⟨1, 0⟩ ⟨1, 0⟩ (poseRpyToHomo b) ⟨1, 0⟩))) <
          len (transPart (poseDifference ⟨1, 0⟩ (faMfb ⟨1, 0⟩ ⟨1, 0⟩ (poseRpyToHomo b') ⟨1, 0⟩)))) ∧
      ∀ k, ∃ s b', steps (r3Loop svd 8 (1 / 10000) 10000 ⟨1, 0⟩ ⟨1, 0⟩ ⟨1, 0⟩ ⟨1, 0⟩ 10 (Flags.ofBool true) (1 / 10)) (k + 2)
          (start (r3Loop svd 8 (1 / 10000) 10000 ⟨1, 0⟩ ⟨1, 0⟩ ⟨1, 0⟩ ⟨1, 0⟩ 10 (Flags.ofBool true) (1 / 10)) d) = .ok s ∧
        s.dev.state = nums (List.ofFn b' ++ [5, 7]) ∧
        poseDifference ⟨1, 0⟩ (faMfb ⟨1, 0⟩ ⟨1, 0⟩ (poseRpyToHomo b') ⟨1, 0⟩) = 0 := by
  have hpi := Real.pi_pos
  have hpi2 := Real.pi_lt_d2
  set w : Fin 3 → ℝ := ![0, 0, 5 * Real.pi / 6] with hwdef
  have hl : len w = 5 * Real.pi / 6 := by rw [hwdef, len_z, abs_of_pos (by positivity)]
  set b := homoToPoseRpy (⟨exp3 w, ![1, 0, 0]⟩ : Pose ℝ) with hb
  have hpose : poseRpyToHomo b = ⟨exp3 w, ![1, 0, 0]⟩ := C81_pose_rpy _ (isRot_exp3 _)
  have he : poseDifference ⟨1, 0⟩ (faMfb ⟨1, 0⟩ ⟨1, 0⟩ (poseRpyToHomo b) ⟨1, 0⟩) = Sum.elim ![1, 0, 0] w := by
    rw [hpose, poseDifference_one (by rw [hl]; linarith)]
  have hsmall : R3Small (1 / 10000) (10000 / 4) 10 ⟨1, 0⟩ (poseDifference ⟨1, 0⟩ (faMfb ⟨1, 0⟩ ⟨1, 0⟩ (poseRpyToHomo b) ⟨1, 0⟩)) := by
    rw [he]
    refine ⟨?_, ?_, ?_⟩
    · show len w < _
      rw [hl]; linarith
    · show (1 / 10000 : ℝ) ^ 2 * (2 + len (0 : Fin 3 → ℝ) ^ 2) < 1
      rw [len_zero]; norm_num
    · rw [sum_sq]
      show (10 : ℝ) ^ 2 * ((2 + len (0 : Fin 3 → ℝ) ^ 2) * (len ![1, 0, 0] ^ 2 + len w ^ 2)) ≤ _
      rw [len_zero, hl, len_sq]
      simp [dotProduct, Fin.sum_univ_three]
      nlinarith
  let d : Dev ℝ := { init with sanity := false, state := nums (List.ofFn b ++ [5, 7]), stateSOUT := nums (List.ofFn b ++ [5, 7]) }
  obtain ⟨⟨s, b', g1, g2, -, g4⟩, h⟩ := r3_twice svd (th := 1 / 10000) (maxSq := 10000) (gain := 10) (dt := 1 / 10) (joints := [5, 7])
    (selec := Flags.ofBool true) isRot_one isRot_one isRot_one isRot_one (fun j _ => by simp [Flags.call, Flags.ofBool]) (by norm_num) (d := d) (b := b)
    rfl rfl rfl rfl (by norm_num) hsmall
  refine ⟨b, d, rfl, he, ⟨s, b', g1, g2, ?_⟩, fun k => ?_⟩
  · simp only [transpose_one, one_mulVec] at g4
    have g5 : transPart (poseDifference ⟨1, 0⟩ (faMfb ⟨1, 0⟩ ⟨1, 0⟩ (poseRpyToHomo b') ⟨1, 0⟩)) = reduced 1 (-w) ![1, 0, 0] := by
      refine g4.trans ?_
      rw [he]
      congr 1
      exact congrArg transPart he
    have hnw : len (-w) = 5 * Real.pi / 6 := by rw [← hl, ← neg_one_smul ℝ w, len_smul]; simp
    have hne : -w ≠ 0 := fun h0 => by
      rw [h0, len_zero] at hnw
      linarith
    have hort := reduced_ortho 1 hne (z := ![1, 0, 0]) (by simp [hwdef, dotProduct, Fin.sum_univ_three])
    rw [he, g5]
    show len ![1, 0, 0] < _
    have h1 : len ![(1 : ℝ), 0, 0] = 1 := by simp [len, dotProduct, Fin.sum_univ_three]
    apply lt_of_pow_lt_pow_left₀ 2 (len_nonneg _)
    rw [hort, h1, hnw, factor]
    have hsin : Real.sin (5 * Real.pi / 6) = 1 / 2 := by
      rw [show 5 * Real.pi / 6 = Real.pi - Real.pi / 6 by ring, Real.sin_pi_sub, Real.sin_pi_div_six]
    have hcos : Real.cos (5 * Real.pi / 6) ≤ -(1 / 2) := by
      rw [show 5 * Real.pi / 6 = Real.pi - Real.pi / 6 by ring, Real.cos_pi_sub, Real.cos_pi_div_six]
      have : (1 : ℝ) ≤ √3 := Real.one_le_sqrt.mpr (by norm_num)
      linarith
    rw [hsin]
    set ph := 5 * Real.pi / 6 with hph
    have hp0 : 0 < ph := by positivity
    have hp1 : ph < 3 := by rw [hph]; linarith
    have e1 : (1 / 2) / ph = (ph / 2) / ph ^ 2 := by field_simp
    have e2 : (ph / 2) / ph ^ 2 < (1 - Real.cos ph) / ph ^ 2 := by
      apply div_lt_div_of_pos_right _ (by positivity)
      linarith
    rw [e1]
    linarith
  · obtain ⟨s, b', k1, k2, k3⟩ := h k
    refine ⟨s, b', k1, k2, ?_⟩
    exact (C97_error_zero _ _ (faMfb_isRot isRot_one isRot_one (pose_isRot b') isRot_one) isRot_one).mpr k3

/-- **C145, case.** A base more than three meters and one radian away from the desired pose, with two joints, the threshold `1e-4`, the gain 10
and the period of ten milliseconds: the hypotheses hold, and the base converges. -/
theorem C145_case (svd : ∀ {m c : ℕ} (A : Matrix (Fin m) (Fin c) ℝ), Svd A) :
    ∃ (b : Fin 6 → ℝ) (d : Dev ℝ) (base : Nat → Fin 6 → ℝ), d.state = nums (List.ofFn b ++ [5, 7]) ∧
      poseDifference ⟨1, 0⟩ (faMfb ⟨1, 0⟩ ⟨1, 0⟩ (poseRpyToHomo b) ⟨1, 0⟩) = Sum.elim ![1, 2, 3] ![0, 0, 1] ∧
      (∀ k, ∃ s, steps (r3Loop svd 8 (1 / 10000) 10000 ⟨1, 0⟩ ⟨1, 0⟩ ⟨1, 0⟩ ⟨1, 0⟩ 10 (Flags.ofBool true) (1 / 100)) k
          (start (r3Loop svd 8 (1 / 10000) 10000 ⟨1, 0⟩ ⟨1, 0⟩ ⟨1, 0⟩ ⟨1, 0⟩ 10 (Flags.ofBool true) (1 / 100)) d) = .ok s ∧
        s.dev.state = nums (List.ofFn (base k) ++ [5, 7])) ∧
      ∀ i, Tendsto (fun k => (poseRpyToHomo (base k)).t i) atTop (𝓝 0) := by
  have hpi := Real.pi_gt_three
  have hpi2 := Real.pi_lt_d2
  have hl : len ![(0 : ℝ), 0, 1] = 1 := by rw [len_z, abs_one]
  set b := homoToPoseRpy (⟨exp3 ![0, 0, 1], ![1, 2, 3]⟩ : Pose ℝ) with hb
  have hpose : poseRpyToHomo b = ⟨exp3 ![0, 0, 1], ![1, 2, 3]⟩ := C81_pose_rpy _ (isRot_exp3 _)
  have he : poseDifference ⟨1, 0⟩ (faMfb ⟨1, 0⟩ ⟨1, 0⟩ (poseRpyToHomo b) ⟨1, 0⟩) = Sum.elim ![1, 2, 3] ![0, 0, 1] := by
    rw [hpose, poseDifference_one (by rw [hl]; linarith)]
  have hrot : len (rotPart (poseDifference ⟨1, 0⟩ (faMfb ⟨1, 0⟩ ⟨1, 0⟩ (poseRpyToHomo b) ⟨1, 0⟩))) = 1 := by
    rw [he]; exact hl
  have hsmall : R3Small (1 / 10000) 10000 10 ⟨1, 0⟩ (poseDifference ⟨1, 0⟩ (faMfb ⟨1, 0⟩ ⟨1, 0⟩ (poseRpyToHomo b) ⟨1, 0⟩)) := by
    refine ⟨by rw [hrot]; linarith, ?_, ?_⟩
    · show (1 / 10000 : ℝ) ^ 2 * (2 + len (0 : Fin 3 → ℝ) ^ 2) < 1
      rw [len_zero]; norm_num
    · rw [he, show len (⟨1, 0⟩ : Pose ℝ).t = 0 from len_zero]
      simp [dotProduct, Fintype.sum_sum_type, Fin.sum_univ_three]
      norm_num
  let d : Dev ℝ := { init with sanity := false, state := nums (List.ofFn b ++ [5, 7]), stateSOUT := nums (List.ofFn b ++ [5, 7]) }
  obtain ⟨base, goal, g1, g2, -, -, g4⟩ := C145_converges svd (th := 1 / 10000) (maxSq := 10000) (gain := 10) (dt := 1 / 100) (joints := [5, 7])
    (selec := Flags.ofBool true) isRot_one isRot_one isRot_one isRot_one (fun j _ => by simp [Flags.call, Flags.ofBool]) (by norm_num) (d := d) (b := b)
    rfl rfl rfl rfl (by norm_num) (by linarith) (by rw [hrot]; linarith) hsmall
  refine ⟨b, d, base, rfl, he, g2, fun i => ?_⟩
  rw [faMfb_one] at g1
  have := g4 i
  rw [g1] at this
  exact this

end Verif.Loop
