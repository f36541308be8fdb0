import Verif.Point6d.Model
import Verif.Point6d.Rotation
import Verif.Features.Lemmas

/-!
# The error of the features of a position (C93)
-/

namespace Verif.Point6d

open Matrix Verif.Geometry Verif.Features

/-- Component `r` of a six-dimensional vector, in the order of the code. -/
def at6 {α : Type} (v : Fin 3 ⊕ Fin 3 → α) (r : Nat) : α :=
  if r = 0 then v (.inl 0) else if r = 1 then v (.inl 1) else if r = 2 then v (.inl 2)
  else if r = 3 then v (.inr 0) else if r = 4 then v (.inr 1) else v (.inr 2)

theorem component_eq {α : Type} (v : Fin 3 ⊕ Fin 3 → α) {r : Nat} (h : r < 6) : component v r = .ok (at6 v r) := by
  match r, h with
  | 0, _ => rfl
  | 1, _ => rfl
  | 2, _ => rfl
  | 3, _ => rfl
  | 4, _ => rfl
  | 5, _ => rfl

theorem fill_component {α : Type} (sel : Nat → Bool) (v : Fin 3 ⊕ Fin 3 → α) (res : List α) (h : res.length = dimension sel) :
    fillLoop sel (component v) 6 0 0 res = .ok ((picked sel 6).map (at6 v)) := by
  refine fillLoop_exact 6 res (fun k hk => component_eq v (mem_picked.mp hk).1) ?_
  rw [h, dimension, countLoop_zero]

/-! ### Frames -/

/-- The pose that a position and a rotation vector describe. -/
noncomputable def poseOf (e : Fin 3 ⊕ Fin 3 → ℝ) : Pose ℝ :=
  poseUThetaToHomo ![e (.inl 0), e (.inl 1), e (.inl 2), e (.inr 0), e (.inr 1), e (.inr 2)]

theorem rel_isRot (fr : Frame) {M Md : Pose ℝ} (hM : IsRot M.R) (hd : IsRot Md.R) : IsRot (relative fr M (some Md)).R := by
  cases fr
  · exact hd.inv.mul hM
  · exact hM.inv.mul hd

theorem errorFull_inl (fr : Frame) (M : Pose ℝ) (ref : Option (Pose ℝ)) (i : Fin 3) :
    errorFull fr M ref (.inl i) = (relative fr M ref).t i := rfl

theorem errorFull_inr (fr : Frame) (M : Pose ℝ) (ref : Option (Pose ℝ)) (i : Fin 3) :
    errorFull fr M ref (.inr i) = rotVec (relative fr M ref).R i := rfl

theorem mul_inv_cancel' {R : Matrix (Fin 3) (Fin 3) ℝ} (h : IsRot R) : R * R⁻¹ = 1 := by rw [h.inv_eq, h.mul_transpose]

theorem inv_mul_cancel' {R : Matrix (Fin 3) (Fin 3) ℝ} (h : IsRot R) : R⁻¹ * R = 1 := by rw [h.inv_eq, h.1]

theorem Pose.inv_mul_eq_one {A B : Pose ℝ} (hA : IsRot A.R) : A.inv.mul B = Pose.one ↔ A = B := by
  constructor
  · intro h
    have hR : A.R⁻¹ * B.R = 1 := congrArg Pose.R h
    have ht : A.R⁻¹ *ᵥ B.t + -(A.R⁻¹ *ᵥ A.t) = 0 := congrArg Pose.t h
    have e1 : B.R = A.R := by
      have := congrArg (fun m => A.R * m) hR
      simpa [← Matrix.mul_assoc, mul_inv_cancel' hA] using this
    have e2 : B.t = A.t := by
      have := congrArg (fun v => A.R *ᵥ v) ht
      simp only [mulVec_add, mulVec_neg, mulVec_mulVec, mul_inv_cancel' hA, one_mulVec, mulVec_zero] at this
      rwa [← sub_eq_add_neg, sub_eq_zero] at this
    exact Pose.ext e1.symm e2.symm
  · rintro rfl
    apply Pose.ext
    · exact inv_mul_cancel' hA
    · simp [Pose.mul, Pose.inv, Pose.one]

theorem Pose.mul_inv_mul {A B : Pose ℝ} (hA : IsRot A.R) : A.mul (A.inv.mul B) = B := by
  apply Pose.ext
  · simp [Pose.mul, Pose.inv, ← Matrix.mul_assoc, mul_inv_cancel' hA]
  · simp only [Pose.mul, Pose.inv, mulVec_add, mulVec_neg, mulVec_mulVec, mul_inv_cancel' hA, one_mulVec]
    abel

/-- **C93.** The dimension is the number of selected components, and the error, the Jacobian and the error derivative are the
selected components and rows, in order. -/
theorem C93_selected {ι : Type} (fr : Frame) (sel : Nat → Bool) (M : Pose ℝ) (ref : Option (Pose ℝ))
    (vel : Fin 3 ⊕ Fin 3 → ℝ) (Jq : Matrix (Fin 3 ⊕ Fin 3) ι ℝ) (res : List ℝ) (rows : List (ι → ℝ))
    (h1 : res.length = dimension sel) (h2 : rows.length = dimension sel) :
    dimension sel = (picked sel 6).length ∧
      computeError fr sel M ref res = .ok ((picked sel 6).map (at6 (errorFull fr M ref))) ∧
      computeJacobian fr sel M ref Jq rows = .ok ((picked sel 6).map (at6 (jacobianFull fr M ref Jq))) ∧
      computeErrordot fr sel M (ref.map fun m => (m, vel)) res
        = .ok ((picked sel 6).map (at6 (errordotFull fr M (ref.map fun m => (m, vel))))) :=
  ⟨countLoop_zero sel 6, fill_component sel _ res h1, fill_component sel _ rows h2, fill_component sel _ res h1⟩

/-- **C93.** The error describes exactly the motion between the frame and its reference: in the current frame the reference is
the frame displaced by the error, in the desired frame it is the converse. -/
theorem C93_error_motion (M Md : Pose ℝ) (hM : IsRot M.R) (hd : IsRot Md.R) :
    M.mul (poseOf (errorFull .current M (some Md))) = Md ∧ Md.mul (poseOf (errorFull .desired M (some Md))) = M := by
  have e : ∀ fr, poseOf (errorFull fr M (some Md)) = relative fr M (some Md) := fun fr =>
    utheta_back _ (rel_isRot fr hM hd) (relative fr M (some Md)).t
  rw [e, e]
  exact ⟨Pose.mul_inv_mul hM, Pose.mul_inv_mul hd⟩

/-- **C93.** The error is zero exactly when the frame is at its reference. -/
theorem C93_error_zero (fr : Frame) (M Md : Pose ℝ) (hM : IsRot M.R) (hd : IsRot Md.R) :
    errorFull fr M (some Md) = 0 ↔ M = Md := by
  have hX := rel_isRot fr hM hd
  have h1 : errorFull fr M (some Md) = 0 ↔ relative fr M (some Md) = Pose.one := by
    constructor
    · intro h
      have ht : (relative fr M (some Md)).t = 0 := by
        funext i; exact congrFun h (.inl i)
      have hR : rotVec (relative fr M (some Md)).R = 0 := by
        funext i; exact congrFun h (.inr i)
      exact Pose.ext ((rotVec_eq_zero hX).mp hR) ht
    · intro h
      funext r
      rcases r with i | i
      · rw [errorFull_inl, h]; rfl
      · rw [errorFull_inr, h, show rotVec (Pose.one : Pose ℝ).R = 0 from (rotVec_eq_zero isRot_one).mpr rfl]
        rfl
  rw [h1]
  cases fr
  · exact (Pose.inv_mul_eq_one hd).trans eq_comm
  · exact Pose.inv_mul_eq_one hM

/-- **C93.** The rotation part is never longer than half a turn, and its length is the angle between the frames, whatever the
frame of the computation. -/
theorem C93_rotation_bounded (fr fr' : Frame) (M Md : Pose ℝ) (hM : IsRot M.R) (hd : IsRot Md.R) :
    ∑ i, errorFull fr M (some Md) (.inr i) ^ 2 ≤ Real.pi ^ 2 ∧
      ∑ i, errorFull fr M (some Md) (.inr i) ^ 2 = ∑ i, errorFull fr' M (some Md) (.inr i) ^ 2 := by
  have hs : ∀ fr, ∑ i, errorFull fr M (some Md) (.inr i) ^ 2 = angle (relative fr M (some Md)).R ^ 2 := by
    intro fr
    rw [← rotVec_sq (rel_isRot fr hM hd)]
    simp [dotProduct, errorFull_inr, sq]
  have ht : (relative .current M (some Md)).R = ((relative .desired M (some Md)).R)ᵀ := by
    simp [relative, Pose.mul, Pose.inv, hM.inv_eq, hd.inv_eq]
  have ha : angle (relative .current M (some Md)).R = angle (relative .desired M (some Md)).R := by
    rw [angle_eq (rel_isRot .current hM hd), angle_eq (rel_isRot .desired hM hd), ht]
    simp
  refine ⟨?_, ?_⟩
  · rw [hs]
    exact pow_le_pow_left₀ (angle_nonneg (rel_isRot fr hM hd)) (angle_le_pi (rel_isRot fr hM hd)) 2
  · rw [hs, hs]
    cases fr <;> cases fr' <;> simp [ha]

/-- **C93.** The two frames of computation exchange the roles of the frame and of its reference. -/
theorem C93_frames (M Md : Pose ℝ) : errorFull .current M (some Md) = errorFull .desired Md (some M) := rfl

/-- **C93.** Without reference the error is the one to the origin. -/
theorem C93_no_reference (fr : Frame) (M : Pose ℝ) : errorFull fr M none = errorFull fr M (some Pose.one) := by
  have : relative fr M none = relative fr M (some Pose.one) := by
    cases fr
    · apply Pose.ext <;> simp [relative, Pose.mul, Pose.inv, Pose.one]
    · apply Pose.ext <;> simp [relative, Pose.mul, Pose.inv, Pose.one]
  simp [errorFull, this]

/-- **C93.** Moving the frame and its reference together, rigidly, does not change the error. -/
theorem C93_world_invariant (fr : Frame) (A M Md : Pose ℝ) (hA : IsRot A.R) (hM : IsRot M.R) (hd : IsRot Md.R) :
    errorFull fr (A.mul M) (some (A.mul Md)) = errorFull fr M (some Md) := by
  have key : ∀ M Md : Pose ℝ, IsRot M.R → (A.mul M).inv.mul (A.mul Md) = M.inv.mul Md := by
    intro M Md hM
    have hi : (A.R * M.R)⁻¹ * A.R = M.R⁻¹ := by
      rw [(hA.mul hM).inv_eq, hM.inv_eq, Matrix.transpose_mul, Matrix.mul_assoc, hA.1, Matrix.mul_one]
    apply Pose.ext
    · simp only [Pose.mul, Pose.inv]
      rw [← Matrix.mul_assoc, hi]
    · simp only [Pose.mul, Pose.inv, mulVec_add, mulVec_mulVec, hi]
      abel
  have : relative fr (A.mul M) (some (A.mul Md)) = relative fr M (some Md) := by
    cases fr
    · exact key Md M hd
    · exact key M Md hM
  simp [errorFull, this]

/-- **C93.** After `keep` the error is zero; without reference it is refused. -/
theorem C93_keep (fr : Frame) (M Md : Pose ℝ) (hM : IsRot M.R) :
    (∃ ref, keep M (some Md) = .ok ref ∧ errorFull fr M ref = 0) ∧ keep M none = .throw :=
  ⟨⟨some M, rfl, (C93_error_zero fr M M hM hM).mpr rfl⟩, rfl⟩

/-- **C93.** The names of the frames: what is set is what is read, and anything else is refused. -/
theorem C93_frame_names (fr : Frame) (s : String) :
    setFrame (getFrame fr) = .ok fr ∧ (setFrame s = .throw ↔ s ≠ "current" ∧ s ≠ "desired") := by
  refine ⟨by cases fr <;> rfl, ?_⟩
  unfold setFrame
  split_ifs with h1 h2 <;> simp_all

/-! A concrete case: a frame that turned by a quarter of a turn about the third axis and moved along the first one. -/

/-- A quarter of a turn about the third axis. -/
def quarter : Matrix (Fin 3) (Fin 3) ℝ := !![0, -1, 0; 1, 0, 0; 0, 0, 1]

theorem quarter_isRot : IsRot quarter := by
  refine ⟨?_, by simp [quarter, Matrix.det_fin_three]⟩
  ext i j
  fin_cases i <;> fin_cases j <;> simp [quarter, Matrix.mul_apply, Fin.sum_univ_three]

example : errorFull .desired ⟨quarter, ![1, 0, 0]⟩ (some ⟨1, 0⟩) ≠ 0 := by
  rw [Ne, C93_error_zero _ _ _ quarter_isRot isRot_one]
  intro h
  have := congrFun (congrArg Pose.t h) 0
  simp at this

example : angle quarter = Real.pi / 2 := by
  rw [angle_eq quarter_isRot]
  simp [quarter]

example : computeError .desired (fun i => i == 0 || i == 2) ⟨1, ![4, 5, 6]⟩ none [7, 7] = .ok [4, 6] := by
  have h := (C93_selected .desired (fun i => i == 0 || i == 2) ⟨1, ![4, 5, 6]⟩ none 0 (0 : Matrix _ Unit ℝ) [7, 7]
    [0, 0] rfl rfl).2.1
  rw [h]
  simp [picked, List.range_succ, at6, errorFull, relative]

end Verif.Point6d
