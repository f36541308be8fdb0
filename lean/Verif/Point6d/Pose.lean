import Verif.Point6d.PoseModel
import Verif.Point6d.Relative
import Verif.Geometry.Props

/-!
# The feature of the pose of a frame with respect to another one (C97)
-/

namespace Verif.Point6d

open Matrix Verif.Geometry Verif.Features Verif.Spatial

/-! ### Products of frames that move, with six-dimensional velocities -/

theorem split6 (x : Fin 3 ⊕ Fin 3 → ℝ) : x = Sum.elim (transPart x) (rotPart x) := by funext k; cases k <;> rfl

theorem rot_cross {R : Matrix (Fin 3) (Fin 3) ℝ} (h : IsRot R) (a b : Fin 3 → ℝ) : R *ᵥ (a ⨯₃ b) = (R *ᵥ a) ⨯₃ (R *ᵥ b) := by
  rw [← skew_mulVec, ← skew_mulVec, mulVec_mulVec, mulVec_mulVec, h.skew_comm]

theorem twist_inv_action {B : Pose ℝ} (hB : IsRot B.R) (x : Fin 3 ⊕ Fin 3 → ℝ) :
    twist B.inv *ᵥ x = Sum.elim (B.Rᵀ *ᵥ (transPart x + rotPart x ⨯₃ B.t)) (B.Rᵀ *ᵥ rotPart x) := by
  conv_lhs => rw [split6 x]
  rw [C55_twist_action]
  congr 1
  · simp only [Pose.inv, hB.inv_eq]
    rw [mulVec_add, LinearMap.map_neg₂, ← rot_cross hB.transpose, ← cross_anticomm (rotPart x), mulVec_neg, neg_neg]
  · simp only [Pose.inv, hB.inv_eq]

theorem bt_mul {A B : ℝ → Pose ℝ} {x y : Fin 3 ⊕ Fin 3 → ℝ} {t : ℝ} (hB : IsRot (B t).R)
    (ha : BodyTwist A (transPart x) (rotPart x) t) (hb : BodyTwist B (transPart y) (rotPart y) t) :
    BodyTwist (fun s => (A s).mul (B s)) (transPart (twist (B t).inv *ᵥ x + y)) (rotPart (twist (B t).inv *ᵥ x + y)) t := by
  rw [twist_inv_action hB]
  exact bodyTwist_mul hB ha hb

theorem bt_inv {A : ℝ → Pose ℝ} {x : Fin 3 ⊕ Fin 3 → ℝ} {t : ℝ} (hA : ∀ s, IsRot (A s).R)
    (ha : BodyTwist A (transPart x) (rotPart x) t) :
    BodyTwist (fun s => (A s).inv) (transPart (-(twist (A t) *ᵥ x))) (rotPart (-(twist (A t) *ᵥ x))) t := by
  have h := bodyTwist_inv hA ha
  have e := C55_twist_action (A t) (transPart x) (rotPart x)
  rw [← split6 x] at e
  rw [e]
  exact h

theorem bt_const (A : Pose ℝ) (t : ℝ) : BodyTwist (fun _ => A) (transPart 0) (rotPart 0) t := by
  have h0 : skew (rotPart (0 : Fin 3 ⊕ Fin 3 → ℝ)) = 0 := by
    ext i j; fin_cases i <;> fin_cases j <;> simp [skew, rotPart]
  constructor
  · intro i j; rw [h0]; simpa using hasDerivAt_const t (A.R i j)
  · intro i
    rw [show transPart (0 : Fin 3 ⊕ Fin 3 → ℝ) = 0 from rfl]
    simpa using hasDerivAt_const t (A.t i)

theorem pose_mul_assoc (a b c : Pose ℝ) : (a.mul b).mul c = a.mul (b.mul c) := by
  apply Pose.ext
  · simp [Pose.mul, Matrix.mul_assoc]
  · simp only [Pose.mul, mulVec_add, mulVec_mulVec]
    abel

/-! ### The pose -/

section
variable (oMja jaMfa oMjb jbMfb : Pose ℝ)

theorem faMfb_eq : faMfb oMja jaMfa oMjb jbMfb = inFrame (oMja.mul jaMfa) (oMjb.mul jbMfb) := pose_mul_assoc _ _ _

theorem faMfb_isRot {oMja jaMfa oMjb jbMfb : Pose ℝ} (h1 : IsRot oMja.R) (h2 : IsRot jaMfa.R) (h3 : IsRot oMjb.R)
    (h4 : IsRot jbMfb.R) : IsRot (faMfb oMja jaMfa oMjb jbMfb).R := ((h1.mul h2).inv.mul h3).mul h4

theorem faRfb_eq {oMja jaMfa : Pose ℝ} (oMjb jbMfb : Pose ℝ) (h1 : IsRot oMja.R) (h2 : IsRot jaMfa.R) :
    faRfb oMja jaMfa oMjb jbMfb = (faMfb oMja jaMfa oMjb jbMfb).R := by
  simp only [faRfb, faMfb, Pose.mul, Pose.inv, (h1.mul h2).inv_eq, transpose_mul]
end

/-- **C97.** The pose that the feature controls is the one of frame B in frame A. -/
theorem C97_pose (oMja jaMfa oMjb jbMfb : Pose ℝ) (h1 : IsRot oMja.R) (h2 : IsRot jaMfa.R) :
    (oMja.mul jaMfa).mul (faMfb oMja jaMfa oMjb jbMfb) = oMjb.mul jbMfb := by
  rw [faMfb_eq]; exact Pose.mul_inv_mul (h1.mul h2)

/-- **C97.** The selected components of the error, of the Jacobian and of the error derivative. -/
theorem C97_selected {ι : Type} (sel : Nat → Bool) (oMja jaMfa oMjb jbMfb Mdes : Pose ℝ) (jaJja : Option (Matrix (Fin 3 ⊕ Fin 3) ι ℝ))
    (jbJjb : Matrix (Fin 3 ⊕ Fin 3) ι ℝ) (nu : Fin 3 ⊕ Fin 3 → ℝ) (res : List ℝ) (rows : List (ι → ℝ))
    (h1 : res.length = dimension sel) (h2 : rows.length = dimension sel) :
    poseComputeError sel oMja jaMfa oMjb jbMfb Mdes res
        = .ok ((picked sel 6).map (at6 (poseDifference Mdes (faMfb oMja jaMfa oMjb jbMfb)))) ∧
      poseComputeJacobian sel oMja jaMfa oMjb jbMfb Mdes jaJja jbJjb rows
        = .ok ((picked sel 6).map (at6 (poseJacobian oMja jaMfa oMjb jbMfb Mdes jaJja jbJjb))) ∧
      poseComputeErrorDot sel (faMfb oMja jaMfa oMjb jbMfb) Mdes (some nu) res
        = .ok ((picked sel 6).map (at6 (poseErrordot (faMfb oMja jaMfa oMjb jbMfb) Mdes nu))) ∧
      poseComputeErrorDot sel (faMfb oMja jaMfa oMjb jbMfb) Mdes none res = .ok (List.replicate (dimension sel) 0) :=
  ⟨fill_component sel _ res h1, fill_component sel _ rows h2, fill_component sel _ res h1, by rw [← h1]; rfl⟩

/-- **C97.** The error is zero exactly when the pose is the desired one. -/
theorem C97_error_zero (Mdes M : Pose ℝ) (hM : IsRot M.R) (hd : IsRot Mdes.R) : poseDifference Mdes M = 0 ↔ M = Mdes := by
  have hX : IsRot (Mdes.Rᵀ * M.R) := hd.transpose.mul hM
  constructor
  · intro h
    have ht : M.t - Mdes.t = 0 := by funext i; exact congrFun h (.inl i)
    have hR : rotVec (Mdes.Rᵀ * M.R) = 0 := by funext i; exact congrFun h (.inr i)
    have e := (rotVec_eq_zero hX).mp hR
    refine Pose.ext ?_ (sub_eq_zero.mp ht)
    have := congrArg (fun m => Mdes.R * m) e
    simpa [← Matrix.mul_assoc, hd.mul_transpose] using this
  · rintro rfl
    funext r
    rcases r with i | i
    · simp [poseDifference]
    · simp only [poseDifference, Sum.elim_inr, hM.1]
      rw [(rotVec_eq_zero isRot_one).mpr rfl]
      rfl

/-- **C97.** After `keep` the error is zero. -/
theorem C97_keep (oMja jaMfa oMjb jbMfb : Pose ℝ) (h1 : IsRot oMja.R) (h2 : IsRot jaMfa.R) (h3 : IsRot oMjb.R) (h4 : IsRot jbMfb.R) :
    poseDifference (poseKeep oMja jaMfa oMjb jbMfb) (faMfb oMja jaMfa oMjb jbMfb) = 0 :=
  (C97_error_zero _ _ (faMfb_isRot h1 h2 h3 h4) (faMfb_isRot h1 h2 h3 h4)).mpr rfl

/-! ### The velocities -/

section
variable {ι : Type} [Fintype ι] (oMja oMjb : ℝ → Pose ℝ) (jaMfa jbMfb : Pose ℝ) (ha : ∀ s, IsRot (oMja s).R) (hb : ∀ s, IsRot (oMjb s).R)
  (hfa : IsRot jaMfa.R) (hfb : IsRot jbMfb.R) (jaJja jbJjb : Matrix (Fin 3 ⊕ Fin 3) ι ℝ) (u : ι → ℝ) (t : ℝ)
  (hma : BodyTwist oMja (linPart jaJja u) (angPart jaJja u) t) (hmb : BodyTwist oMjb (linPart jbJjb u) (angPart jbJjb u) t)

include ha hfa hfb hma hmb hb

/-- **C97.** The velocity that the derivative of the difference multiplies, for the representation SE(3), is exactly the velocity of
frame B in frame A, in frame B. -/
theorem C97_se3_velocity :
    BodyTwist (fun s => faMfb (oMja s) jaMfa (oMjb s) jbMfb)
      (transPart (se3Velocity (oMja t) jaMfa (oMjb t) jbMfb (some jaJja) jbJjb u))
      (rotPart (se3Velocity (oMja t) jaMfa (oMjb t) jbMfb (some jaJja) jbJjb u)) t := by
  have e1 := bt_mul (A := oMja) (B := fun _ => jaMfa) (x := jaJja *ᵥ u) (y := 0) hfa hma (bt_const jaMfa t)
  have e2 := bt_mul (A := oMjb) (B := fun _ => jbMfb) (x := jbJjb *ᵥ u) (y := 0) hfb hmb (bt_const jbMfb t)
  have hP : ∀ s, IsRot ((oMja s).mul jaMfa).R := fun s => (ha s).mul hfa
  have hQ : IsRot ((oMjb t).mul jbMfb).R := (hb t).mul hfb
  have e3 := bt_mul hQ (bt_inv hP e1) e2
  simp only [faMfb_eq]
  have hN : IsRot (inFrame ((oMja t).mul jaMfa) ((oMjb t).mul jbMfb)).R := (hP t).inv.mul hQ
  have hX : twist (jaMfa.mul (inFrame ((oMja t).mul jaMfa) ((oMjb t).mul jbMfb))).inv
      = twist ((oMjb t).mul jbMfb).inv * twist ((oMja t).mul jaMfa) * twist jaMfa.inv := by
    set P := (oMja t).mul jaMfa with hPd
    set Q := (oMjb t).mul jbMfb with hQd
    obtain ⟨-, -, i1, i2, i3, -⟩ := C55_twist_inv (jaMfa.mul (inFrame P Q)) (hfa.mul hN)
    obtain ⟨-, -, -, j2, j3, -⟩ := C55_twist_inv P (hP t)
    obtain ⟨-, -, -, k2, k3, -⟩ := C55_twist_inv Q hQ
    obtain ⟨-, -, -, l2, l3, -⟩ := C55_twist_inv jaMfa hfa
    have hc : twist Q.inv * twist P * twist jaMfa.inv * twist (jaMfa.mul (inFrame P Q)) = 1 := by
      rw [C55_twist_mul _ _ hfa, show inFrame P Q = P.inv.mul Q from rfl, C55_twist_mul P.inv Q (hP t).inv]
      calc twist Q.inv * twist P * twist jaMfa.inv * (twist jaMfa * (twist P.inv * twist Q))
          = twist Q.inv * twist P * (twist jaMfa.inv * twist jaMfa) * (twist P.inv * twist Q) := by simp only [Matrix.mul_assoc]
        _ = twist Q.inv * (twist P * twist P.inv) * twist Q := by rw [l2, Matrix.mul_one]; simp only [Matrix.mul_assoc]
        _ = 1 := by rw [j3, Matrix.mul_one, k2]
    calc twist (jaMfa.mul (inFrame P Q)).inv
        = twist Q.inv * twist P * twist jaMfa.inv * twist (jaMfa.mul (inFrame P Q)) * twist (jaMfa.mul (inFrame P Q)).inv := by
          rw [hc, Matrix.one_mul]
      _ = _ := by rw [Matrix.mul_assoc _ (twist (jaMfa.mul (inFrame P Q))), i3, Matrix.mul_one]
  have hv : se3Velocity (oMja t) jaMfa (oMjb t) jbMfb (some jaJja) jbJjb u
      = twist ((oMjb t).mul jbMfb).inv *ᵥ (-(twist ((oMja t).mul jaMfa) *ᵥ (twist jaMfa.inv *ᵥ (jaJja *ᵥ u) + 0)))
        + (twist jbMfb.inv *ᵥ (jbJjb *ᵥ u) + 0) := by
    simp only [se3Velocity, faMfb_eq, hX, add_zero, mulVec_neg, mulVec_mulVec, Matrix.mul_assoc]
    abel
  rw [hv]
  exact e3

/-- The product that the Jacobian computes. -/
theorem poseJacobian_mulVec (Mdes : Pose ℝ) :
    poseJacobian (oMja t) jaMfa (oMjb t) jbMfb Mdes (some jaJja) jbJjb *ᵥ u
      = Sum.elim ((faMfb (oMja t) jaMfa (oMjb t) jbMfb).R *ᵥ
          transPart (se3Velocity (oMja t) jaMfa (oMjb t) jbMfb (some jaJja) jbJjb u))
        ((rightJac (rotVec (Mdes.Rᵀ * (faMfb (oMja t) jaMfa (oMjb t) jbMfb).R)))⁻¹ *ᵥ
          rotPart (se3Velocity (oMja t) jaMfa (oMjb t) jbMfb (some jaJja) jbJjb u)) := by
  have happ : ∀ (R : Matrix (Fin 3) (Fin 3) ℝ) (X : Matrix (Fin 3 ⊕ Fin 3) (Fin 3 ⊕ Fin 3) ℝ) (x : Fin 3 ⊕ Fin 3 → ℝ),
      applyTop R X *ᵥ x = Sum.elim (R *ᵥ transPart (X *ᵥ x)) (rotPart (X *ᵥ x)) := by
    intro R X x
    funext r
    rcases r with i | i
    · simp only [applyTop, mulVec, dotProduct, Sum.elim_inl, transPart, Finset.sum_mul, Finset.mul_sum]
      rw [Finset.sum_comm]
      simp only [mul_assoc]
    · rfl
  simp only [poseJacobian]
  rw [sub_mulVec, Matrix.mul_assoc, Matrix.mul_assoc, ← mulVec_mulVec, ← mulVec_mulVec, ← mulVec_mulVec, ← mulVec_mulVec, ← mulVec_sub,
    happ, happ, faRfb_eq _ _ (ha t) hfa]
  have : ∀ a b c d : Fin 3 → ℝ, Sum.elim a b - Sum.elim c d = Sum.elim (a - c) (b - d) := by
    intro a b c d; funext r; cases r <;> rfl
  rw [this, ← mulVec_sub, dDifference1, fromBlocks_mulVec]
  simp only [Sum.elim_comp_inl, Sum.elim_comp_inr, one_mulVec, zero_mulVec, add_zero, zero_add]
  rfl

/-- The velocity of the error, for a desired pose that moves with the velocity `nu`, the velocity of the origin of the fixed frame and
the angular velocity. -/
theorem pose_motion (Mdes : ℝ → Pose ℝ) (hd : ∀ s, IsRot (Mdes s).R) (nu : Fin 3 ⊕ Fin 3 → ℝ)
    (hmd : WorldTwist Mdes (transPart nu + rotPart nu ⨯₃ (Mdes t).t) (rotPart nu) t) :
    (∀ i, HasDerivAt (fun s => poseDifference (Mdes s) (faMfb (oMja s) jaMfa (oMjb s) jbMfb) (.inl i))
      ((poseJacobian (oMja t) jaMfa (oMjb t) jbMfb (Mdes t) (some jaJja) jbJjb *ᵥ u) (.inl i)
        - (transPart nu + rotPart nu ⨯₃ (Mdes t).t) i) t) ∧
    (rotPart (poseDifference (Mdes t) (faMfb (oMja t) jaMfa (oMjb t) jbMfb)) ⬝ᵥ
        rotPart (poseDifference (Mdes t) (faMfb (oMja t) jaMfa (oMjb t) jbMfb)) < Real.pi ^ 2 →
      ∀ i, HasDerivAt (fun s => poseDifference (Mdes s) (faMfb (oMja s) jaMfa (oMjb s) jbMfb) (.inr i))
        ((poseJacobian (oMja t) jaMfa (oMjb t) jbMfb (Mdes t) (some jaJja) jbJjb *ᵥ u) (.inr i)
          + poseErrordot (faMfb (oMja t) jaMfa (oMjb t) jbMfb) (Mdes t) nu (.inr i)) t) := by
  have hv := C97_se3_velocity oMja oMjb jaMfa jbMfb ha hb hfa hfb jaJja jbJjb u t hma hmb
  rw [poseJacobian_mulVec oMja oMjb jaMfa jbMfb ha hb hfa hfb jaJja jbJjb u t hma hmb]
  have hM : ∀ s, IsRot (faMfb (oMja s) jaMfa (oMjb s) jbMfb).R := fun s => faMfb_isRot (ha s) hfa (hb s) hfb
  obtain ⟨hr, -⟩ := relative_motion .desired (fun s => faMfb (oMja s) jaMfa (oMjb s) jbMfb) Mdes hM hd hv hmd
  refine ⟨fun i => ?_, fun hp i => ?_⟩
  · exact (hv.pos i).sub (hmd.pos i)
  · have hrel : ∀ s, (relative .desired (faMfb (oMja s) jaMfa (oMjb s) jbMfb) (some (Mdes s))).R
        = (Mdes s).Rᵀ * (faMfb (oMja s) jaMfa (oMjb s) jbMfb).R := by
      intro s; simp only [relative, Pose.mul, Pose.inv, (hd s).inv_eq]
    simp only [hrel] at hr
    have hX : ∀ s, IsRot ((Mdes s).Rᵀ * (faMfb (oMja s) jaMfa (oMjb s) jbMfb).R) := fun s => (hd s).transpose.mul (hM s)
    have hang : angle ((Mdes t).Rᵀ * (faMfb (oMja t) jaMfa (oMjb t) jbMfb).R) < Real.pi := by
      change rotVec _ ⬝ᵥ rotVec _ < _ at hp
      rw [rotVec_sq (hX t)] at hp
      exact lt_of_pow_lt_pow_left₀ 2 Real.pi_pos.le hp
    obtain ⟨e', h1, h2⟩ := rotVec_deriv _ hX _ t hr hang
    refine (h1 i).congr_deriv ?_
    have hu : IsUnit (rightJac (rotVec ((Mdes t).Rᵀ * (faMfb (oMja t) jaMfa (oMjb t) jbMfb).R))).det := by
      refine (det_rightJac_ne _ ?_).isUnit
      rw [rotVec_sq (hX t), Real.sqrt_sq (angle_nonneg (hX t))]
      linarith [Real.pi_pos]
    have he : e' = (rightJac (rotVec ((Mdes t).Rᵀ * (faMfb (oMja t) jaMfa (oMjb t) jbMfb).R)))⁻¹ *ᵥ
        (rightJac (rotVec ((Mdes t).Rᵀ * (faMfb (oMja t) jaMfa (oMjb t) jbMfb).R)) *ᵥ e') := by
      rw [mulVec_mulVec, nonsing_inv_mul _ hu, one_mulVec]
    rw [he, h2]
    have hdot : rotPart (poseErrordot (faMfb (oMja t) jaMfa (oMjb t) jbMfb) (Mdes t) nu)
        = -((rightJac (rotVec ((Mdes t).Rᵀ * (faMfb (oMja t) jaMfa (oMjb t) jbMfb).R)))⁻¹ *ᵥ
          ((faMfb (oMja t) jaMfa (oMjb t) jbMfb).Rᵀ *ᵥ rotPart nu)) := by
      have e : ((Mdes t).Rᵀ * (faMfb (oMja t) jaMfa (oMjb t) jbMfb).R)ᵀ * (Mdes t).Rᵀ
          = (faMfb (oMja t) jaMfa (oMjb t) jbMfb).Rᵀ := by
        rw [transpose_mul, transpose_transpose, Matrix.mul_assoc, (hd t).mul_transpose, Matrix.mul_one]
      funext k
      simp only [rotPart, poseErrordot, dDifference0, convertVelocity]
      rw [fromBlocks_mulVec]
      simp only [Sum.elim_inr, Sum.elim_comp_inl, Sum.elim_comp_inr, zero_mulVec, zero_add, mulVec_mulVec, Matrix.neg_mul, neg_mulVec]
      rw [Matrix.mul_assoc, e]
      rfl
    have hk := congrFun hdot i
    change poseErrordot _ _ _ (.inr i) = _ at hk
    rw [hk, mulVec_sub]
    rfl

/-- **C97.** With a fixed desired pose, away from the half turn, the Jacobian is exactly the derivative of the error, for all six
components. -/
theorem C97_jacobian (Mdes : Pose ℝ) (hd : IsRot Mdes.R)
    (hp : rotPart (poseDifference Mdes (faMfb (oMja t) jaMfa (oMjb t) jbMfb)) ⬝ᵥ
      rotPart (poseDifference Mdes (faMfb (oMja t) jaMfa (oMjb t) jbMfb)) < Real.pi ^ 2) :
    ∀ r, HasDerivAt (fun s => poseDifference Mdes (faMfb (oMja s) jaMfa (oMjb s) jbMfb) r)
      ((poseJacobian (oMja t) jaMfa (oMjb t) jbMfb Mdes (some jaJja) jbJjb *ᵥ u) r) t := by
  have hw : WorldTwist (fun _ => Mdes) (transPart (0 : Fin 3 ⊕ Fin 3 → ℝ) + rotPart 0 ⨯₃ Mdes.t) (rotPart 0) t := by
    have e : transPart (0 : Fin 3 ⊕ Fin 3 → ℝ) + rotPart 0 ⨯₃ Mdes.t = 0 := by
      rw [show rotPart (0 : Fin 3 ⊕ Fin 3 → ℝ) = 0 from rfl, show transPart (0 : Fin 3 ⊕ Fin 3 → ℝ) = 0 from rfl]
      simp
    rw [e]
    exact worldTwist_const Mdes t
  obtain ⟨h1, h2⟩ := pose_motion oMja oMjb jaMfa jbMfb ha hb hfa hfb jaJja jbJjb u t hma hmb (fun _ => Mdes) (fun _ => hd) 0 hw
  rintro (i | i)
  · refine (h1 i).congr_deriv ?_
    rw [show rotPart (0 : Fin 3 ⊕ Fin 3 → ℝ) = 0 from rfl, show transPart (0 : Fin 3 ⊕ Fin 3 → ℝ) = 0 from rfl]
    simp
  · refine (h2 hp i).congr_deriv ?_
    have : convertVelocity (faMfb (oMja t) jaMfa (oMjb t) jbMfb) Mdes 0 = 0 := by
      funext r
      rcases r with k | k
      · change ((0 : Fin 3 → ℝ) - _ ⨯₃ (0 : Fin 3 → ℝ)) k = 0
        simp
      · change (Mdes.Rᵀ *ᵥ (0 : Fin 3 → ℝ)) k = 0
        simp
    simp only [poseErrordot, this, mulVec_zero, Pi.zero_apply, add_zero]

/-- **C97.** Expected: when the desired pose moves, the error moves at the sum of what the Jacobian and the error derivative announce.
What holds: it does for the rotation, and for the translation when the angular velocity of the desired pose is along the translation
error. -/
theorem C97_errordot_partial (Mdes : ℝ → Pose ℝ) (hd : ∀ s, IsRot (Mdes s).R) (nu : Fin 3 ⊕ Fin 3 → ℝ)
    (hmd : WorldTwist Mdes (transPart nu + rotPart nu ⨯₃ (Mdes t).t) (rotPart nu) t)
    (hc : rotPart nu ⨯₃ transPart (poseDifference (Mdes t) (faMfb (oMja t) jaMfa (oMjb t) jbMfb)) = 0)
    (hp : rotPart (poseDifference (Mdes t) (faMfb (oMja t) jaMfa (oMjb t) jbMfb)) ⬝ᵥ
      rotPart (poseDifference (Mdes t) (faMfb (oMja t) jaMfa (oMjb t) jbMfb)) < Real.pi ^ 2) :
    ∀ r, HasDerivAt (fun s => poseDifference (Mdes s) (faMfb (oMja s) jaMfa (oMjb s) jbMfb) r)
      ((poseJacobian (oMja t) jaMfa (oMjb t) jbMfb (Mdes t) (some jaJja) jbJjb *ᵥ u) r
        + poseErrordot (faMfb (oMja t) jaMfa (oMjb t) jbMfb) (Mdes t) nu r) t := by
  obtain ⟨h1, h2⟩ := pose_motion oMja oMjb jaMfa jbMfb ha hb hfa hfb jaJja jbJjb u t hma hmb Mdes hd nu hmd
  rintro (i | i)
  · refine (h1 i).congr_deriv ?_
    have e : transPart (poseErrordot (faMfb (oMja t) jaMfa (oMjb t) jbMfb) (Mdes t) nu)
        = -(transPart nu - (faMfb (oMja t) jaMfa (oMjb t) jbMfb).t ⨯₃ rotPart nu) := by
      funext k
      simp only [transPart, poseErrordot, dDifference0, convertVelocity]
      rw [fromBlocks_mulVec]
      simp only [Sum.elim_inl, Sum.elim_comp_inl, Sum.elim_comp_inr, zero_mulVec, add_zero, neg_mulVec, one_mulVec]
      rfl
    have hk := congrFun e i
    change poseErrordot _ _ _ (.inl i) = _ at hk
    rw [hk]
    have hc' : rotPart nu ⨯₃ (faMfb (oMja t) jaMfa (oMjb t) jbMfb).t = rotPart nu ⨯₃ (Mdes t).t := by
      rw [← sub_eq_zero, ← map_sub]
      exact hc
    rw [← cross_anticomm (rotPart nu), hc']
    simp only [Pi.add_apply, Pi.sub_apply, Pi.neg_apply]
    ring
  · exact h2 hp i

end

/-- **C97.** Without the Jacobian of joint A, the rows are those of a joint A that does not move. -/
theorem C97_no_ja {ι : Type} (oMja jaMfa oMjb jbMfb Mdes : Pose ℝ) (jbJjb : Matrix (Fin 3 ⊕ Fin 3) ι ℝ) :
    poseJacobian oMja jaMfa oMjb jbMfb Mdes none jbJjb = poseJacobian oMja jaMfa oMjb jbMfb Mdes (some 0) jbJjb := by
  simp [poseJacobian]

/-- **C97.** The law that the task applies: when the joint velocities make the Jacobian announce `-lam` times the error, the error
decreases exponentially at the rate `lam`, exactly, from any error that is not a half turn; in particular frame B moves along a straight
line in frame A. -/
theorem C97_decay {ι : Type} [Fintype ι] (oMja oMjb : ℝ → Pose ℝ) (jaMfa jbMfb Mdes : Pose ℝ) (ha : ∀ s, IsRot (oMja s).R)
    (hb : ∀ s, IsRot (oMjb s).R) (hfa : IsRot jaMfa.R) (hfb : IsRot jbMfb.R) (hd : IsRot Mdes.R)
    (jaJja jbJjb : ℝ → Matrix (Fin 3 ⊕ Fin 3) ι ℝ) (u : ℝ → ι → ℝ) (lam : ℝ) (hl : 0 ≤ lam)
    (hma : ∀ t, 0 ≤ t → BodyTwist oMja (linPart (jaJja t) (u t)) (angPart (jaJja t) (u t)) t)
    (hmb : ∀ t, 0 ≤ t → BodyTwist oMjb (linPart (jbJjb t) (u t)) (angPart (jbJjb t) (u t)) t)
    (hc : ∀ t, 0 ≤ t → poseJacobian (oMja t) jaMfa (oMjb t) jbMfb Mdes (some (jaJja t)) (jbJjb t) *ᵥ u t
      = -lam • poseDifference Mdes (faMfb (oMja t) jaMfa (oMjb t) jbMfb))
    (h0 : rotPart (poseDifference Mdes (faMfb (oMja 0) jaMfa (oMjb 0) jbMfb)) ⬝ᵥ
      rotPart (poseDifference Mdes (faMfb (oMja 0) jaMfa (oMjb 0) jbMfb)) < Real.pi ^ 2) :
    ∀ t, 0 ≤ t → poseDifference Mdes (faMfb (oMja t) jaMfa (oMjb t) jbMfb)
      = Real.exp (-(lam * t)) • poseDifference Mdes (faMfb (oMja 0) jaMfa (oMjb 0) jbMfb) := by
  set e := fun s => poseDifference Mdes (faMfb (oMja s) jaMfa (oMjb s) jbMfb) with he
  set A := fun s => rotPart (e s) ⬝ᵥ rotPart (e s) with hA
  have hM : ∀ s, IsRot (faMfb (oMja s) jaMfa (oMjb s) jbMfb).R := fun s => faMfb_isRot (ha s) hfa (hb s) hfb
  have hX : ∀ s, IsRot (Mdes.Rᵀ * (faMfb (oMja s) jaMfa (oMjb s) jbMfb).R) := fun s => hd.transpose.mul (hM s)
  have hAa : ∀ s, A s = angle (Mdes.Rᵀ * (faMfb (oMja s) jaMfa (oMjb s) jbMfb).R) ^ 2 := fun s => rotVec_sq (hX s)
  have hcont : ∀ t, 0 ≤ t → ContinuousAt A t := by
    intro t ht
    have hv := C97_se3_velocity oMja oMjb jaMfa jbMfb ha hb hfa hfb (jaJja t) (jbJjb t) (u t) t (hma t ht) (hmb t ht)
    have hr := (relative_motion .desired (fun s => faMfb (oMja s) jaMfa (oMjb s) jbMfb) (fun _ => Mdes) hM (fun _ => hd) hv
      (worldTwist_const Mdes t)).1
    have hrel : ∀ s, (relative .desired (faMfb (oMja s) jaMfa (oMjb s) jbMfb) (some Mdes)).R
        = Mdes.Rᵀ * (faMfb (oMja s) jaMfa (oMjb s) jbMfb).R := by
      intro s; simp only [relative, Pose.mul, Pose.inv, hd.inv_eq]
    simp only [hrel] at hr
    have := (continuousAt_angle hX hr).pow 2
    exact this.congr (Filter.Eventually.of_forall fun s => (hAa s).symm)
  have hall : ∀ t, 0 ≤ t → A t < Real.pi ^ 2 → ∀ r, HasDerivAt (fun s => e s r) (-(lam * e t r)) t := by
    intro t ht hp r
    refine (C97_jacobian oMja oMjb jaMfa jbMfb ha hb hfa hfb (jaJja t) (jbJjb t) (u t) t (hma t ht) (hmb t ht) Mdes hd hp r).congr_deriv ?_
    rw [hc t ht]
    simp [he]
  have hder : ∀ t, 0 ≤ t → A t < Real.pi ^ 2 → HasDerivAt A (-(2 * lam * A t)) t := by
    intro t ht hp
    have hk := fun i : Fin 3 => hall t ht hp (.inr i)
    have h3 := (((hk 0).mul (hk 0)).add ((hk 1).mul (hk 1))).add ((hk 2).mul (hk 2))
    have eA : A = ((fun s => e s (.inr 0)) * (fun s => e s (.inr 0)) + (fun s => e s (.inr 1)) * (fun s => e s (.inr 1))) +
        (fun s => e s (.inr 2)) * (fun s => e s (.inr 2)) := by
      funext s; simp [hA, dotProduct, rotPart, Fin.sum_univ_three]
    rw [eA]
    refine h3.congr_deriv ?_
    simp only [Pi.add_apply, Pi.mul_apply]
    ring
  have hbound : ∀ t, 0 ≤ t → A t ≤ A 0 :=
    bounded_of_deriv (k := 2 * lam) (by linarith) (fun s => dot_self_nonneg _) hcont hder h0
  intro t ht
  funext r
  exact exp_of_deriv (f := fun s => e s r) (k := lam) (fun s hs => hall s hs (lt_of_le_of_lt (hbound s hs) h0) r) t ht

/-- **C97.** For the representation SE(3), the velocity given for the desired pose, expressed in frame A, is converted exactly to the
velocity in the desired frame. -/
theorem C97_se3_desired (Mdes : ℝ → Pose ℝ) (t : ℝ) (hd : IsRot (Mdes t).R) (nu : Fin 3 ⊕ Fin 3 → ℝ)
    (hmd : WorldTwist Mdes (transPart nu + rotPart nu ⨯₃ (Mdes t).t) (rotPart nu) t) :
    BodyTwist Mdes (transPart (se3ConvertVelocity (Mdes t) nu)) (rotPart (se3ConvertVelocity (Mdes t) nu)) t := by
  rw [se3ConvertVelocity, twist_inv_action hd]
  exact hmd.body hd

/-! ### The difference for a desired pose that turns -/

/-- **C97.** The translation part of the error derivative uses the current translation instead of the desired one: frame B rests one
unit away along the third axis from the desired pose, which turns about the first axis through its own origin, so the translation error
rests, and the error derivative announces a velocity. -/
theorem C97_errordot_counterexample :
    ∃ (Mdes : ℝ → Pose ℝ) (M : Pose ℝ) (nu : Fin 3 ⊕ Fin 3 → ℝ), (∀ s, IsRot (Mdes s).R) ∧ IsRot M.R ∧
      WorldTwist Mdes (transPart nu + rotPart nu ⨯₃ (Mdes 0).t) (rotPart nu) 0 ∧
      HasDerivAt (fun s => poseDifference (Mdes s) M (.inl 1)) 0 0 ∧ poseErrordot M (Mdes 0) nu (.inl 1) = 1 := by
  refine ⟨fun s => ⟨turnX s, 0⟩, ⟨1, ![0, 0, 1]⟩, Sum.elim 0 ![1, 0, 0], fun s => turnX_isRot s, isRot_one, ?_, ?_, ?_⟩
  · have hs := Real.hasDerivAt_sin 0
    have hc := Real.hasDerivAt_cos 0
    constructor
    · intro i j
      fin_cases i <;> fin_cases j <;> simp [turnX, mul_apply, Fin.sum_univ_three, skew, rotPart]
      · exact hasDerivAt_const (0 : ℝ) (1 : ℝ)
      · exact hasDerivAt_const (0 : ℝ) (0 : ℝ)
      · exact hasDerivAt_const (0 : ℝ) (0 : ℝ)
      · exact hasDerivAt_const (0 : ℝ) (0 : ℝ)
      · simpa using hc
      · exact hs.neg.congr_deriv (by simp)
      · exact hasDerivAt_const (0 : ℝ) (0 : ℝ)
      · simpa using hs
      · simpa using hc
    · intro i
      fin_cases i <;> simpa [transPart] using hasDerivAt_const (0 : ℝ) (0 : ℝ)
  · simpa [poseDifference] using hasDerivAt_const (0 : ℝ) (0 : ℝ)
  · simp [poseErrordot, dDifference0, convertVelocity, fromBlocks_mulVec, neg_mulVec, cross_apply]
    rfl

/-! ### A concrete motion: joint A rests, frame B turns back to the desired pose -/

theorem faMfb_one (M : Pose ℝ) : faMfb ⟨1, 0⟩ ⟨1, 0⟩ M ⟨1, 0⟩ = M := by
  apply Pose.ext <;> simp [faMfb, Pose.mul, Pose.inv]

example (t : ℝ) (ht : 0 ≤ t) :
    poseDifference ⟨1, 0⟩ ⟨turnX (Real.exp (-t)), 0⟩ = Real.exp (-(1 * t)) • poseDifference ⟨1, 0⟩ ⟨turnX (Real.exp (-0)), 0⟩ := by
  have hpi := Real.pi_gt_three
  have herr : ∀ s, 0 ≤ s → poseDifference ⟨1, 0⟩ ⟨turnX (Real.exp (-s)), 0⟩ = Sum.elim (0 : Fin 3 → ℝ) ![Real.exp (-s), 0, 0] := by
    intro s hs
    have : Real.exp (-s) ≤ 1 := Real.exp_le_one_iff.mpr (by linarith)
    simp only [poseDifference, transpose_one, Matrix.one_mul, sub_self]
    rw [turnX_rotVec (Real.exp_pos _).le (by linarith)]
  have hu1 : ∀ s, linPart (1 : Matrix (Fin 3 ⊕ Fin 3) (Fin 3 ⊕ Fin 3) ℝ) (Sum.elim (0 : Fin 3 → ℝ) ![-Real.exp (-s), 0, 0]) = 0 := by
    intro s; funext i; simp [linPart]
  have hu2 : ∀ s, angPart (1 : Matrix (Fin 3 ⊕ Fin 3) (Fin 3 ⊕ Fin 3) ℝ) (Sum.elim (0 : Fin 3 → ℝ) ![-Real.exp (-s), 0, 0])
      = ![-Real.exp (-s), 0, 0] := by
    intro s; funext i; simp [angPart]
  have hz1 : ∀ s, linPart (0 : Matrix (Fin 3 ⊕ Fin 3) (Fin 3 ⊕ Fin 3) ℝ) (Sum.elim (0 : Fin 3 → ℝ) ![-Real.exp (-s), 0, 0])
      = transPart 0 := by
    intro s; funext i; simp [linPart, transPart]
  have hz2 : ∀ s, angPart (0 : Matrix (Fin 3 ⊕ Fin 3) (Fin 3 ⊕ Fin 3) ℝ) (Sum.elim (0 : Fin 3 → ℝ) ![-Real.exp (-s), 0, 0])
      = rotPart 0 := by
    intro s; funext i; simp [angPart, rotPart]
  have ha : ∀ s, BodyTwist (fun _ => (⟨1, 0⟩ : Pose ℝ))
      (linPart (0 : Matrix (Fin 3 ⊕ Fin 3) (Fin 3 ⊕ Fin 3) ℝ) (Sum.elim (0 : Fin 3 → ℝ) ![-Real.exp (-s), 0, 0]))
      (angPart (0 : Matrix (Fin 3 ⊕ Fin 3) (Fin 3 ⊕ Fin 3) ℝ) (Sum.elim (0 : Fin 3 → ℝ) ![-Real.exp (-s), 0, 0])) s := by
    intro s; rw [hz1, hz2]; exact bt_const _ s
  have hb : ∀ s, BodyTwist (fun s => ⟨turnX (Real.exp (-s)), 0⟩)
      (linPart (1 : Matrix (Fin 3 ⊕ Fin 3) (Fin 3 ⊕ Fin 3) ℝ) (Sum.elim (0 : Fin 3 → ℝ) ![-Real.exp (-s), 0, 0]))
      (angPart (1 : Matrix (Fin 3 ⊕ Fin 3) (Fin 3 ⊕ Fin 3) ℝ) (Sum.elim (0 : Fin 3 → ℝ) ![-Real.exp (-s), 0, 0])) s := by
    intro s; rw [hu1, hu2]; exact decay_twist s
  have := C97_decay (fun _ => ⟨1, 0⟩) (fun s => ⟨turnX (Real.exp (-s)), 0⟩) ⟨1, 0⟩ ⟨1, 0⟩ ⟨1, 0⟩ (fun _ => isRot_one)
    (fun s => turnX_isRot _) isRot_one isRot_one isRot_one (fun _ => 0) (fun _ => 1)
    (fun t => Sum.elim (0 : Fin 3 → ℝ) ![-Real.exp (-t), 0, 0]) 1 zero_le_one (fun s _ => ha s) (fun s _ => hb s) ?_ ?_ t ht
  · simpa only [faMfb_one] using this
  · intro s hs
    rw [poseJacobian_mulVec (fun _ => ⟨1, 0⟩) (fun s => ⟨turnX (Real.exp (-s)), 0⟩) ⟨1, 0⟩ ⟨1, 0⟩ (fun _ => isRot_one)
      (fun s => turnX_isRot _) isRot_one isRot_one 0 1 _ s (ha s) (hb s)]
    have hv : se3Velocity ⟨1, 0⟩ ⟨1, 0⟩ ⟨turnX (Real.exp (-s)), 0⟩ ⟨1, 0⟩ (some 0) 1 (Sum.elim (0 : Fin 3 → ℝ) ![-Real.exp (-s), 0, 0])
        = Sum.elim (0 : Fin 3 → ℝ) ![-Real.exp (-s), 0, 0] := by
      simp only [se3Velocity, zero_mulVec, mulVec_zero, sub_zero, one_mulVec]
      have h1 : (⟨1, 0⟩ : Pose ℝ).inv = ⟨1, 0⟩ := by apply Pose.ext <;> simp [Pose.inv]
      rw [h1, C55_twist_action]
      simp
    rw [hv, faMfb_one, herr s hs]
    have hr : rotVec ((1 : Matrix (Fin 3) (Fin 3) ℝ)ᵀ * turnX (Real.exp (-s))) = ![Real.exp (-s), 0, 0] := by
      have := herr s hs
      funext i
      exact congrFun this (.inr i)
    change Sum.elim (_ *ᵥ (0 : Fin 3 → ℝ)) ((rightJac (rotVec _))⁻¹ *ᵥ ![-Real.exp (-s), 0, 0]) = _
    rw [hr]
    have hle : Real.exp (-s) ≤ 1 := Real.exp_le_one_iff.mpr (by linarith)
    have hu : IsUnit (rightJac ![Real.exp (-s), 0, 0]).det := by
      refine (det_rightJac_ne _ ?_).isUnit
      have : ![Real.exp (-s), 0, 0] ⬝ᵥ ![Real.exp (-s), 0, 0] = Real.exp (-s) ^ 2 := by
        simp [dotProduct, Fin.sum_univ_three]; ring
      rw [this, Real.sqrt_sq (Real.exp_pos _).le]
      linarith
    have hself : (rightJac ![Real.exp (-s), 0, 0])⁻¹ *ᵥ ![-Real.exp (-s), 0, 0] = ![-Real.exp (-s), 0, 0] := by
      have e : ![-Real.exp (-s), 0, 0] = -![Real.exp (-s), 0, 0] := by funext i; fin_cases i <;> simp
      have h := rightJac_self ![Real.exp (-s), 0, 0]
      have h' := congrArg (fun x => (rightJac ![Real.exp (-s), 0, 0])⁻¹ *ᵥ x) h
      simp only [mulVec_mulVec] at h'
      rw [nonsing_inv_mul _ hu, one_mulVec] at h'
      rw [e, mulVec_neg, ← h']
    rw [hself, mulVec_zero]
    funext r
    rcases r with i | i
    · simp
    · fin_cases i <;> simp
  · rw [faMfb_one, herr 0 le_rfl]
    have e : rotPart (Sum.elim (0 : Fin 3 → ℝ) ![Real.exp (-0), 0, 0]) ⬝ᵥ rotPart (Sum.elim (0 : Fin 3 → ℝ) ![Real.exp (-0), 0, 0]) = 1 := by
      simp [rotPart, dotProduct, Fin.sum_univ_three]
    rw [e]
    nlinarith

end Verif.Point6d
