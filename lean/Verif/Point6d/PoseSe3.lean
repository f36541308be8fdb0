import Verif.Se3.Jlog
import Verif.Point6d.Pose

/-!
# The pose feature with the representation SE(3) (C141)

`FeaturePose<SE3Representation>`: `difference` and `dDifference` of pinocchio for the group of the rigid motions are the logarithm of the
motion from the desired pose to the current one and its derivatives, by the formulas of `Verif.Se3`.
-/

namespace Verif.Point6d

open Matrix Verif.Geometry Verif.Features Verif.Spatial Verif.Se3

/-- The call `LieGroup_t().difference` (include/sot/core/feature-pose.hxx:239) of pinocchio, for SE(3). -/
noncomputable def se3Difference (Mdes M : Pose ℝ) : Fin 3 ⊕ Fin 3 → ℝ :=
  Sum.elim (log6 (Mdes.inv.mul M)).1 (log6 (Mdes.inv.mul M)).2

/-- The call `LieGroup_t().dDifference<ARG1>` (include/sot/core/feature-pose.hxx:177-178) of pinocchio, for SE(3). -/
noncomputable def se3DDifference1 (Mdes M : Pose ℝ) : Matrix (Fin 3 ⊕ Fin 3) (Fin 3 ⊕ Fin 3) ℝ := jlog6 (Mdes.inv.mul M)

/-- The call `LieGroup_t().dDifference<ARG0>` (include/sot/core/feature-pose.hxx:293-294) of pinocchio, for SE(3). -/
noncomputable def se3DDifference0 (Mdes M : Pose ℝ) : Matrix (Fin 3 ⊕ Fin 3) (Fin 3 ⊕ Fin 3) ℝ :=
  -(jlog6 (Mdes.inv.mul M) * twist (Mdes.inv.mul M).inv)

/-- The six rows of the Jacobian, before the selection (include/sot/core/feature-pose.hxx:165-200), for SE(3): the rows are not rotated. -/
noncomputable def se3Jacobian {ι : Type} (oMja jaMfa oMjb jbMfb Mdes : Pose ℝ) (jaJja : Option (Matrix (Fin 3 ⊕ Fin 3) ι ℝ))
    (jbJjb : Matrix (Fin 3 ⊕ Fin 3) ι ℝ) : Matrix (Fin 3 ⊕ Fin 3) ι ℝ :=
  let M := faMfb oMja jaMfa oMjb jbMfb
  let Jminus := se3DDifference1 Mdes M
  let J := Jminus * twist jbMfb.inv * jbJjb
  match jaJja with
  | none => J
  | some Ja => J - Jminus * twist (jaMfa.mul M).inv * Ja

/-- The six components of `computeErrorDot`, before the selection (include/sot/core/feature-pose.hxx:291-299), for SE(3). -/
noncomputable def se3Errordot (M Mdes : Pose ℝ) (nu : Fin 3 ⊕ Fin 3 → ℝ) : Fin 3 ⊕ Fin 3 → ℝ :=
  se3DDifference0 Mdes M *ᵥ se3ConvertVelocity Mdes nu

/-- `computeJacobian` (include/sot/core/feature-pose.hxx:148-203), for SE(3). -/
noncomputable def se3ComputeJacobian {ι : Type} (sel : Nat → Bool) (oMja jaMfa oMjb jbMfb Mdes : Pose ℝ)
    (jaJja : Option (Matrix (Fin 3 ⊕ Fin 3) ι ℝ)) (jbJjb : Matrix (Fin 3 ⊕ Fin 3) ι ℝ) (res : List (ι → ℝ)) : Outcome (List (ι → ℝ)) :=
  fillLoop sel (component (se3Jacobian oMja jaMfa oMjb jbMfb Mdes jaJja jbJjb)) 6 0 0 res

/-- `computeError` (include/sot/core/feature-pose.hxx:231-247), for SE(3). -/
noncomputable def se3ComputeError (sel : Nat → Bool) (oMja jaMfa oMjb jbMfb Mdes : Pose ℝ) (res : List ℝ) : Outcome (List ℝ) :=
  fillLoop sel (component (se3Difference Mdes (faMfb oMja jaMfa oMjb jbMfb))) 6 0 0 res

/-- `computeErrorDot` (include/sot/core/feature-pose.hxx:272-302), for SE(3). `nu` is present when the signal is plugged. -/
noncomputable def se3ComputeErrorDot (sel : Nat → Bool) (M Mdes : Pose ℝ) (nu : Option (Fin 3 ⊕ Fin 3 → ℝ)) (res : List ℝ) :
    Outcome (List ℝ) :=
  match nu with
  | none => .ok (List.replicate res.length 0)
  | some n => fillLoop sel (component (se3Errordot M Mdes n)) 6 0 0 res

/-! ### Error -/

/-- **C141.** The selected components of the error, of the Jacobian and of the error derivative. -/
theorem C141_selected {ι : Type} (sel : Nat → Bool) (oMja jaMfa oMjb jbMfb Mdes : Pose ℝ) (jaJja : Option (Matrix (Fin 3 ⊕ Fin 3) ι ℝ))
    (jbJjb : Matrix (Fin 3 ⊕ Fin 3) ι ℝ) (nu : Fin 3 ⊕ Fin 3 → ℝ) (res : List ℝ) (rows : List (ι → ℝ))
    (h1 : res.length = dimension sel) (h2 : rows.length = dimension sel) :
    se3ComputeError sel oMja jaMfa oMjb jbMfb Mdes res
        = .ok ((picked sel 6).map (at6 (se3Difference Mdes (faMfb oMja jaMfa oMjb jbMfb)))) ∧
      se3ComputeJacobian sel oMja jaMfa oMjb jbMfb Mdes jaJja jbJjb rows
        = .ok ((picked sel 6).map (at6 (se3Jacobian oMja jaMfa oMjb jbMfb Mdes jaJja jbJjb))) ∧
      se3ComputeErrorDot sel (faMfb oMja jaMfa oMjb jbMfb) Mdes (some nu) res
        = .ok ((picked sel 6).map (at6 (se3Errordot (faMfb oMja jaMfa oMjb jbMfb) Mdes nu))) ∧
      se3ComputeErrorDot sel (faMfb oMja jaMfa oMjb jbMfb) Mdes none res = .ok (List.replicate (dimension sel) 0) :=
  ⟨fill_component sel _ res h1, fill_component sel _ rows h2, fill_component sel _ res h1, by rw [← h1]; rfl⟩

theorem se3Difference_eq_zero_iff (Mdes M : Pose ℝ) : se3Difference Mdes M = 0 ↔ log6 (Mdes.inv.mul M) = 0 := by
  constructor
  · intro h
    refine Prod.ext ?_ ?_ <;> funext i
    · exact congrFun h (.inl i)
    · exact congrFun h (.inr i)
  · intro h
    funext r
    rw [se3Difference, h]
    cases r <;> rfl

/-- **C141.** The error is zero exactly when the pose is the desired one. -/
theorem C141_error_zero (Mdes M : Pose ℝ) (hM : IsRot M.R) (hd : IsRot Mdes.R) : se3Difference Mdes M = 0 ↔ M = Mdes := by
  rw [se3Difference_eq_zero_iff, log6_eq_zero (hd.inv.mul hM), Pose.inv_mul_eq_one hd, eq_comm]

/-- **C141.** The error is the displacement from the desired pose: a body that starts there and moves during one unit of time at that
velocity, constant in its own frame, ends at the current pose. -/
theorem C141_error (Mdes M : Pose ℝ) (hM : IsRot M.R) (hd : IsRot Mdes.R) (N : ℝ → Pose ℝ) (h0 : N 0 = Mdes)
    (hN : ∀ s, BodyTwist N (transPart (se3Difference Mdes M)) (rotPart (se3Difference Mdes M)) s) : N 1 = M := by
  have h := motion_unique N (log6 (Mdes.inv.mul M)) hN 1
  rw [h, one_smul, exp6_log6 (hd.inv.mul hM), h0, Pose.mul_inv_mul hd]

/-- **C141.** After `keep` the error is zero. -/
theorem C141_keep (oMja jaMfa oMjb jbMfb : Pose ℝ) (h1 : IsRot oMja.R) (h2 : IsRot jaMfa.R) (h3 : IsRot oMjb.R) (h4 : IsRot jbMfb.R) :
    se3Difference (poseKeep oMja jaMfa oMjb jbMfb) (faMfb oMja jaMfa oMjb jbMfb) = 0 :=
  (C141_error_zero _ _ (faMfb_isRot h1 h2 h3 h4) (faMfb_isRot h1 h2 h3 h4)).mpr rfl

/-- **C141.** Without the Jacobian of joint A, the rows are those of a joint A that does not move. -/
theorem C141_no_ja {ι : Type} (oMja jaMfa oMjb jbMfb Mdes : Pose ℝ) (jbJjb : Matrix (Fin 3 ⊕ Fin 3) ι ℝ) :
    se3Jacobian oMja jaMfa oMjb jbMfb Mdes none jbJjb = se3Jacobian oMja jaMfa oMjb jbMfb Mdes (some 0) jbJjb := by
  simp [se3Jacobian]

/-! ### Velocities -/

theorem se3Jacobian_mulVec {ι : Type} [Fintype ι] (oMja jaMfa oMjb jbMfb Mdes : Pose ℝ) (jaJja jbJjb : Matrix (Fin 3 ⊕ Fin 3) ι ℝ) (u : ι → ℝ) :
    se3Jacobian oMja jaMfa oMjb jbMfb Mdes (some jaJja) jbJjb *ᵥ u
      = jlog6 (Mdes.inv.mul (faMfb oMja jaMfa oMjb jbMfb)) *ᵥ se3Velocity oMja jaMfa oMjb jbMfb (some jaJja) jbJjb u := by
  simp only [se3Jacobian, se3Velocity, se3DDifference1, sub_mulVec, mulVec_sub, mulVec_mulVec, Matrix.mul_assoc]

theorem twist_rel {A B : Pose ℝ} (hA : IsRot A.R) (hB : IsRot B.R) : twist (A.inv.mul B).inv = twist B.inv * twist A := by
  obtain ⟨-, -, -, i2, i3, -⟩ := C55_twist_inv (A.inv.mul B) (hA.inv.mul hB)
  obtain ⟨-, -, -, j2, j3, -⟩ := C55_twist_inv A hA
  obtain ⟨-, -, -, k2, k3, -⟩ := C55_twist_inv B hB
  have hc : twist B.inv * twist A * twist (A.inv.mul B) = 1 := by
    rw [C55_twist_mul A.inv B hA.inv]
    calc twist B.inv * twist A * (twist A.inv * twist B) = twist B.inv * (twist A * twist A.inv) * twist B := by simp only [Matrix.mul_assoc]
      _ = 1 := by rw [j3, Matrix.mul_one, k2]
  calc twist (A.inv.mul B).inv = twist B.inv * twist A * twist (A.inv.mul B) * twist (A.inv.mul B).inv := by rw [hc, Matrix.one_mul]
    _ = _ := by rw [Matrix.mul_assoc, i3, Matrix.mul_one]

section
variable {ι : Type} [Fintype ι] (oMja oMjb : ℝ → Pose ℝ) (jaMfa jbMfb : Pose ℝ) (ha : ∀ s, IsRot (oMja s).R) (hb : ∀ s, IsRot (oMjb s).R)
  (hfa : IsRot jaMfa.R) (hfb : IsRot jbMfb.R) (jaJja jbJjb : Matrix (Fin 3 ⊕ Fin 3) ι ℝ) (u : ι → ℝ) (t : ℝ)
  (hma : BodyTwist oMja (linPart jaJja u) (angPart jaJja u) t) (hmb : BodyTwist oMjb (linPart jbJjb u) (angPart jbJjb u) t)

include ha hfa hfb hma hmb hb

/-- The relative motion of the pose and of the desired pose. -/
theorem se3_relative_motion (Mdes : ℝ → Pose ℝ) (hd : ∀ s, IsRot (Mdes s).R) (nu : Fin 3 ⊕ Fin 3 → ℝ)
    (hmd : WorldTwist Mdes (transPart nu + rotPart nu ⨯₃ (Mdes t).t) (rotPart nu) t) :
    BodyTwist (fun s => (Mdes s).inv.mul (faMfb (oMja s) jaMfa (oMjb s) jbMfb))
      (transPart (se3Velocity (oMja t) jaMfa (oMjb t) jbMfb (some jaJja) jbJjb u -
        twist ((Mdes t).inv.mul (faMfb (oMja t) jaMfa (oMjb t) jbMfb)).inv *ᵥ se3ConvertVelocity (Mdes t) nu))
      (rotPart (se3Velocity (oMja t) jaMfa (oMjb t) jbMfb (some jaJja) jbJjb u -
        twist ((Mdes t).inv.mul (faMfb (oMja t) jaMfa (oMjb t) jbMfb)).inv *ᵥ se3ConvertVelocity (Mdes t) nu)) t := by
  have hv := C97_se3_velocity oMja oMjb jaMfa jbMfb ha hb hfa hfb jaJja jbJjb u t hma hmb
  have hw := C97_se3_desired Mdes t (hd t) nu hmd
  have hM : IsRot (faMfb (oMja t) jaMfa (oMjb t) jbMfb).R := faMfb_isRot (ha t) hfa (hb t) hfb
  have e := bt_mul hM (bt_inv hd hw) hv
  rw [mulVec_neg, mulVec_mulVec, ← twist_rel (hd t) hM, neg_add_eq_sub] at e
  exact e

/-- **C141.** When the desired pose moves, the error moves, for its six components, at the sum of what the Jacobian and the error
derivative announce, away from the half turn. -/
theorem C141_errordot (Mdes : ℝ → Pose ℝ) (hd : ∀ s, IsRot (Mdes s).R) (nu : Fin 3 ⊕ Fin 3 → ℝ)
    (hmd : WorldTwist Mdes (transPart nu + rotPart nu ⨯₃ (Mdes t).t) (rotPart nu) t)
    (hp : rotPart (se3Difference (Mdes t) (faMfb (oMja t) jaMfa (oMjb t) jbMfb)) ⬝ᵥ
      rotPart (se3Difference (Mdes t) (faMfb (oMja t) jaMfa (oMjb t) jbMfb)) < Real.pi ^ 2) :
    ∀ r, HasDerivAt (fun s => se3Difference (Mdes s) (faMfb (oMja s) jaMfa (oMjb s) jbMfb) r)
      ((se3Jacobian (oMja t) jaMfa (oMjb t) jbMfb (Mdes t) (some jaJja) jbJjb *ᵥ u) r
        + se3Errordot (faMfb (oMja t) jaMfa (oMjb t) jbMfb) (Mdes t) nu r) t := by
  intro r
  have hM : ∀ s, IsRot (faMfb (oMja s) jaMfa (oMjb s) jbMfb).R := fun s => faMfb_isRot (ha s) hfa (hb s) hfb
  have hX : ∀ s, IsRot ((Mdes s).inv.mul (faMfb (oMja s) jaMfa (oMjb s) jbMfb)).R := fun s => (hd s).inv.mul (hM s)
  have hang : angle ((Mdes t).inv.mul (faMfb (oMja t) jaMfa (oMjb t) jbMfb)).R < Real.pi := by
    change rotVec _ ⬝ᵥ rotVec _ < _ at hp
    rw [rotVec_sq (hX t)] at hp
    exact lt_of_pow_lt_pow_left₀ 2 Real.pi_pos.le hp
  have h := log6_deriv _ hX (se3_relative_motion oMja oMjb jaMfa jbMfb ha hb hfa hfb jaJja jbJjb u t hma hmb Mdes hd nu hmd) hang r
  refine h.congr_deriv ?_
  rw [← split6, mulVec_sub, se3Jacobian_mulVec, se3Errordot, se3DDifference0, neg_mulVec, ← mulVec_mulVec, Pi.sub_apply, Pi.neg_apply]
  rfl

/-- **C141.** With a fixed desired pose, away from the half turn, the Jacobian is exactly the derivative of the error, for its six
components. -/
theorem C141_jacobian (Mdes : Pose ℝ) (hd : IsRot Mdes.R)
    (hp : rotPart (se3Difference Mdes (faMfb (oMja t) jaMfa (oMjb t) jbMfb)) ⬝ᵥ
      rotPart (se3Difference Mdes (faMfb (oMja t) jaMfa (oMjb t) jbMfb)) < Real.pi ^ 2) :
    ∀ r, HasDerivAt (fun s => se3Difference Mdes (faMfb (oMja s) jaMfa (oMjb s) jbMfb) r)
      ((se3Jacobian (oMja t) jaMfa (oMjb t) jbMfb Mdes (some jaJja) jbJjb *ᵥ u) r) t := by
  have hw : WorldTwist (fun _ => Mdes) (transPart (0 : Fin 3 ⊕ Fin 3 → ℝ) + rotPart 0 ⨯₃ Mdes.t) (rotPart 0) t := by
    have e : transPart (0 : Fin 3 ⊕ Fin 3 → ℝ) + rotPart 0 ⨯₃ Mdes.t = 0 := by
      rw [show rotPart (0 : Fin 3 ⊕ Fin 3 → ℝ) = 0 from rfl, show transPart (0 : Fin 3 ⊕ Fin 3 → ℝ) = 0 from rfl]
      simp
    rw [e]
    exact worldTwist_const Mdes t
  intro r
  refine (C141_errordot oMja oMjb jaMfa jbMfb ha hb hfa hfb jaJja jbJjb u t hma hmb (fun _ => Mdes) (fun _ => hd) 0 hw hp r).congr_deriv ?_
  simp [se3Errordot, se3ConvertVelocity]

end

/-- **C141.** The law that the task applies: when the joint velocities make the Jacobian announce `-lam` times the error, the error
decreases exponentially at the rate `lam`, exactly, from any error that is not a half turn. -/
theorem C141_decay {ι : Type} [Fintype ι] (oMja oMjb : ℝ → Pose ℝ) (jaMfa jbMfb Mdes : Pose ℝ) (ha : ∀ s, IsRot (oMja s).R)
    (hb : ∀ s, IsRot (oMjb s).R) (hfa : IsRot jaMfa.R) (hfb : IsRot jbMfb.R) (hd : IsRot Mdes.R)
    (jaJja jbJjb : ℝ → Matrix (Fin 3 ⊕ Fin 3) ι ℝ) (u : ℝ → ι → ℝ) (lam : ℝ) (hl : 0 ≤ lam)
    (hma : ∀ t, 0 ≤ t → BodyTwist oMja (linPart (jaJja t) (u t)) (angPart (jaJja t) (u t)) t)
    (hmb : ∀ t, 0 ≤ t → BodyTwist oMjb (linPart (jbJjb t) (u t)) (angPart (jbJjb t) (u t)) t)
    (hc : ∀ t, 0 ≤ t → se3Jacobian (oMja t) jaMfa (oMjb t) jbMfb Mdes (some (jaJja t)) (jbJjb t) *ᵥ u t
      = -lam • se3Difference Mdes (faMfb (oMja t) jaMfa (oMjb t) jbMfb))
    (h0 : rotPart (se3Difference Mdes (faMfb (oMja 0) jaMfa (oMjb 0) jbMfb)) ⬝ᵥ
      rotPart (se3Difference Mdes (faMfb (oMja 0) jaMfa (oMjb 0) jbMfb)) < Real.pi ^ 2) :
    ∀ t, 0 ≤ t → se3Difference Mdes (faMfb (oMja t) jaMfa (oMjb t) jbMfb)
      = Real.exp (-(lam * t)) • se3Difference Mdes (faMfb (oMja 0) jaMfa (oMjb 0) jbMfb) := by
  set e := fun s => se3Difference Mdes (faMfb (oMja s) jaMfa (oMjb s) jbMfb) with he
  set A := fun s => rotPart (e s) ⬝ᵥ rotPart (e s) with hA
  have hM : ∀ s, IsRot (faMfb (oMja s) jaMfa (oMjb s) jbMfb).R := fun s => faMfb_isRot (ha s) hfa (hb s) hfb
  have hX : ∀ s, IsRot (Mdes.inv.mul (faMfb (oMja s) jaMfa (oMjb s) jbMfb)).R := fun s => hd.inv.mul (hM s)
  have hAa : ∀ s, A s = angle (Mdes.inv.mul (faMfb (oMja s) jaMfa (oMjb s) jbMfb)).R ^ 2 := fun s => rotVec_sq (hX s)
  have hcont : ∀ t, 0 ≤ t → ContinuousAt A t := by
    intro t ht
    have hw : WorldTwist (fun _ => Mdes) (transPart (0 : Fin 3 ⊕ Fin 3 → ℝ) + rotPart 0 ⨯₃ Mdes.t) (rotPart 0) t := by
      have e : transPart (0 : Fin 3 ⊕ Fin 3 → ℝ) + rotPart 0 ⨯₃ Mdes.t = 0 := by
        rw [show rotPart (0 : Fin 3 ⊕ Fin 3 → ℝ) = 0 from rfl, show transPart (0 : Fin 3 ⊕ Fin 3 → ℝ) = 0 from rfl]
        simp
      rw [e]
      exact worldTwist_const Mdes t
    have hr := (se3_relative_motion oMja oMjb jaMfa jbMfb ha hb hfa hfb (jaJja t) (jbJjb t) (u t) t (hma t ht) (hmb t ht) (fun _ => Mdes)
      (fun _ => hd) 0 hw).rot
    have := (continuousAt_angle hX hr).pow 2
    exact this.congr (Filter.Eventually.of_forall fun s => (hAa s).symm)
  have hall : ∀ t, 0 ≤ t → A t < Real.pi ^ 2 → ∀ r, HasDerivAt (fun s => e s r) (-(lam * e t r)) t := by
    intro t ht hp r
    refine (C141_jacobian oMja oMjb jaMfa jbMfb ha hb hfa hfb (jaJja t) (jbJjb t) (u t) t (hma t ht) (hmb t ht) Mdes hd hp r).congr_deriv ?_
    rw [hc t ht]
    simp [he]
  have hder : ∀ t, 0 ≤ t → A t < Real.pi ^ 2 → HasDerivAt A (-(2 * lam * A t)) t := by
    intro t ht hp
    have hk := fun i : Fin 3 => hall t ht hp (.inr i)
    have h3 := (((hk 0).mul (hk 0)).add ((hk 1).mul (hk 1))).add ((hk 2).mul (hk 2))
    have eA : A = ((fun s => e s (.inr 0)) * (fun s => e s (.inr 0)) + (fun s => e s (.inr 1)) * (fun s => e s (.inr 1))) +
        (fun s => e s (.inr 2)) * (fun s => e s (.inr 2)) := by
      funext s; simp [hA, dotProduct, rotPart, Fin.sum_univ_three]
    rw [eA]
    refine h3.congr_deriv ?_
    simp only [Pi.add_apply, Pi.mul_apply]
    ring
  have hbound : ∀ t, 0 ≤ t → A t ≤ A 0 :=
    bounded_of_deriv (k := 2 * lam) (by linarith) (fun s => dot_self_nonneg _) hcont hder h0
  intro t ht
  funext r
  exact exp_of_deriv (f := fun s => e s r) (k := lam) (fun s hs => hall s hs (lt_of_le_of_lt (hbound s hs) h0) r) t ht

/-- **C141.** Under that law, frame B goes to the desired pose along the motion of a screw: it is at every date on the motion with a
constant velocity that leads from the desired pose to the first one, `N`, at the date `exp(-lam t)`. -/
theorem C141_screw {ι : Type} [Fintype ι] (oMja oMjb : ℝ → Pose ℝ) (jaMfa jbMfb Mdes : Pose ℝ) (ha : ∀ s, IsRot (oMja s).R)
    (hb : ∀ s, IsRot (oMjb s).R) (hfa : IsRot jaMfa.R) (hfb : IsRot jbMfb.R) (hd : IsRot Mdes.R)
    (jaJja jbJjb : ℝ → Matrix (Fin 3 ⊕ Fin 3) ι ℝ) (u : ℝ → ι → ℝ) (lam : ℝ) (hl : 0 ≤ lam)
    (hma : ∀ t, 0 ≤ t → BodyTwist oMja (linPart (jaJja t) (u t)) (angPart (jaJja t) (u t)) t)
    (hmb : ∀ t, 0 ≤ t → BodyTwist oMjb (linPart (jbJjb t) (u t)) (angPart (jbJjb t) (u t)) t)
    (hc : ∀ t, 0 ≤ t → se3Jacobian (oMja t) jaMfa (oMjb t) jbMfb Mdes (some (jaJja t)) (jbJjb t) *ᵥ u t
      = -lam • se3Difference Mdes (faMfb (oMja t) jaMfa (oMjb t) jbMfb))
    (h0 : rotPart (se3Difference Mdes (faMfb (oMja 0) jaMfa (oMjb 0) jbMfb)) ⬝ᵥ
      rotPart (se3Difference Mdes (faMfb (oMja 0) jaMfa (oMjb 0) jbMfb)) < Real.pi ^ 2) :
    ∃ (N : ℝ → Pose ℝ) (v w : Fin 3 → ℝ), (∀ s, BodyTwist N v w s) ∧ N 0 = Mdes ∧ N 1 = faMfb (oMja 0) jaMfa (oMjb 0) jbMfb ∧
      ∀ t, 0 ≤ t → faMfb (oMja t) jaMfa (oMjb t) jbMfb = N (Real.exp (-(lam * t))) := by
  have hM : ∀ s, IsRot (faMfb (oMja s) jaMfa (oMjb s) jbMfb).R := fun s => faMfb_isRot (ha s) hfa (hb s) hfb
  refine ⟨fun s => Mdes.mul (exp6 (s • log6 (Mdes.inv.mul (faMfb (oMja 0) jaMfa (oMjb 0) jbMfb)))), _, _, fun s => exp6_twist Mdes _ s, ?_, ?_,
    fun t ht => ?_⟩
  · simp only [zero_smul, exp6_zero, pose_mul_one]
  · simp only [one_smul]
    rw [exp6_log6 (hd.inv.mul (hM 0)), Pose.mul_inv_mul hd]
  · have h := C141_decay oMja oMjb jaMfa jbMfb Mdes ha hb hfa hfb hd jaJja jbJjb u lam hl hma hmb hc h0 t ht
    have hlog : log6 (Mdes.inv.mul (faMfb (oMja t) jaMfa (oMjb t) jbMfb)) =
        Real.exp (-(lam * t)) • log6 (Mdes.inv.mul (faMfb (oMja 0) jaMfa (oMjb 0) jbMfb)) := by
      refine Prod.ext ?_ ?_ <;> funext i
      · exact congrFun h (.inl i)
      · exact congrFun h (.inr i)
    simp only []
    rw [← hlog, exp6_log6 (hd.inv.mul (hM t)), Pose.mul_inv_mul hd]

/-! ### A law that meets the hypotheses -/

/-- The derivative of the logarithm keeps the logarithm. -/
theorem jlog6_radial {x : Twist} (h : len x.2 < Real.pi) : jlog6 (exp6 x) *ᵥ Sum.elim x.1 x.2 = Sum.elim x.1 x.2 := by
  have ht : BodyTwist (fun s : ℝ => exp6 (s • x)) x.1 x.2 1 := by
    have := exp6_twist Pose.one x 1
    simp only [pose_one_mul] at this
    exact this
  have hang : angle (exp6 ((1 : ℝ) • x)).R < Real.pi := by
    rw [one_smul]
    change angle (exp3 x.2) < Real.pi
    rw [angle_exp3 h.le]
    exact h
  funext r
  have hd := log6_deriv (fun s : ℝ => exp6 (s • x)) (fun s => isRot_exp6 _) ht hang r
  have hev : (fun s : ℝ => Sum.elim (log6 (exp6 (s • x))).1 (log6 (exp6 (s • x))).2 r) =ᶠ[nhds 1] fun s => s * Sum.elim x.1 x.2 r := by
    have hc : ContinuousAt (fun s : ℝ => |s| * len x.2) 1 := (continuous_abs.mul continuous_const).continuousAt
    have : ∀ᶠ s in nhds (1 : ℝ), |s| * len x.2 < Real.pi := hc.eventually_lt_const (by simpa using h)
    refine this.mono fun s hs => ?_
    have hs' : len (s • x).2 < Real.pi := by rw [Prod.smul_snd, len_smul]; exact hs
    simp only [log6_exp6 hs']
    cases r <;> rfl
  have h2 : HasDerivAt (fun s : ℝ => s * Sum.elim x.1 x.2 r) (1 * Sum.elim x.1 x.2 r) 1 := (hasDerivAt_id (1 : ℝ)).mul_const _
  have := (hd.congr_of_eventuallyEq hev.symm).unique h2
  rw [one_smul, one_mul] at this
  exact this

/-- **C141, case.** A free body with any error below the half turn that follows the law: the hypotheses hold, and the error decreases
exponentially. -/
theorem C141_case (x : Twist) (hx : len x.2 < Real.pi) (t : ℝ) (ht : 0 ≤ t) :
    se3Difference ⟨1, 0⟩ (exp6 (Real.exp (-t) • x)) = Real.exp (-(1 * t)) • se3Difference ⟨1, 0⟩ (exp6 (Real.exp (-0) • x)) := by
  have hinv : ∀ M : Pose ℝ, (⟨1, 0⟩ : Pose ℝ).inv.mul M = M := by
    intro M; apply Pose.ext <;> simp [Pose.mul, Pose.inv]
  have hsm : ∀ s, 0 ≤ s → len (Real.exp (-s) • x).2 < Real.pi := by
    intro s hs
    rw [Prod.smul_snd, len_smul, abs_of_pos (Real.exp_pos _)]
    have : Real.exp (-s) ≤ 1 := Real.exp_le_one_iff.mpr (by linarith)
    nlinarith [len_nonneg x.2]
  have hdiff : ∀ s, 0 ≤ s → se3Difference ⟨1, 0⟩ (exp6 (Real.exp (-s) • x)) = Real.exp (-s) • Sum.elim x.1 x.2 := by
    intro s hs
    rw [se3Difference, hinv, log6_exp6 (hsm s hs)]
    funext r; cases r <;> rfl
  have htw : ∀ s, BodyTwist (fun s => exp6 (Real.exp (-s) • x))
      (linPart (1 : Matrix (Fin 3 ⊕ Fin 3) (Fin 3 ⊕ Fin 3) ℝ) (-Real.exp (-s) • Sum.elim x.1 x.2))
      (angPart (1 : Matrix (Fin 3 ⊕ Fin 3) (Fin 3 ⊕ Fin 3) ℝ) (-Real.exp (-s) • Sum.elim x.1 x.2)) s := by
    intro s
    have h := exp6_twist Pose.one x (Real.exp (-s))
    simp only [pose_one_mul] at h
    have hexp : HasDerivAt (fun s : ℝ => Real.exp (-s)) (-Real.exp (-s)) s := by
      have := (hasDerivAt_neg s).exp
      exact this.congr_deriv (by ring)
    have e1 : linPart (1 : Matrix (Fin 3 ⊕ Fin 3) (Fin 3 ⊕ Fin 3) ℝ) (-Real.exp (-s) • Sum.elim x.1 x.2) = -Real.exp (-s) • x.1 := by
      funext i; simp [linPart, one_mulVec]
    have e2 : angPart (1 : Matrix (Fin 3 ⊕ Fin 3) (Fin 3 ⊕ Fin 3) ℝ) (-Real.exp (-s) • Sum.elim x.1 x.2) = -Real.exp (-s) • x.2 := by
      funext i; simp [angPart, one_mulVec]
    rw [e1, e2]
    refine ⟨fun i j => ?_, fun i => ?_⟩
    · have := HasDerivAt.comp (h₂ := fun r : ℝ => (exp6 (r • x)).R i j) s (h.rot i j) hexp
      refine this.congr_deriv ?_
      rw [skew_smul, Matrix.mul_smul, Matrix.smul_apply, smul_eq_mul, mul_comm]
    · have := HasDerivAt.comp (h₂ := fun r : ℝ => (exp6 (r • x)).t i) s (h.pos i) hexp
      refine this.congr_deriv ?_
      rw [mulVec_smul, Pi.smul_apply, smul_eq_mul, mul_comm]
  have hrest : ∀ s, BodyTwist (fun _ => (⟨1, 0⟩ : Pose ℝ))
      (linPart (0 : Matrix (Fin 3 ⊕ Fin 3) (Fin 3 ⊕ Fin 3) ℝ) (-Real.exp (-s) • Sum.elim x.1 x.2))
      (angPart (0 : Matrix (Fin 3 ⊕ Fin 3) (Fin 3 ⊕ Fin 3) ℝ) (-Real.exp (-s) • Sum.elim x.1 x.2)) s := by
    intro s
    have e1 : linPart (0 : Matrix (Fin 3 ⊕ Fin 3) (Fin 3 ⊕ Fin 3) ℝ) (-Real.exp (-s) • Sum.elim x.1 x.2) = transPart 0 := by
      funext i; simp [linPart, transPart]
    have e2 : angPart (0 : Matrix (Fin 3 ⊕ Fin 3) (Fin 3 ⊕ Fin 3) ℝ) (-Real.exp (-s) • Sum.elim x.1 x.2) = rotPart 0 := by
      funext i; simp [angPart, rotPart]
    rw [e1, e2]
    exact bt_const _ s
  have := C141_decay (fun _ => ⟨1, 0⟩) (fun s => exp6 (Real.exp (-s) • x)) ⟨1, 0⟩ ⟨1, 0⟩ ⟨1, 0⟩ (fun _ => isRot_one)
    (fun s => isRot_exp6 _) isRot_one isRot_one isRot_one (fun _ => 0) (fun _ => 1) (fun s => -Real.exp (-s) • Sum.elim x.1 x.2) 1 zero_le_one
    (fun s _ => hrest s) (fun s _ => htw s) ?_ ?_ t ht
  · simpa only [faMfb_one] using this
  · intro s hs
    rw [se3Jacobian_mulVec, faMfb_one, hdiff s hs, hinv]
    have hone : (⟨1, 0⟩ : Pose ℝ).inv = ⟨1, 0⟩ := by apply Pose.ext <;> simp [Pose.inv]
    have htone : twist (⟨1, 0⟩ : Pose ℝ) = 1 := by
      rw [twist, show skew (0 : Fin 3 → ℝ) = 0 from skew_zero, Matrix.zero_mul, fromBlocks_one]
    have hv : se3Velocity ⟨1, 0⟩ ⟨1, 0⟩ (exp6 (Real.exp (-s) • x)) ⟨1, 0⟩ (some 0) 1 (-Real.exp (-s) • Sum.elim x.1 x.2)
        = -Real.exp (-s) • Sum.elim x.1 x.2 := by
      simp only [se3Velocity, zero_mulVec, mulVec_zero, sub_zero, one_mulVec, hone, htone]
    rw [hv, neg_smul, mulVec_neg, neg_smul, one_smul]
    have hr := jlog6_radial (hsm s hs)
    have hsum : Sum.elim (Real.exp (-s) • x).1 (Real.exp (-s) • x).2 = Real.exp (-s) • Sum.elim x.1 x.2 := by
      funext r; cases r <;> rfl
    rw [hsum] at hr
    rw [hr]
  · rw [faMfb_one, hdiff 0 le_rfl]
    have e : rotPart (Real.exp (-0) • Sum.elim x.1 x.2) = x.2 := by
      funext i; simp [rotPart]
    rw [e, ← len_sq]
    exact pow_lt_pow_left₀ hx (len_nonneg _) two_ne_zero

end Verif.Point6d
