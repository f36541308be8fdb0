import Verif.Point6d.Error
import Verif.Point6d.Motion
import Verif.Point6d.RightJac
import Mathlib.Analysis.Calculus.MeanValue
import Mathlib.Analysis.SpecialFunctions.ExpDeriv

/-!
# The Jacobian and the derivative of the error of the feature of a position (C94, C95)
-/

namespace Verif.Point6d

open Matrix Verif.Geometry Verif.Features Verif.Spatial

/-- The rotation part of a six-dimensional vector. -/
def rotPart (e : Fin 3 ⊕ Fin 3 → ℝ) : Fin 3 → ℝ := fun i => e (.inr i)

/-- The translation part of a six-dimensional vector. -/
def transPart (e : Fin 3 ⊕ Fin 3 → ℝ) : Fin 3 → ℝ := fun i => e (.inl i)

/-! ### What the code multiplies -/

section
variable {ι : Type} [Fintype ι] (M Md : Pose ℝ) (Jq : Matrix (Fin 3 ⊕ Fin 3) ι ℝ) (u : ι → ℝ)

theorem skew_lit (X : Fin 3 → ℝ) : !![0, -X 2, X 1; X 2, 0, -X 0; -X 1, X 0, 0] = skew X := rfl

theorem jac_current_trans : transPart (jacobianFull .current M (some Md) Jq *ᵥ u)
    = -linPart Jq u - angPart Jq u ⨯₃ (M.R⁻¹ *ᵥ (Md.t - M.t)) := by
  funext i
  simp only [transPart, jacobianFull, interaction, skew_lit]
  rw [← mulVec_mulVec]
  have : Jq *ᵥ u = Sum.elim (linPart Jq u) (angPart Jq u) := by funext k; cases k <;> rfl
  rw [this, fromBlocks_mulVec]
  simp only [Sum.elim_inl, Sum.elim_comp_inl, Sum.elim_comp_inr, neg_mulVec, one_mulVec, skew_mulVec]
  rw [← cross_anticomm (angPart Jq u)]
  simp only [Pi.add_apply, Pi.sub_apply, Pi.neg_apply]
  ring

theorem jac_current_rot : rotPart (jacobianFull .current M (some Md) Jq *ᵥ u) = -((Md.R⁻¹ * M.R) *ᵥ angPart Jq u) := by
  funext i
  simp only [rotPart, jacobianFull, interaction, skew_lit]
  rw [← mulVec_mulVec]
  have : Jq *ᵥ u = Sum.elim (linPart Jq u) (angPart Jq u) := by funext k; cases k <;> rfl
  rw [this, fromBlocks_mulVec]
  simp [neg_mulVec]

theorem jac_desired_trans : transPart (jacobianFull .desired M (some Md) Jq *ᵥ u) = (Md.R⁻¹ * M.R) *ᵥ linPart Jq u := by
  funext i
  simp only [transPart, jacobianFull, desiredRot, mulVec, dotProduct, linPart, Finset.sum_mul, Finset.mul_sum]
  rw [Finset.sum_comm]
  simp only [mul_assoc]

theorem jac_desired_rot : rotPart (jacobianFull .desired M (some Md) Jq *ᵥ u) = (Md.R⁻¹ * M.R) *ᵥ angPart Jq u := by
  funext i
  simp only [rotPart, jacobianFull, desiredRot, mulVec, dotProduct, angPart, Finset.sum_mul, Finset.mul_sum]
  rw [Finset.sum_comm]
  simp only [mul_assoc]
end

/-! ### The motion of the relative frame -/

/-- The frame `M` and its reference `Md` move; the relative frame moves with the angular velocity that follows, and its origin
with the velocity that follows. -/
theorem relative_motion (fr : Frame) (M Md : ℝ → Pose ℝ) (hM : ∀ s, IsRot (M s).R) (hd : ∀ s, IsRot (Md s).R)
    {v w vd wd : Fin 3 → ℝ} {t : ℝ} (h : BodyTwist M v w t) (hwd : WorldTwist Md vd wd t) :
    BodyRot (fun s => (relative fr (M s) (some (Md s))).R)
        (match fr with
          | .current => (Md t).Rᵀ *ᵥ wd - ((Md t).Rᵀ * (M t).R) *ᵥ w
          | .desired => w - (M t).Rᵀ *ᵥ wd) t ∧
      ∀ i, HasDerivAt (fun s => (relative fr (M s) (some (Md s))).t i)
        ((match fr with
          | .current => (M t).Rᵀ *ᵥ vd - v - w ⨯₃ ((M t).Rᵀ *ᵥ ((Md t).t - (M t).t))
          | .desired => ((Md t).Rᵀ * (M t).R) *ᵥ v + (Md t).Rᵀ *ᵥ (wd ⨯₃ ((Md t).t - (M t).t) - vd)) i) t := by
  have hb := hwd.body (hd t)
  cases fr
  · have hX := bodyTwist_mul (hM t) (bodyTwist_inv hd hb) h
    refine ⟨fun i j => ?_, fun i => ?_⟩
    · refine (hX.rot i j).congr_deriv ?_
      congr 3
      rw [mulVec_mulVec, (hd t).mul_transpose, one_mulVec, mulVec_neg, neg_add_eq_sub]
      rfl
    · refine (hX.pos i).congr_deriv ?_
      congr 1
      simp only [Pose.mul, Pose.inv, (hd t).inv_eq]
      rw [mulVec_mulVec wd, (hd t).mul_transpose, one_mulVec, mulVec_mulVec vd, (hd t).mul_transpose, one_mulVec, mulVec_add,
        mulVec_mulVec _ _ (M t).Rᵀ, Matrix.mul_assoc, (hM t).mul_transpose, Matrix.mul_one, add_comm]
      congr 2
      rw [map_sub, ← cross_anticomm (Md t).t wd, LinearMap.map_neg₂]
      abel
  · have hX := bodyTwist_mul (hd t) (bodyTwist_inv hM h) hb
    refine ⟨fun i j => ?_, fun i => ?_⟩
    · refine (hX.rot i j).congr_deriv ?_
      congr 3
      rw [mulVec_neg, mulVec_mulVec, neg_add_eq_sub]
      rfl
    · refine (hX.pos i).congr_deriv ?_
      congr 1
      simp only [Pose.mul, Pose.inv, (hM t).inv_eq]
      have hc : ∀ a b : Fin 3 → ℝ, (M t).Rᵀ *ᵥ (((M t).R *ᵥ a) ⨯₃ b) = a ⨯₃ ((M t).Rᵀ *ᵥ b) := by
        intro a b
        rw [← skew_mulVec, ← skew_mulVec, mulVec_mulVec, mulVec_mulVec]
        congr 1
        have := (hM t).transpose.skew_comm ((M t).R *ᵥ a)
        rw [mulVec_mulVec, (hM t).1, one_mulVec] at this
        exact this.symm
      rw [mulVec_add, mulVec_mulVec _ _ (Md t).Rᵀ, Matrix.mul_assoc, (hd t).mul_transpose, Matrix.mul_one, mulVec_mulVec vd,
        Matrix.mul_assoc, (hd t).mul_transpose, Matrix.mul_one, mulVec_sub, map_sub, ← hc, ← hc, mulVec_add, mulVec_neg, mulVec_add,
        mulVec_mulVec v, (hM t).1, one_mulVec, LinearMap.map_neg₂, mulVec_neg, ← cross_anticomm (M t).t, mulVec_neg]
      simp only [Pi.add_apply, Pi.sub_apply, Pi.neg_apply]
      ring

/-! ### The error -/

theorem rotPart_error (fr : Frame) (M Md : Pose ℝ) : rotPart (errorFull fr M (some Md)) = rotVec (relative fr M (some Md)).R := rfl

theorem angle_lt {fr : Frame} {M Md : Pose ℝ} (hM : IsRot M.R) (hd : IsRot Md.R)
    (h : rotPart (errorFull fr M (some Md)) ⬝ᵥ rotPart (errorFull fr M (some Md)) < Real.pi ^ 2) :
    angle (relative fr M (some Md)).R < Real.pi := by
  rw [rotPart_error, rotVec_sq (rel_isRot fr hM hd)] at h
  exact lt_of_pow_lt_pow_left₀ 2 Real.pi_pos.le h

theorem worldTwist_const (M : Pose ℝ) (t : ℝ) : WorldTwist (fun _ => M) 0 0 t := by
  have h0 : skew (0 : Fin 3 → ℝ) = 0 := by ext i j; fin_cases i <;> fin_cases j <;> simp [skew]
  constructor
  · intro i j; rw [h0]; simpa using hasDerivAt_const t (M.R i j)
  · intro i; simpa using hasDerivAt_const t (M.t i)

/-- The velocity of the error: the translation part is the sum of what the Jacobian and the derivative of the error announce; the
rotation part is related to them by the right Jacobian. -/
theorem error_motion {ι : Type} [Fintype ι] (fr : Frame) (M Md : ℝ → Pose ℝ) (hM : ∀ s, IsRot (M s).R) (hd : ∀ s, IsRot (Md s).R)
    (Jq : Matrix (Fin 3 ⊕ Fin 3) ι ℝ) (u : ι → ℝ) (vel : Fin 3 ⊕ Fin 3 → ℝ) (t : ℝ)
    (h : BodyTwist M (linPart Jq u) (angPart Jq u) t) (hw : WorldTwist Md (transPart vel) (rotPart vel) t) :
    (∀ i, HasDerivAt (fun s => errorFull fr (M s) (some (Md s)) (.inl i))
      ((jacobianFull fr (M t) (some (Md t)) Jq *ᵥ u) (.inl i) + errordotFull fr (M t) (some (Md t, vel)) (.inl i)) t) ∧
    (rotPart (errorFull fr (M t) (some (Md t))) ⬝ᵥ rotPart (errorFull fr (M t) (some (Md t))) < Real.pi ^ 2 →
      ∃ e' : Fin 3 → ℝ, (∀ i, HasDerivAt (fun s => errorFull fr (M s) (some (Md s)) (.inr i)) (e' i) t) ∧
        rightJac (rotPart (errorFull fr (M t) (some (Md t)))) *ᵥ e' =
          match fr with
          | .current => rotPart (jacobianFull fr (M t) (some (Md t)) Jq *ᵥ u) + (Md t).Rᵀ *ᵥ rotPart vel
          | .desired => (relative fr (M t) (some (Md t))).Rᵀ *ᵥ rotPart (jacobianFull fr (M t) (some (Md t)) Jq *ᵥ u)
              - (M t).Rᵀ *ᵥ rotPart vel) := by
  obtain ⟨hr, ht⟩ := relative_motion fr M Md hM hd h hw
  refine ⟨fun i => ?_, fun hp => ?_⟩
  · refine (ht i).congr_deriv ?_
    cases fr
    · change _ = transPart (jacobianFull .desired (M t) (some (Md t)) Jq *ᵥ u) i + _
      rw [jac_desired_trans, (hd t).inv_eq]
      rfl
    · change _ = transPart (jacobianFull .current (M t) (some (Md t)) Jq *ᵥ u) i + _
      rw [jac_current_trans, (hM t).inv_eq]
      simp only [errordotFull, Sum.elim_inl, Pi.sub_apply, Pi.neg_apply]
      change ((M t).Rᵀ *ᵥ transPart vel) i - _ - _ = _ + ((M t).Rᵀ *ᵥ transPart vel) i
      ring
  · obtain ⟨e', h1, h2⟩ := rotVec_deriv (fun s => (relative fr (M s) (some (Md s))).R) (fun s => rel_isRot fr (hM s) (hd s)) _ t hr
      (angle_lt (hM t) (hd t) hp)
    refine ⟨e', h1, h2.trans ?_⟩
    cases fr
    · rw [jac_desired_rot, (hd t).inv_eq]
      have e : (relative .desired (M t) (some (Md t))).R = (Md t).Rᵀ * (M t).R := by
        simp only [relative, Pose.mul, Pose.inv, (hd t).inv_eq]
      rw [e, mulVec_mulVec, ((hd t).transpose.mul (hM t)).1, one_mulVec]
    · rw [jac_current_rot, (hd t).inv_eq]
      simp only
      abel

/-- The rotation part of the error is left unchanged by the relative rotation. -/
theorem rel_fixed (fr : Frame) {M Md : Pose ℝ} (hM : IsRot M.R) (hd : IsRot Md.R) :
    (relative fr M (some Md)).Rᵀ *ᵥ rotPart (errorFull fr M (some Md)) = rotPart (errorFull fr M (some Md)) := by
  have hX := rel_isRot fr hM hd
  have h := congrArg (fun x => (relative fr M (some Md)).Rᵀ *ᵥ x) (rotVec_fixed hX)
  simp only [mulVec_mulVec, hX.1, one_mulVec] at h
  exact h.symm

theorem dot_rel (fr : Frame) {M Md : Pose ℝ} (hM : IsRot M.R) (hd : IsRot Md.R) (x : Fin 3 → ℝ) :
    rotPart (errorFull fr M (some Md)) ⬝ᵥ ((relative fr M (some Md)).Rᵀ *ᵥ x) = rotPart (errorFull fr M (some Md)) ⬝ᵥ x := by
  rw [dotProduct_mulVec, vecMul_transpose]
  rw [rotPart_error, rotVec_fixed (rel_isRot fr hM hd)]

theorem rot_len {fr : Frame} {M Md : Pose ℝ} (hM : IsRot M.R) (hd : IsRot Md.R) :
    Real.sqrt (rotPart (errorFull fr M (some Md)) ⬝ᵥ rotPart (errorFull fr M (some Md))) < 2 * Real.pi := by
  have hX := rel_isRot fr hM hd
  rw [rotPart_error, rotVec_sq hX, Real.sqrt_sq (angle_nonneg hX)]
  linarith [angle_le_pi hX, Real.pi_pos]

theorem sum6 (f : Fin 3 ⊕ Fin 3 → ℝ) : ∑ r, f r = ∑ i, f (.inl i) + ∑ i, f (.inr i) := Fintype.sum_sum_type f

section
variable {ι : Type} [Fintype ι] (fr : Frame) (M : ℝ → Pose ℝ) (hM : ∀ s, IsRot (M s).R) (Md : Pose ℝ) (hd : IsRot Md.R)
  (Jq : Matrix (Fin 3 ⊕ Fin 3) ι ℝ) (u : ι → ℝ) (t : ℝ) (h : BodyTwist M (linPart Jq u) (angPart Jq u) t)

include hM hd h

theorem fixed_motion :
    (∀ i, HasDerivAt (fun s => errorFull fr (M s) (some Md) (.inl i)) ((jacobianFull fr (M t) (some Md) Jq *ᵥ u) (.inl i)) t) ∧
    (rotPart (errorFull fr (M t) (some Md)) ⬝ᵥ rotPart (errorFull fr (M t) (some Md)) < Real.pi ^ 2 →
      ∃ e' : Fin 3 → ℝ, (∀ i, HasDerivAt (fun s => errorFull fr (M s) (some Md) (.inr i)) (e' i) t) ∧
        rightJac (rotPart (errorFull fr (M t) (some Md))) *ᵥ e' =
          match fr with
          | .current => rotPart (jacobianFull fr (M t) (some Md) Jq *ᵥ u)
          | .desired => (relative fr (M t) (some Md)).Rᵀ *ᵥ rotPart (jacobianFull fr (M t) (some Md) Jq *ᵥ u)) := by
  have hm := error_motion fr M (fun _ => Md) hM (fun _ => hd) Jq u 0 t h (worldTwist_const Md t)
  refine ⟨fun i => (hm.1 i).congr_deriv ?_, fun hp => ?_⟩
  · cases fr
    · change _ + (Md.Rᵀ *ᵥ (((0 : Fin 3 → ℝ) ⨯₃ (Md.t - (M t).t)) - (0 : Fin 3 → ℝ))) i = _
      simp
    · change _ + ((M t).Rᵀ *ᵥ (0 : Fin 3 → ℝ)) i = _
      simp
  · obtain ⟨e', h1, h2⟩ := hm.2 hp
    refine ⟨e', h1, h2.trans ?_⟩
    have hz : rotPart 0 = 0 := rfl
    cases fr
    · simp only [hz, mulVec_zero, sub_zero]
    · simp only [hz, mulVec_zero, add_zero]

/-- **C94.** With a fixed reference, the translation rows of the Jacobian give exactly the velocity of the error, in both
frames. -/
theorem C94_translation : ∀ i, HasDerivAt (fun s => errorFull fr (M s) (some Md) (.inl i))
    ((jacobianFull fr (M t) (some Md) Jq *ᵥ u) (.inl i)) t := (fixed_motion fr M hM Md hd Jq u t h).1

/-- **C94.** Away from the half turn, the Jacobian is the gradient direction: the velocity it announces has the same scalar product
with the error as the true velocity, so it gives exactly the velocity of half of the squared norm of the error. -/
theorem C94_norm (hp : rotPart (errorFull fr (M t) (some Md)) ⬝ᵥ rotPart (errorFull fr (M t) (some Md)) < Real.pi ^ 2) :
    HasDerivAt (fun s => (∑ r, errorFull fr (M s) (some Md) r ^ 2) / 2)
      (∑ r, errorFull fr (M t) (some Md) r * (jacobianFull fr (M t) (some Md) Jq *ᵥ u) r) t := by
  obtain ⟨ht, hr⟩ := fixed_motion fr M hM Md hd Jq u t h
  obtain ⟨e', h1, h2⟩ := hr hp
  have hdot : rotPart (errorFull fr (M t) (some Md)) ⬝ᵥ e'
      = rotPart (errorFull fr (M t) (some Md)) ⬝ᵥ rotPart (jacobianFull fr (M t) (some Md) Jq *ᵥ u) := by
    rw [← dot_rightJac, h2]
    cases fr
    · exact dot_rel .desired (hM t) hd _
    · rfl
  simp only [sum6]
  have hs : ∀ (f : ℝ → Fin 3 → ℝ) (f' : Fin 3 → ℝ), (∀ i, HasDerivAt (fun s => f s i) (f' i) t) →
      HasDerivAt (fun s => ∑ i, f s i ^ 2) (2 * (f t ⬝ᵥ f')) t := by
    intro f f' hf
    have := (((hf 0).pow 2).add ((hf 1).pow 2)).add ((hf 2).pow 2)
    have e : (fun s => ∑ i, f s i ^ 2) = (((fun s => f s 0) ^ 2) + (fun s => f s 1) ^ 2) + (fun s => f s 2) ^ 2 := by
      funext s; simp [Fin.sum_univ_three]
    rw [e]
    refine this.congr_deriv ?_
    simp [dotProduct, Fin.sum_univ_three]
    ring
  have ha := hs (fun s i => errorFull fr (M s) (some Md) (.inl i)) _ ht
  have hb := hs (fun s i => errorFull fr (M s) (some Md) (.inr i)) _ h1
  refine ((ha.add hb).div_const 2).congr_deriv ?_
  rw [show (fun i => errorFull fr (M t) (some Md) (.inr i)) ⬝ᵥ e' = _ from hdot]
  simp only [dotProduct, rotPart]
  ring

/-- **C94.** Expected: the rotation rows of the Jacobian give the velocity of the rotation vector. What holds: they do when the
announced velocity is along the error, in particular when the rotation error is zero. -/
theorem C94_rotation_partial (c : ℝ)
    (hp : rotPart (errorFull fr (M t) (some Md)) ⬝ᵥ rotPart (errorFull fr (M t) (some Md)) < Real.pi ^ 2)
    (hc : rotPart (errorFull fr (M t) (some Md)) = 0 ∨
      rotPart (jacobianFull fr (M t) (some Md) Jq *ᵥ u) = c • rotPart (errorFull fr (M t) (some Md))) :
    ∀ i, HasDerivAt (fun s => errorFull fr (M s) (some Md) (.inr i)) ((jacobianFull fr (M t) (some Md) Jq *ᵥ u) (.inr i)) t := by
  obtain ⟨e', h1, h2⟩ := (fixed_motion fr M hM Md hd Jq u t h).2 hp
  have he : e' = rotPart (jacobianFull fr (M t) (some Md) Jq *ᵥ u) := by
    rcases hc with h0 | h0
    · have hX : (relative fr (M t) (some Md)).R = 1 := by
        rw [rotPart_error] at h0
        exact (rotVec_eq_zero (rel_isRot fr (hM t) hd)).mp h0
      rw [h0, rightJac_zero, one_mulVec] at h2
      rw [h2]
      cases fr
      · simp only [hX, transpose_one, one_mulVec]
      · rfl
    · apply rightJac_inj _ _ _ (rot_len (hM t) hd)
      rw [h2, h0]
      cases fr
      · simp only [mulVec_smul, rel_fixed .desired (hM t) hd, rightJac_self]
      · simp only [mulVec_smul, rightJac_self]
  intro i
  refine (h1 i).congr_deriv ?_
  rw [he]
  rfl

end

/-- A nonnegative function that decreases while it is below a bound, and starts below it, stays below its start. -/
theorem bounded_of_deriv {A : ℝ → ℝ} {k c : ℝ} (hk : 0 ≤ k) (hnn : ∀ s, 0 ≤ A s) (hcont : ∀ t, 0 ≤ t → ContinuousAt A t)
    (hder : ∀ t, 0 ≤ t → A t < c → HasDerivAt A (-(k * A t)) t) (h0 : A 0 < c) : ∀ b, 0 ≤ b → A b ≤ A 0 := by
  intro b hb
  have hsub : Set.Icc 0 b ⊆ {x | A x ≤ A 0} := by
    apply IsClosed.Icc_subset_of_forall_mem_nhdsWithin
    · have : ContinuousOn A (Set.Icc 0 b) := fun x hx => (hcont x hx.1).continuousWithinAt
      have hcl := this.preimage_isClosed_of_isClosed isClosed_Icc (isClosed_Iic (a := A 0))
      rwa [Set.inter_comm] at hcl
    · exact (le_refl (A 0) : A 0 ≤ A 0)
    · rintro x ⟨hx, hx0, -⟩
      have hlt : ∀ᶠ y in nhds x, A y < c := (hcont x hx0).eventually_lt_const (lt_of_le_of_lt hx h0)
      obtain ⟨ε, hε, hball⟩ := Metric.eventually_nhds_iff.mp hlt
      refine Filter.mem_of_superset (Ioo_mem_nhdsGT (show x < x + ε by linarith)) ?_
      intro y hy
      have hin : ∀ z ∈ Set.Icc x y, 0 ≤ z ∧ A z < c := by
        intro z hz
        refine ⟨hx0.trans hz.1, hball ?_⟩
        rw [Real.dist_eq, abs_lt]
        constructor <;> linarith [hz.1, hz.2, hy.1, hy.2]
      have hanti : AntitoneOn A (Set.Icc x y) := by
        apply antitoneOn_of_deriv_nonpos (convex_Icc x y)
        · exact fun z hz => (hcont z (hin z hz).1).continuousWithinAt
        · intro z hz
          have hz' := interior_subset hz
          exact (hder z (hin z hz').1 (hin z hz').2).differentiableAt.differentiableWithinAt
        · intro z hz
          have hz' := interior_subset hz
          rw [(hder z (hin z hz').1 (hin z hz').2).deriv]
          have := mul_nonneg hk (hnn z)
          linarith
      exact (hanti (Set.left_mem_Icc.mpr hy.1.le) (Set.right_mem_Icc.mpr hy.1.le) hy.1.le).trans hx
  exact hsub (Set.right_mem_Icc.mpr hb)

/-- Exponential decrease. -/
theorem exp_of_deriv {f : ℝ → ℝ} {k : ℝ} (hf : ∀ t, 0 ≤ t → HasDerivAt f (-(k * f t)) t) (t : ℝ) (ht : 0 ≤ t) :
    f t = Real.exp (-(k * t)) * f 0 := by
  have hg : ∀ s, 0 ≤ s → HasDerivAt (fun s => f s * Real.exp (k * s)) 0 s := by
    intro s hs
    have h1 := (hf s hs).mul (((hasDerivAt_id s).const_mul k).exp)
    refine h1.congr_deriv ?_
    simp only [id]
    ring
  have hconst := constant_of_has_deriv_right_zero (f := fun s => f s * Real.exp (k * s)) (a := 0) (b := t)
    (fun s hs => (hg s hs.1).continuousAt.continuousWithinAt) (fun s hs => (hg s hs.1).hasDerivWithinAt) t
    (Set.right_mem_Icc.mpr ht)
  simp only [mul_zero, Real.exp_zero, mul_one] at hconst
  rw [Real.exp_neg, inv_mul_eq_div, eq_div_iff (Real.exp_pos _).ne']
  exact hconst

/-- **C94.** The law that the task applies: when the joint velocities make the Jacobian announce `-lam` times the error, the error
decreases exponentially at the rate `lam`, exactly and along a straight line, from any error that is not a half turn, in both
frames, and it never reaches the half turn. -/
theorem C94_decay {ι : Type} [Fintype ι] (fr : Frame) (M : ℝ → Pose ℝ) (hM : ∀ s, IsRot (M s).R) (Md : Pose ℝ) (hd : IsRot Md.R)
    (Jq : ℝ → Matrix (Fin 3 ⊕ Fin 3) ι ℝ) (u : ℝ → ι → ℝ) (lam : ℝ) (hl : 0 ≤ lam)
    (h : ∀ t, 0 ≤ t → BodyTwist M (linPart (Jq t) (u t)) (angPart (Jq t) (u t)) t)
    (hc : ∀ t, 0 ≤ t → jacobianFull fr (M t) (some Md) (Jq t) *ᵥ u t = -lam • errorFull fr (M t) (some Md))
    (h0 : rotPart (errorFull fr (M 0) (some Md)) ⬝ᵥ rotPart (errorFull fr (M 0) (some Md)) < Real.pi ^ 2) :
    ∀ t, 0 ≤ t → errorFull fr (M t) (some Md) = Real.exp (-(lam * t)) • errorFull fr (M 0) (some Md) := by
  set e := fun s => errorFull fr (M s) (some Md) with he
  set A := fun s => rotPart (e s) ⬝ᵥ rotPart (e s) with hA
  have hAa : ∀ s, A s = angle (relative fr (M s) (some Md)).R ^ 2 := fun s => rotVec_sq (rel_isRot fr (hM s) hd)
  have hcont : ∀ t, 0 ≤ t → ContinuousAt A t := by
    intro t ht
    have hr := (relative_motion fr M (fun _ => Md) hM (fun _ => hd) (h t ht) (worldTwist_const Md t)).1
    have := (continuousAt_angle (fun s => rel_isRot fr (hM s) hd) hr).pow 2
    exact this.congr (Filter.Eventually.of_forall fun s => (hAa s).symm)
  have hrot : ∀ t, 0 ≤ t → A t < Real.pi ^ 2 → ∀ i, HasDerivAt (fun s => e s (.inr i)) (-lam * e t (.inr i)) t := by
    intro t ht hp i
    have hk := C94_rotation_partial fr M hM Md hd (Jq t) (u t) t (h t ht) (-lam) hp
      (.inr (by rw [hc t ht]; rfl)) i
    rw [hc t ht] at hk
    exact hk
  have hder : ∀ t, 0 ≤ t → A t < Real.pi ^ 2 → HasDerivAt A (-(2 * lam * A t)) t := by
    intro t ht hp
    have hk := hrot t ht hp
    have h3 := (((hk 0).mul (hk 0)).add ((hk 1).mul (hk 1))).add ((hk 2).mul (hk 2))
    have eA : A = ((fun s => e s (.inr 0)) * (fun s => e s (.inr 0)) + (fun s => e s (.inr 1)) * (fun s => e s (.inr 1))) +
        (fun s => e s (.inr 2)) * (fun s => e s (.inr 2)) := by
      funext s; simp [hA, dotProduct, rotPart, Fin.sum_univ_three]
    rw [eA]
    refine h3.congr_deriv ?_
    simp only [Pi.add_apply, Pi.mul_apply]
    ring
  have hnn : ∀ s, 0 ≤ A s := fun s => dot_self_nonneg _
  have hbound : ∀ t, 0 ≤ t → A t ≤ A 0 := bounded_of_deriv (k := 2 * lam) (by linarith) hnn hcont hder h0
  have hall : ∀ t, 0 ≤ t → ∀ r, HasDerivAt (fun s => e s r) (-lam * e t r) t := by
    intro t ht r
    rcases r with i | i
    · have hk := C94_translation fr M hM Md hd (Jq t) (u t) t (h t ht) i
      rw [hc t ht] at hk
      exact hk
    · exact hrot t ht (lt_of_le_of_lt (hbound t ht) h0) i
  intro t ht
  funext r
  exact exp_of_deriv (f := fun s => e s r) (k := lam) (fun s hs => (hall s hs r).congr_deriv (by ring)) t ht

/-! ### The derivative of the error, for a reference that moves -/

/-- What the code inverts is the right Jacobian, when the rotation error is zero or not tiny. -/
theorem rodriguesP_error {r : Fin 3 → ℝ} (h : r = 0 ∨ 1 / 10 ^ 8 ≤ r ⬝ᵥ r) : rodriguesP accuracy r = rightJac r := by
  rw [rodriguesP_eq accuracy (by unfold accuracy; positivity)]
  split_ifs with hs
  · rcases h with rfl | h
    · rw [rightJac_zero]
    · exact absurd hs (not_lt.mpr h)
  · rfl

section
variable {ι : Type} [Fintype ι] (fr : Frame) (M Md : ℝ → Pose ℝ) (hM : ∀ s, IsRot (M s).R) (hd : ∀ s, IsRot (Md s).R)
  (Jq : Matrix (Fin 3 ⊕ Fin 3) ι ℝ) (u : ι → ℝ) (vel : Fin 3 ⊕ Fin 3 → ℝ) (t : ℝ)
  (h : BodyTwist M (linPart Jq u) (angPart Jq u) t) (hw : WorldTwist Md (transPart vel) (rotPart vel) t)

include hM hd h hw

/-- **C95.** When the frame and its reference move, the translation error moves at the sum of what the Jacobian and the error
derivative announce, in both frames. -/
theorem C95_translation : ∀ i, HasDerivAt (fun s => errorFull fr (M s) (some (Md s)) (.inl i))
    ((jacobianFull fr (M t) (some (Md t)) Jq *ᵥ u) (.inl i) + errordotFull fr (M t) (some (Md t, vel)) (.inl i)) t :=
  (error_motion fr M Md hM hd Jq u vel t h hw).1

/-- **C95.** Expected: the error derivative is the velocity of the error due to the motion of the reference. What holds: it is, in
both frames, away from the half turn, when the frame does not move; for the rotation part the error must also be zero or of squared
norm at least `10⁻⁸`, since the code replaces the Jacobian of the rotation vector by the identity below. -/
theorem C95_errordot_partial (hu : Jq *ᵥ u = 0)
    (hp : rotPart (errorFull fr (M t) (some (Md t))) ⬝ᵥ rotPart (errorFull fr (M t) (some (Md t))) < Real.pi ^ 2)
    (hs : rotPart (errorFull fr (M t) (some (Md t))) = 0 ∨
      1 / 10 ^ 8 ≤ rotPart (errorFull fr (M t) (some (Md t))) ⬝ᵥ rotPart (errorFull fr (M t) (some (Md t)))) :
    ∀ r, HasDerivAt (fun s => errorFull fr (M s) (some (Md s)) r) (errordotFull fr (M t) (some (Md t, vel)) r) t := by
  obtain ⟨h1, h2⟩ := error_motion fr M Md hM hd Jq u vel t h hw
  obtain ⟨e', h3, h4⟩ := h2 hp
  have hl : linPart Jq u = 0 := by funext i; exact congrFun hu (.inl i)
  have ha : angPart Jq u = 0 := by funext i; exact congrFun hu (.inr i)
  have hP := rodriguesP_error hs
  have hu' : IsUnit (rightJac (rotPart (errorFull fr (M t) (some (Md t))))).det :=
    (det_rightJac_ne _ (rot_len (hM t) (hd t))).isUnit
  have he : e' = (rightJac (rotPart (errorFull fr (M t) (some (Md t)))))⁻¹ *ᵥ
      (rightJac (rotPart (errorFull fr (M t) (some (Md t)))) *ᵥ e') := by
    rw [mulVec_mulVec, nonsing_inv_mul _ hu', one_mulVec]
  rintro (i | i)
  · refine (h1 i).congr_deriv ?_
    change transPart (jacobianFull fr (M t) (some (Md t)) Jq *ᵥ u) i + _ = _
    cases fr
    · rw [jac_desired_trans, hl, mulVec_zero]; simp
    · rw [jac_current_trans, hl, ha]; simp
  · refine (h3 i).congr_deriv ?_
    rw [he, h4, ← hP]
    cases fr
    · simp only [jac_desired_rot, ha, mulVec_zero, zero_sub, errordotFull, Sum.elim_inr, neg_mulVec, mulVec_neg]
      rfl
    · simp only [jac_current_rot, ha, mulVec_zero, neg_zero, zero_add, errordotFull, Sum.elim_inr]
      rfl

end

theorem dot_rodriguesP (r x : Fin 3 → ℝ) (h : Real.sqrt (r ⬝ᵥ r) < 2 * Real.pi) :
    r ⬝ᵥ ((rodriguesP accuracy r)⁻¹ *ᵥ x) = r ⬝ᵥ x := by
  rw [rodriguesP_eq accuracy (by unfold accuracy; positivity)]
  split_ifs with hs
  · rw [inv_one, one_mulVec]
  · have hu : IsUnit (rightJac r).det := (det_rightJac_ne _ h).isUnit
    rw [← dot_rightJac, mulVec_mulVec, mul_nonsing_inv _ hu, one_mulVec]

section
variable {ι : Type} [Fintype ι] (fr : Frame) (M Md : ℝ → Pose ℝ) (hM : ∀ s, IsRot (M s).R) (hd : ∀ s, IsRot (Md s).R)

include hM hd

/-- **C95.** Whatever the motions of the frame and of its reference, away from the half turn, the sum of what the Jacobian and
the error derivative announce gives exactly the velocity of half of the squared norm of the rotation error. -/
theorem C95_norm (Jq : Matrix (Fin 3 ⊕ Fin 3) ι ℝ) (u : ι → ℝ) (vel : Fin 3 ⊕ Fin 3 → ℝ) (t : ℝ)
    (h : BodyTwist M (linPart Jq u) (angPart Jq u) t) (hw : WorldTwist Md (transPart vel) (rotPart vel) t)
    (hp : rotPart (errorFull fr (M t) (some (Md t))) ⬝ᵥ rotPart (errorFull fr (M t) (some (Md t))) < Real.pi ^ 2) :
    HasDerivAt (fun s => (rotPart (errorFull fr (M s) (some (Md s))) ⬝ᵥ rotPart (errorFull fr (M s) (some (Md s)))) / 2)
      (rotPart (errorFull fr (M t) (some (Md t))) ⬝ᵥ rotPart (jacobianFull fr (M t) (some (Md t)) Jq *ᵥ u
        + errordotFull fr (M t) (some (Md t, vel)))) t := by
  obtain ⟨e', h1, h2⟩ := (error_motion fr M Md hM hd Jq u vel t h hw).2 hp
  have hlen := rot_len (fr := fr) (hM t) (hd t)
  have hsplit : rotPart (jacobianFull fr (M t) (some (Md t)) Jq *ᵥ u + errordotFull fr (M t) (some (Md t, vel)))
      = rotPart (jacobianFull fr (M t) (some (Md t)) Jq *ᵥ u) + rotPart (errordotFull fr (M t) (some (Md t, vel))) := rfl
  have hdot : rotPart (errorFull fr (M t) (some (Md t))) ⬝ᵥ e' = rotPart (errorFull fr (M t) (some (Md t))) ⬝ᵥ
      rotPart (jacobianFull fr (M t) (some (Md t)) Jq *ᵥ u + errordotFull fr (M t) (some (Md t, vel))) := by
    rw [hsplit, ← dot_rightJac, h2]
    cases fr
    · have e1 : rotPart (errordotFull .desired (M t) (some (Md t, vel)))
          = (rodriguesP accuracy (rotPart (errorFull .desired (M t) (some (Md t)))))⁻¹ *ᵥ (-((M t).Rᵀ *ᵥ rotPart vel)) := by
        rw [mulVec_neg, ← neg_mulVec]; rfl
      rw [e1]
      simp only [dotProduct_sub, dotProduct_add]
      rw [dot_rodriguesP _ _ hlen, dot_rel .desired (hM t) (hd t), dotProduct_neg]
      ring
    · have e1 : rotPart (errordotFull .current (M t) (some (Md t, vel)))
          = (rodriguesP accuracy (rotPart (errorFull .current (M t) (some (Md t)))))⁻¹ *ᵥ ((Md t).Rᵀ *ᵥ rotPart vel) := rfl
      rw [e1]
      simp only [dotProduct_add]
      rw [dot_rodriguesP _ _ hlen]
  rw [← hdot]
  have h3 := ((((h1 0).mul (h1 0)).add ((h1 1).mul (h1 1))).add ((h1 2).mul (h1 2))).div_const 2
  refine HasDerivAt.congr_deriv (f' := _) (h3.congr_of_eventuallyEq (Filter.Eventually.of_forall fun s => ?_)) ?_
  · simp [dotProduct, rotPart, Fin.sum_univ_three]
  · simp [dotProduct, rotPart, Fin.sum_univ_three]
    ring

/-- **C95.** Tracking of a reference that moves: when the joint velocities make the Jacobian announce `-lam` times the error minus
the error derivative, the translation error decreases exponentially at the rate `lam`, exactly, and so does the length of the
rotation error, from any error that is not a half turn, which is never reached. -/
theorem C95_tracking (Jq : ℝ → Matrix (Fin 3 ⊕ Fin 3) ι ℝ) (u : ℝ → ι → ℝ) (vel : ℝ → Fin 3 ⊕ Fin 3 → ℝ) (lam : ℝ) (hl : 0 ≤ lam)
    (h : ∀ t, 0 ≤ t → BodyTwist M (linPart (Jq t) (u t)) (angPart (Jq t) (u t)) t)
    (hw : ∀ t, 0 ≤ t → WorldTwist Md (transPart (vel t)) (rotPart (vel t)) t)
    (hc : ∀ t, 0 ≤ t → jacobianFull fr (M t) (some (Md t)) (Jq t) *ᵥ u t
      = -lam • errorFull fr (M t) (some (Md t)) - errordotFull fr (M t) (some (Md t, vel t)))
    (h0 : rotPart (errorFull fr (M 0) (some (Md 0))) ⬝ᵥ rotPart (errorFull fr (M 0) (some (Md 0))) < Real.pi ^ 2) :
    ∀ t, 0 ≤ t →
      transPart (errorFull fr (M t) (some (Md t))) = Real.exp (-(lam * t)) • transPart (errorFull fr (M 0) (some (Md 0))) ∧
      Real.sqrt (rotPart (errorFull fr (M t) (some (Md t))) ⬝ᵥ rotPart (errorFull fr (M t) (some (Md t))))
        = Real.exp (-(lam * t)) *
          Real.sqrt (rotPart (errorFull fr (M 0) (some (Md 0))) ⬝ᵥ rotPart (errorFull fr (M 0) (some (Md 0)))) := by
  set e := fun s => errorFull fr (M s) (some (Md s)) with he
  set A := fun s => rotPart (e s) ⬝ᵥ rotPart (e s) with hA
  have hAa : ∀ s, A s = angle (relative fr (M s) (some (Md s))).R ^ 2 := fun s => rotVec_sq (rel_isRot fr (hM s) (hd s))
  have hcont : ∀ t, 0 ≤ t → ContinuousAt A t := by
    intro t ht
    have hr := (relative_motion fr M Md hM hd (h t ht) (hw t ht)).1
    have := (continuousAt_angle (fun s => rel_isRot fr (hM s) (hd s)) hr).pow 2
    exact this.congr (Filter.Eventually.of_forall fun s => (hAa s).symm)
  have hsum : ∀ t, 0 ≤ t → jacobianFull fr (M t) (some (Md t)) (Jq t) *ᵥ u t + errordotFull fr (M t) (some (Md t, vel t))
      = -lam • e t := by
    intro t ht; rw [hc t ht, sub_add_cancel]
  have hder : ∀ t, 0 ≤ t → A t < Real.pi ^ 2 → HasDerivAt A (-(2 * lam * A t)) t := by
    intro t ht hp
    have hk := C95_norm fr M Md hM hd (Jq t) (u t) (vel t) t (h t ht) (hw t ht) hp
    rw [hsum t ht] at hk
    have h2 := hk.const_mul 2
    refine (h2.congr_of_eventuallyEq (Filter.Eventually.of_forall fun s => ?_)).congr_deriv ?_
    · simp only [hA, he]; ring
    · rw [show rotPart (-lam • e t) = -lam • rotPart (e t) from rfl, dotProduct_smul]
      simp only [hA, he, smul_eq_mul]
      ring
  have hnn : ∀ s, 0 ≤ A s := fun s => dot_self_nonneg _
  have hbound : ∀ t, 0 ≤ t → A t ≤ A 0 := bounded_of_deriv (k := 2 * lam) (by linarith) hnn hcont hder h0
  intro t ht
  constructor
  · funext i
    refine exp_of_deriv (f := fun s => e s (.inl i)) (k := lam) (fun s hs => ?_) t ht
    refine (C95_translation fr M Md hM hd (Jq s) (u s) (vel s) s (h s hs) (hw s hs) i).congr_deriv ?_
    have := congrFun (hsum s hs) (.inl i)
    simp only [Pi.add_apply, Pi.smul_apply, smul_eq_mul] at this
    rw [this]
    ring
  · have := exp_of_deriv (f := A) (k := 2 * lam)
      (fun s hs => (hder s hs (lt_of_le_of_lt (hbound s hs) h0)).congr_deriv (by ring)) t ht
    change Real.sqrt (A t) = _ * Real.sqrt (A 0)
    rw [this, show -(2 * lam * t) = -(lam * t) + -(lam * t) by ring, Real.exp_add, Real.sqrt_mul (by positivity),
      Real.sqrt_mul_self (Real.exp_pos _).le]

end

/-- **C95.** Without reference the error derivative is zero. -/
theorem C95_no_reference (fr : Frame) (M : Pose ℝ) : errordotFull fr M none = 0 := rfl

end Verif.Point6d
