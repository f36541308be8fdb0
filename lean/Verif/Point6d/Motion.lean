import Verif.Point6d.Rotation
import Verif.Spatial.Spec

/-!
# Motions of products and inverses of frames
-/

namespace Verif.Point6d

open Matrix Verif.Geometry Verif.Spatial

/-- At the date `t` the frame `M` moves with the velocity `v` of its origin and the angular velocity `w`, both expressed in the
fixed frame. -/
structure WorldTwist (M : ℝ → Pose ℝ) (v w : Fin 3 → ℝ) (t : ℝ) : Prop where
  rot : ∀ i j, HasDerivAt (fun s => (M s).R i j) ((skew w * (M t).R) i j) t
  pos : ∀ i, HasDerivAt (fun s => (M s).t i) (v i) t

theorem hasDerivAt_mulMat {A B : ℝ → Matrix (Fin 3) (Fin 3) ℝ} {A' B' : Matrix (Fin 3) (Fin 3) ℝ} {t : ℝ}
    (hA : ∀ i j, HasDerivAt (fun s => A s i j) (A' i j) t) (hB : ∀ i j, HasDerivAt (fun s => B s i j) (B' i j) t) (i j : Fin 3) :
    HasDerivAt (fun s => (A s * B s) i j) ((A' * B t + A t * B') i j) t := by
  have h := (((hA i 0).mul (hB 0 j)).add ((hA i 1).mul (hB 1 j))).add ((hA i 2).mul (hB 2 j))
  have e : (fun s => (A s * B s) i j) = (((fun s => A s i 0) * fun s => B s 0 j) + (fun s => A s i 1) * fun s => B s 1 j) +
      (fun s => A s i 2) * fun s => B s 2 j := by
    funext s; simp only [Pi.add_apply, Pi.mul_apply, mul_apply, Fin.sum_univ_three]
  rw [e]
  refine h.congr_deriv ?_
  · simp only [Matrix.add_apply, mul_apply, Fin.sum_univ_three]; ring

theorem hasDerivAt_mulVec {A : ℝ → Matrix (Fin 3) (Fin 3) ℝ} {x : ℝ → Fin 3 → ℝ} {A' : Matrix (Fin 3) (Fin 3) ℝ} {x' : Fin 3 → ℝ}
    {t : ℝ} (hA : ∀ i j, HasDerivAt (fun s => A s i j) (A' i j) t) (hx : ∀ i, HasDerivAt (fun s => x s i) (x' i) t) (i : Fin 3) :
    HasDerivAt (fun s => (A s *ᵥ x s) i) ((A' *ᵥ x t + A t *ᵥ x') i) t := by
  have h := (((hA i 0).mul (hx 0)).add ((hA i 1).mul (hx 1))).add ((hA i 2).mul (hx 2))
  have e : (fun s => (A s *ᵥ x s) i) = (((fun s => A s i 0) * fun s => x s 0) + (fun s => A s i 1) * fun s => x s 1) +
      (fun s => A s i 2) * fun s => x s 2 := by
    funext s; simp only [Pi.add_apply, Pi.mul_apply, mulVec, dotProduct, Fin.sum_univ_three]
  rw [e]
  refine h.congr_deriv ?_
  · simp only [Pi.add_apply, mulVec, dotProduct, Fin.sum_univ_three]; ring

theorem rot_skew {R : Matrix (Fin 3) (Fin 3) ℝ} (h : IsRot R) (w : Fin 3 → ℝ) : skew w * R = R * skew (Rᵀ *ᵥ w) := by
  rw [← IsRot.skew_comm h, mulVec_mulVec, h.mul_transpose, one_mulVec]

theorem WorldTwist.body {M : ℝ → Pose ℝ} {v w : Fin 3 → ℝ} {t : ℝ} (hM : IsRot (M t).R) (h : WorldTwist M v w t) :
    BodyTwist M ((M t).Rᵀ *ᵥ v) ((M t).Rᵀ *ᵥ w) t := by
  refine ⟨fun i j => ?_, fun i => ?_⟩
  · rw [← rot_skew hM]; exact h.rot i j
  · rw [mulVec_mulVec, hM.mul_transpose, one_mulVec]; exact h.pos i

theorem skew_add (a b : Fin 3 → ℝ) : skew (a + b) = skew a + skew b := by
  ext i j; fin_cases i <;> fin_cases j <;> simp [skew] <;> ring

theorem skew_neg (a : Fin 3 → ℝ) : skew (-a) = -skew a := by
  ext i j; fin_cases i <;> fin_cases j <;> simp [skew]

/-- The motion of a product of two frames that move. -/
theorem bodyTwist_mul {A B : ℝ → Pose ℝ} {va wa vb wb : Fin 3 → ℝ} {t : ℝ} (hB : IsRot (B t).R) (ha : BodyTwist A va wa t)
    (hb : BodyTwist B vb wb t) :
    BodyTwist (fun s => (A s).mul (B s)) ((B t).Rᵀ *ᵥ (va + wa ⨯₃ (B t).t) + vb) ((B t).Rᵀ *ᵥ wa + wb) t := by
  refine ⟨fun i j => ?_, fun i => ?_⟩
  · refine (hasDerivAt_mulMat ha.rot hb.rot i j).congr_deriv (congrFun (congrFun ?_ i) j)
    simp only [Pose.mul]
    rw [skew_add, Matrix.mul_add, Matrix.mul_assoc, rot_skew hB]
    simp only [Matrix.mul_assoc]
    rfl
  · refine ((hasDerivAt_mulVec ha.rot hb.pos i).add (ha.pos i)).congr_deriv ?_
    simp only [Pose.mul]
    rw [mulVec_add, mulVec_mulVec _ ((A t).R * (B t).R) ((B t).R)ᵀ, Matrix.mul_assoc, hB.mul_transpose, Matrix.mul_one,
      ← mulVec_mulVec _ _ (skew wa), mulVec_add, skew_mulVec, ← mulVec_mulVec]
    simp only [Pi.add_apply]
    ring

/-- The motion of the inverse of a frame. -/
theorem bodyTwist_inv {A : ℝ → Pose ℝ} {v w : Fin 3 → ℝ} {t : ℝ} (hA : ∀ s, IsRot (A s).R) (ha : BodyTwist A v w t) :
    BodyTwist (fun s => (A s).inv) (-((A t).R *ᵥ v + (A t).t ⨯₃ ((A t).R *ᵥ w))) (-((A t).R *ᵥ w)) t := by
  have hT : ∀ i j, HasDerivAt (fun s => (A s).Rᵀ i j) (((A t).R * skew w)ᵀ i j) t := fun i j => ha.rot j i
  have hw : skew ((A t).R *ᵥ w) = (A t).R * skew w * (A t).Rᵀ := by
    rw [← (hA t).skew_comm, Matrix.mul_assoc, (hA t).mul_transpose, Matrix.mul_one]
  have e : ((A t).R * skew w)ᵀ = (A t).Rᵀ * skew (-((A t).R *ᵥ w)) := by
    rw [skew_neg, hw, transpose_mul, skew_transpose, Matrix.mul_neg, Matrix.neg_mul, ← Matrix.mul_assoc, ← Matrix.mul_assoc, (hA t).1,
      Matrix.one_mul]
  refine ⟨fun i j => ?_, fun i => ?_⟩
  · simp only [Pose.inv, (hA _).inv_eq]
    rw [← e]
    exact hT i j
  · simp only [Pose.inv, (hA _).inv_eq]
    have h := (hasDerivAt_mulVec hT ha.pos i).neg
    refine h.congr_deriv ?_
    rw [e, ← mulVec_mulVec, ← mulVec_add, skew_neg, neg_mulVec, skew_mulVec]
    have e2 : -((A t).R *ᵥ v + (A t).t ⨯₃ ((A t).R *ᵥ w)) = -(-(((A t).R *ᵥ w) ⨯₃ (A t).t) + (A t).R *ᵥ v) := by
      rw [← cross_anticomm]; abel
    rw [e2, mulVec_neg, Pi.neg_apply]

end Verif.Point6d
