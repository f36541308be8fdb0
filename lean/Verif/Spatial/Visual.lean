import Verif.Spatial.Model
import Verif.Spatial.Spec
import Mathlib.Analysis.Calculus.Deriv.Inv
import Mathlib.Data.Rat.Defs
import Mathlib.Tactic.FieldSimp
import Mathlib.Tactic.LinearCombination
import Mathlib.Tactic.NormNum

/-!
# C54: the interaction matrix of a visual point
-/

namespace Verif.Spatial

open Matrix Verif.Geometry

/-- Points behind the camera, or closer to its plane than the constant, are refused, whatever the selection. -/
theorem C54_rejected {ι : Type} (tiny : ℝ) (sel : Nat → Bool) (Z x y : ℝ) (rest : List ℝ)
    (Jq : Matrix (Fin 3 ⊕ Fin 3) ι ℝ) (h : Z < 0 ∨ |Z| < tiny) :
    visualJacobian tiny sel Z (x :: y :: rest) Jq = .throw := by
  rcases h with h | h
  · simp [visualJacobian, visualL, rd, h]
  · by_cases h0 : Z < 0 <;> simp [visualJacobian, visualL, rd, h, h0]

/-- The other ones are accepted, with as many rows as the dimension. -/
theorem C54_accepted {ι : Type} (tiny : ℝ) (sel : Nat → Bool) (Z x y : ℝ) (rest : List ℝ)
    (Jq : Matrix (Fin 3 ⊕ Fin 3) ι ℝ) (h0 : 0 < tiny) (h : tiny ≤ Z) :
    ∃ J, visualJacobian tiny sel Z (x :: y :: rest) Jq = .ok J ∧ J.length = visualDim sel := by
  have h1 : ¬ Z < 0 := by linarith
  have h2 : ¬ |Z| < tiny := by rw [abs_of_nonneg (by linarith)]; linarith
  refine ⟨_, by simp [visualJacobian, visualL, rd, h1, h2]; rfl, ?_⟩
  cases ha : sel 0 <;> cases hb : sel 1 <;> simp [visualDim, ha, hb]

/-- The position in a moving camera of a fixed point `p`. -/
theorem point_derivative (M : ℝ → Pose ℝ) (v w p : Fin 3 → ℝ) (t : ℝ) (hM : BodyTwist M v w t) :
    ∀ i, HasDerivAt (fun s => ((M s).Rᵀ *ᵥ (p - (M s).t)) i)
      ((-(((M t).Rᵀ * (M t).R) *ᵥ v) - skew w *ᵥ ((M t).Rᵀ *ᵥ (p - (M t).t))) i) t := by
  intro i
  have hR := hM.rot
  have hp := hM.pos
  have h : HasDerivAt (fun s => ∑ k, (M s).R k i * (p k - (M s).t k))
      (∑ k, ((((M t).R * skew w) k i) * (p k - (M t).t k) + (M t).R k i * (0 - ((M t).R *ᵥ v) k))) t := by
    apply HasDerivAt.fun_sum
    intro k _
    exact (hR k i).mul ((hasDerivAt_const t (p k)).sub (hp k))
  have e : (fun s => ((M s).Rᵀ *ᵥ (p - (M s).t)) i) = fun s => ∑ k, (M s).R k i * (p k - (M s).t k) := by
    funext s; simp [Matrix.mulVec, dotProduct]
  rw [e]
  refine h.congr_deriv ?_
  simp only [Matrix.mulVec, dotProduct, Matrix.mul_apply, Fin.sum_univ_three, Pi.sub_apply, Pi.neg_apply,
    Matrix.transpose_apply]
  fin_cases i <;> simp [skew] <;> ring

/-- Coordinates of the projection of a point given in the camera. -/
noncomputable def proj (P : Fin 3 → ℝ) : Fin 2 → ℝ := ![P 0 / P 2, P 1 / P 2]

/-- Twist of the camera, as a six-dimensional vector. -/
def sixOf (v w : Fin 3 → ℝ) : Fin 3 ⊕ Fin 3 → ℝ := Sum.elim v w

/-- A point in front of the camera, moving with velocity `-v - w × P` (seen from a camera of twist `(v, w)`): the rows of
the interaction matrix times the twist give the derivatives of its coordinates. -/
theorem C54_interaction (tiny : ℝ) (P : ℝ → Fin 3 → ℝ) (v w : Fin 3 → ℝ) (t : ℝ) (h0 : 0 < tiny) (hZ : tiny ≤ P t 2)
    (hP : ∀ i, HasDerivAt (fun s => P s i) ((-v - skew w *ᵥ P t) i) t) :
    ∃ r0 r1, visualL tiny (fun _ => true) (P t 2) [proj (P t) 0, proj (P t) 1] = .ok [r0, r1] ∧
      HasDerivAt (fun s => proj (P s) 0) (r0 ⬝ᵥ sixOf v w) t ∧ HasDerivAt (fun s => proj (P s) 1) (r1 ⬝ᵥ sixOf v w) t := by
  have hpos : P t 2 ≠ 0 := by intro h; linarith
  have h1 : ¬ P t 2 < 0 := by linarith
  have h2 : ¬ |P t 2| < tiny := by rw [abs_of_nonneg (by linarith)]; linarith
  refine ⟨_, _, by simp [visualL, rd, h1, h2]; exact ⟨rfl, rfl⟩, ?_, ?_⟩
  · have h := (hP 0).div (hP 2) hpos
    refine h.congr_deriv ?_
    simp [sixOf, proj, dotProduct, Fintype.sum_sum_type, Fin.sum_univ_three, skew, Matrix.mulVec]
    field_simp
    ring
  · have h := (hP 1).div (hP 2) hpos
    refine h.congr_deriv ?_
    simp [sixOf, proj, dotProduct, Fintype.sum_sum_type, Fin.sum_univ_three, skew, Matrix.mulVec]
    field_simp
    ring

/-- A fixed point seen from a camera carried by a robot: the Jacobian times the joint velocities gives the derivatives of
the coordinates, for the camera Jacobian `Jq` expressed in the camera. -/
theorem C54_jacobian {ι : Type} [Fintype ι] (tiny : ℝ) (M : ℝ → Pose ℝ) (p : Fin 3 → ℝ) (Jq : Matrix (Fin 3 ⊕ Fin 3) ι ℝ)
    (u : ι → ℝ) (t : ℝ) (h0 : 0 < tiny) (hR : (M t).Rᵀ * (M t).R = 1)
    (hM : BodyTwist M (linPart Jq u) (angPart Jq u) t)
    (hZ : tiny ≤ ((M t).Rᵀ *ᵥ (p - (M t).t)) 2) :
    let P := fun s => (M s).Rᵀ *ᵥ (p - (M s).t)
    ∃ j0 j1, visualJacobian tiny (fun _ => true) (P t 2) [proj (P t) 0, proj (P t) 1] Jq = .ok [j0, j1] ∧
      HasDerivAt (fun s => proj (P s) 0) (j0 ⬝ᵥ u) t ∧ HasDerivAt (fun s => proj (P s) 1) (j1 ⬝ᵥ u) t := by
  intro P
  have hP : ∀ i, HasDerivAt (fun s => P s i) ((-(linPart Jq u) - skew (angPart Jq u) *ᵥ P t) i) t := by
    intro i
    have := point_derivative M _ _ p t hM i
    rw [hR, Matrix.one_mulVec] at this
    exact this
  obtain ⟨r0, r1, h1, h2, h3⟩ := C54_interaction tiny P _ _ t h0 hZ hP
  have hs : sixOf (linPart Jq u) (angPart Jq u) = Jq *ᵥ u := by
    funext k; cases k <;> rfl
  refine ⟨_, _, by rw [visualJacobian, h1, Outcome.map_ok]; rfl, ?_, ?_⟩
  · rw [← Matrix.dotProduct_mulVec, ← hs]; exact h2
  · rw [← Matrix.dotProduct_mulVec, ← hs]; exact h3

/-- The rows for a selection are those of the whole matrix, in order. -/
theorem C54_selection (tiny : ℝ) (sel : Nat → Bool) (Z : ℝ) (xy : List ℝ) (L : List (Fin 3 ⊕ Fin 3 → ℝ))
    (h : visualL tiny (fun _ => true) Z xy = .ok L) :
    visualL tiny sel Z xy = .ok ((L.zipIdx.filter fun r => sel r.2).map Prod.fst) := by
  unfold visualL at h ⊢
  cases hx : rd xy 0 <;> rw [hx] at h <;> simp only [Outcome.bind_ok, Outcome.bind_throw, Outcome.bind_ub, reduceCtorEq] at h
  cases hy : rd xy 1 <;> rw [hy] at h <;> simp only [Outcome.bind_ok, Outcome.bind_throw, Outcome.bind_ub, reduceCtorEq] at h
  simp only [Outcome.bind_ok]
  by_cases h1 : Z < 0
  · rw [if_pos h1] at h; cases h
  rw [if_neg h1] at h ⊢
  by_cases h2 : |Z| < tiny
  · rw [if_pos h2] at h; cases h
  rw [if_neg h2] at h ⊢
  obtain rfl := (Outcome.ok.inj h).symm
  cases ha : sel 0 <;> cases hb : sel 1 <;> simp [List.zipIdx_cons, List.filter_cons, ha, hb]

/-- The error lists the differences with the reference of the selected coordinates; without reference it is refused. -/
theorem C54_error (sel : Nat → Bool) (x y x' y' : ℝ) :
    visualError sel [x, y] (some [x', y']) =
      .ok ((if sel 0 then [x - x'] else []) ++ (if sel 1 then [y - y'] else [])) ∧
    visualError sel [x, y] none = .throw := by
  constructor
  · cases ha : sel 0 <;> cases hb : sel 1 <;> simp [visualError, rd, ha, hb]
  · rfl

/-- Derivative of a constant frame: it has the zero twist. -/
theorem bodyTwist_const (M : Pose ℝ) (t : ℝ) : BodyTwist (fun _ => M) 0 0 t := by
  have h0 : skew (0 : Fin 3 → ℝ) = 0 := by ext i j; fin_cases i <;> fin_cases j <;> simp [skew]
  constructor
  · intro i j; rw [h0]; simpa using hasDerivAt_const t (M.R i j)
  · intro i; simpa using hasDerivAt_const t (M.t i)

/-- A camera that moves forward along its axis at speed one. -/
theorem bodyTwist_forward (t : ℝ) : BodyTwist (fun s => ⟨1, ![0, 0, s]⟩) ![0, 0, 1] 0 t := by
  have h0 : skew (0 : Fin 3 → ℝ) = 0 := by ext i j; fin_cases i <;> fin_cases j <;> simp [skew]
  constructor
  · intro i j; rw [h0]; simpa using hasDerivAt_const t ((1 : Matrix (Fin 3) (Fin 3) ℝ) i j)
  · intro i; fin_cases i
    · simpa using hasDerivAt_const t (0 : ℝ)
    · simpa using hasDerivAt_const t (0 : ℝ)
    · simpa using hasDerivAt_id' t

/-- A concrete case: the camera moves forward towards the point (1, 0, 2). -/
example : ∃ j0 j1, visualJacobian (1 / 1000000 : ℝ) (fun _ => true) 2 [1 / 2, 0]
    (fun (r : Fin 3 ⊕ Fin 3) (_ : Unit) => if r = .inl 2 then 1 else 0) = .ok [j0, j1] ∧
    HasDerivAt (fun s : ℝ => 1 / (2 - s)) (j0 ⬝ᵥ fun _ => 1) 0 := by
  have hl : linPart (fun (r : Fin 3 ⊕ Fin 3) (_ : Unit) => if r = .inl 2 then 1 else 0) (fun _ => 1) = ![0, 0, 1] := by
    funext i; fin_cases i <;> simp [linPart, Matrix.mulVec, dotProduct]
  have ha : angPart (fun (r : Fin 3 ⊕ Fin 3) (_ : Unit) => if r = .inl 2 then 1 else 0) (fun _ => 1) = 0 := by
    funext i; fin_cases i <;> simp [angPart, Matrix.mulVec, dotProduct]
  obtain ⟨j0, j1, h1, h2, -⟩ := C54_jacobian (1 / 1000000) (fun s => ⟨1, ![0, 0, s]⟩) ![1, 0, 2]
    (fun (r : Fin 3 ⊕ Fin 3) (_ : Unit) => if r = .inl 2 then 1 else 0) (fun _ => 1) 0 (by norm_num) (by simp)
    (by rw [hl, ha]; exact bodyTwist_forward 0) (by simp; norm_num)
  refine ⟨j0, j1, ?_, ?_⟩
  · simpa [proj] using h1
  · simpa [proj] using h2

end Verif.Spatial
