import Verif.Geometry.Model
import Mathlib.Analysis.Calculus.Deriv.Mul
import Mathlib.Analysis.Calculus.Deriv.Add
import Mathlib.LinearAlgebra.CrossProduct

/-!
# Motions of a frame
-/

namespace Verif.Spatial

open Matrix Verif.Geometry

/-- At the date `t` the frame `M` moves with the twist `(v, w)` expressed in itself: its origin moves at `R v` and its
rotation at `R [w]`. -/
structure BodyTwist (M : ℝ → Pose ℝ) (v w : Fin 3 → ℝ) (t : ℝ) : Prop where
  rot : ∀ i j, HasDerivAt (fun s => (M s).R i j) (((M t).R * skew w) i j) t
  pos : ∀ i, HasDerivAt (fun s => (M s).t i) (((M t).R *ᵥ v) i) t

/-- The twist of a frame whose Jacobian is `Jq`, for the joint velocities `u`. -/
def linPart {ι : Type} [Fintype ι] (Jq : Matrix (Fin 3 ⊕ Fin 3) ι ℝ) (u : ι → ℝ) : Fin 3 → ℝ := fun i => (Jq *ᵥ u) (.inl i)

/-- The rotation part of that twist. -/
def angPart {ι : Type} [Fintype ι] (Jq : Matrix (Fin 3 ⊕ Fin 3) ι ℝ) (u : ι → ℝ) : Fin 3 → ℝ := fun i => (Jq *ᵥ u) (.inr i)

end Verif.Spatial
