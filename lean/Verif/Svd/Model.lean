import Verif.Common.Svd

/-!
# Model of the generalised inverses (src/matrix/matrix-svd.cpp)

Numbers are reals; the decomposition is any decomposition satisfying its specification
(`Verif.Common.Svd`). The thin `V` of the code is made of the first columns of `V`.
-/

namespace Verif.MatrixSvd

open Matrix

variable {m c : ℕ} {A : Matrix (Fin m) (Fin c) ℝ}

/-- `svd.matrixV()` for a thin decomposition, `svd.matrixV().leftCols(m)` for a full one
(src/matrix/matrix-svd.cpp:24, 36). -/
def thinV (S : Svd A) : Matrix (Fin c) (Fin (min m c)) ℝ := S.V.submatrix id svdCol

/-- The loop on the singular values (src/matrix/matrix-svd.cpp:18-23). -/
noncomputable def invSigma (S : Svd A) (threshold : ℝ) : Fin (min m c) → ℝ :=
  open Classical in fun i => if S.σ i > threshold then 1 / S.σ i else 0

/-- `pseudoInverse` (src/matrix/matrix-svd.cpp:12-26). -/
noncomputable def pseudoInverse (S : Svd A) (threshold : ℝ) : Matrix (Fin c) (Fin m) ℝ :=
  thinV S * diagonal (invSigma S threshold) * S.Uᵀ

/-- `dampedInverse` (src/matrix/matrix-svd.cpp:28-38); the two other overloads
(src/matrix/matrix-svd.cpp:40-56) compute the decomposition and call this one. A null singular value
with a null threshold gives a NaN in the code (0/0) and 0 here; the theorems require a threshold that
is not null. -/
noncomputable def dampedInverse (S : Svd A) (threshold : ℝ) : Matrix (Fin c) (Fin m) ℝ :=
  thinV S * diagonal (fun i => S.σ i / (S.σ i ^ 2 + threshold * threshold)) * S.Uᵀ

end Verif.MatrixSvd
