import Verif.Operators.Model
import Mathlib.LinearAlgebra.Matrix.NonsingularInverse
import Mathlib.LinearAlgebra.Matrix.Notation
import Mathlib.Analysis.SpecialFunctions.Sqrt

/-!
# Operators on homogeneous matrices, products, differences and norms

Simplifications: doubles are the elements of a field, or reals for the norm. A homogeneous matrix, an affine transformation of Eigen, is its
four by four storage, since `MatrixToHomo` can put anything in it. Its constructor sets the last row to `0 0 0 1` and its inverse computes
the three first rows from the linear part and the translation and sets the last one (Eigen). The inverse of a singular matrix has no
defined value: it is an undefined outcome. Sizes that Eigen refuses by an assertion are undefined outcomes.
-/

namespace Verif.Homogeneous

open Matrix Verif.Operators

variable {F : Type} [Field F]

/-- The storage of a `MatrixHomogeneous` (include/sot/core/matrix-geometry.hh:74-75). -/
abbrev Homo (F : Type) := Matrix (Fin 4) (Fin 4) F

/-- `M.linear()` (src/matrix/operator.hh:440). -/
def linear (M : Homo F) : Matrix (Fin 3) (Fin 3) F := M.submatrix Fin.castSucc Fin.castSucc

/-- `M.translation()` (src/matrix/operator.hh:447). -/
def translation (M : Homo F) : Fin 3 → F := fun i => M i.castSucc 3

/-- The transformation with this linear part, translation and last row (src/matrix/operator.hh:655-656). -/
def assemble (R : Matrix (Fin 3) (Fin 3) F) (t : Fin 3 → F) (last : Fin 4 → F) : Homo F :=
  fun i j => if hi : i.1 < 3 then if hj : j.1 < 3 then R ⟨i, hi⟩ ⟨j, hj⟩ else t ⟨i, hi⟩ else last j

/-- The last row of an affine transformation, that its constructor and its inverse set (Eigen; src/matrix/operator.hh:258). -/
def affineRow : Fin 4 → F := ![0, 0, 0, 1]

/-- `HomoToMatrix` (src/matrix/operator.hh:408-412). -/
def homoToMatrix (M : Homo F) : DMat F := ⟨4, 4, fun i j => if h : i < 4 ∧ j < 4 then M ⟨i, h.1⟩ ⟨j, h.2⟩ else 0⟩

/-- `MatrixToHomo` (src/matrix/operator.hh:414-419): the conversion to a four by four matrix asserts the size, and the whole storage is
copied. -/
def matrixToHomo (m : DMat F) : Outcome (Homo F) := if m.rows = 4 ∧ m.cols = 4 then .ok fun i j => m.val i j else .ub

/-- `HomoToRotation` (src/matrix/operator.hh:437-442). -/
def homoToRotation (M : Homo F) : Matrix (Fin 3) (Fin 3) F := linear M

/-- `MatrixHomoToPose` (src/matrix/operator.hh:444-449). -/
def homoToPose (M : Homo F) : List F := List.ofFn (translation M)

/-- `Composer` (src/matrix/operator.hh:649-658): the last row of the transformation of the output signal, `H`, is kept. -/
def compose (H : Homo F) (R : DMat F) (t : List F) : Outcome (Homo F) :=
  if R.rows = 3 ∧ R.cols = 3 ∧ t.length = 3 then .ok (assemble (fun i j => R.val i j) (fun i => t.getD i 0) (H 3)) else .ub

open scoped Classical in
/-- `Inverser<MatrixHomogeneous>` (src/matrix/operator.hh:254-259). -/
noncomputable def inverseHomo (M : Homo F) : Outcome (Homo F) :=
  if (linear M).det = 0 then .ub else .ok (assemble (linear M)⁻¹ (-((linear M)⁻¹ *ᵥ translation M)) affineRow)

open scoped Classical in
/-- `Inverser<Matrix>` (src/matrix/operator.hh:254-259). -/
noncomputable def inverseMatrix (m : DMat F) : Outcome (DMat F) :=
  if m.rows ≠ m.cols then .ub
  else
    let A : Matrix (Fin m.rows) (Fin m.rows) F := Matrix.of fun i j => m.val i j
    if A.det = 0 then .ub
    else .ok ⟨m.rows, m.rows, fun i j => if h : i < m.rows ∧ j < m.rows then A⁻¹ ⟨i, h.1⟩ ⟨j, h.2⟩ else 0⟩

/-- `InverserRotation` (src/matrix/operator.hh:275-277). -/
def inverseRotation (R : Matrix (Fin 3) (Fin 3) F) : Matrix (Fin 3) (Fin 3) F := Rᵀ

/-- `Normalize`, which computes the norm (src/matrix/operator.hh:261-264). -/
noncomputable def normOf (v : List ℝ) : ℝ := Real.sqrt (v.map fun x => x ^ 2).sum

/-- `f.matrix() * e` (src/matrix/operator.hh:558-564): Eigen asserts that the vector has four components. -/
def homoTimesVector (M : Homo F) (v : List F) : Outcome (List F) :=
  if v.length = 4 then .ok (List.ofFn (M *ᵥ fun j => v.getD j 0)) else .ub

/-- The product of a matrix and a vector (src/matrix/operator.hh:553-556, 576-577). -/
def matrixTimesVector (m : DMat F) (v : List F) : Outcome (List F) :=
  if m.cols = v.length then
    .ok ((List.range m.rows).map fun i => ((List.range m.cols).map fun j => m.val i j * v.getD j 0).sum)
  else .ub

/-- `Multiplier_double_vector` (src/matrix/operator.hh:566-572). -/
def doubleTimesVector (x : F) (v : List F) : List F := v.map fun y => y * x

/-- `Substraction` of vectors (src/matrix/operator.hh:584-590). -/
def substract (a b : List F) : Outcome (List F) := if a.length = b.length then .ok (List.zipWith (· - ·) a b) else .ub

/-- `Comparison` (src/matrix/operator.hh:698-702). -/
def compare [LT F] [DecidableLT F] (a b : F) : Bool := decide (a < b)

end Verif.Homogeneous
