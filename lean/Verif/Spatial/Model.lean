import Verif.Geometry.Model
import Mathlib.Algebra.Order.Group.Unbundled.Abs

/-!
# Model of the features of points, directions and lines

`FeatureVisualPoint`, `VisualPointProjecter`, `FeatureVector3`, `FeatureLineDistance`. Doubles are elements of an (ordered)
field. Jacobians have columns indexed by any type; the six rows of an input Jacobian are `Fin 3 ⊕ Fin 3`, as in
Verif/Geometry/Model.lean: another number of rows fails an assertion of Eigen, and is not modelled. Vectors and references
of a fixed size are functions on `Fin`: reading a smaller one is undefined, and is not modelled.
-/
set_option linter.unusedSectionVars false

namespace Verif.Spatial

open Matrix Verif.Geometry

variable {F : Type} [Field F]

/-! ### Visual point -/

/-- `FeatureVisualPoint::getDimension` (src/feature/feature-visual-point.cpp:62-73). -/
def visualDim (sel : Nat → Bool) : Nat := (if sel 0 then 1 else 0) + (if sel 1 then 1 else 0)

/-- The matrix `L` of `FeatureVisualPoint::computeJacobian` (src/feature/feature-visual-point.cpp:78-128): its rows, for the
translation then the rotation. `tiny` is the constant `1e-6`. -/
def visualL [LinearOrder F] (tiny : F) (sel : Nat → Bool) (Z : F) (xy : List F) :
    Outcome (List (Fin 3 ⊕ Fin 3 → F)) :=
  (rd xy 0).bind fun x => (rd xy 1).bind fun y =>
    if Z < 0 then .throw
    else if |Z| < tiny then .throw
    else .ok ((if sel 0 then [Sum.elim ![-1 / Z, 0, x / Z] ![x * y, -(1 + x * x), y]] else []) ++
      (if sel 1 then [Sum.elim ![0, -1 / Z, y / Z] ![1 + y * y, -x * y, -x]] else []))

/-- `FeatureVisualPoint::computeJacobian` (src/feature/feature-visual-point.cpp:78-135). -/
def visualJacobian [LinearOrder F] {ι : Type} (tiny : F) (sel : Nat → Bool) (Z : F) (xy : List F)
    (Jq : Matrix (Fin 3 ⊕ Fin 3) ι F) : Outcome (List (ι → F)) :=
  (visualL tiny sel Z xy).map fun L => L.map fun r => r ᵥ* Jq

/-- `FeatureVisualPoint::computeError` (src/feature/feature-visual-point.cpp:140-160). -/
def visualError (sel : Nat → Bool) (xy : List F) (ref : Option (List F)) : Outcome (List F) :=
  match ref with
  | none => .throw
  | some des =>
    (if sel 0 then (rd xy 0).bind fun x => (rd des 0).map fun d => [x - d] else .ok []).bind fun e0 =>
      (if sel 1 then (rd xy 1).bind fun y => (rd des 1).map fun d => [y - d] else .ok []).map fun e1 => e0 ++ e1

/-! ### Projection of a point -/

/-- `Mi.matrix() * p3` (src/feature/visual-point-projecter.cpp:54): the product of a 4x4 matrix and a vector, that Eigen
refuses by an assertion when the vector has another size than four (without assertions it reads out of range). -/
def homoMul (M : Pose F) (p : List F) : Outcome (List F) :=
  match p with
  | [x, y, z, w] =>
    let v := M.R *ᵥ ![x, y, z] + w • M.t
    .ok [v 0, v 1, v 2, w]
  | _ => .ub

/-- `point3DgazeSOUT_function` (src/feature/visual-point-projecter.cpp:48-56). -/
noncomputable def gaze (M : Pose F) (p3 : List F) : Outcome (List F) := homoMul M.inv p3

/-- `assert(c)`: checked when `assertions` is on. -/
def assertThat (assertions : Bool) (c : Prop) [Decidable c] : Outcome Unit := if assertions && !decide c then .ub else .ok ()

/-- `depthSOUT_function` (src/feature/visual-point-projecter.cpp:74-79). -/
noncomputable def depth (assertions : Bool) (M : Pose F) (p3 : List F) : Outcome F :=
  (gaze M p3).bind fun g => (assertThat assertions (g.length = 3)).bind fun _ => rd g 2

/-- `point2DSOUT_function` (src/feature/visual-point-projecter.cpp:58-72). -/
noncomputable def point2D [LinearOrder F] (assertions : Bool) (M : Pose F) (p3 : List F) : Outcome (List F) :=
  (gaze M p3).bind fun g => (depth assertions M p3).bind fun z => (assertThat assertions (z > 0)).bind fun _ =>
    (rd g 0).bind fun x => (rd g 1).map fun y => [x / z, y / z]

/-! ### Direction -/

/-- `FeatureVector3::computeError` (src/feature/feature-vector3.cpp:107-126). -/
def vectorError (M : Pose F) (vect vectdes : Fin 3 → F) : Fin 3 → F := M.R *ᵥ vect - vectdes

/-- `FeatureVector3::computeJacobian` (src/feature/feature-vector3.cpp:68-102): the matrix `Skew` (77-86) is `skew vect`. -/
def vectorJacobian {ι : Type} (M : Pose F) (vect : Fin 3 → F) (Jq : Matrix (Fin 3 ⊕ Fin 3) ι F) : Matrix (Fin 3) ι F :=
  fun i j => 0 - (M.R * skew vect) i 0 * Jq (.inr 0) j - (M.R * skew vect) i 1 * Jq (.inr 1) j -
    (M.R * skew vect) i 2 * Jq (.inr 2) j

/-! ### Distance between two lines -/

/-- `computeLineCoordinates` (src/feature/feature-line-distance.cpp:67-89): a point and a direction. -/
def lineCoordinates (M : Pose F) (vect : Fin 3 → F) : Fin 6 → F :=
  let v := M.R *ᵥ vect
  ![M.t 0, M.t 1, M.t 2, v 0, v 1, v 2]

/-- The denominator `K` (src/feature/feature-line-distance.cpp:156-158, 263-265). -/
def lineK (p q : Fin 6 → F) : F :=
  let a0 := p 3; let b0 := p 4; let c0 := p 5; let a1 := q 3; let b1 := q 4; let c1 := q 5
  c0 * c0 * a1 * a1 - 2 * c0 * a1 * a0 * c1 - 2 * c0 * b1 * b0 * c1 +
    c0 * c0 * b1 * b1 - 2 * b0 * a1 * a0 * b1 + b0 * b0 * a1 * a1 +
    b0 * b0 * c1 * c1 + a0 * a0 * b1 * b1 + a0 * a0 * c1 * c1

/-- `FeatureLineDistance::computeError` (src/feature/feature-line-distance.cpp:242-277). Division by zero, for parallel lines, is not
the one of doubles: statements exclude it. -/
def lineError (p q : Fin 6 → F) : F :=
  let x0 := p 0; let y0 := p 1; let z0 := p 2; let a0 := p 3; let b0 := p 4; let c0 := p 5
  let x1 := q 0; let y1 := q 1; let z1 := q 2; let a1 := q 3; let b1 := q 4; let c1 := q 5
  (-b0 * c1 * x0 + b0 * c1 * x1 + c0 * b1 * x0 - c0 * b1 * x1 +
    a0 * c1 * y0 - a0 * c1 * y1 - c0 * a1 * y0 + c0 * a1 * y1 -
    a0 * b1 * z0 + a0 * b1 * z1 + b0 * a1 * z0 - b0 * a1 * z1) /
    lineK p q

/-- `diffx0` (src/feature/feature-line-distance.cpp:160). -/
def diffx0 (p q : Fin 6 → F) : F :=
  let b0 := p 4; let c0 := p 5; let b1 := q 4; let c1 := q 5;
  -b0 * c1 + c0 * b1

/-- `diffy0` (src/feature/feature-line-distance.cpp:161). -/
def diffy0 (p q : Fin 6 → F) : F :=
  let a0 := p 3; let c0 := p 5; let a1 := q 3; let c1 := q 5
  a0 * c1 - c0 * a1

/-- `diffz0` (src/feature/feature-line-distance.cpp:162). -/
def diffz0 (p q : Fin 6 → F) : F :=
  let a0 := p 3; let b0 := p 4; let a1 := q 3; let b1 := q 4;
  -a0 * b1 + b0 * a1

/-- `diffa0` (src/feature/feature-line-distance.cpp:164-191). -/
def diffa0 (p q : Fin 6 → F) : F :=
  let x0 := p 0; let y0 := p 1; let z0 := p 2; let a0 := p 3; let b0 := p 4; let c0 := p 5
  let x1 := q 0; let y1 := q 1; let z1 := q 2; let a1 := q 3; let b1 := q 4; let c1 := q 5
  let b1_3 := b1 * b1 * b1; let c1_3 := c1 * c1 * c1
  2 * b0 * c1 * x0 * a0 * b1 * b1 + 2 * c0 * b1 * b1 * x0 * b0 * a1 +
    2 * c0 * c0 * b1 * x0 * c1 * a1 + 2 * c1 * c1 * y0 * c0 * a1 * a0 -
    2 * b0 * c1 * c1 * x0 * c0 * a1 - 2 * b0 * b0 * c1 * x0 * b1 * a1 -
    2 * c1 * c1 * y0 * c0 * b1 * b0 + 2 * b0 * b0 * c1 * x1 * b1 * a1 +
    2 * b0 * c1 * c1 * x1 * c0 * a1 - 2 * b0 * c1 * x1 * a0 * b1 * b1 -
    c1 * y0 * c0 * c0 * a1 * a1 + c1 * y0 * c0 * c0 * b1 * b1 +
    c1 * y0 * b0 * b0 * a1 * a1 - c1 * y0 * a0 * a0 * b1 * b1 +
    c1 * y1 * c0 * c0 * a1 * a1 - c1 * y1 * c0 * c0 * b1 * b1 -
    c1 * y1 * b0 * b0 * a1 * a1 + c1 * y1 * a0 * a0 * b1 * b1 -
    b1 * z0 * c0 * c0 * a1 * a1 + b1 * z0 * b0 * b0 * a1 * a1 -
    b1 * z0 * b0 * b0 * c1 * c1 + b1 * z0 * a0 * a0 * c1 * c1 +
    b1 * z1 * c0 * c0 * a1 * a1 - b1 * z1 * b0 * b0 * a1 * a1 +
    b1 * z1 * b0 * b0 * c1 * c1 - b1 * z1 * a0 * a0 * c1 * c1 +
    2 * b0 * c1_3 * x0 * a0 - 2 * b0 * c1_3 * x1 * a0 -
    2 * c0 * b1_3 * x0 * a0 + 2 * c0 * b1_3 * x1 * a0 + c1_3 * y0 * b0 * b0 -
    c1_3 * y0 * a0 * a0 - c1_3 * y1 * b0 * b0 + c1_3 * y1 * a0 * a0 -
    b1_3 * z0 * c0 * c0 + b1_3 * z0 * a0 * a0 + b1_3 * z1 * c0 * c0 -
    b1_3 * z1 * a0 * a0 - 2 * c1 * c1 * y1 * c0 * a1 * a0 +
    2 * c1 * c1 * y1 * c0 * b1 * b0 + 2 * b1 * b1 * z0 * c0 * b0 * c1 -
    2 * b1 * b1 * z0 * b0 * a1 * a0 - 2 * b1 * b1 * z1 * c0 * b0 * c1 +
    2 * b1 * b1 * z1 * b0 * a1 * a0 - 2 * c0 * b1 * x0 * a0 * c1 * c1 -
    2 * c0 * b1 * b1 * x1 * b0 * a1 - 2 * c0 * c0 * b1 * x1 * c1 * a1 +
    2 * c0 * b1 * x1 * a0 * c1 * c1 + 2 * c0 * a1 * y0 * a0 * b1 * b1 -
    2 * c0 * a1 * a1 * y0 * b1 * b0 - 2 * c0 * a1 * y1 * a0 * b1 * b1 +
    2 * c0 * a1 * a1 * y1 * b1 * b0 + 2 * b0 * a1 * a1 * z0 * c1 * c0 -
    2 * b0 * a1 * z0 * a0 * c1 * c1 - 2 * b0 * a1 * a1 * z1 * c1 * c0 +
    2 * b0 * a1 * z1 * a0 * c1 * c1

/-- `diffb0` (src/feature/feature-line-distance.cpp:192-219). -/
def diffb0 (p q : Fin 6 → F) : F :=
  let x0 := p 0; let y0 := p 1; let z0 := p 2; let a0 := p 3; let b0 := p 4; let c0 := p 5
  let x1 := q 0; let y1 := q 1; let z1 := q 2; let a1 := q 3; let b1 := q 4; let c1 := q 5
  let a1_3 := a1 * a1 * a1; let c1_3 := c1 * c1 * c1;
  -2 * c1 * c1 * x0 * c0 * b1 * b0 + 2 * c1 * c1 * x0 * c0 * a1 * a0 -
    c1 * x0 * c0 * c0 * a1 * a1 + c1 * x0 * c0 * c0 * b1 * b1 +
    c1 * x0 * b0 * b0 * a1 * a1 - c1 * x0 * a0 * a0 * b1 * b1 +
    c1 * x1 * c0 * c0 * a1 * a1 - c1 * x1 * c0 * c0 * b1 * b1 -
    c1 * x1 * b0 * b0 * a1 * a1 + c1 * x1 * a0 * a0 * b1 * b1 +
    a1 * z0 * c0 * c0 * b1 * b1 - a1 * z0 * b0 * b0 * c1 * c1 -
    a1 * z0 * a0 * a0 * b1 * b1 + a1 * z0 * a0 * a0 * c1 * c1 -
    a1 * z1 * c0 * c0 * b1 * b1 + a1 * z1 * b0 * b0 * c1 * c1 +
    a1 * z1 * a0 * a0 * b1 * b1 - a1 * z1 * a0 * a0 * c1 * c1 -
    2 * a0 * c1_3 * y0 * b0 + 2 * a0 * c1_3 * y1 * b0 + c1_3 * x0 * b0 * b0 -
    c1_3 * x0 * a0 * a0 - c1_3 * x1 * b0 * b0 + c1_3 * x1 * a0 * a0 +
    a1_3 * z0 * c0 * c0 - 2 * c1 * c1 * x1 * c0 * a1 * a0 +
    2 * c1 * c1 * x1 * c0 * b1 * b0 - 2 * a1 * a1 * z0 * c0 * a0 * c1 +
    2 * a1 * a1 * z0 * b0 * a0 * b1 - a1_3 * z0 * b0 * b0 -
    a1_3 * z1 * c0 * c0 + a1_3 * z1 * b0 * b0 +
    2 * a1 * a1 * z1 * c0 * a0 * c1 - 2 * a1 * a1 * z1 * b0 * a0 * b1 +
    2 * c0 * b1 * b1 * x0 * a1 * a0 - 2 * c0 * b1 * x0 * b0 * a1 * a1 -
    2 * c0 * b1 * b1 * x1 * a1 * a0 + 2 * c0 * b1 * x1 * b0 * a1 * a1 +
    2 * a0 * a0 * c1 * y0 * a1 * b1 - 2 * a0 * c1 * y0 * b0 * a1 * a1 +
    2 * a0 * c1 * c1 * y0 * c0 * b1 - 2 * a0 * a0 * c1 * y1 * a1 * b1 +
    2 * a0 * c1 * y1 * b0 * a1 * a1 - 2 * a0 * c1 * c1 * y1 * c0 * b1 -
    2 * c0 * a1 * a1 * y0 * a0 * b1 + 2 * c0 * a1_3 * y0 * b0 -
    2 * c0 * a1_3 * y1 * b0 + 2 * c0 * a1 * y0 * b0 * c1 * c1 -
    2 * c0 * c0 * a1 * y0 * c1 * b1 + 2 * c0 * a1 * a1 * y1 * a0 * b1 -
    2 * c0 * a1 * y1 * b0 * c1 * c1 + 2 * c0 * c0 * a1 * y1 * c1 * b1 +
    2 * a0 * b1 * z0 * b0 * c1 * c1 - 2 * a0 * b1 * b1 * z0 * c1 * c0 -
    2 * a0 * b1 * z1 * b0 * c1 * c1 + 2 * a0 * b1 * b1 * z1 * c1 * c0

/-- The row `diffh` (src/feature/feature-line-distance.cpp:221-228). -/
def lineDiff (p q : Fin 6 → F) : Fin 6 → F :=
  let K := lineK p q
  ![diffx0 p q / K, diffy0 p q / K, diffz0 p q / K, diffa0 p q / (K * K), diffb0 p q / (K * K), 0]

/-- The matrix `Jline` (src/feature/feature-line-distance.cpp:99-132). -/
def lineJ {ι : Type} (M : Pose F) (vect : Fin 3 → F) (Jq : Matrix (Fin 3 ⊕ Fin 3) ι F) : Matrix (Fin 6) ι F :=
  let up : Fin 3 → ι → F := fun i j => 0 + M.R i 0 * Jq (.inl 0) j + M.R i 1 * Jq (.inl 1) j + M.R i 2 * Jq (.inl 2) j
  let down : Fin 3 → ι → F := fun i j => 0 + -(M.R * skew vect) i 0 * Jq (.inr 0) j +
    -(M.R * skew vect) i 1 * Jq (.inr 1) j + -(M.R * skew vect) i 2 * Jq (.inr 2) j
  ![up 0, up 1, up 2, down 0, down 1, down 2]

/-- `FeatureLineDistance::computeJacobian` (src/feature/feature-line-distance.cpp:95-237): the single row. -/
def lineJacobian {ι : Type} (M : Pose F) (vect : Fin 3 → F) (q : Fin 6 → F) (Jq : Matrix (Fin 3 ⊕ Fin 3) ι F) : ι → F :=
  lineDiff (lineCoordinates M vect) q ᵥ* lineJ M vect Jq

end Verif.Spatial
