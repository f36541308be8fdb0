import Verif.Common.Outcome
import Verif.Common.Index
import Mathlib.Algebra.Field.Defs
import Mathlib.Order.Defs.LinearOrder
import Mathlib.Algebra.Order.Group.Unbundled.Abs

/-!
# Model of the features made of selected components

`FeatureGeneric`, the error derivative of `FeatureAbstract`, `FeaturePosture`, `FeatureJointLimits`, `Feature1D`.
A vector is a list of numbers. A selection is a function `sel`: `Flags::operator()` is defined for every non-negative
index (property C01). Every value read by `signal(i)` without check is undefined out of range. `res` is the output buffer
after `resize`: any content.
-/

namespace Verif.Features

variable {F : Type}

/-- The loops `for (i...) if (fl(i)) res(curr++) = f(i)`, with `n` turns left. -/
def fillLoop {α : Type} (sel : Nat → Bool) (f : Nat → Outcome α) : Nat → Nat → Nat → List α → Outcome (List α)
  | 0, _, _, res => .ok res
  | n + 1, i, curr, res =>
    if sel i then (f i).bind fun x => (wr res curr x).bind fun res' => fillLoop sel f n (i + 1) (curr + 1) res'
    else fillLoop sel f n (i + 1) curr res

/-- The loops `for (i < n) if (fl(i)) dim++`. -/
def countLoop (sel : Nat → Bool) : Nat → Nat → Nat → Nat
  | 0, _, dim => dim
  | n + 1, i, dim => countLoop sel n (i + 1) (if sel i then dim + 1 else dim)

/-! ### Generic feature -/

/-- `FeatureGeneric::getDimension` (src/feature/feature-generic.cpp:63-76): the dimension, and the member
`dimensionDefault` afterwards. It is zero at first (31), and set by the first evaluation with a non-empty error. -/
def genericDim (dimensionDefault : Nat) (sel : Nat → Bool) (errSize : Nat) : Nat × Nat :=
  let dd := if dimensionDefault = 0 then errSize else dimensionDefault
  (countLoop sel dd 0 0, dd)

/-- `FeatureGeneric::computeError` (src/feature/feature-generic.cpp:78-116), for the dimension `dim` read from the signal;
`ref` is the error of the reference feature when one is set. -/
def genericError [Sub F] (sel : Nat → Bool) (dim : Nat) (err : List F) (ref : Option (List F)) (res : List F) :
    Outcome (List F) :=
  if err.length < dim then .throw
  else match ref with
    | some des =>
      if des.length < dim then .throw
      else fillLoop sel (fun i => (rd err i).bind fun e => (rd des i).map fun d => e - d) err.length 0 0 res
    | none => fillLoop sel (fun i => rd err i) err.length 0 0 res

/-- The loop of `FeatureGeneric::computeJacobian` (src/feature/feature-generic.cpp:128-132): no bound on `i`, it ends when
`dim` rows are written. `fuel` bounds the number of turns; running out of it stands for an endless loop. A row is copied
entry by entry (130): reading a row that does not exist is undefined when there is a column. -/
def jacLoop {α : Type} (sel : Nat → Bool) (row : Nat → Outcome α) : Nat → Nat → Nat → Nat → List α → Option (Outcome (List α))
  | 0, _, curr, dim, res => if curr < dim then none else some (.ok res)
  | fuel + 1, i, curr, dim, res =>
    if curr < dim then
      if sel i then
        match row i with
        | .ok x => match wr res curr x with
          | .ok res' => jacLoop sel row fuel (i + 1) (curr + 1) dim res'
          | _ => some .ub
        | .throw => some .throw
        | .ub => some .ub
      else jacLoop sel row fuel (i + 1) curr dim res
    else some (.ok res)

/-- Row `i` of a matrix given by its rows; with no column nothing is read. -/
def rowRead (cols : Nat) (J : List (List F)) (i : Nat) : Outcome (List F) := if cols = 0 then .ok [] else rd J i

/-- `FeatureGeneric::computeJacobian` (src/feature/feature-generic.cpp:118-136). -/
def genericJacobian (fuel : Nat) (sel : Nat → Bool) (dim cols : Nat) (J res : List (List F)) :
    Option (Outcome (List (List F))) := jacLoop sel (rowRead cols J) fuel 0 0 dim res

/-! ### Error derivative -/

/-- `FeatureAbstract::computeErrorDot` (src/feature/feature-abstract.cpp:95-123): `des` is the value of the signal
`errordotIN` of the reference, when there is a reference and the signal is plugged. -/
def errorDot [Neg F] [Zero F] (sel : Nat → Bool) (dim : Nat) (des : Option (List F)) (res : List F) : Outcome (List F) :=
  match des with
  | some d => if d.length < dim then .throw else fillLoop sel (fun i => (rd d i).map fun x => -x) d.length 0 0 res
  | none => .ok (List.replicate dim 0)

/-! ### Posture -/

/-- Fields of `FeaturePosture` (include/sot/core/feature-posture.hh:79-80) and its constant Jacobian: the rows, and the
number of columns. -/
structure Posture (F : Type) where
  active : List Bool
  nb : Nat
  jac : List (List F)
  jacCols : Nat

/-- Constructor (src/feature/feature-posture.cpp:37-64). -/
def Posture.new : Posture F := ⟨[], 0, [], 0⟩

/-- The loop that fills the Jacobian (src/feature/feature-posture.cpp:142-147): `J(index, i) = 1` for each active joint. -/
def postureJac [One F] : List Bool → Nat → Nat → List (List F) → Outcome (List (List F))
  | [], _, _, J => .ok J
  | a :: as, i, index, J =>
    if a then (rd J index).bind fun row => (wr row i 1).bind fun row' => (wr J index row').bind fun J' =>
      postureJac as (i + 1) (index + 1) J'
    else postureJac as (i + 1) index J

/-- `selectDof` (src/feature/feature-posture.cpp:105-150) when the state and the posture have the given sizes: the state of
the feature after the call, also when it throws. -/
def Posture.selectDof [Zero F] [One F] (p : Posture F) (stateSize postureSize dofId : Nat) (control : Bool) :
    Posture F × Outcome Unit :=
  if stateSize ≠ postureSize then (p, .throw)
  else
    let p1 := if p.active.length ≠ stateSize then { p with active := List.replicate stateSize false, nb := 0 } else p
    if dofId ≥ stateSize then (p1, .throw)
    else
      let was := p1.active.getD dofId false
      let p2 := if control then (if !was then { p1 with active := p1.active.set dofId true, nb := p1.nb + 1 } else p1)
        else (if was then { p1 with active := p1.active.set dofId false, nb := p1.nb - 1 } else p1)
      match postureJac p2.active 0 0 (List.replicate p2.nb (List.replicate stateSize 0)) with
      | .ok J => ({ p2 with jac := J, jacCols := stateSize }, .ok ())
      | .throw => (p2, .throw)
      | .ub => (p2, .ub)

/-- `computeError` (src/feature/feature-posture.cpp:73-86). -/
def Posture.error [Sub F] (p : Posture F) (state posture res : List F) : Outcome (List F) :=
  fillLoop (fun i => p.active.getD i false) (fun i => (rd state i).bind fun s => (rd posture i).map fun q => s - q)
    p.active.length 0 0 res

/-- `computeErrorDot` (src/feature/feature-posture.cpp:94-103). -/
def Posture.errorDot [Neg F] (p : Posture F) (postureDot res : List F) : Outcome (List F) :=
  fillLoop (fun i => p.active.getD i false) (fun i => (rd postureDot i).map fun d => -d) p.active.length 0 0 res

/-! ### Joint limits -/

/-- `FeatureJointLimits::getDimension` (src/feature/feature-joint-limits.cpp:76-88). -/
def limitsDim (sel : Nat → Bool) (upperSize : Nat) : Nat := countLoop sel upperSize 0 0

/-- The loop of `computeWidthJl` (src/feature/feature-joint-limits.cpp:98-100). -/
def widthLoop [Sub F] (lower : List F) : List F → Nat → Outcome (List F)
  | [], _ => .ok []
  | u :: us, i => (rd lower i).bind fun l => (widthLoop lower us (i + 1)).map fun r => (u - l) :: r

/-- `computeWidthJl` (src/feature/feature-joint-limits.cpp:90-104). -/
def limitsWidth [Sub F] (upper lower : List F) : Outcome (List F) := widthLoop lower upper 0

/-- `computeError` (src/feature/feature-joint-limits.cpp:151-183). Division by a zero width, an infinity for doubles, is
zero here: statements exclude it. -/
def limitsError [Sub F] [Mul F] [Div F] [OfNat F 2] [One F] (sel : Nat → Bool) (q upper lower : List F) (res : List F) : Outcome (List F) :=
  (limitsWidth upper lower).bind fun w =>
    if upper.length ≠ q.length ∨ w.length ≠ q.length ∨ lower.length ≠ q.length ∨ limitsDim sel upper.length > q.length then .ub
    else fillLoop sel (fun i => (rd q i).bind fun x => (rd lower i).bind fun l => (rd w i).map fun d => (x - l) / d * 2 - 1)
      q.length 0 0 res

/-- `computeJacobian` (src/feature/feature-joint-limits.cpp:109-146): for each selected joint the column and the coefficient
of its row; the other coefficients are zero. `tiny` is the constant `1e-3`. -/
def limitsJacobian [Field F] [LinearOrder F] (tiny : F) (sel : Nat → Bool) (qSize : Nat) (upper lower : List F)
    (res : List (Nat × F)) : Outcome (List (Nat × F)) :=
  (limitsWidth upper lower).bind fun w =>
    fillLoop sel (fun i => (rd w i).map fun d => (i, if |d| > tiny then 1 / d else 1)) qSize 0 0 res

/-! ### One-dimensional feature -/

/-- `Feature1D::computeError` (src/feature/feature-1d.cpp:61-68). -/
def oneError [Field F] (err : List F) : F := (List.zipWith (· * ·) err err).sum * (1 / 2)

/-- The inner loop of `Feature1D::computeJacobian` (src/feature/feature-1d.cpp:80), for the column `col`. -/
def oneLoop [Add F] [Mul F] (err : List F) : List F → Nat → F → Outcome F
  | [], _, acc => .ok acc
  | c :: col, i, acc => (rd err i).bind fun e => oneLoop err col (i + 1) (acc + e * c)

/-- `Feature1D::computeJacobian` (src/feature/feature-1d.cpp:70-84), for a matrix given by its columns. -/
def oneJacobian [Add F] [Mul F] [Zero F] (err : List F) : List (List F) → Outcome (List F)
  | [] => .ok []
  | col :: cols => (oneLoop err col 0 0).bind fun x => (oneJacobian err cols).map (x :: ·)

end Verif.Features
