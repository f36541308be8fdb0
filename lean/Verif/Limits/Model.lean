import Verif.Common.Outcome
import Mathlib.Algebra.Order.Field.Basic
import Mathlib.Algebra.Order.Group.Abs

/-!
# Model of the neck and joint limitations

`NeckLimitation` (src/tools/neck-limitation.cpp) and `JointLimitator` (src/tools/joint-limitator.cpp).
Doubles are elements of an ordered field: rounding, infinities and NaN are not modelled. The joint limitator
asks only for the operations that it does, so that it can also be read with rounded numbers.
-/
set_option linter.unusedSectionVars false

namespace Verif.Limits

variable {F : Type} [Field F] [LinearOrder F] [IsStrictOrderedRing F]

/-- The parameters of `NeckLimitation` (include/sot/core/neck-limitation.hh:58-65). They are set by the
constructor and no command changes them. -/
structure Neck (F : Type) where
  panRank : Nat
  tiltRank : Nat
  lin : F
  aff : F
  sign : F

/-- The constructor (src/tools/neck-limitation.cpp:23-35). -/
def Neck.fresh : Neck F := ⟨14, 15, -25 / 42, 6981 / 10000, 1⟩

/-- The limited tilt (src/tools/neck-limitation.cpp:73-130). -/
def limitTilt (n : Neck F) (pan tilt : F) : F :=
  if |pan| < 1 / 1000 then
    if tilt * n.sign > n.aff then n.aff else tilt
  else if pan > 0 then
    if n.sign * tilt > pan * n.lin + n.aff then pan * n.lin + n.aff else tilt
  else
    if tilt * n.sign > -pan * n.lin + n.aff then -pan * n.lin + n.aff else tilt

/-- `computeJointLimitation` (src/tools/neck-limitation.cpp:61-134). The ranks are not checked. The pan is
written back unchanged in all branches. -/
def neckLimit (n : Neck F) (joint : List F) : Outcome (List F) :=
  (rd joint n.panRank).bind fun pan =>
    (rd joint n.tiltRank).map fun tilt =>
      (joint.set n.tiltRank (limitTilt n pan tilt)).set n.panRank pan

/-- The loop of `computeWidthJl` (src/tools/joint-limitator.cpp:49-51): the size is that of the upper
bounds, the lower ones are read without check. -/
def widthLoop (lower : List F) : Nat → List F → Outcome (List F)
  | _, [] => .ok []
  | i, u :: us => (rd lower i).bind fun l => (widthLoop lower (i + 1) us).map ((u - l) :: ·)

/-- `computeWidthJl` (src/tools/joint-limitator.cpp:40-55). -/
def computeWidth (upper lower : List F) : Outcome (List F) := widthLoop lower 0 upper

section AnyNumbers

variable {F : Type} [Zero F] [OfNat F 5] [OfNat F 1000] [Add F] [Mul F] [Div F] [LT F] [DecidableLT F]

/-- One component of the control: `k` is `i + offset` (src/tools/joint-limitator.cpp:74-78). The bounds
are read only for the joints beyond the free flyer, the lower one only if the upper one is respected. -/
def limitOne (q upper lower : List F) (k : Nat) (u : F) : Outcome F :=
  (rd q k).bind fun qk =>
    let qnext := qk + u * (5 / 1000)
    if k < 6 then .ok u
    else (rd upper k).bind fun uk =>
      if qnext < uk then (rd lower k).map fun lk => if qnext > lk then u else 0
      else .ok 0

/-- The loop over the components (src/tools/joint-limitator.cpp:73-81). -/
def limitLoop (q upper lower : List F) : Nat → List F → Outcome (List F)
  | _, [] => .ok []
  | k, u :: us => (limitOne q upper lower k u).bind fun x =>
      (limitLoop q upper lower (k + 1) us).map (x :: ·)

/-- `JointLimitator::computeControl` (src/tools/joint-limitator.cpp:57-85). A control longer than the
state violates the assertion: out-of-range reads in release mode. -/
def computeControl (q upper lower u : List F) : Outcome (List F) :=
  if u.length ≤ q.length then limitLoop q upper lower (q.length - u.length) u else .ub

end AnyNumbers

end Verif.Limits
