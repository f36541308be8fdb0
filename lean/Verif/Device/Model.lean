import Verif.Common.Outcome
import Mathlib.Algebra.Notation.Defs
import Mathlib.Order.Defs.LinearOrder

/-!
# Model of `Device` (src/tools/device.cpp, include/sot/core/device.hh)

A `double` is a number of `F` or NaN: `Option F`, with `none` for NaN. NaN propagates through additions and
multiplications, and every comparison with NaN is false. The time step is a number. Nothing is asked of the
operations of `F`, so that they may round (`Verif.Rounding`); the order of the factors of a product is not kept,
as products of doubles commute. Operations on numbers that give NaN (opposite infinities, zero times infinity)
are not modelled. The code is modelled as compiled without assertions
(`assert(lower <= upper)`, src/tools/device.cpp:481, is ignored).

The integration of the free-flyer on SE(3), done by pinocchio (src/tools/device.cpp:40-63), is a
parameter `ff` that gives the six new values from the state, the velocity and the time step; `FreeFlyer.lean` gives
its value, over the reals, and models `ffPose_`. The periodic calls run before and after a step (src/tools/device.cpp:420-431, 461-472) are
modelled apart (`Verif.Periodic`); here they do nothing. The force, attitude and zmp signals are omitted.
-/

namespace Verif.Device

variable {F : Type} [Zero F] [One F] [OfNat F 2] [Add F] [Mul F] [Div F] [LinearOrder F]

/-- Addition of doubles. -/
def vadd (a b : Option F) : Option F :=
  match a, b with
  | some x, some y => some (x + y)
  | _, _ => none

/-- Product of a number and a double. -/
def vmul (c : F) (a : Option F) : Option F := a.map (c * ·)

/-- `a < b` on doubles: false when one is NaN. -/
def vlt (a b : Option F) : Bool :=
  match a, b with
  | some x, some y => decide (x < y)
  | _, _ => false

/-- `enum ControlInput` (include/sot/core/device.hh:34-39). -/
inductive Mode where
  | noInteg
  | oneInteg
  | twoInteg
  deriving DecidableEq, Repr

/-- The members of `Device` that matter (include/sot/core/device.hh:59-78, 121-122); `vel_control_` is
written before being read in every call of `integrate` and is a local of the model. -/
structure Dev (F : Type) where
  state : List (Option F)
  velocity : List (Option F)
  sanity : Bool
  mode : Mode
  lowerPosition : List (Option F)
  upperPosition : List (Option F)
  lowerVelocity : List (Option F)
  upperVelocity : List (Option F)
  lowerTorque : List (Option F)
  upperTorque : List (Option F)
  stateSOUT : List (Option F)
  velocitySOUT : List (Option F)
  time : Int
  deriving DecidableEq

/-- A vector of `n` zeros. -/
def zeros (n : Nat) : List (Option F) := List.replicate n (some 0)

/-- Constructor (src/tools/device.cpp:73-122): six zeros, sanity checks on, velocity control, no bounds. -/
def init : Dev F := ⟨zeros 6, zeros 6, true, .oneInteg, [], [], [], [], [], [], zeros 6, zeros 6, 0⟩

/-- `Device::setStateSize` (src/tools/device.cpp:220-239). The bounds are not touched. -/
def setStateSize (d : Dev F) (n : Nat) : Dev F :=
  { d with state := zeros n, stateSOUT := zeros n, velocity := zeros n, velocitySOUT := zeros n }

/-- The size checks of `setState` (src/tools/device.cpp:242-281): true when it throws. The cases of the
switch fall through. -/
def setStateThrows (d : Dev F) (s : Nat) : Bool :=
  d.sanity && match d.mode with
    | .twoInteg =>
      (s != d.lowerTorque.length || s != d.upperTorque.length) ||
        (s != d.lowerVelocity.length || s != d.upperVelocity.length)
    | .oneInteg => s != d.lowerVelocity.length || s != d.upperVelocity.length
    | .noInteg => false

/-- `Device::setState` (src/tools/device.cpp:241-285): the device and whether an exception was thrown. -/
def setState (d : Dev F) (st : List (Option F)) : Dev F × Bool :=
  if setStateThrows d st.length then (d, true)
  else ({ d with state := st, stateSOUT := st }, false)

/-- `Device::setVelocity` (src/tools/device.cpp:287-290). -/
def setVelocity (d : Dev F) (vel : List (Option F)) : Dev F :=
  { d with velocity := vel, velocitySOUT := vel }

/-- `q(i) = x` without range check. -/
def write (q : List (Option F)) (i : Nat) (x : Option F) : Outcome (List (Option F)) :=
  if i < q.length then .ok (q.set i x) else .ub

/-- `Device::setRoot` (src/tools/device.cpp:298-303), with the translation `t` and the angles `r` of the
pose: the local copy `q` of the state is overwritten by the translation (an Eigen assignment resizes), then
`q(3)`, `q(4)` and `q(5)` are written. `q` is then dropped. -/
def setRoot (d : Dev F) (t r : Fin 3 → Option F) : Outcome (Dev F) :=
  let q := List.ofFn t
  (write q 3 (r 0)).bind fun q => (write q 4 (r 1)).bind fun q => (write q 5 (r 2)).map fun _ => d

/-- `Device::setSecondOrderIntegration` (src/tools/device.cpp:305-310). -/
def setSecondOrderIntegration (d : Dev F) : Dev F :=
  { d with mode := .twoInteg, velocity := zeros d.state.length, velocitySOUT := zeros d.state.length }

/-- `Device::setNoIntegration` (src/tools/device.cpp:312-317). -/
def setNoIntegration (d : Dev F) : Dev F :=
  { d with mode := .noInteg, velocity := zeros d.state.length, velocitySOUT := zeros d.state.length }

/-- `Device::setControlInputType` (src/tools/device.cpp:319-327, include/sot/core/device.hh:41): an
unknown name is ignored. -/
def setControlInputType (d : Dev F) (cit : String) : Dev F :=
  if cit = "noInteg" then { d with mode := .noInteg }
  else if cit = "oneInteg" then { d with mode := .oneInteg }
  else if cit = "twoInteg" then { d with mode := .twoInteg }
  else d

/-- The size checks of `setSanityCheck` (src/tools/device.cpp:330-359): true when it throws. The cases of
the switch fall through. -/
def sanityThrows (d : Dev F) : Bool :=
  let s := d.state.length
  let pos := s != d.lowerPosition.length || s != d.upperPosition.length
  let vel := s != d.lowerVelocity.length || s != d.upperVelocity.length
  let tor := s != d.lowerTorque.length || s != d.upperTorque.length
  match d.mode with
  | .twoInteg => tor || vel || pos
  | .oneInteg => vel || pos
  | .noInteg => pos

/-- `Device::setSanityCheck` (src/tools/device.cpp:329-363). -/
def setSanityCheck (d : Dev F) (enable : Bool) : Dev F × Bool :=
  if enable && sanityThrows d then (d, true) else ({ d with sanity := enable }, false)

/-- `Device::setPositionBounds` (src/tools/device.cpp:365-379). -/
def setPositionBounds (d : Dev F) (lower upper : List (Option F)) : Dev F × Bool :=
  if lower.length ≠ d.state.length then (d, true)
  else if upper.length ≠ d.state.length then (d, true)
  else ({ d with lowerPosition := lower, upperPosition := upper }, false)

/-- `Device::setVelocityBounds` (src/tools/device.cpp:381-395). -/
def setVelocityBounds (d : Dev F) (lower upper : List (Option F)) : Dev F × Bool :=
  if lower.length ≠ d.velocity.length then (d, true)
  else if upper.length ≠ d.velocity.length then (d, true)
  else ({ d with lowerVelocity := lower, upperVelocity := upper }, false)

/-- `Device::setTorqueBounds` (src/tools/device.cpp:397-412). -/
def setTorqueBounds (d : Dev F) (lower upper : List (Option F)) : Dev F × Bool :=
  if lower.length ≠ d.state.length then (d, true)
  else if upper.length ≠ d.state.length then (d, true)
  else ({ d with lowerTorque := lower, upperTorque := upper }, false)

/-- `saturateBounds` (src/tools/device.cpp:479-491): the new value. -/
def saturate (val lower upper : Option F) : Option F :=
  if vlt val lower then lower else if vlt upper val then upper else val

/-- `CHECK_BOUNDS` (src/tools/device.cpp:493-502): the bounds are read for every index of the vector. -/
def checkBounds : List (Option F) → List (Option F) → List (Option F) → Outcome (List (Option F))
  | [], _, _ => .ok []
  | v :: vs, l :: ls, u :: us => (checkBounds vs ls us).map (saturate v l u :: ·)
  | _ :: _, _, _ => .ub

/-- A bounds check done when the sanity checks are on (src/tools/device.cpp:535-537, 550-552). -/
def checkIf (sanity : Bool) (v lower upper : List (Option F)) : Outcome (List (Option F)) :=
  if sanity then checkBounds v lower upper else .ok v

/-- `v.tail(x.size()) = f(v.tail(x.size()), x)`: out of range when `x` is longer than `v`. -/
def updateTail (f : Option F → Option F → Option F) (v x : List (Option F)) :
    Outcome (List (Option F)) :=
  if x.length ≤ v.length then
    .ok (v.take (v.length - x.length) ++ List.zipWith f (v.drop (v.length - x.length)) x)
  else .ub

/-- The velocity used for the positions and the new `velocity_` (src/tools/device.cpp:524-532). -/
def velocities (d : Dev F) (u : List (Option F)) (dt : F) :
    Outcome (List (Option F) × List (Option F)) :=
  match d.mode with
  | .twoInteg =>
    if u.length ≤ d.velocity.length then
      let velControl := List.zipWith (fun v a => vadd v (vmul (1 / 2 * dt) a))
        (d.velocity.drop (d.velocity.length - u.length)) u
      (updateTail (fun v a => vadd v (vmul dt a)) d.velocity u).map fun v => (velControl, v)
    else .ub
  | _ => .ok (u, d.velocity)

/-- The update of the positions (src/tools/device.cpp:539-547). -/
def positions (ff : List (Option F) → List (Option F) → F → (Fin 6 → Option F))
    (st vc : List (Option F)) (dt : F) : Outcome (List (Option F)) :=
  if vc.length = st.length then
    if st.length < 6 then .ub
    else
      let st1 := List.ofFn (ff st vc dt) ++ st.drop 6
      updateTail (fun q v => vadd q (vmul dt v)) st1 (vc.drop 6)
  else updateTail (fun q v => vadd q (vmul dt v)) st vc

/-- `Device::integrate` (src/tools/device.cpp:504-553). -/
def integrate (ff : List (Option F) → List (Option F) → F → (Fin 6 → Option F))
    (d : Dev F) (u : List (Option F)) (dt : F) : Outcome (Dev F) :=
  if d.sanity && u.any Option.isNone then .ok d
  else if d.mode = .noInteg then
    (updateTail (fun _ x => x) d.state u).map fun st => { d with state := st }
  else
    (velocities d u dt).bind fun (vc, v1) =>
    (checkIf d.sanity v1 d.lowerVelocity d.upperVelocity).bind fun v2 =>
    (positions ff d.state vc dt).bind fun st1 =>
    (checkIf d.sanity st1 d.lowerPosition d.upperPosition).map fun st2 =>
      { d with velocity := v2, state := st2 }

/-- `Device::increment` (src/tools/device.cpp:414-476); `u` is the value of the control signal. -/
def increment (ff : List (Option F) → List (Option F) → F → (Fin 6 → Option F))
    (d : Dev F) (u : List (Option F)) (dt : F) : Outcome (Dev F) :=
  (integrate ff d u dt).map fun d' =>
    { d' with
      stateSOUT := d'.state
      time := d'.time + 1
      velocitySOUT := match d'.mode with
        | .twoInteg => d'.velocity
        | .oneInteg => u
        | .noInteg => d'.velocitySOUT }

/-- The public commands of the device. -/
inductive Cmd (F : Type) where
  | setStateSize (n : Nat)
  | setState (st : List (Option F))
  | setVelocity (v : List (Option F))
  | setSecondOrderIntegration
  | setNoIntegration
  | setControlInputType (s : String)
  | setSanityCheck (b : Bool)
  | setPositionBounds (lower upper : List (Option F))
  | setVelocityBounds (lower upper : List (Option F))
  | setTorqueBounds (lower upper : List (Option F))
  | increment (u : List (Option F)) (dt : F)

/-- One command: the device afterwards (also when the command threw). -/
def step (ff : List (Option F) → List (Option F) → F → (Fin 6 → Option F)) (d : Dev F) :
    Cmd F → Outcome (Dev F)
  | .setStateSize n => .ok (setStateSize d n)
  | .setState st => .ok (setState d st).1
  | .setVelocity v => .ok (setVelocity d v)
  | .setSecondOrderIntegration => .ok (setSecondOrderIntegration d)
  | .setNoIntegration => .ok (setNoIntegration d)
  | .setControlInputType s => .ok (setControlInputType d s)
  | .setSanityCheck b => .ok (setSanityCheck d b).1
  | .setPositionBounds l u => .ok (setPositionBounds d l u).1
  | .setVelocityBounds l u => .ok (setVelocityBounds d l u).1
  | .setTorqueBounds l u => .ok (setTorqueBounds d l u).1
  | .increment u dt => increment ff d u dt

/-- A history of commands. -/
def run (ff : List (Option F) → List (Option F) → F → (Fin 6 → Option F)) :
    Dev F → List (Cmd F) → Outcome (Dev F)
  | d, [] => .ok d
  | d, c :: cs => (step ff d c).bind fun d' => run ff d' cs

end Verif.Device
