import Verif.Common.Outcome
import Verif.Geometry.Model

/-!
# Model of the joint trajectory entity (src/tools/joint-trajectory-entity.cpp)

Doubles are elements of any type with the constants needed. The text parsing of `initTraj` is not part of this model: the
command is given the trajectory it parses to.
-/

namespace Verif.JointTraj

variable {F : Type}

/-- A `Trajectory` (include/sot/core/trajectory.hh:176-191), restricted to what the entity reads: the two halves of its
timestamp, its sequence number and the positions of its points. -/
structure Traj (F : Type) where
  stamp : Nat × Nat
  seq : Nat
  points : List (List F)
  deriving DecidableEq, Repr

/-- What the output signals publish (include/sot/core/joint-trajectory-entity.hh:130-143). An entry `none` of the posture
is memory that was never written. `waist` holds the argument of `XYZThetaToMatrixHomogeneous`. -/
structure Out (F : Type) where
  pose : List (Option F)
  com : List F
  cop : List F
  waist : List F
  seqid : Nat
  deriving DecidableEq, Repr

/-- Members of the entity (include/sot/core/joint-trajectory-entity.hh:123-149). `traj_timestamp_` is not here: it is
`(0, 0)` from the constructor on and never assigned (src/tools/joint-trajectory-entity.cpp:64). -/
structure State (F : Type) where
  index : Nat
  out : Out F
  deque : List (Traj F)
  deriving DecidableEq, Repr

/-- Constructor (src/tools/joint-trajectory-entity.cpp:63-66). -/
def State.new : State F := ⟨0, ⟨[], [], [], [], 0⟩, []⟩

/-- `pose_.resize(n)`: Eigen keeps the content when the size is unchanged, otherwise it is unspecified. -/
def resizePose (pose : List (Option F)) (n : Nat) : List (Option F) :=
  if pose.length = n then pose else List.replicate n none

/-- `UpdatePoint` (src/tools/joint-trajectory-entity.cpp:90-130). With one to four positions the bound `possize - 5` of
the unsigned loop wraps around and the writes are out of range. `h` is the height `0.65` of the waist and `z` the
`-0.055` of the centre of pressure. -/
def updatePoint (h z : F) (o : Out F) (p : List F) : Outcome (Out F) :=
  if p.length = 0 then .ok o
  else if p.length < 5 then .ub
  else
    let n := p.length
    (rd p (n - 5)).bind fun a => (rd p (n - 4)).bind fun b => (rd p (n - 3)).bind fun c =>
      (rd p (n - 2)).bind fun d => (rd p (n - 1)).map fun e =>
        { o with
          pose := (p.take (n - 5)).map some ++ (resizePose o.pose n).drop (n - 5)
          com := [a, b, c]
          cop := [d, e, z]
          waist := [a, b, h, c] }

/-- The queueing part of `UpdateTrajectory` (src/tools/joint-trajectory-entity.cpp:137-159). -/
def enqueue (s : State F) (a : Traj F) : State F :=
  if (0, 0) = a.stamp ∧ s.deque.length ≠ 0 then { s with index := s.index + 1 }
  else match s.deque.getLast? with
    | none => { s with deque := [a], index := 0 }
    | some b =>
      if b.stamp = a.stamp then { s with index := s.index + 1 }
      else { s with index := s.index + 1, deque := s.deque ++ [a] }

/-- The rest of `UpdateTrajectory` (src/tools/joint-trajectory-entity.cpp:173-204). `front()` of an empty deque is
undefined behaviour. -/
def advance (h z : F) (s : State F) : Outcome (State F) :=
  match s.deque with
  | [] => .ub
  | f :: rest =>
    let emit (s' : State F) : Outcome (State F) :=
      match s'.deque with
      | [] => .ub
      | g :: _ =>
        (rd g.points s'.index).bind fun p =>
          (updatePoint h z { s'.out with seqid := g.seq } p).map fun o => { s' with out := o }
    if s.index ≥ f.points.length then
      let s1 : State F := if rest.length + 1 > 1 then { s with deque := rest, index := 0 } else s
      match s1.deque with
      | [] => .ub
      | g :: rest1 =>
        if g.points.length = 0 then .ok { s1 with index := 0 }
        else if s1.index ≠ 0 ∧ rest1.length + 1 = 1 then emit { s1 with index := g.points.length - 1 }
        else emit s1
    else emit s

/-- `UpdateTrajectory` (src/tools/joint-trajectory-entity.cpp:132-204). -/
def updateTrajectory (h z : F) (s : State F) (a : Traj F) : Outcome (State F) := advance h z (enqueue s a)

/-- `OneStepOfUpdate` (src/tools/joint-trajectory-entity.cpp:206-225): reads the front of the deque before anything
else. The comparison only feeds a debug message. -/
def oneStep (h z : F) (s : State F) (a : Traj F) : Outcome (State F) :=
  match s.deque with
  | [] => .ub
  | _ :: _ => updateTrajectory h z s a

/-- What happens to the entity: the command `initTraj` (src/tools/joint-trajectory-entity.cpp:300-307) and the evaluation
of the outputs at a new time, with the value of the input signal. -/
inductive Op (F : Type) where
  | init (a : Traj F)
  | step (a : Traj F)

/-- One operation. -/
def step (h z : F) (s : State F) : Op F → Outcome (State F)
  | .init a => updateTrajectory h z s a
  | .step a => oneStep h z s a

/-- A history: the outputs after each operation. -/
def run (h z : F) : State F → List (Op F) → Outcome (List (Out F))
  | _, [] => .ok []
  | s, o :: os => (step h z s o).bind fun s' => (run h z s' os).map (s'.out :: ·)

/-- `XYZThetaToMatrixHomogeneous` (src/tools/joint-trajectory-entity.cpp:227-240): the rotation about the vertical
multiplied by the translation, in this order. -/
noncomputable def xyzTheta (x y z θ : ℝ) : Geometry.Pose ℝ :=
  (⟨!![Real.cos θ, -Real.sin θ, 0; Real.sin θ, Real.cos θ, 0; 0, 0, 1], 0⟩ : Geometry.Pose ℝ).mul ⟨1, ![x, y, z]⟩

end Verif.JointTraj
