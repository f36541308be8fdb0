import Verif.JointTraj.Model

/-!
# Specification of the joint trajectory entity: a queue of points
-/

namespace Verif.JointTraj.Spec

variable {F : Type}

/-- The point being published with the number of its trajectory, the points to come, and the stamp of the last trajectory
taken. -/
structure Player (F : Type) where
  current : List F × Nat
  pending : List (List F × Nat)
  lastStamp : Nat × Nat

/-- The points of a trajectory, tagged with its number. -/
def tagged (a : Traj F) : List (List F × Nat) := a.points.map fun p => (p, a.seq)

/-- A received trajectory is new when its stamp is neither null nor that of the last one taken. -/
def isNew (q : Player F) (a : Traj F) : Bool := a.stamp ≠ (0, 0) && a.stamp ≠ q.lastStamp

/-- One evaluation: a new trajectory is queued, then the next point is published, or the current one again when no point
is left. -/
def step (q : Player F) (a : Traj F) : Player F :=
  let pending := if isNew q a then q.pending ++ tagged a else q.pending
  let stamp := if isNew q a then a.stamp else q.lastStamp
  match pending with
  | [] => ⟨q.current, [], stamp⟩
  | p :: ps => ⟨p, ps, stamp⟩

/-- The published values for a point of `n ≥ 5` values: the first `n - 5` are joint positions, then three for the centre
of mass and two for the centre of pressure. Five more entries of the posture exist and are never written. -/
def outOf (h z : F) : List F × Nat → Out F
  | (p, seq) =>
    { pose := (p.take (p.length - 5)).map some ++ List.replicate 5 none
      com := (p.drop (p.length - 5)).take 3
      cop := p.drop (p.length - 2) ++ [z]
      waist := (p.drop (p.length - 5)).take 2 ++ [h] ++ (p.drop (p.length - 3)).take 1
      seqid := seq }

/-- What is published after each of the evaluations. -/
def run (h z : F) : Player F → List (Traj F) → List (Out F)
  | _, [] => []
  | q, a :: as => outOf h z (step q a).current :: run h z (step q a) as

/-- A trajectory with at least one point, and points of at least five values. -/
def Good (a : Traj F) : Prop := a.points ≠ [] ∧ ∀ p ∈ a.points, 5 ≤ p.length

end Verif.JointTraj.Spec
