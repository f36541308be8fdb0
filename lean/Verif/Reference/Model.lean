import Verif.Common.Outcome

/-!
# The reference of a feature and the dependencies of its signals

Simplifications: the features are the elements of a type `F`, and the signals that a feature depends on are pairs of a feature and a port.
The dependencies of a signal are the list that dynamic-graph keeps: `addDependency` adds the signal in front of the list and
`removeDependency` removes all its occurrences (`std::list::remove`).
-/

namespace Verif.Reference

/-- The classes that can have a reference (the uses of `DECLARE_REFERENCE_FUNCTIONS`, include/sot/core/feature-generic.hh:126,
include/sot/core/feature-point6d.hh:83, include/sot/core/feature-visual-point.hh:68, include/sot/core/feature-1d.hh:115,
include/sot/core/feature-joint-limits.hh:76), and the other ones. -/
inductive Kind where
  | generic
  | point6d
  | visualPoint
  | oneD
  | jointLimits
  | other
  deriving DecidableEq

/-- The input signals, and the error signal itself, that other signals depend on. -/
inductive Port where
  | selec
  | errorIN
  | errordotIN
  | jacobianIN
  | position
  | velocity
  | Jq
  | xy
  | Z
  | joint
  | upperJl
  | lowerJl
  | errorOUT
  deriving DecidableEq

/-- The output signals. -/
inductive Output where
  | error
  | errordot
  | jacobian
  deriving DecidableEq

variable {F : Type}

/-- The dependencies of the outputs of one feature. -/
abbrev Deps (F : Type) := Output → List (F × Port)

/-- `addDependency`. -/
def Deps.add [DecidableEq F] (d : Deps F) (o : Output) (s : F × Port) : Deps F := fun o' => if o' = o then s :: d o' else d o'

/-- `removeDependency`. -/
def Deps.remove [DecidableEq F] (d : Deps F) (o : Output) (s : F × Port) : Deps F :=
  fun o' => if o' = o then (d o').filter (· ≠ s) else d o'

/-- The ports of its own that a feature's signals depend on after construction: those of every feature
(src/feature/feature-abstract.cpp:31-46), then those of FeatureGeneric (src/feature/feature-generic.cpp:37-38), FeaturePoint6d
(src/feature/feature-point6d.cpp:64-75), FeatureVisualPoint (src/feature/feature-visual-point.cpp:38-43), Feature1D
(src/feature/feature-1d.cpp:35-36), FeatureJointLimits (src/feature/feature-joint-limits.cpp:49-51). The last one added is the first. -/
def ownPorts : Kind → Output → List Port
  | .generic, .error => [.errorIN, .selec]
  | .generic, .jacobian => [.jacobianIN, .selec]
  | .point6d, .error => [.position, .selec]
  | .point6d, .jacobian => [.Jq, .position, .selec]
  | .point6d, .errordot => [.errorOUT, .position, .velocity, .errordotIN, .selec]
  | .visualPoint, .error => [.Z, .xy, .selec]
  | .visualPoint, .jacobian => [.Jq, .Z, .xy, .selec]
  | .oneD, .error => [.errorIN, .selec]
  | .oneD, .jacobian => [.jacobianIN, .selec]
  | .jointLimits, .error => [.lowerJl, .upperJl, .joint, .selec]
  | _, .errordot => [.errordotIN, .selec]
  | _, _ => [.selec]

/-- The ports of the reference that `addDependenciesFromReference` makes signals depend on, in the order of the calls, and that
`removeDependenciesFromReference` removes (src/feature/feature-generic.cpp:47-57, src/feature/feature-point6d.cpp:115-125,
src/feature/feature-visual-point.cpp:48-56, src/feature/feature-1d.cpp:45-46, src/feature/feature-joint-limits.cpp:69-70). -/
def refPorts : Kind → List (Output × Port)
  | .generic => [(.error, .errorIN), (.errordot, .errordotIN)]
  | .point6d => [(.error, .position), (.jacobian, .position)]
  | .visualPoint => [(.error, .xy)]
  | _ => []

/-- `addDependenciesFromReference`. -/
def addRef [DecidableEq F] (k : Kind) (d : Deps F) (r : F) : Deps F := (refPorts k).foldl (fun d p => d.add p.1 (r, p.2)) d

/-- `removeDependenciesFromReference`. -/
def removeRef [DecidableEq F] (k : Kind) (d : Deps F) (r : F) : Deps F := (refPorts k).foldl (fun d p => d.remove p.1 (r, p.2)) d

/-- The reference (include/sot/core/feature-abstract.hh:230-231) and the dependencies of a feature. -/
structure State (F : Type) where
  ref : Option F
  deps : Deps F

/-- The state after construction (include/sot/core/feature-abstract.hh:234). -/
def State.new (k : Kind) (self : F) : State F := ⟨none, fun o => (ownPorts k o).map fun p => (self, p)⟩

/-- `setReference` of a class of kind `k`, a null pointer being `none` (include/sot/core/feature-abstract.hh:251-263): the dynamic cast
gives a null pointer when the argument is of another kind (242-247). The classes with `DECLARE_NO_REFERENCE` do nothing (276). -/
def setReference [DecidableEq F] (k : Kind) (kindOf : F → Kind) (s : State F) : Option F → State F
  | none =>
    if k = .other then s
    else match s.ref with
      | some r => ⟨none, removeRef k s.deps r⟩
      | none => ⟨none, s.deps⟩
  | some f =>
    if k = .other then s
    else if kindOf f = k then ⟨some f, addRef k s.deps f⟩
    else ⟨none, s.deps⟩

/-- `setReferenceByName` (src/feature/feature-abstract.cpp:83-86): the pool throws when the name is unknown
(src/factory/pool.cpp:82-90). -/
def setReferenceByName [DecidableEq F] (k : Kind) (kindOf : F → Kind) (pool : String → Option F) (s : State F) (name : String) :
    Outcome (State F) :=
  match pool name with
  | some f => .ok (setReference k kindOf s (some f))
  | none => .throw

/-- `getReferenceByName` (src/feature/feature-abstract.cpp:88-93). -/
def getReferenceByName (nameOf : F → String) (s : State F) : String :=
  match s.ref with
  | some f => nameOf f
  | none => "none"

end Verif.Reference
