import Verif.Features.Model
import Verif.Spatial.Model
import Verif.Point6d.Model
import Verif.Point6d.PoseModel
import Verif.Control.Model
import Verif.Admittance.Model
import Verif.Kalman.Model
import Mathlib.Logic.Function.Basic

/-!
# The declared dependencies of the outputs, and the answers of their caches

The signals are those of dynamic-graph, which is not in the repository. What is assumed of it: an output keeps its last value, and computes
it again, when it is asked for, if it has none, or if an input that it declares a dependency on has been set since it computed it. The
entities declare these dependencies in their constructors; the lists below transcribe them, the ones on other outputs of the entity being
replaced with the ones of these outputs.

Simplifications: the doubles are real numbers; the parameters of the entities (the frame of computation, the transformation of the
operational point, ...) do not change; an output that reads another one of the entity gets its value for the present inputs; the buffers
that the outputs fill hold zeros at the beginning.
-/

namespace Verif.Depend

open Verif.Features Verif.Spatial Verif.Geometry Verif.Point6d

/-! ### The cache of an output -/

section Cache

variable {σ : Type} {V : σ → Type} {β : Type}

/-- An output: what it computes from the inputs and the inputs that it declares (`addDependency`, or the argument of its constructor, as in
src/feature/feature-abstract.cpp:31-44). -/
structure Output (V : σ → Type) (β : Type) where
  compute : (∀ i, V i) → β
  deps : List σ

/-- The present inputs, the ones set since the output was computed, and its value (dynamic-graph, used in
src/feature/feature-abstract.cpp:31-44). -/
structure Cache (V : σ → Type) (β : Type) where
  inputs : ∀ i, V i
  set : σ → Bool
  value : Option β

/-- What happens: some inputs are set to the values of `x`, or the output is asked for. -/
inductive Op (V : σ → Type) where
  | set (who : σ → Bool) (x : ∀ i, V i)
  | ask

/-- The inputs after some are set. -/
def merge (who : σ → Bool) (x y : ∀ i, V i) : ∀ i, V i := fun i => if who i then x i else y i

/-- Whether the output is to be computed again (dynamic-graph). -/
def Output.stale (o : Output V β) (c : Cache V β) : Bool := c.value.isNone || o.deps.any c.set

/-- One step: the cache afterwards and the answer (dynamic-graph). -/
def Output.step (o : Output V β) (c : Cache V β) : Op V → Cache V β × List β
  | .set who x => (⟨merge who x c.inputs, fun i => who i || c.set i, c.value⟩, [])
  | .ask =>
    match c.value with
    | some b => if o.stale c then (⟨c.inputs, fun _ => false, some (o.compute c.inputs)⟩, [o.compute c.inputs]) else (c, [b])
    | none => (⟨c.inputs, fun _ => false, some (o.compute c.inputs)⟩, [o.compute c.inputs])

/-- The answers along a history. -/
def Output.answers (o : Output V β) : Cache V β → List (Op V) → List β
  | _, [] => []
  | c, op :: ops => (o.step c op).2 ++ o.answers (o.step c op).1 ops

/-- A cache without a value. -/
def Cache.new (x : ∀ i, V i) : Cache V β := ⟨x, fun _ => false, none⟩

end Cache

/-! ### Outputs that read other outputs -/

section Network

variable {σ A B : Type}

/-- An output of a graph: what it computes from the inputs and the values of the other outputs, the inputs and the outputs that it declares,
the outputs that it reads (as `jacobianSOUT`, `errorSOUT` and `errordotSOUT` of include/sot/core/feature-pose.hxx:78-86). -/
structure Node (σ A B : Type) where
  compute : (σ → A) → (Nat → B) → B
  inputs : List σ
  nodes : List Nat
  reads : List Nat

/-- A state of the graph: the inputs, the dates when they were last set, the values of the outputs with the dates when they were computed,
the present date (dynamic-graph). -/
structure Net (σ A B : Type) where
  inputs : σ → A
  set : σ → Nat
  value : Nat → Option (B × Nat)
  date : Nat

/-- The output `k` is to be computed again: it has no value, or a declared input or output has been set or computed since, or a declared
output is itself to be computed again (dynamic-graph). -/
inductive Needs (g : Nat → Node σ A B) (s : Net σ A B) : Nat → Prop
  | never {k : Nat} (h : s.value k = none) : Needs g s k
  | input {k : Nat} {b : B} {d : Nat} {i : σ} (h : s.value k = some (b, d)) (hi : i ∈ (g k).inputs) (hd : d < s.set i) : Needs g s k
  | newer {k j : Nat} {b c : B} {d e : Nat} (h : s.value k = some (b, d)) (hj : j ∈ (g k).nodes) (hc : s.value j = some (c, e))
      (hd : d < e) : Needs g s k
  | lower {k j : Nat} (hj : j ∈ (g k).nodes) (h : Needs g s j) : Needs g s k

/-- Some inputs are set. -/
def Net.change (s : Net σ A B) (who : σ → Bool) (x : σ → A) : Net σ A B :=
  ⟨fun i => if who i then x i else s.inputs i, fun i => if who i then s.date + 1 else s.set i, s.value, s.date + 1⟩

/-- The output `k` gets a value. -/
def Net.store (s : Net σ A B) (k : Nat) (b : B) : Net σ A B :=
  ⟨s.inputs, s.set, fun j => if j = k then some (b, s.date + 1) else s.value j, s.date + 1⟩

/-- One step, with the output that is answered and its answer: inputs are set; an output is computed from the values of the outputs that it
reads, which are up to date since it asks for them first; an output that is up to date answers its value (dynamic-graph). -/
inductive NetStep (g : Nat → Node σ A B) : Net σ A B → Net σ A B → Option (Nat × B) → Prop
  | change (s : Net σ A B) (who : σ → Bool) (x : σ → A) : NetStep g s (s.change who x) none
  | compute (s : Net σ A B) (k : Nat) (w : Nat → B) (h : ∀ j ∈ (g k).reads, ¬Needs g s j ∧ ∃ d, s.value j = some (w j, d)) :
      NetStep g s (s.store k ((g k).compute s.inputs w)) (some (k, (g k).compute s.inputs w))
  | cached (s : Net σ A B) (k : Nat) {b : B} {d : Nat} (hn : ¬Needs g s k) (h : s.value k = some (b, d)) : NetStep g s s (some (k, b))

/-- The states that a graph reaches from one without values. -/
inductive Reached (g : Nat → Node σ A B) : Net σ A B → Prop
  | start (x : σ → A) : Reached g ⟨x, fun _ => 0, fun _ => none, 0⟩
  | step {s t : Net σ A B} {a : Option (Nat × B)} (hs : Reached g s) (h : NetStep g s t a) : Reached g t

end Network

/-! ### The features -/

/-- The input signals of the features and of their references. -/
inductive In where
  | selec
  | errorIN | errordotIN | jacobianIN | refErrorIN
  | state | posture | postureDot
  | joint | upperJl | lowerJl
  | xy | Z | refXy
  | position | Jq | vector | vectorRef | lineRef
  | positionRef | JqRef | refPosition | refPositionRef | refVelocity
  | oMja | jaMfa | oMjb | jbMfb | jaJja | jbJjb | faMfbDes | faNufafbDes
  deriving DecidableEq

/-- Their types, for Jacobians whose columns are the elements of `ι`. -/
abbrev In.Val (ι : Type) : In → Type
  | .selec => Nat → Bool
  | .errorIN | .errordotIN | .refErrorIN | .state | .posture | .postureDot | .joint | .upperJl | .lowerJl | .xy | .refXy => List ℝ
  | .jacobianIN => List (List ℝ)
  | .Z => ℝ
  | .position | .positionRef | .refPosition | .refPositionRef | .oMja | .jaMfa | .oMjb | .jbMfb | .faMfbDes => Pose ℝ
  | .Jq | .JqRef | .jbJjb => Matrix (Fin 3 ⊕ Fin 3) ι ℝ
  | .jaJja => Option (Matrix (Fin 3 ⊕ Fin 3) ι ℝ)
  | .vector | .vectorRef => Fin 3 → ℝ
  | .lineRef => Fin 6 → ℝ
  | .refVelocity => Fin 3 ⊕ Fin 3 → ℝ
  | .faNufafbDes => Option (Fin 3 ⊕ Fin 3 → ℝ)

variable {ι : Type}

/-- `errorSOUT` of FeatureGeneric, with a reference (src/feature/feature-abstract.cpp:31, src/feature/feature-generic.cpp:38, 49), when the
number of components is fixed (`dimensionDefault`). -/
def genericErrorOut (size : Nat) : Output (In.Val ι) (Outcome (List ℝ)) where
  compute x :=
    let dim := (genericDim size (x .selec) (x .errorIN).length).1
    genericError (x .selec) dim (x .errorIN) (some (x .refErrorIN)) (List.replicate dim 0)
  deps := [.selec, .errorIN, .refErrorIN]

/-- `errorSOUT` of Feature1D (src/feature/feature-abstract.cpp:31, src/feature/feature-1d.cpp:36). -/
noncomputable def oneErrorOut : Output (In.Val ι) ℝ where
  compute x := oneError (x .errorIN)
  deps := [.selec, .errorIN]

/-- `jacobianSOUT` of Feature1D (src/feature/feature-abstract.cpp:39-41, src/feature/feature-1d.cpp:35). -/
noncomputable def oneJacobianOut : Output (In.Val ι) (Outcome (List ℝ)) where
  compute x := oneJacobian (x .errorIN) (x .jacobianIN)
  deps := [.selec, .jacobianIN]

/-- `errorSOUT` of FeaturePosture, for the selection of joints `p` (src/feature/feature-abstract.cpp:31,
src/feature/feature-posture.cpp:46). -/
noncomputable def postureErrorOut (p : Posture ℝ) : Output (In.Val ι) (Outcome (List ℝ)) where
  compute x := p.error (x .state) (x .posture) (List.replicate p.nb 0)
  deps := [.selec, .state]

/-- `errordotSOUT` of FeaturePosture (src/feature/feature-abstract.cpp:34-36). -/
noncomputable def postureErrordotOut (p : Posture ℝ) : Output (In.Val ι) (Outcome (List ℝ)) where
  compute x := p.errorDot (x .postureDot) (List.replicate p.nb 0)
  deps := [.selec, .errordotIN]

/-- `dimensionSOUT` of FeatureJointLimits (src/feature/feature-abstract.cpp:42-44). -/
def limitsDimOut : Output (In.Val ι) Nat where
  compute x := limitsDim (x .selec) (x .upperJl).length
  deps := [.selec]

/-- `widthJlSINTERN` of FeatureJointLimits (src/feature/feature-joint-limits.cpp:45-48). -/
noncomputable def limitsWidthOut : Output (In.Val ι) (Outcome (List ℝ)) where
  compute x := limitsWidth (x .upperJl) (x .lowerJl)
  deps := [.upperJl, .lowerJl]

/-- `errorSOUT` of FeatureJointLimits (src/feature/feature-abstract.cpp:31, src/feature/feature-joint-limits.cpp:49-51). -/
noncomputable def limitsErrorOut : Output (In.Val ι) (Outcome (List ℝ)) where
  compute x := limitsError (x .selec) (x .joint) (x .upperJl) (x .lowerJl)
    (List.replicate (limitsDim (x .selec) (x .upperJl).length) 0)
  deps := [.selec, .joint, .upperJl, .lowerJl]

/-- `jacobianSOUT` of FeatureJointLimits (src/feature/feature-abstract.cpp:39-41). -/
noncomputable def limitsJacobianOut (tiny : ℝ) : Output (In.Val ι) (Outcome (List (Nat × ℝ))) where
  compute x := limitsJacobian tiny (x .selec) (x .joint).length (x .upperJl) (x .lowerJl)
    (List.replicate (limitsDim (x .selec) (x .upperJl).length) (0, 0))
  deps := [.selec]

/-- `errorSOUT` of FeatureVisualPoint, with a reference (src/feature/feature-abstract.cpp:31, src/feature/feature-visual-point.cpp:42-43,
50). -/
noncomputable def visualErrorOut : Output (In.Val ι) (Outcome (List ℝ)) where
  compute x := visualError (x .selec) (x .xy) (some (x .refXy))
  deps := [.selec, .xy, .Z, .refXy]

/-- `jacobianSOUT` of FeatureVisualPoint (src/feature/feature-abstract.cpp:39-41, src/feature/feature-visual-point.cpp:38-40). -/
noncomputable def visualJacobianOut (tiny : ℝ) : Output (In.Val ι) (Outcome (List (ι → ℝ))) where
  compute x := visualJacobian tiny (x .selec) (x .Z) (x .xy) (x .Jq)
  deps := [.selec, .xy, .Z, .Jq]

/-- `errorSOUT` of FeatureVector3 (src/feature/feature-abstract.cpp:31, src/feature/feature-vector3.cpp:46-48). -/
noncomputable def vectorErrorOut : Output (In.Val ι) (Fin 3 → ℝ) where
  compute x := vectorError (x .position) (x .vector) (x .vectorRef)
  deps := [.selec, .vector, .position, .vectorRef]

/-- `jacobianSOUT` of FeatureVector3 (src/feature/feature-abstract.cpp:39-41, src/feature/feature-vector3.cpp:43-44). -/
noncomputable def vectorJacobianOut : Output (In.Val ι) (Matrix (Fin 3) ι ℝ) where
  compute x := vectorJacobian (x .position) (x .vector) (x .Jq)
  deps := [.selec, .position, .Jq]

/-- `lineSOUT` of FeatureLineDistance (src/feature/feature-line-distance.cpp:42-45). -/
noncomputable def lineOut : Output (In.Val ι) (Fin 6 → ℝ) where
  compute x := lineCoordinates (x .position) (x .vector)
  deps := [.position, .lineRef]

/-- `errorSOUT` of FeatureLineDistance (src/feature/feature-abstract.cpp:31, src/feature/feature-line-distance.cpp:49). -/
noncomputable def lineErrorOut : Output (In.Val ι) ℝ where
  compute x := lineError (lineCoordinates (x .position) (x .vector)) (x .lineRef)
  deps := [.selec, .position]

/-- `jacobianSOUT` of FeatureLineDistance (src/feature/feature-abstract.cpp:39-41, src/feature/feature-line-distance.cpp:46-47). -/
noncomputable def lineJacobianOut : Output (In.Val ι) (ι → ℝ) where
  compute x := lineJacobian (x .position) (x .vector) (x .lineRef) (x .Jq)
  deps := [.selec, .position, .Jq]

/-- `errorSOUT` of FeaturePoint6d, with a reference (src/feature/feature-abstract.cpp:31, src/feature/feature-point6d.cpp:67, 117). -/
noncomputable def point6dErrorOut (fr : Frame) : Output (In.Val ι) (Outcome (List ℝ)) where
  compute x := computeError fr (x .selec) (x .position) (some (x .refPosition)) (List.replicate (dimension (x .selec)) 0)
  deps := [.selec, .position, .refPosition]

/-- `jacobianSOUT` of FeaturePoint6d, with a reference (src/feature/feature-abstract.cpp:39-41, src/feature/feature-point6d.cpp:64-65,
118). -/
noncomputable def point6dJacobianOut (fr : Frame) : Output (In.Val ι) (Outcome (List (ι → ℝ))) where
  compute x := computeJacobian fr (x .selec) (x .position) (some (x .refPosition)) (x .Jq) (List.replicate (dimension (x .selec)) 0)
  deps := [.selec, .position, .Jq, .refPosition]

/-- `errordotSOUT` of FeaturePoint6d, with a reference (src/feature/feature-abstract.cpp:34-36, src/feature/feature-point6d.cpp:73-75,
115-119): its own velocity, which it does not read, is left out, and the error gives the position of the reference. -/
noncomputable def point6dErrordotOut (fr : Frame) : Output (In.Val ι) (Outcome (List ℝ)) where
  compute x := computeErrordot fr (x .selec) (x .position) (some (x .refPosition, x .refVelocity))
    (List.replicate (dimension (x .selec)) 0)
  deps := [.selec, .errordotIN, .position, .refPosition]

/-- `errorSOUT` of FeaturePoint6dRelative, with a reference of the same class (src/feature/feature-abstract.cpp:31,
src/feature/feature-point6d.cpp:67, 117, src/feature/feature-point6d-relative.cpp:54). -/
noncomputable def relativeErrorOut : Output (In.Val ι) (Outcome (List ℝ)) where
  compute x := relComputeError (x .selec) (x .position) (x .positionRef) (some (.relative (x .refPosition) (x .refPositionRef)))
    (List.replicate (dimension (x .selec)) 0)
  deps := [.selec, .position, .refPosition, .positionRef]

/-- `jacobianSOUT` of FeaturePoint6dRelative (src/feature/feature-abstract.cpp:39-41, src/feature/feature-point6d.cpp:64-65,
src/feature/feature-point6d-relative.cpp:51-52). -/
noncomputable def relativeJacobianOut : Output (In.Val ι) (Outcome (List (ι → ℝ))) where
  compute x := relComputeJacobian (x .selec) (x .position) (x .positionRef) (x .Jq) (x .JqRef)
    (List.replicate (dimension (x .selec)) 0)
  deps := [.selec, .position, .Jq, .positionRef, .JqRef]

/-- `errorSOUT` of FeaturePose (src/feature/feature-abstract.cpp:31, include/sot/core/feature-pose.hxx:66-76, 81). -/
noncomputable def poseErrorOut : Output (In.Val ι) (Outcome (List ℝ)) where
  compute x := poseComputeError (x .selec) (x .oMja) (x .jaMfa) (x .oMjb) (x .jbMfb) (x .faMfbDes)
    (List.replicate (dimension (x .selec)) 0)
  deps := [.selec, .faMfbDes, .oMja, .jaMfa, .oMjb, .jbMfb]

/-- `jacobianSOUT` of FeaturePose (src/feature/feature-abstract.cpp:39-41, include/sot/core/feature-pose.hxx:66-76, 79). -/
noncomputable def poseJacobianOut : Output (In.Val ι) (Outcome (List (ι → ℝ))) where
  compute x := poseComputeJacobian (x .selec) (x .oMja) (x .jaMfa) (x .oMjb) (x .jbMfb) (x .faMfbDes) (x .jaJja) (x .jbJjb)
    (List.replicate (dimension (x .selec)) 0)
  deps := [.selec, .faMfbDes, .oMja, .jaMfa, .oMjb, .jbMfb, .jaJja, .jbJjb]

/-- `errordotSOUT` of FeaturePose (src/feature/feature-abstract.cpp:34-36, include/sot/core/feature-pose.hxx:66-76, 86-88). -/
noncomputable def poseErrordotOut : Output (In.Val ι) (Outcome (List ℝ)) where
  compute x := poseComputeErrorDot (x .selec) (faMfb (x .oMja) (x .jaMfa) (x .oMjb) (x .jbMfb)) (x .faMfbDes) (x .faNufafbDes)
    (List.replicate (dimension (x .selec)) 0)
  deps := [.selec, .errordotIN, .faMfbDes, .oMja, .jaMfa, .oMjb, .jbMfb, .faNufafbDes]

/-! ### The operational point -/

/-- The inputs of OpPointModifier (src/math/op-point-modifier.cpp:29-32). -/
inductive OpIn where
  | jacobian
  | position
  deriving DecidableEq

/-- Their types. -/
abbrev OpIn.Val (ι : Type) : OpIn → Type
  | .jacobian => Matrix (Fin 3 ⊕ Fin 3) ι ℝ
  | .position => Pose ℝ

/-- `positionSOUT` of OpPointModifier (src/math/op-point-modifier.cpp:37-40). -/
noncomputable def opPositionOut (o : OpPoint ℝ) : Output (OpIn.Val ι) (Pose ℝ) where
  compute x := opPosition o (x .position)
  deps := [.position]

/-- `jacobianSOUT` of OpPointModifier (src/math/op-point-modifier.cpp:33-36). -/
noncomputable def opJacobianOut (o : OpPoint ℝ) : Output (OpIn.Val ι) (Matrix (Fin 3 ⊕ Fin 3) ι ℝ) where
  compute x := opJacobian o (x .jacobian) (x .position)
  deps := [.jacobian]

/-! ### The controllers -/

/-- The inputs of ControlPD (src/control/control-pd.cpp:36-43). -/
inductive PdIn where
  | Kp | Kd | position | desiredPosition | velocity | desiredVelocity
  deriving DecidableEq

/-- `controlSOUT` of ControlPD (src/control/control-pd.cpp:44-47). -/
noncomputable def pdControlOut : Output (fun _ : PdIn => List ℝ) (Outcome (List ℝ)) where
  compute x := (Control.computePD (x .Kp) (x .Kd) (x .position) (x .desiredPosition) (x .velocity) (x .desiredVelocity)).map Control.PD.tau
  deps := [.Kp, .Kd, .position, .desiredPosition, .velocity, .desiredVelocity]

/-- `positionErrorSOUT` of ControlPD (src/control/control-pd.cpp:48-50). -/
noncomputable def pdPositionErrorOut : Output (fun _ : PdIn => List ℝ) (Outcome (List ℝ)) where
  compute x := Control.positionError (x .Kp) (x .Kd) (x .position) (x .desiredPosition) (x .velocity) (x .desiredVelocity)
  deps := [.Kp, .Kd, .position, .desiredPosition, .velocity, .desiredVelocity]

/-- The inputs that `w_force` of AdmittanceControlOpPoint reads (src/control/admittance-control-op-point.cpp:60, 63). -/
inductive ForceIn where
  | force
  | sensorPose
  deriving DecidableEq

/-- Their types. -/
abbrev ForceIn.Val : ForceIn → Type
  | .force => Admittance.V6 ℝ
  | .sensorPose => Pose ℝ

/-- `w_force` of AdmittanceControlOpPoint, after its initialisation (src/control/admittance-control-op-point.cpp:64, 124-129). -/
noncomputable def wForceOut : Output ForceIn.Val (Admittance.V6 ℝ) where
  compute x := Admittance.actForce (x .sensorPose) (x .force)
  deps := [.force]

/-! ### The Kalman filter -/

/-- The inputs of the variance of the Kalman filter (src/tools/kalman.cpp:31-46). -/
inductive KalmanIn where
  | F | Q | H | R
  deriving DecidableEq

/-- Their types. -/
abbrev KalmanIn.Val (n m : Type) : KalmanIn → Type
  | .F => Matrix n n ℝ
  | .Q => Matrix n n ℝ
  | .H => Matrix m n ℝ
  | .R => Matrix m m ℝ

/-- `varianceUpdateSOUT` of Kalman, after a request at the date zero, for the variance `P` at the date before
(src/tools/kalman.cpp:75-80, 82-105). -/
noncomputable def varianceOut {n m : Type} [Fintype n] [DecidableEq n] [Fintype m] [DecidableEq m] (P : Matrix n n ℝ) :
    Output (KalmanIn.Val n m) (Matrix n n ℝ) where
  compute x := Kalman.updated P ⟨x .F, x .Q, x .H, x .R, 0, 0, 0⟩
  deps := [.Q, .F]

end Verif.Depend
