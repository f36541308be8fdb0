import Verif.Point6d.Model
import Verif.Flags.Model

/-!
# The features of the Python library

`FeaturePosition` and `FeaturePositionRelative` (src/dynamic_graph/sot/core/feature_position.py,
src/dynamic_graph/sot/core/feature_position_relative.py), on top of the features of Verif/Point6d/Model.lean.

Simplifications: floats are reals; a Python exception is `throw`; signals are true in a condition and cannot be turned into a
tuple; an array of the numeric library is neither true nor false; what a signal gives is read at one time (the caching of signals is
not modelled). The two names given to the underlying features are assumed to be free.
-/

namespace Verif.PyFeature

open Verif Matrix Verif.Geometry Verif.Features Verif.Point6d

/-- What a caller gives for a position: nothing, a signal, a tuple of rows, or an array. -/
inductive Arg (S : Type) where
  | none
  | signal (s : S)
  | tuple (m : Pose ℝ)
  | array (m : Pose ℝ)

/-- What an input of a feature reads: nothing yet, a value that was set, or a plugged signal. -/
inductive Source (S : Type) where
  | unset
  | const (m : Pose ℝ)
  | plugged (s : S)

/-- Reading an input, `w` being what the signals give at this time. -/
def Source.read {S : Type} (w : S → Outcome (Pose ℝ)) : Source S → Outcome (Pose ℝ)
  | .unset => .throw
  | .const m => .ok m
  | .plugged s => w s

/-- The components of `Flags("111111")` (src/dynamic_graph/sot/core/feature_position.py:44,
src/dynamic_graph/sot/core/feature_position_relative.py:104). -/
def selec : Outcome Flags.Flags := Flags.ofChars ['1', '1', '1', '1', '1', '1']

/-- The selection a mask makes. -/
def selects (f : Flags.Flags) (i : Nat) : Bool := Flags.call f i = .ok true

/-! ### The position of a body -/

/-- The state of a `FeaturePosition`: the inputs of the feature, the position of its reference, the frame of computation and the
mask. -/
structure Position (S J : Type) where
  position : Source S
  jq : Option J
  reference : Source S
  frame : Frame
  mask : Flags.Flags

/-- What the argument `referencePosition` makes of the position of the reference: it is used in a condition, then turned into a tuple
(src/dynamic_graph/sot/core/feature_position.py:37-38). -/
def asReference {S : Type} : Arg S → Outcome (Source S)
  | .none => .ok .unset
  | .tuple m => .ok (.const m)
  | .array _ => .throw
  | .signal _ => .throw

/-- What the argument `signalPosition` makes of the position (src/dynamic_graph/sot/core/feature_position.py:39-40). -/
def asPosition {S : Type} : Arg S → Outcome (Source S)
  | .none => .ok .unset
  | .signal s => .ok (.plugged s)
  | .tuple _ => .throw
  | .array _ => .throw

/-- `FeaturePosition.__init__` (src/dynamic_graph/sot/core/feature_position.py:31-45). Plugging something that is not a signal
raises an exception. -/
def Position.init {S J : Type} (signalPosition : Arg S) (signalJacobian : Option J) (referencePosition : Arg S) :
    Outcome (Position S J) :=
  (asReference referencePosition).bind fun ref =>
  (asPosition signalPosition).bind fun pos =>
  selec.bind fun mask =>
  (setFrame "current").bind fun fr => .ok ⟨pos, signalJacobian, ref, fr, mask⟩

/-- The signal `error` (src/dynamic_graph/sot/core/feature_position.py:52): the computation of the feature of a position, whose
reference is always set (src/dynamic_graph/sot/core/feature_position.py:43, src/feature/feature-point6d.cpp:292-352). -/
noncomputable def Position.error {S J : Type} (p : Position S J) (w : S → Outcome (Pose ℝ)) : Outcome (List ℝ) :=
  (p.position.read w).bind fun M =>
  (p.reference.read w).bind fun Md =>
  computeError p.frame (selects p.mask) M (some Md) (List.replicate (dimension (selects p.mask)) 0)

/-- `keep` (src/dynamic_graph/sot/core/feature_position.py:95-96, src/feature/feature-point6d.cpp:481-494). -/
def Position.keep {S J : Type} (p : Position S J) (w : S → Outcome (Pose ℝ)) : Outcome (Position S J) :=
  (p.position.read w).bind fun M => .ok { p with reference := .const M }

/-- Setting the signal `reference` (src/dynamic_graph/sot/core/feature_position.py:49). -/
def Position.setReference {S J : Type} (p : Position S J) (m : Pose ℝ) : Position S J := { p with reference := .const m }

/-- The names `FeaturePosition.signal` knows (src/dynamic_graph/sot/core/feature_position.py:56-62, 68-75). -/
def positionSignals : List String := ["position", "reference", "Jq", "error", "selec"]

/-- The members that hold a signal (src/dynamic_graph/sot/core/feature_position.py:48-54). -/
def positionMembers : List String := ["position", "reference", "velocity", "Jq", "error", "errordot", "selec"]

/-! ### The position of a body relative to another one -/

/-- `I4` (src/dynamic_graph/sot/core/feature_position_relative.py:14), a fold over `range(4)`. -/
def i4 : List (List ℝ) :=
  (List.range 4).foldl (fun m i => m ++ [List.replicate i 0 ++ [1] ++ List.replicate (3 - i) 0]) []

/-- The value given to an input of a homogeneous matrix, from rows: rotation and translation. -/
def ofRows (m : List (List ℝ)) : Pose ℝ where
  R := Matrix.of fun i j => ((m[i.val]?).bind fun r => r[j.val]?).getD 0
  t := fun i => ((m[i.val]?).bind fun r => r[3]?).getD 0

/-- What an argument makes of the corresponding input (src/dynamic_graph/sot/core/feature_position_relative.py:78-97). -/
def Arg.source {S : Type} : Arg S → Source S
  | .none => .const (ofRows i4)
  | .signal s => .plugged s
  | .tuple m => .const m
  | .array m => .const m

/-- The state of a `FeaturePositionRelative`: the inputs `position` and `positionRef` of the feature and of its reference, the
jacobians, the frame and the mask. -/
structure Relative (S J : Type) where
  position : Source S
  positionRef : Source S
  refPosition : Source S
  refPositionRef : Source S
  jq : Option J
  jqRef : Option J
  frame : Frame
  mask : Flags.Flags

/-- `FeaturePositionRelative.__init__` (src/dynamic_graph/sot/core/feature_position_relative.py:64-105). -/
def Relative.init {S J : Type} (basePosition otherPosition baseReference otherReference : Arg S) (jqBase jqOther : Option J) :
    Outcome (Relative S J) :=
  selec.bind fun mask =>
  (setFrame "current").bind fun fr =>
  .ok ⟨otherPosition.source, basePosition.source, otherReference.source, baseReference.source, jqOther, jqBase, fr, mask⟩

/-- The signal `error` (src/dynamic_graph/sot/core/feature_position_relative.py:114, src/feature/feature-point6d-relative.cpp:115-176):
an exception while the reference is read is caught (src/feature/feature-point6d-relative.cpp:130-158), as if no reference were
set. -/
noncomputable def Relative.error {S J : Type} (p : Relative S J) (w : S → Outcome (Pose ℝ)) : Outcome (List ℝ) :=
  (p.position.read w).bind fun wMp =>
  (p.positionRef.read w).bind fun wMpref =>
  let ref : Outcome (Option RelRef) :=
    match p.refPosition.read w with
    | .ok a => match p.refPositionRef.read w with
      | .ok b => .ok (some (.relative a b))
      | .throw => .ok none
      | .ub => .ub
    | .throw => .ok none
    | .ub => .ub
  ref.bind fun ref =>
  relComputeError (selects p.mask) wMp wMpref ref (List.replicate (dimension (selects p.mask)) 0)

/-- `keep` (src/dynamic_graph/sot/core/feature_position_relative.py:158-159), inherited from the feature of a position: only the input
`position` of the reference is written (src/feature/feature-point6d.cpp:481-494). -/
def Relative.keep {S J : Type} (p : Relative S J) (w : S → Outcome (Pose ℝ)) : Outcome (Relative S J) :=
  (p.position.read w).bind fun M => .ok { p with refPosition := .const M }

/-- The names `FeaturePositionRelative.signal` knows (src/dynamic_graph/sot/core/feature_position_relative.py:118-128). -/
def relativeSignals : List String :=
  ["basePosition", "otherPosition", "baseReference", "otherReference", "JqBase", "JqOther", "error", "jacobian", "selec"]

end Verif.PyFeature
