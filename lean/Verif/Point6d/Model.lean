import Verif.Geometry.Convert
import Verif.Features.Model
import Mathlib.LinearAlgebra.CrossProduct

/-!
# Model of the features of the position of a frame

`FeaturePoint6d` and `FeaturePoint6dRelative` (the features of a pose are in Verif/Point6d/PoseModel.lean). Doubles are real
numbers. Jacobians have six rows, indexed by `Fin 3 ⊕ Fin 3` (translation, rotation), and columns indexed by any type; velocities
are six-dimensional: another size fails an assertion of Eigen, and is not modelled. `AngleAxis::fromRotationMatrix` is
`angleAxisOfRot` of Verif/Geometry/Convert.lean.
-/

namespace Verif.Point6d

open Matrix Verif.Geometry Verif.Features

/-- `ComputationFrameType` (include/sot/core/feature-point6d.hh:59). -/
inductive Frame where
  | desired
  | current
  deriving DecidableEq

/-- `COMPUTATION_FRAME_DEFAULT` (src/feature/feature-point6d.cpp:44-45). -/
def Frame.default : Frame := .desired

/-- `computationFrame(inFrame)` (src/feature/feature-point6d.cpp:130-141). -/
def setFrame (inFrame : String) : Outcome Frame :=
  if inFrame = "current" then .ok .current
  else if inFrame = "desired" then .ok .desired
  else .throw

/-- `computationFrame()` (src/feature/feature-point6d.cpp:144-153). -/
def getFrame : Frame → String
  | .current => "current"
  | .desired => "desired"

/-- `getDimension` (src/feature/feature-point6d.cpp:158-169, include/sot/core/feature-pose.hxx:122-135). -/
def dimension (sel : Nat → Bool) : Nat := countLoop sel 6 0 0

/-- Component `r` of a six-dimensional vector, or row `r` of a matrix of six rows (`LJq(r, c)`,
src/feature/feature-point6d.cpp:272). -/
def component {α : Type} (v : Fin 3 ⊕ Fin 3 → α) : Nat → Outcome α
  | 0 => .ok (v (.inl 0))
  | 1 => .ok (v (.inl 1))
  | 2 => .ok (v (.inl 2))
  | 3 => .ok (v (.inr 0))
  | 4 => .ok (v (.inr 1))
  | 5 => .ok (v (.inr 2))
  | _ => .ub

/-- The matrix `hMhd` of `computeError` (src/feature/feature-point6d.cpp:305-325); `ref` is the position of the reference, when
one is set. -/
noncomputable def relative (fr : Frame) (M : Pose ℝ) (ref : Option (Pose ℝ)) : Pose ℝ :=
  match ref, fr with
  | some Md, .current => M.inv.mul Md
  | some Md, .desired => Md.inv.mul M
  | none, .current => M.inv
  | none, .desired => M

/-- The six components of the error, before the selection: the translation of `hMhd`, and the rotation vector `error_th_` of its
rotation (src/feature/feature-point6d.cpp:336-348). -/
noncomputable def errorFull (fr : Frame) (M : Pose ℝ) (ref : Option (Pose ℝ)) : Fin 3 ⊕ Fin 3 → ℝ :=
  let X := relative fr M ref
  let r := angleAxisOfRot X.R
  Sum.elim X.t fun i => r.1 * r.2 i

/-- `computeError` (src/feature/feature-point6d.cpp:292-352): the two loops share their cursor. `res` is the output buffer after
`resize`. -/
noncomputable def computeError (fr : Frame) (sel : Nat → Bool) (M : Pose ℝ) (ref : Option (Pose ℝ)) (res : List ℝ) :
    Outcome (List ℝ) :=
  fillLoop sel (component (errorFull fr M ref)) 6 0 0 res

/-- The matrix `Lx` (src/feature/feature-point6d.cpp:194-240), for the current frame; `X` is `Rhdth`. -/
noncomputable def interaction (M : Pose ℝ) (ref : Option (Pose ℝ)) : Matrix (Fin 3 ⊕ Fin 3) (Fin 3 ⊕ Fin 3) ℝ :=
  let Rd := match ref with
    | some Md => Md.R
    | none => 1
  let hdth := match ref with
    | some Md => Md.t - M.t
    | none => -M.t
  let X := M.R⁻¹ *ᵥ hdth
  let hdRh := Rd⁻¹ * M.R
  fromBlocks (-1) !![0, -X 2, X 1; X 2, 0, -X 0; -X 1, X 0, 0] 0 (-hdRh)

/-- The matrix `hdRh` for the desired frame (src/feature/feature-point6d.cpp:244-255). -/
noncomputable def desiredRot (M : Pose ℝ) (ref : Option (Pose ℝ)) : Matrix (Fin 3) (Fin 3) ℝ :=
  match ref with
  | some Md => Md.R⁻¹ * M.R
  | none => M.R

/-- The matrix `LJq` (src/feature/feature-point6d.cpp:194-265). -/
noncomputable def jacobianFull {ι : Type} (fr : Frame) (M : Pose ℝ) (ref : Option (Pose ℝ)) (Jq : Matrix (Fin 3 ⊕ Fin 3) ι ℝ) :
    Matrix (Fin 3 ⊕ Fin 3) ι ℝ :=
  match fr with
  | .current => interaction M ref * Jq
  | .desired => fun r j => match r with
    | .inl i => ∑ k, desiredRot M ref i k * Jq (.inl k) j
    | .inr i => ∑ k, desiredRot M ref i k * Jq (.inr k) j

/-- `computeJacobian` (src/feature/feature-point6d.cpp:174-278): the selected rows. -/
noncomputable def computeJacobian {ι : Type} (fr : Frame) (sel : Nat → Bool) (M : Pose ℝ) (ref : Option (Pose ℝ))
    (Jq : Matrix (Fin 3 ⊕ Fin 3) ι ℝ) (res : List (ι → ℝ)) : Outcome (List (ι → ℝ)) :=
  fillLoop sel (component (jacobianFull fr M ref Jq)) 6 0 0 res

/-- The matrix `P_` of `inverseJacobianRodrigues` (src/feature/feature-point6d.cpp:354-417); `acc` is `accuracy_`. -/
noncomputable def rodriguesP (acc : ℝ) (r : Fin 3 → ℝ) : Matrix (Fin 3) (Fin 3) ℝ :=
  let r1 := r 0; let r2 := r 1; let r3 := r 2
  let r1_2 := r1 * r1; let r2_2 := r2 * r2; let r3_2 := r3 * r3
  let r1_3 := r1 * r1_2; let r2_3 := r2 * r2_2; let r3_3 := r3 * r3_2
  let r1_4 := r1_2 * r1_2; let r2_4 := r2_2 * r2_2; let r3_4 := r3_2 * r3_2
  let norm_2 := r3_2 + r2_2 + r1_2
  let n := Real.sqrt norm_2
  let s := Real.sin n
  let c := Real.cos n
  let d := r3_4 + (2 * r2_2 + 2 * r1_2) * r3_2 + r2_4 + 2 * r1_2 * r2_2 + r1_4
  if norm_2 < acc then 1
  else
    !![((r3_2 + r2_2) * n * s + r1_2 * r3_2 + r1_2 * r2_2 + r1_4) / d,
       -(r1 * r2 * n * s + (r3_3 + (r2_2 + r1_2) * r3) * c - r3_3 - r1 * r2 * r3_2 + (-r2_2 - r1_2) * r3 - r1 * r2_3 -
          r1_3 * r2) / d,
       -(r1 * r3 * n * s + (-r2 * r3_2 - r2_3 - r1_2 * r2) * c - r1 * r3_3 + r2 * r3_2 + (-r1 * r2_2 - r1_3) * r3 + r2_3 +
          r1_2 * r2) / d;
       -(r1 * r2 * n * s + ((-r2_2 - r1_2) * r3 - r3_3) * c + r3_3 - r1 * r2 * r3_2 + (r2_2 + r1_2) * r3 - r1 * r2_3 -
          r1_3 * r2) / d,
       ((r3_2 + r1_2) * n * s + r2_2 * r3_2 + r2_4 + r1_2 * r2_2) / d,
       -(r2 * r3 * n * s + (r1 * r3_2 + r1 * r2_2 + r1_3) * c - r2 * r3_3 - r1 * r3_2 + (-r2_3 - r1_2 * r2) * r3 -
          r1 * r2_2 - r1_3) / d;
       -(r1 * r3 * n * s + (r2 * r3_2 + r2_3 + r1_2 * r2) * c - r1 * r3_3 - r2 * r3_2 + (-r1 * r2_2 - r1_3) * r3 - r2_3 -
          r1_2 * r2) / d,
       -(r2 * r3 * n * s + (-r1 * r3_2 - r1 * r2_2 - r1_3) * c - r2 * r3_3 + r1 * r3_2 + (-r2_3 - r1_2 * r2) * r3 +
          r1 * r2_2 + r1_3) / d,
       ((r2_2 + r1_2) * n * s + r3_4 + (r2_2 + r1_2) * r3_2) / d]

/-- The constant `accuracy_(1e-8)` (src/feature/feature-point6d.cpp:63). -/
noncomputable def accuracy : ℝ := 1 / 10 ^ 8

/-- The vectors `errordot_t_` and `errordot_th_` of `computeErrordot` (src/feature/feature-point6d.cpp:419-456), for a reference at
`Md` with the velocity `vel`. The member `error_th_`, which `errorSOUT.recompute` refreshes when a component of the rotation is
selected, is the rotation vector of the error; when none is selected its value does not matter. -/
noncomputable def errordotFull (fr : Frame) (M : Pose ℝ) (ref : Option (Pose ℝ × (Fin 3 ⊕ Fin 3 → ℝ))) : Fin 3 ⊕ Fin 3 → ℝ :=
  match ref with
  | none => 0
  | some (Md, vel) =>
    let v := fun i => vel (.inl i)
    let omega := fun i => vel (.inr i)
    let Pinv := (rodriguesP accuracy fun i => errorFull fr M (some Md) (.inr i))⁻¹
    match fr with
    | .current => Sum.elim (M.Rᵀ *ᵥ v) (Pinv *ᵥ (Md.Rᵀ *ᵥ omega))
    | .desired => Sum.elim (Md.Rᵀ *ᵥ ((omega ⨯₃ (Md.t - M.t)) - v)) ((-Pinv) *ᵥ (M.Rᵀ *ᵥ omega))

/-- `computeErrordot` (src/feature/feature-point6d.cpp:419-476). -/
noncomputable def computeErrordot (fr : Frame) (sel : Nat → Bool) (M : Pose ℝ) (ref : Option (Pose ℝ × (Fin 3 ⊕ Fin 3 → ℝ)))
    (res : List ℝ) : Outcome (List ℝ) :=
  fillLoop sel (component (errordotFull fr M ref)) 6 0 0 res

/-- `servoCurrentPosition` (src/feature/feature-point6d.cpp:481-494), the command `keep`: the position of the reference
afterwards. -/
def keep (M : Pose ℝ) (ref : Option (Pose ℝ)) : Outcome (Option (Pose ℝ)) :=
  match ref with
  | none => .throw
  | some _ => .ok (some M)

/-! ### Position relative to another frame -/

/-- The reference of a relative feature: another relative feature, or a feature of a position. -/
inductive RelRef where
  | relative (p pref : Pose ℝ)
  | absolute (m : Pose ℝ)

/-- The matrix `Merr` (src/feature/feature-point6d-relative.cpp:121-158). -/
noncomputable def relError (wMp wMpref : Pose ℝ) (ref : Option RelRef) : Pose ℝ :=
  let pMpref := wMp.inv.mul wMpref
  match ref with
  | some (.relative p pref) => pMpref.mul (p.inv.mul pref).inv
  | some (.absolute m) => pMpref.mul m.inv
  | none => pMpref

/-- The six components of the error (src/feature/feature-point6d-relative.cpp:160-173). -/
noncomputable def relErrorFull (wMp wMpref : Pose ℝ) (ref : Option RelRef) : Fin 3 ⊕ Fin 3 → ℝ :=
  let X := relError wMp wMpref ref
  let r := angleAxisOfRot X.R
  Sum.elim X.t fun i => r.1 * r.2 i

/-- `computeError` (src/feature/feature-point6d-relative.cpp:115-176). -/
noncomputable def relComputeError (sel : Nat → Bool) (wMp wMpref : Pose ℝ) (ref : Option RelRef) (res : List ℝ) :
    Outcome (List ℝ) :=
  fillLoop sel (component (relErrorFull wMp wMpref ref)) 6 0 0 res

/-- The matrix `J` of `computeJacobian` (src/feature/feature-point6d-relative.cpp:77-94). -/
noncomputable def relJacobianFull {ι : Type} (wMp wMpref : Pose ℝ) (Jq JqRef : Matrix (Fin 3 ⊕ Fin 3) ι ℝ) :
    Matrix (Fin 3 ⊕ Fin 3) ι ℝ :=
  twist (wMp.inv.mul wMpref) * JqRef - Jq

/-- `computeJacobian` (src/feature/feature-point6d-relative.cpp:74-110). -/
noncomputable def relComputeJacobian {ι : Type} (sel : Nat → Bool) (wMp wMpref : Pose ℝ) (Jq JqRef : Matrix (Fin 3 ⊕ Fin 3) ι ℝ)
    (res : List (ι → ℝ)) : Outcome (List (ι → ℝ)) :=
  fillLoop sel (component (relJacobianFull wMp wMpref Jq JqRef)) 6 0 0 res

/-- `initSdes` (src/feature/feature-point6d-relative.cpp:290-302): the reference afterwards, for the positions read at the next
date. -/
def initSdes (wMp wMpref : Pose ℝ) : RelRef := .relative wMp wMpref

/-- The vector `dtrerr` of `computeErrorDot` (src/feature/feature-point6d-relative.cpp:188-232), from the positions and their
derivatives. -/
def relDtr (wMp wMpref wdMp wdMpref : Pose ℝ) : Fin 3 → ℝ :=
  wdMp.Rᵀ *ᵥ (wMpref.t - wMp.t) - wMp.Rᵀ *ᵥ (wdMpref.t - wdMp.t)

end Verif.Point6d
