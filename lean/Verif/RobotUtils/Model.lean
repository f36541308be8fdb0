import Verif.Common.Outcome
import Verif.Common.Index
import Verif.Common.SMap
import Verif.Geometry.Model
import Mathlib.Analysis.SpecialFunctions.Complex.Arg
import Mathlib.Data.String.Basic

/-!
# Model of the robot utilities (src/tools/robot-utils.cpp, include/sot/core/robot-utils.hh)

Doubles are of any type (a field, or the reals where angles occur). A failed `assert` is undefined behaviour: nothing is
checked when assertions are compiled out. Two arguments of a call never share memory.
-/

namespace Verif.RobotUtils

open Geometry

variable {F : Type}

/-! ### Joint orderings -/

/-- `m_nbJoints` and `m_urdf_to_sot` (include/sot/core/robot-utils.hh:146-150). `nb` is `none` as long as the member is
uninitialised: the constructor (src/tools/robot-utils.cpp:229) does not set it. -/
structure Joints where
  nb : Option Nat
  map : List Int
  deriving DecidableEq, Repr

/-- Constructor (src/tools/robot-utils.cpp:229). -/
def Joints.new : Joints := ⟨none, []⟩

/-- `set_urdf_to_sot(std::vector<Index>)` (src/tools/robot-utils.cpp:270-279). -/
def setUrdfToSot (_ : Joints) (m : List Int) : Joints := ⟨some m.length, m⟩

/-- The conversion `(unsigned int)x` of a double, here a rational: towards zero, undefined when the result does not
fit. -/
def castUnsigned (x : Rat) : Outcome Int :=
  let z : Int := if x < 0 then -⌊-x⌋ else ⌊x⌋
  if 0 ≤ z ∧ z < 4294967296 then .ok z else .ub

/-- The conversion of each entry of the vector (src/tools/robot-utils.cpp:284-286). -/
def castAll : List Rat → Outcome (List Int)
  | [] => .ok []
  | x :: xs => (castUnsigned x).bind fun z => (castAll xs).map (z :: ·)

/-- `set_urdf_to_sot(dg::Vector)` (src/tools/robot-utils.cpp:281-288). -/
def setUrdfToSotVector (_ : Joints) (v : List Rat) : Outcome Joints := (castAll v).map fun m => ⟨some v.length, m⟩

/-- The loop of `joints_urdf_to_sot` (src/tools/robot-utils.cpp:298-299) from index `i`, with `n` turns left. -/
def scatter (m : List Int) (qu : List F) : Nat → Nat → List F → Outcome (List F)
  | _, 0, qs => .ok qs
  | i, n + 1, qs =>
    (rd m i).bind fun k => (rd qu i).bind fun x => (wrI qs k x).bind fun qs' => scatter m qu (i + 1) n qs'

/-- `joints_urdf_to_sot` (src/tools/robot-utils.cpp:290-301): the value returned, and `q_sot` after the call. -/
def jointsUrdfToSot (j : Joints) (qu qs : List F) : Outcome (Bool × List F) :=
  match j.nb with
  | none => .ub
  | some n =>
    if n = 0 then .ok (false, qs)
    else if qu.length ≠ n ∨ qs.length ≠ n then .ub
    else (scatter j.map qu 0 n qs).map fun r => (true, r)

/-- The loop of `joints_sot_to_urdf` (src/tools/robot-utils.cpp:312-313). -/
def gather (m : List Int) (qs : List F) : Nat → Nat → List F → Outcome (List F)
  | _, 0, qu => .ok qu
  | i, n + 1, qu =>
    (rd m i).bind fun k => (rdI qs k).bind fun x => (wr qu i x).bind fun qu' => gather m qs (i + 1) n qu'

/-- `joints_sot_to_urdf` (src/tools/robot-utils.cpp:303-315): here the sizes are asserted first. -/
def jointsSotToUrdf (j : Joints) (qs qu : List F) : Outcome (Bool × List F) :=
  match j.nb with
  | none => .ub
  | some n =>
    if qu.length ≠ n ∨ qs.length ≠ n then .ub
    else if n = 0 then .ok (false, qu)
    else (gather j.map qs 0 n qu).map fun r => (true, r)

/-! ### Floating base -/

/-- Three consecutive components (`head<3>()`, `segment<3>(k)`). -/
def seg3 (v : List F) (k : Nat) : Outcome (Fin 3 → F) :=
  (rd v k).bind fun a => (rd v (k + 1)).bind fun b => (rd v (k + 2)).map fun c => ![a, b, c]

/-- The quaternion stored at indices 3 to 6, scalar last (src/tools/robot-utils.cpp:327, 361-365). -/
def quatOf (q : List F) : Outcome (Quat F) :=
  (rd q 6).bind fun w => (rd q 3).bind fun x => (rd q 4).bind fun y => (rd q 5).map fun z => ⟨w, x, y, z⟩

/-- `velocity_urdf_to_sot` (src/tools/robot-utils.cpp:317-334). The value returned by the inner call is ignored. -/
def velocityUrdfToSot [Field F] (j : Joints) (q v vs : List F) : Outcome (Bool × List F) :=
  match j.nb with
  | none => .ub
  | some n =>
    if q.length ≠ n + 7 ∨ v.length ≠ n + 6 ∨ vs.length ≠ n + 6 then .ub
    else if n = 0 then .ok (false, vs)
    else
      (quatOf q).bind fun qt => (seg3 v 0).bind fun a => (seg3 v 3).bind fun b =>
        let a' := qt.toRot.mulVec a
        let b' := qt.toRot.mulVec b
        (jointsUrdfToSot j (v.drop 6) (vs.drop 6)).map fun r =>
          (true, [a' 0, a' 1, a' 2, b' 0, b' 1, b' 2] ++ r.2)

/-- `velocity_sot_to_urdf` (src/tools/robot-utils.cpp:336-354). -/
def velocitySotToUrdf [Field F] (j : Joints) (q v vu : List F) : Outcome (Bool × List F) :=
  match j.nb with
  | none => .ub
  | some n =>
    if q.length ≠ n + 7 ∨ vu.length ≠ n + 6 ∨ v.length ≠ n + 6 then .ub
    else if n = 0 then .ok (false, vu)
    else
      (quatOf q).bind fun qt => (seg3 v 0).bind fun a => (seg3 v 3).bind fun b =>
        let a' := qt.toRot.transpose.mulVec a
        let b' := qt.toRot.transpose.mulVec b
        (jointsSotToUrdf j (v.drop 6) (vu.drop 6)).map fun r =>
          (true, [a' 0, a' 1, a' 2, b' 0, b' 1, b' 2] ++ r.2)

/-- `atan2(y, x)`. -/
noncomputable def atan2 (y x : ℝ) : ℝ := Complex.arg ⟨x, y⟩

/-- The three angles of `base_se3_to_sot` (src/tools/robot-utils.cpp:450-459), for a threshold `ε` in place of
`0.001`. -/
noncomputable def rpyOf (ε : ℝ) (R : Matrix (Fin 3) (Fin 3) ℝ) : ℝ × ℝ × ℝ :=
  let m := Real.sqrt (R 2 1 * R 2 1 + R 2 2 * R 2 2)
  let p := atan2 (-R 2 0) m
  if |(|p| - Real.pi / 2)| < ε then (0, p, -atan2 (R 0 1) (R 1 1))
  else (atan2 (R 2 1) (R 2 2), p, atan2 (R 1 0) (R 0 0))

/-- `base_se3_to_sot` (src/tools/robot-utils.cpp:444-468). -/
noncomputable def baseSe3ToSot (pos : Fin 3 → ℝ) (R : Matrix (Fin 3) (Fin 3) ℝ) : List ℝ :=
  let a := rpyOf 0.001 R
  [pos 0, pos 1, pos 2, a.1, a.2.1, a.2.2]

/-- `base_urdf_to_sot`, method and function (src/tools/robot-utils.cpp:356-367, 470-480). -/
noncomputable def baseUrdfToSot (q : List ℝ) : Outcome (List ℝ) :=
  if q.length ≠ 7 then .ub
  else (quatOf q).bind fun qt => (seg3 q 0).map fun pos => baseSe3ToSot pos qt.toRot

/-- `base_sot_to_urdf`, method and function (src/tools/robot-utils.cpp:369-390, 482-503). -/
noncomputable def baseSotToUrdf (q : List ℝ) : Outcome (List ℝ) :=
  if q.length ≠ 6 then .ub
  else
    (seg3 q 0).bind fun pos => (seg3 q 3).map fun a =>
      let quat := ((angleAxisQuat .z (a 2)).mul (angleAxisQuat .y (a 1))).mul (angleAxisQuat .x (a 0))
      [pos 0, pos 1, pos 2, quat.x, quat.y, quat.z, quat.w]

/-- `config_urdf_to_sot` (src/tools/robot-utils.cpp:392-400): always returns true. -/
noncomputable def configUrdfToSot (j : Joints) (q qs : List ℝ) : Outcome (Bool × List ℝ) :=
  match j.nb with
  | none => .ub
  | some n =>
    if q.length ≠ n + 7 ∨ qs.length ≠ n + 6 then .ub
    else
      (baseUrdfToSot (q.take 7)).bind fun b =>
        (jointsUrdfToSot j (q.drop 7) (qs.drop 6)).map fun r => (true, b ++ r.2)

/-- `config_sot_to_urdf` (src/tools/robot-utils.cpp:402-408). -/
noncomputable def configSotToUrdf (j : Joints) (q qu : List ℝ) : Outcome (Bool × List ℝ) :=
  match j.nb with
  | none => .ub
  | some n =>
    if qu.length ≠ n + 7 ∨ q.length ≠ n + 6 then .ub
    else
      (baseSotToUrdf (q.take 6)).bind fun b =>
        (jointsSotToUrdf j (q.drop 6) (qu.drop 7)).map fun r => (true, b ++ r.2)

/-! ### Name tables -/

/-- `m_name_to_id` and `m_id_to_name` (include/sot/core/robot-utils.hh:152-156); `m_name_to_force_id` and
`m_force_id_to_name` (73-74) are used by the same code. -/
structure Names where
  toId : SMap String Int
  toName : SMap Int String
  deriving DecidableEq, Repr

/-- `create_id_to_name_map` (src/tools/robot-utils.cpp:252-256), `create_force_id_to_name_map` (175-179): an entry is
written for each name, in the order of the names; none is erased. -/
def createIdToName (toId : SMap String Int) (toName : SMap Int String) : SMap Int String :=
  toId.foldl (fun m p => SMap.put p.2 p.1 m) toName

/-- `set_name_to_id` (src/tools/robot-utils.cpp:246-250). -/
def setNameToId (s : Names) (name : String) (id : Int) : Names :=
  let toId := SMap.put name id s.toId
  ⟨toId, createIdToName toId s.toName⟩

/-- `get_id_from_name` (src/tools/robot-utils.cpp:258-262, 154-159): -1 when unknown. -/
def getId (s : Names) (name : String) : Int := (SMap.find name s.toId).getD (-1)

/-- `get_name_from_id` (src/tools/robot-utils.cpp:264-268, 164-169). `dflt` is `"Joint name not found"` for joints and
`"Force name not found"` for forces (161-162). -/
def getName (dflt : String) (s : Names) (id : Int) : String := (SMap.find id s.toName).getD dflt

/-- A history of registrations. -/
def register (regs : List (String × Int)) : Names := regs.foldl (fun s r => setNameToId s r.1 r.2) ⟨[], []⟩

end Verif.RobotUtils
