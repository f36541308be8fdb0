import Verif.Geometry.Model
import Mathlib.Analysis.SpecialFunctions.Trigonometric.Arctan

/-!
# Model of the workspace clamp

`ClampWorkspace` (src/tools/clamp-workspace.cpp). Doubles are real numbers. The members `mode`, `frame`,
`bounds`, `dm_min`... are set by the constructor and no command changes them; the model keeps `mode` and
the bounds as members so that the other modes written in the code can be discussed.
-/

namespace Verif.Clamp

open Matrix Geometry

/-- The members that matter (include/sot/core/clamp-workspace.hh:75-96). -/
structure State where
  timeUpdate : Int
  alpha : Mat6 ℝ
  alphabar : Mat6 ℝ
  /-- `none`: not initialised. -/
  handref : Option (Pose ℝ)
  mode : Int
  lo : Fin 3 → ℝ
  hi : Fin 3 → ℝ

/-- The constructor (src/tools/clamp-workspace.cpp:44-70). -/
noncomputable def State.fresh : State where
  timeUpdate := 0
  alpha := 0
  alphabar := Matrix.of fun _ _ => 1
  handref := none
  mode := 1
  lo := ![15 / 100, -4 / 10, 15 / 100]
  hi := ![5 / 10, -25 / 100, 55 / 100]

/-- The clamped ratio `Y` (src/tools/clamp-workspace.cpp:96-102, 120-126). -/
noncomputable def ratio (dm dmin dmax : ℝ) : ℝ :=
  let y := (dm - dmin) / (dmax - dmin)
  let y := if y < 0 then 0 else y
  if y > 1 then 1 else y

/-- `0.5 * (1 + tanh(1 / Y - 1 / (1 - Y)))` (src/tools/clamp-workspace.cpp:115, 128). At `Y = 0` and
`Y = 1` the IEEE value (argument `+∞`, `-∞`). -/
noncomputable def weight (y : ℝ) : ℝ :=
  if y = 0 then 1 else if y = 1 then 0 else 1 / 2 * (1 + Real.tanh (1 / y - 1 / (1 - y)))

/-- The distance to the closest face along axis `i`, zero outside (src/tools/clamp-workspace.cpp:92-94). -/
noncomputable def dist (s : State) (x : Fin 3 → ℝ) (i : Fin 3) : ℝ :=
  min (max (x i - s.lo i) 0) (max (s.hi i - x i) 0)

/-- The diagonal of `alpha` before the change of frame (src/tools/clamp-workspace.cpp:81, 91-132). -/
noncomputable def alphaDiag (s : State) (x : Fin 3 → ℝ) : Fin 3 ⊕ Fin 3 → ℝ
  | .inl i => if s.mode = 0 then 0 else if s.mode = 1 then 1
      else weight (ratio (dist s x i) (19 / 1000) (25 / 1000))
  | .inr i => if s.mode = 2 ∧ i = 2 then weight (ratio (dist s x i) (19 / 1000) (119 / 1000)) else 0

/-- The diagonal of `alphabar`. In the default case the code reads `alpha(i)` and `alpha(i + 3)` with one
index: the coefficient `(i, 0)` of the column-major 6x6 matrix, which is off the diagonal unless `i = 0`,
hence zero (src/tools/clamp-workspace.cpp:82, 107, 111, 116, 129). -/
noncomputable def alphabarDiag (s : State) (x : Fin 3 → ℝ) : Fin 3 ⊕ Fin 3 → ℝ
  | .inl i => if s.mode = 0 then 1 else if s.mode = 1 then 0
      else 1 - (if i = 0 then alphaDiag s x (.inl 0) else 0)
  | .inr _ => 1

/-- A pose without its translation (src/tools/clamp-workspace.cpp:137-140). -/
def noTranslation (m : Pose ℝ) : Pose ℝ := ⟨m.R, 0⟩

/-- `update` (src/tools/clamp-workspace.cpp:76-175), in frame `FRAME_POINT`. -/
noncomputable def update (s : State) (time : Int) (posref pos : Pose ℝ) : State :=
  if time ≤ s.timeUpdate then s
  else
    let prefMp := posref.inv.mul pos
    let x := prefMp.t
    let pTpref := twist (noTranslation prefMp.inv)
    let prefTp := twist (noTranslation prefMp)
    let pd : Fin 3 → ℝ := fun i => 1 / 2 * (s.lo i + s.hi i)
    let pi' : ℝ := 314159 / 100000
    let thmin := -30 * pi' / 180
    let thmax := 5 * pi' / 180
    let yaw := thmin + (thmax - thmin) * (x 1 - s.lo 1) / (s.hi 1 - s.lo 1)
    let pitch := -(314159256 / 100000000) / 2
    { s with
      alpha := pTpref * (Matrix.diagonal (alphaDiag s x) * prefTp)
      alphabar := pTpref * (Matrix.diagonal (alphabarDiag s x) * prefTp)
      handref := some ⟨rpyToMatrix 0 pitch yaw, pd⟩
      timeUpdate := time }

/-- A history of updates: the three outputs all call `update` first
(src/tools/clamp-workspace.cpp:177-194). -/
noncomputable def run (s : State) : List (Int × Pose ℝ × Pose ℝ) → State
  | [] => s
  | (t, r, p) :: es => run (update s t r p) es

end Verif.Clamp
