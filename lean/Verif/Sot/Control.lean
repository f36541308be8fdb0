import Verif.Common.Svd
import Verif.Common.Outcome
import Verif.Flags.Model
import Verif.MultiBound.Model

/-!
# Model of `Sot::computeControlLaw` (src/sot/sot.cpp:328-643)

Numbers are reals. The decomposition `svd.compute` is an oracle `svd : ∀ A, Svd A` (see
`Verif.Common.Svd`). The tasks of the stack are assumed distinct (a task present twice shares its
internal memory with itself, which is not modelled here) and the row count of a jacobian is the size
of the task vector (an Eigen assertion otherwise).
-/

namespace Verif.Sot

open Matrix Verif.MultiBound

/-- What the control law reads from one task of the stack at one iteration. `m` is the size of the task
vector, `selec` the value of `controlSelectionSIN` (`none` when the task is not a `Task`,
src/sot/sot.cpp:330), `fullPosture` the answer of `isFullPostureTask` (src/sot/sot.cpp:387-397), `mem`
the sizes `(nJ, mJ)` of the memory allocated for the task at an earlier iteration, if any
(src/sot/sot.cpp:399-408). -/
structure Level (n : ℕ) where
  m : ℕ
  jac : Matrix (Fin m) (Fin n) ℝ
  selec : Option Flags.Flags
  task : Fin m → MultiBound ℝ
  fullPosture : Bool
  mem : Option (ℕ × ℕ)

variable {n : ℕ}

/-- Reading `controlSelec(i)` for a column index (src/sot/sot.cpp:337). Column indices are not
negative, so the reading is always defined (`Flags.C01_read_total`); the other outcomes do not occur. -/
def selected (f : Flags.Flags) (i : ℕ) : Bool :=
  match Flags.call f (i : Int) with
  | .ok b => b
  | _ => false

/-- `computeJacobianActivated` (src/sot/sot.cpp:328-349). The two nested tests `if (controlSelec)` and
`if (!controlSelec)` both convert a mask to `bool`: the second one is the conversion of the negated mask. -/
def activated (lv : Level n) : Matrix (Fin lv.m) (Fin n) ℝ :=
  match lv.selec with
  | none => lv.jac
  | some f =>
    if Flags.toBool f then
      if Flags.toBool (Flags.not f) then
        Matrix.of fun i j => if selected f j then lv.jac i j else 0
      else lv.jac
    else 0

/-- `Sot::taskVectorToMlVector` (src/sot/sot.cpp:458-467): throws when a component is not a single
bound. -/
noncomputable def taskVector (lv : Level n) : Outcome (Fin lv.m → ℝ) :=
  open Classical in
  if ∀ i, (lv.task i).mode = .single then .ok (fun i => (lv.task i).boundSingle) else .throw

/-- The kernel map (src/sot/sot.cpp:509, 607): a basis, given by columns, of the directions left to the
next levels. -/
structure Kernel (n : ℕ) where
  c : ℕ
  K : Matrix (Fin n) (Fin c) ℝ

/-- The local variables of the loop (src/sot/sot.cpp:486, 508-510) and the levels reported as disabled
(src/sot/sot.cpp:611-614). `kernel = none` is `has_kernel = false`, with a 0 x 0 map. -/
structure St (n : ℕ) where
  control : Fin n → ℝ
  controlIsZero : Bool
  kernel : Option (Kernel n)
  iterTask : ℕ
  disabled : List ℕ

/-- `kernel.cols()` (src/sot/sot.cpp:554, 636). -/
def cols (k : Option (Kernel n)) : ℕ :=
  match k with
  | none => 0
  | some k => k.c

/-- The rank loop (src/sot/sot.cpp:585-588): number of leading singular values above the threshold. -/
noncomputable def rankJ {p : ℕ} (th : ℝ) (σ : Fin p → ℝ) : ℕ :=
  open Classical in ((List.ofFn σ).takeWhile (fun s => decide (th < s))).length

variable {m c : ℕ} {A : Matrix (Fin m) (Fin c) ℝ}

/-- `tmpTask <- S^-1 * U^T * err` on the first `r` components (src/sot/sot.cpp:371-373). -/
noncomputable def tmpTask (S : Svd A) (r : ℕ) (err : Fin m → ℝ) : Fin (min m c) → ℝ :=
  fun k => if k.val < r then (S.σ k)⁻¹ * (S.Uᵀ *ᵥ err) k else 0

/-- `V.leftCols(r) * tmpTask` (src/sot/sot.cpp:378, 381). -/
noncomputable def increment (S : Svd A) (r : ℕ) (err : Fin m → ℝ) : Fin c → ℝ :=
  (S.V.submatrix id svdCol) *ᵥ tmpTask S r err

/-- `V.rightCols(cols)` with `cols = V.cols() - r` (src/sot/sot.cpp:600-606). -/
def rightCols (S : Svd A) (r : ℕ) : Matrix (Fin c) (Fin (c - r)) ℝ :=
  Matrix.of fun i j => S.V i ⟨r + j.val, by omega⟩

/-- `updateControl` and the kernel update (src/sot/sot.cpp:361-385, 594-621) once `Jt`, the projected
jacobian, and `K`, the kernel, are known; without kernel `K` is the identity (the code then omits the
product). `e` is the task error minus what the control already does. -/
noncomputable def updateLevel (svd : ∀ {m c : ℕ} (A : Matrix (Fin m) (Fin c) ℝ), Svd A)
    (th maxSq : ℝ) (last : Bool) (st : St n) {m c : ℕ} (K : Matrix (Fin n) (Fin c) ℝ)
    (Jt : Matrix (Fin m) (Fin c) ℝ) (e : Fin m → ℝ) : St n :=
  open Classical in
  let r := rankJ th (svd Jt).σ
  let d := K *ᵥ increment (svd Jt) r e
  if d ⬝ᵥ d > maxSq then
    { st with iterTask := st.iterTask + 1, disabled := st.disabled ++ [st.iterTask] }
  else
    { st with
      control := st.control + d
      controlIsZero := false
      kernel := if last then st.kernel else some ⟨c - r, K * rightCols (svd Jt) r⟩
      iterTask := st.iterTask + 1 }

/-- The error corrected by the current control (src/sot/sot.cpp:592). -/
def correctedErr (st : St n) {m : ℕ} (J : Matrix (Fin m) (Fin n) ℝ) (err : Fin m → ℝ) : Fin m → ℝ :=
  if st.controlIsZero then err else err - J *ᵥ st.control

/-- The general branch of the loop body (src/sot/sot.cpp:563-622). `tmpTask.head(r)` and
`tmpVar.head(kernel.cols())` write outside the buffers when these were allocated too small at an
earlier iteration: `ub`. -/
noncomputable def generalLevel (svd : ∀ {m c : ℕ} (A : Matrix (Fin m) (Fin c) ℝ), Svd A)
    (th maxSq : ℝ) (last : Bool) (st : St n) (lv : Level n) (err : Fin lv.m → ℝ) : Outcome (St n) :=
  let J := activated lv
  let e := correctedErr st J err
  let sizes := lv.mem.getD (lv.m, n)
  match st.kernel with
  | none =>
    if sizes.1 < rankJ th (svd J).σ then .ub
    else .ok (updateLevel svd th maxSq last st (1 : Matrix (Fin n) (Fin n) ℝ) J e)
  | some ⟨c, K⟩ =>
    if sizes.1 < rankJ th (svd (J * K)).σ ∨ sizes.2 < c then .ub
    else .ok (updateLevel svd th maxSq last st K (J * K) e)

/-- `control.tail(nbJoints - 6)` (src/sot/sot.cpp:558). -/
def tail6 (u : Fin n → ℝ) : Fin (n - 6) → ℝ := fun i => u ⟨i.val + 6, by omega⟩

/-- The accelerated branch for a last, full posture task (src/sot/sot.cpp:549-562). Without kernel
`kernel` is a 0 x 0 map and `rightCols(nbJoints - 6)` is out of range: `ub`. A size of the task vector
other than `nbJoints - 6`, or a `tmpVar` allocated too small, are `ub` as well. -/
noncomputable def postureLevel (st : St n) (lv : Level n) (err : Fin lv.m → ℝ) : Outcome (St n) :=
  match st.kernel with
  | none => .ub
  | some ⟨c, K⟩ =>
    if h : lv.m = n - 6 then
      if (lv.mem.getD (lv.m, n)).2 < c ∨ n < 6 then .ub
      else
        let err' : Fin (n - 6) → ℝ := fun i => err (Fin.cast h.symm i)
        let e := if st.controlIsZero then err' else err' - tail6 st.control
        let y : Fin c → ℝ := fun j => ∑ i : Fin (n - 6), K ⟨i.val + 6, by omega⟩ j * e i
        .ok { st with control := st.control + K *ᵥ y, controlIsZero := false,
                      iterTask := st.iterTask + 1 }
    else .ub

/-- The loop body (src/sot/sot.cpp:523-628). -/
noncomputable def levelStep (svd : ∀ {m c : ℕ} (A : Matrix (Fin m) (Fin c) ℝ), Svd A)
    (th maxSq : ℝ) (accel : Bool) (last : Bool) (st : St n) (lv : Level n) : Outcome (St n) :=
  (taskVector lv).bind fun err =>
    if last && accel && lv.fullPosture then postureLevel st lv err
    else generalLevel svd th maxSq last st lv err

/-- The loop over the stack (src/sot/sot.cpp:523-637), with its final
`if (last || kernel.cols() == 0) break`. -/
noncomputable def loop (svd : ∀ {m c : ℕ} (A : Matrix (Fin m) (Fin c) ℝ), Svd A)
    (th maxSq : ℝ) (accel : Bool) : List (Level n) → St n → Outcome (St n)
  | [], st => .ok st
  | lv :: rest, st =>
    (levelStep svd th maxSq accel rest.isEmpty st lv).bind fun st' =>
      if rest.isEmpty || cols st'.kernel == 0 then .ok st' else loop svd th maxSq accel rest st'

/-- A vector, or a matrix, of dynamic size, as read from a plugged signal. -/
structure DynVec where
  size : ℕ
  v : Fin size → ℝ

structure DynMat where
  rows : ℕ
  cols : ℕ
  M : Matrix (Fin rows) (Fin cols) ℝ

/-- The initial kernel (src/sot/sot.cpp:509-522): `proj0` when plugged with the right number of rows,
ignored (with an error message) otherwise. -/
def initKernel (n : ℕ) (proj0 : Option DynMat) : Option (Kernel n) :=
  match proj0 with
  | none => none
  | some P => if h : P.rows = n then some ⟨P.cols, P.M.submatrix (Fin.cast h.symm) id⟩ else none

/-- `Sot::computeControlLaw` (src/sot/sot.cpp:469-643): the control and the levels reported as
disabled. -/
noncomputable def computeControlLaw (svd : ∀ {m c : ℕ} (A : Matrix (Fin m) (Fin c) ℝ), Svd A)
    (n : ℕ) (th maxSq : ℝ) (accel : Bool) (q0 : Option DynVec) (proj0 : Option DynMat)
    (stack : List (Level n)) : Outcome ((Fin n → ℝ) × List ℕ) :=
  let out := fun (st : St n) => (st.control, st.disabled)
  match q0 with
  | some q =>
    if h : q.size = n then
      (loop svd th maxSq accel stack
        ⟨fun i => q.v (Fin.cast h.symm i), false, initKernel n proj0, 0, []⟩).map out
    else .throw
  | none =>
    if stack.isEmpty then .throw
    else (loop svd th maxSq accel stack ⟨0, true, initKernel n proj0, 0, []⟩).map out

end Verif.Sot
