import Verif.Common.Outcome
import Verif.MultiBound.Model
import Mathlib.Algebra.Ring.Defs

/-!
# Model of `Task` (src/task/task.cpp)

Numbers are elements of any ring. A signal read of a feature (its error, its error derivative, its
jacobian) is an argument. Output buffers keep their previous content, which is an argument as well.
Logging is omitted.
-/

namespace Verif.Task

open Verif.MultiBound

variable {R : Type}

/-! ## Error -/

/-- The allocated size after `while (need > dimError) dimError *= 2` (src/task/task.cpp:191-196). The size
is never zero when the loop is entered (src/task/task.cpp:172-176). -/
def growDim (need d : Nat) : Nat :=
  if h : d < need ∧ 0 < d then growDim need (2 * d) else d
termination_by need - d
decreasing_by omega

/-- The growing loop on the buffer (src/task/task.cpp:191-196): when the size changes, `resize` and
`setZero` leave a zero vector. -/
def growBuf [Zero R] (need : Nat) (buf : List R) : List R :=
  if buf.length < need then List.replicate (growDim need buf.length) 0 else buf

/-- `error(cursorError++) = partialError(k)` for each `k` (src/task/task.cpp:198-200). -/
def writeVec (buf : List R) (cursor : Nat) : List R → Outcome (List R)
  | [] => .ok buf
  | x :: xs => if cursor < buf.length then writeVec (buf.set cursor x) (cursor + 1) xs else .ub

/-- The loop over the features (src/task/task.cpp:182-203). -/
def errorLoop [Zero R] : List (List R) → List R → Nat → Outcome (List R × Nat)
  | [], buf, cursor => .ok (buf, cursor)
  | f :: fs, buf, cursor =>
    (writeVec (growBuf (cursor + f.length) buf) cursor f).bind fun buf' =>
      errorLoop fs buf' (cursor + f.length)

/-- `Task::computeError` (src/task/task.cpp:148-212). `prev` is the previous content of the output
buffer, `feats` the errors of the features in list order. -/
def computeError [Zero R] (prev : List R) (feats : List (List R)) : Outcome (List R) :=
  if feats.isEmpty then .throw
  else
    let buf := if prev.length = 0 then [0] else prev
    (errorLoop feats buf 0).map fun r => r.1.take r.2

/-! ## Time derivative of the error -/

/-- `res.segment(cursor, dim) = partialErrorDot` for each feature (src/task/task.cpp:219-227). Entries not
written keep an unspecified value (`none`). A segment out of range is undefined behaviour. -/
def dotLoop : List (List R) → List (Option R) → Nat → Outcome (List (Option R))
  | [], buf, _ => .ok buf
  | f :: fs, buf, cursor =>
    if cursor + f.length ≤ buf.length then
      dotLoop fs (buf.take cursor ++ f.map some ++ buf.drop (cursor + f.length)) (cursor + f.length)
    else .ub

/-- `Task::computeErrorTimeDerivative` (src/task/task.cpp:214-230). -/
def computeErrorTimeDerivative (errSize : Nat) (dots : List (List R)) : Outcome (List (Option R)) :=
  dotLoop dots (List.replicate errSize none) 0

/-! ## Task velocity -/

/-- Reading an entry that may be unspecified: only its existence matters, an unspecified value is
reported as undefined behaviour. -/
def rdInit (v : List (Option R)) (i : Nat) : Outcome R :=
  match v[i]? with
  | some (some x) => .ok x
  | _ => .ub

/-- The second loop of `computeTaskExponentialDecrease` (src/task/task.cpp:244-245). -/
def subtractLoop [Ring R] (de : List (Option R)) : List (MultiBound R) → Nat →
    Outcome (List (MultiBound R))
  | [], _ => .ok []
  | b :: bs, i =>
    (getSingleBound b).bind fun x => (rdInit de i).bind fun d =>
      (subtractLoop de bs (i + 1)).map fun r => ofSingle 0 (x - d) :: r

/-- `Task::computeTaskExponentialDecrease` (src/task/task.cpp:232-250). `err` is the error of the task,
`dots` the error derivatives of its features. -/
def computeTask [Ring R] (gain : R) (withDerivative : Bool) (err : List R) (dots : List (List R)) :
    Outcome (List (MultiBound R)) :=
  let ref := err.map fun e => ofSingle 0 (-e * gain)
  if withDerivative then
    (computeErrorTimeDerivative err.length dots).bind fun de => subtractLoop de ref 0
  else .ok ref

/-! ## Jacobian -/

/-- A dynamic matrix. `at_ i j = none` is an unspecified entry (allocated and not written). Entries
outside the dimensions are not looked at. -/
structure DMat (R : Type) where
  rows : Nat
  cols : Nat
  at_ : Nat → Nat → Option R

/-- `resize(r, c)`: the content is unspecified afterwards. -/
def resize (r c : Nat) : DMat R := ⟨r, c, fun _ _ => none⟩

/-- `conservativeResize(r, c)`: the common block is kept. -/
def conservativeResize (J : DMat R) (r c : Nat) : DMat R :=
  ⟨r, c, fun i j => if i < J.rows ∧ j < J.cols then J.at_ i j else none⟩

/-- `while (cursorJ + nbr >= dimJ) { dimJ *= 2; J.conservativeResize(dimJ, nbc); }`
(src/task/task.cpp:289-292). `dimJ` is never zero (src/task/task.cpp:262-265). -/
def growRows (need nbc dimJ : Nat) (J : DMat R) : DMat R × Nat :=
  if h : dimJ ≤ need ∧ 0 < dimJ then
    growRows need nbc (2 * dimJ) (conservativeResize J (2 * dimJ) nbc)
  else (J, dimJ)
termination_by need + 1 - dimJ
decreasing_by omega

/-- The copy loops (src/task/task.cpp:296-303): all the entries of the block are written; an entry outside
`J` is undefined behaviour. -/
def writeBlock (J : DMat R) (cursor nbr nbc : Nat) (pj : DMat R) : Outcome (DMat R) :=
  if nbr = 0 ∨ nbc = 0 ∨ (cursor + nbr ≤ J.rows ∧ nbc ≤ J.cols) then
    .ok { J with at_ := fun i j =>
      if cursor ≤ i ∧ i < cursor + nbr ∧ j < nbc then pj.at_ (i - cursor) j else J.at_ i j }
  else .ub

/-- The loop over the features (src/task/task.cpp:271-305), with the local variables `J`, `dimJ`, `nbc`,
`cursorJ`. Note the exchanged arguments of `J.resize(nbc, dimJ)`. -/
def jacLoop : List (DMat R) → DMat R → Nat → Nat → Nat → Outcome (DMat R × Nat × Nat)
  | [], J, _, nbc, cursor => .ok (J, nbc, cursor)
  | pj :: ps, J, dimJ, nbc, cursor =>
    if nbc = 0 then
      let nbc' := pj.cols
      let g := growRows (cursor + pj.rows) nbc' dimJ (resize nbc' dimJ)
      (writeBlock g.1 cursor pj.rows nbc' pj).bind fun J' =>
        jacLoop ps J' g.2 nbc' (cursor + pj.rows)
    else if pj.cols ≠ nbc then .throw
    else
      let g := growRows (cursor + pj.rows) nbc dimJ J
      (writeBlock g.1 cursor pj.rows nbc pj).bind fun J' =>
        jacLoop ps J' g.2 nbc (cursor + pj.rows)

/-- `Task::computeJacobian` (src/task/task.cpp:252-313). -/
def computeJacobian (prev : DMat R) (feats : List (DMat R)) : Outcome (DMat R) :=
  if feats.isEmpty then .throw
  else
    let J0 := if prev.rows = 0 then resize 1 prev.cols else prev
    (jacLoop feats J0 J0.rows prev.cols 0).map fun r => conservativeResize r.1 r.2.2 r.2.1

/-! ## Variants of the task velocity -/

/-- `TaskPD::computeErrorDot` (src/task/task-pd.cpp:52-68): returns the variation and the new
`previousError`. -/
def pdErrorDot [Ring R] (previousError errCur : List R) : List R × List R :=
  if previousError.length = errCur.length then
    (List.zipWith (· - ·) errCur previousError, errCur)
  else (List.replicate errCur.length 0, errCur)

/-- The loop of `TaskPD::computeTaskModif` (src/task/task-pd.cpp:79-81). -/
def pdLoop [Ring R] (beta : R) (errorDot : List R) : List (MultiBound R) → Nat →
    Outcome (List (MultiBound R))
  | [], _ => .ok []
  | b :: bs, i =>
    (getSingleBound b).bind fun x => (rd errorDot i).bind fun d =>
      (pdLoop beta errorDot bs (i + 1)).map fun r => ofSingle 0 (x - beta * d) :: r

/-- One evaluation of the PD task (src/task/task-pd.cpp:70-85) with its own variation plugged
(src/task/task-pd.cpp:45) and the derivative option off. Returns the task and the new
`previousError`. -/
def pdStep [Ring R] (beta gain : R) (previousError err : List R) :
    Outcome (List (MultiBound R) × List R) :=
  let d := pdErrorDot previousError err
  (computeTask gain false err []).bind fun t =>
    (pdLoop beta d.1 t 0).map fun r => (r, d.2)

/-- A history of evaluations of the PD task. Each evaluation has its `beta` (which a command can change,
src/task/task-pd.cpp:94-95), its gain (an input signal) and its error. The `previousError` of the
constructor is empty (src/task/task-pd.cpp:34). -/
def pdRun [Ring R] : List R → List (R × R × List R) → Outcome (List (List (MultiBound R)))
  | _, [] => .ok []
  | prev, (beta, gain, e) :: es =>
    (pdStep beta gain prev e).bind fun r => (pdRun r.2 es).map fun rs => r.1 :: rs

/-- `TaskUnilateral::computeTaskUnilateral` (src/task/task-unilateral.cpp:58-76). The division by a zero
`dt` gives an infinity or a NaN in the code; here the division of the field is used. -/
def unilateral {F : Type} [Zero F] [Sub F] [Div F] (refInf refSup : List F) (dt : F) :
    List F → Nat → Outcome (List (MultiBound F))
  | [], _ => .ok []
  | p :: ps, i =>
    (rd refInf i).bind fun a => (rd refSup i).bind fun b =>
      (unilateral refInf refSup dt ps (i + 1)).map fun r =>
        ofDouble 0 ((a - p) / dt) ((b - p) / dt) :: r

end Verif.Task
