import Mathlib.Algebra.Field.Basic
import Mathlib.Data.Int.Order.Basic
import Verif.Common.Outcome

/-!
# The history of an execution (src/dynamic_graph/sot/core/utils/history.py)

Simplifications: times and the period of the records are integers, the quotient of two integers is exact before it is truncated, floats are
elements of a field and are written exactly. A Python exception is `throw`.
-/

namespace Verif.History

/-- What `record` reads of the robot: the time and the value of its position, and its velocity
(src/dynamic_graph/sot/core/utils/history.py:21-24). -/
structure Sample (α : Type) where
  time : Int
  position : α
  velocity : α
  deriving DecidableEq

/-- The lists `q` and `qdot` (src/dynamic_graph/sot/core/utils/history.py:10-11). -/
structure H (α : Type) where
  q : List α
  qdot : List α
  deriving DecidableEq

/-- `History.record` (src/dynamic_graph/sot/core/utils/history.py:20-24), without the zero moment point: with a null period the remainder is an
exception. -/
def record {α : Type} (freq : Int) (h : H α) (x : Sample α) : Outcome (H α) :=
  if freq = 0 then .throw
  else if Int.fmod x.time freq = 0 then .ok ⟨h.q ++ [x.position], h.qdot ++ [x.velocity]⟩
  else .ok h

/-- The records of an execution (src/dynamic_graph/sot/core/utils/history.py:20-24). -/
def records {α : Type} (freq : Int) : List (Sample α) → H α → Outcome (H α)
  | [], h => .ok h
  | x :: xs, h => (record freq h x).bind (records freq xs)

/-- `l[i]` in Python: a negative index counts from the end (src/dynamic_graph/sot/core/utils/history.py:32-33). -/
def pyIndex {α : Type} (l : List α) (i : Int) : Outcome α :=
  if 0 ≤ i then (match l[i.toNat]? with | some a => .ok a | none => .throw)
  else if 0 ≤ i + l.length then (match l[(i + l.length).toNat]? with | some a => .ok a | none => .throw)
  else .throw

/-- `History.restore` (src/dynamic_graph/sot/core/utils/history.py:30-37): the position, the velocity and the time `T0` that are printed. -/
def restore {α : Type} (freq : Int) (h : H α) (t : Int) : Outcome (α × α × Int) :=
  if freq = 0 then .throw
  else
    let t := Int.tdiv t freq
    (pyIndex h.q t).bind fun q => (pyIndex h.qdot t).bind fun v => .ok (q, v, t)

/-- A line of the file of positions: the time, the thirty joints and ten zeros (src/dynamic_graph/sot/core/utils/history.py:71-74). -/
def posLine {F : Type} [Field F] (n : Nat) (q : List F) : Outcome (List F) :=
  if q.length < 36 then .throw
  else .ok ([(5 / 1000) * (n : F)] ++ (List.range' 6 30).map (fun j => q.getD j 0) ++ List.replicate 10 0)

/-- A line of the file of the hips: the time and the three angles (src/dynamic_graph/sot/core/utils/history.py:45-54). -/
def hipLine {F : Type} [Field F] (n : Nat) (q : List F) : Outcome (List F) :=
  if q.length < 6 then .throw else .ok [(5 / 1000) * (n : F), q.getD 3 0, q.getD 4 0, q.getD 5 0]

/-- A line of the file of the waist: the time and the six coordinates (src/dynamic_graph/sot/core/utils/history.py:55-70). -/
def waistLine {F : Type} [Field F] (n : Nat) (q : List F) : Outcome (List F) :=
  if q.length < 6 then .throw
  else .ok [(5 / 1000) * (n : F), q.getD 0 0, q.getD 1 0, q.getD 2 0, q.getD 3 0, q.getD 4 0, q.getD 5 0]

/-- The loop of `dumpToOpenHRP` (src/dynamic_graph/sot/core/utils/history.py:44-74): the lines of the three files. -/
def dumpLoop {F : Type} [Field F] : Nat → List (List F) → Outcome (List (List F) × List (List F) × List (List F))
  | _, [] => .ok ([], [], [])
  | n, q :: qs =>
    (hipLine n q).bind fun h => (waistLine n q).bind fun w => (posLine n q).bind fun p =>
      (dumpLoop (n + 1) qs).bind fun r => .ok (p :: r.1, h :: r.2.1, w :: r.2.2)

/-- `History.dumpToOpenHRP` (src/dynamic_graph/sot/core/utils/history.py:39-94), without the zero moment point: the files of positions, of the
hips and of the waist, and the first posture in degrees. The argument `sample` is not used. -/
def dump {F : Type} [Field F] (pi : F) (h : H (List F)) (_sample : Nat) : Outcome (List (List F) × List (List F) × List (List F) × List F) :=
  (dumpLoop 0 h.q).bind fun r =>
    match h.q with
    | [] => .throw
    | q :: _ => .ok (r.1, r.2.1, r.2.2, ((q.drop 6).take 30).map fun x => x * 180 / pi)

end Verif.History
