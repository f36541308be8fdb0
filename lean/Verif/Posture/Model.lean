import Verif.MetaTask.Model

/-!
# The posture task of the Python library (src/dynamic_graph/sot/core/meta_task_posture.py)

Simplifications: floats are reals. A Python exception is a result flag, since what was changed before it stays changed. The desired position is
nothing, a tuple, or a column (an array of one column, which `gotoq` modifies in place); the values of a limb are an empty list, a number or a
sequence of numbers. An assignment of `numpy` checks the indices and the sizes before it writes.
-/

namespace Verif.Posture

open Verif.MetaTask

/-- `postureRange` (src/dynamic_graph/sot/core/meta_task_posture.py:13-34). -/
def postureRange : List (String × List Nat) :=
  [("rleg", List.range' 6 6), ("rhip", List.range' 6 3), ("rknee", [9]), ("rankle", List.range' 10 2),
   ("lleg", List.range' 12 6), ("lhip", List.range' 12 3), ("lknee", [15]), ("lankle", List.range' 16 2),
   ("chest", List.range' 18 2), ("head", List.range' 20 2),
   ("rarm", List.range' 22 6), ("rshoulder", List.range' 22 3), ("relbow", [25]), ("rwrist", List.range' 26 2), ("rhand", [28]),
   ("larm", List.range' 29 6), ("lshoulder", List.range' 29 3), ("lelbow", [32]), ("lwrist", List.range' 33 2), ("lhand", [35])]

/-- `self.postureRange[limbName]` (src/dynamic_graph/sot/core/meta_task_posture.py:75). -/
def limbRange (name : String) : Option (List Nat) := postureRange.lookup name

/-- The values given for a limb (src/dynamic_graph/sot/core/meta_task_posture.py:78-82). -/
inductive Vals where
  | nothing
  | number (x : ℝ)
  | sequence (l : List ℝ)

/-- The values after broadcasting to `n` elements (src/dynamic_graph/sot/core/meta_task_posture.py:82). -/
def Vals.broadcast (n : Nat) : Vals → Option (List ℝ)
  | .nothing => none
  | .number x => some (List.replicate n x)
  | .sequence l => if l.length = n then some l else if l.length = 1 then some (List.replicate n (l.getD 0 0)) else none

/-- `qdes[limbRange, 0] = v` (src/dynamic_graph/sot/core/meta_task_posture.py:80, 82), `none` for an exception. -/
def assign (q : List ℝ) (r : List Nat) (v : Vals) : Option (List ℝ) :=
  if r.all (· < q.length) then (v.broadcast r.length).map fun l => (r.zip l).foldl (fun q p => q.set p.1 p.2) q else none

/-- `act[i] = True` for the joints of the limb (src/dynamic_graph/sot/core/meta_task_posture.py:76-77). -/
def activate (act : List Bool) (r : List Nat) : List Bool := r.foldl (fun a i => a.set i true) act

/-- The loop on the limbs (src/dynamic_graph/sot/core/meta_task_posture.py:74-82). -/
def limbs : List (String × Vals) → List Bool → List ℝ → List Bool × List ℝ × Bool
  | [], act, q => (act, q, true)
  | (name, v) :: rest, act, q =>
    match limbRange name with
    | none => (act, q, false)
    | some r =>
      if r.all (· < act.length) then
        match v with
        | .nothing => limbs rest (activate act r) q
        | v =>
          match assign q r v with
          | some q => limbs rest (activate act r) q
          | none => (act, q, false)
      else (act, q, false)

/-- What `gotoq` reads and writes: `nbDof` is a variable of the class, the others belong to the task
(src/dynamic_graph/sot/core/meta_task_posture.py:35, 59, 85-86). -/
structure S where
  nbDof : Option Nat
  ref : Option (List ℝ)
  selec : Flags.Flags
  gain : Gain.Adaptive

/-- The argument `qdes` (src/dynamic_graph/sot/core/meta_task_posture.py:63-69). -/
inductive Des where
  | nothing
  | tuple (l : List ℝ)
  | column (l : List ℝ)

/-- Lines 71 to 86 of `gotoq` (src/dynamic_graph/sot/core/meta_task_posture.py:71-86), with the array that was modified. -/
noncomputable def gotoq' (s : S) (g : GainArg) (q : List ℝ) (kw : List (String × Vals)) : S × List ℝ × Bool :=
  match s.nbDof with
  | none => (s, q, false)
  | some n =>
    match limbs kw (List.replicate n false) q with
    | (_, q, false) => (s, q, false)
    | (act, q, true) =>
      let s := { s with ref := some q, selec := if 0 < act.length then Flags.ofVector act else s.selec }
      match setGain s.gain g with
      | .ok g => ({ s with gain := g }, q, true)
      | _ => (s, q, false)

/-- `MetaTaskPosture.gotoq` (src/dynamic_graph/sot/core/meta_task_posture.py:61-86), of a task whose feature has an error of size `dim`. The
second result is the column of the caller after the call, the third tells whether the call returned. -/
noncomputable def gotoq (dim : Nat) (s : S) (g : GainArg) (d : Des) (kw : List (String × Vals)) : S × Option (List ℝ) × Bool :=
  match d with
  | .nothing =>
    let n := s.nbDof.getD dim
    let r := gotoq' { s with nbDof := some n } g (List.replicate n 0) kw
    (r.1, none, r.2.2)
  | .tuple l =>
    let r := gotoq' s g l kw
    (r.1, none, r.2.2)
  | .column l =>
    let r := gotoq' s g l kw
    (r.1, some r.2.1, r.2.2)

end Verif.Posture
