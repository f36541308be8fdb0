import Verif.Common.Outcome
import Verif.Common.Tab
import Verif.Flags.Model

/-!
# Model of the trace reader (`sotReader`, src/traces/reader.cpp)

The conversion of the text of one line to numbers (`iss >> x` until it fails) is a parameter `parse`; numbers are of any
type. Reading a file never fails half-way in the model (no I/O errors).
-/

namespace Verif.Reader

variable {F : Type}

/-- Members of `sotReader` (include/sot/core/reader.hh:75-81). `cur` is the list iterator `currentData`: `some i` when it
designates the row of rank `i`, `none` when it equals `end()`. In a `std::list` this stays right when rows are appended. -/
structure State (F : Type) where
  dataSet : List (List F)
  cur : Option Nat
  iteratorSet : Bool
  rows : Int
  cols : Int
  deriving DecidableEq, Repr

/-- Constructor (src/traces/reader.cpp:33-50). -/
def State.new : State F := ⟨[], none, false, 0, 0⟩

/-- Size of the line buffer, without its terminating zero (src/traces/reader.cpp:60-61). -/
def lineMax : Nat := 1023

/-- The loop of `load` (src/traces/reader.cpp:63-81) on the text not read yet: the rows pushed. `getline` stops at the
end of line, at the end of the file, or when the buffer is full; in the last case the stream fails and the loop ends.
Lines without a number push nothing. -/
def loadLoop (parse : List Char → List F) (text : List Char) : List (List F) :=
  let line := text.takeWhile (· ≠ '\n')
  let row := parse (line.take lineMax)
  let pushed := if row.length > 0 then [row] else []
  if line.length > lineMax then pushed
  else
    match h : text.dropWhile (· ≠ '\n') with
    | [] => pushed
    | _ :: rest =>
      have : rest.length < text.length := by
        have h1 := congrArg List.length h
        have h2 : (text.dropWhile (· ≠ '\n')).length ≤ text.length := (List.dropWhile_sublist _).length_le
        simp only [List.length_cons] at h1
        omega
      pushed ++ loadLoop parse rest
termination_by text.length

/-- `load` (src/traces/reader.cpp:56-84); `none` is a file that cannot be opened: nothing happens. -/
def load (parse : List Char → List F) (s : State F) : Option (List Char) → State F
  | none => s
  | some text => { s with dataSet := s.dataSet ++ loadLoop parse text }

/-- `clear` (src/traces/reader.cpp:86-93). The iterator is not used again before it is set. -/
def clear (s : State F) : State F := { s with dataSet := [], iteratorSet := false }

/-- `rewind` (src/traces/reader.cpp:95-99). -/
def rewind (s : State F) : State F := { s with iteratorSet := false }

/-- `resize` (src/traces/reader.cpp:175-178). -/
def resize (s : State F) (r c : Int) : State F := { s with rows := r, cols := c }

/-- `dataSet.begin()`: equal to `end()` for an empty list. -/
def begin (d : List (List F)) : Option Nat := if d.length = 0 then none else some 0

/-- `++currentData` on an iterator that is not `end()`. -/
def next (d : List (List F)) (i : Nat) : Option Nat := if i + 1 < d.length then some (i + 1) else none

/-- The two loops over the row (src/traces/reader.cpp:121-128): the first counts the selected entries to size the result,
the second copies them; they are one here. `i` is the index of the first entry left. -/
def selectLoop (sel : Flags.Flags) : Nat → List F → Outcome (List F)
  | _, [] => .ok []
  | i, x :: xs =>
    (Flags.call sel i).bind fun b =>
      (selectLoop sel (i + 1) xs).map fun r => if b then x :: r else r

/-- `getNextData` (src/traces/reader.cpp:101-132): `res` is the content of the result buffer before the call, and the
result its content after. -/
def getNextData (s : State F) (sel : Flags.Flags) (res : List F) : Outcome (List F × State F) :=
  let s' : State F :=
    if ¬ s.iteratorSet then { s with cur := begin s.dataSet, iteratorSet := true }
    else match s.cur with
      | none => s
      | some i => { s with cur := next s.dataSet i }
  match s'.cur with
  | none => .ok (res, s')
  | some i => (rd s'.dataSet i).bind fun row => (selectLoop sel 0 row).map fun r => (r, s')

/-- `getNextMatrix` (src/traces/reader.cpp:134-146) for the value `vect` of the vector signal. A resize to a negative
dimension is undefined behaviour (an assertion in Eigen). The product `rows * cols` is taken without overflow. -/
def getNextMatrix (s : State F) (vect : List F) (res : List (List F)) : Outcome (List (List F)) :=
  if (vect.length : Int) < s.rows * s.cols then .ok res
  else if s.rows < 0 ∨ s.cols < 0 then .ub
  else
    tab s.rows.toNat fun i => tab s.cols.toNat fun j => rd vect (i * s.cols.toNat + j)

/-- What can happen to a reader: the commands and the evaluation of the vector signal with a selection. -/
inductive Op where
  | load (file : Option (List Char))
  | clear
  | rewind
  | resize (r c : Int)
  | read (sel : Flags.Flags)

/-- One operation, each evaluation being given the same result buffer (src/traces/reader.cpp:56-178): the state, the
buffer, and what the evaluation returned. -/
def step (parse : List Char → List F) (s : State F) (buf : List F) : Op → Outcome (State F × List F × List (List F))
  | .load f => .ok (load parse s f, buf, [])
  | .clear => .ok (clear s, buf, [])
  | .rewind => .ok (rewind s, buf, [])
  | .resize r c => .ok (resize s r c, buf, [])
  | .read sel => (getNextData s sel buf).map fun q => (q.2, q.1, [q.1])

/-- A history with one result buffer: what the evaluations returned, in order. -/
def run (parse : List Char → List F) : State F → List F → List Op → Outcome (List (List F))
  | _, _, [] => .ok []
  | s, buf, o :: os =>
    (step parse s buf o).bind fun r => (run parse r.1 r.2.1 os).map (r.2.2 ++ ·)

/-- A history as seen through a `dynamicgraph::Signal`, which hands its two buffers in turn to the function it evaluates:
the buffer of the next evaluation is `b`, the one after that `b'`. (dynamic-graph is not in /repo; this is its documented
double buffering.) -/
def runSignal (parse : List Char → List F) : State F → List F → List F → List Op → Outcome (List (List F))
  | _, _, _, [] => .ok []
  | s, b, b', .read sel :: os =>
    (getNextData s sel b).bind fun r => (runSignal parse r.2 b' r.1 os).map (r.1 :: ·)
  | s, b, b', o :: os =>
    (step parse s b o).bind fun r => (runSignal parse r.1 b b' os).map (r.2.2 ++ ·)

end Verif.Reader
