import Verif.Causal.Model
import Mathlib.Algebra.Module.Pi

/-!
# The entity `FilterDifferentiator`

Simplifications: doubles are the elements of a field. A signal with a cache is computed again exactly when it is asked for a later time than
its last computation; this is the behaviour of dynamic-graph, which is not part of the repository, for an input that changes at each
time. The value of the input is an argument of each reading. The filters that `init` loses are not kept (they are never freed).
-/

namespace Verif.Differentiator

open Verif.Causal

variable {F : Type} [Field F]

/-- The members `m_x_size` and `m_filter` (include/sot/core/filter-differentiator.hh:86-90). -/
structure Body (F : Type) where
  size : Nat
  filter : Filter F (Fin size → F)

/-- The outputs `x_filtered`, `dx` and `ddx` (include/sot/core/filter-differentiator.hh:66-68). -/
inductive Output where
  | x
  | dx
  | ddx
  deriving DecidableEq

/-- The entity: the members, indeterminate before `init`, and the caches of the inner signal and of the outputs: time and value. -/
structure State (F : Type) where
  body : Option (Body F)
  inner : Option (Int × List F)
  outs : Output → Option (Int × List F)

/-- After construction (src/filters/filter-differentiator.cpp:58-87): the members are not initialised. -/
def State.new : State F := ⟨none, none, fun _ => none⟩

/-- `init` (src/filters/filter-differentiator.cpp:92-104). The constructor of the filter asserts that the time step is positive, and Eigen
that the sizes of the buffers are not negative. -/
def init [LT F] [DecidableLT F] (s : State F) (dt : F) (size : Int) (num den : List F) : Outcome (State F) :=
  if 0 < dt ∧ 0 ≤ size ∧ den ≠ [] then .ok { s with body := some ⟨size.toNat, Causal.init _ dt num den⟩ } else .ub

/-- `switch_filter` (src/filters/filter-differentiator.cpp:106-114). -/
def switchFilter (s : State F) (num den : List F) : Outcome (State F) :=
  match s.body with
  | none => .ub
  | some b => (Causal.switchFilter b.filter num den).map fun f => { s with body := some ⟨b.size, f⟩ }

/-- The computation of the inner signal (src/filters/filter-differentiator.cpp:120-128). -/
def computeInner (s : State F) (t : Int) (x : List F) : Outcome (List F × State F) :=
  match s.body with
  | none => .ub
  | some b =>
    if h : x.length = b.size then
      (sample b.filter fun i => x[i.1]).map fun r =>
        let v := List.ofFn r.1.x ++ List.ofFn r.1.dx ++ List.ofFn r.1.ddx
        (v, { s with body := some ⟨b.size, r.2⟩, inner := some (t, v) })
    else .ub

/-- Reading the inner signal. -/
def readInner (s : State F) (t : Int) (x : List F) : Outcome (List F × State F) :=
  match s.inner with
  | none => computeInner s t x
  | some (t', v) => if t' < t then computeInner s t x else .ok (v, s)

/-- The part of the inner vector that an output copies: `head`, `segment` and `tail` with the size `n`
(src/filters/filter-differentiator.cpp:136-161). -/
def part (o : Output) (n : Nat) (v : List F) : Outcome (List F) :=
  match o with
  | .x => if n ≤ v.length then .ok (v.take n) else .ub
  | .dx => if 2 * n ≤ v.length then .ok ((v.drop n).take n) else .ub
  | .ddx => if n ≤ v.length then .ok (v.drop (v.length - n)) else .ub

/-- The computation of an output (src/filters/filter-differentiator.cpp:136-161). -/
def computeOut (s : State F) (o : Output) (t : Int) (x : List F) : Outcome (List F × State F) :=
  (readInner s t x).bind fun r =>
    match r.2.body with
    | none => .ub
    | some b => (part o b.size r.1).map fun v => (v, { r.2 with outs := fun o' => if o' = o then some (t, v) else r.2.outs o' })

/-- Reading an output at a time at which the input is `x`. -/
def readOut (s : State F) (o : Output) (t : Int) (x : List F) : Outcome (List F × State F) :=
  match s.outs o with
  | none => computeOut s o t x
  | some (t', v) => if t' < t then computeOut s o t x else .ok (v, s)

/-- Reading outputs one after the other at one time. -/
def readAll (s : State F) (t : Int) (x : List F) : List Output → Outcome (List (List F) × State F)
  | [] => .ok ([], s)
  | o :: os => (readOut s o t x).bind fun r => (readAll r.2 t x os).map fun q => (r.1 :: q.1, q.2)

/-- A history: the times, the input at each, and the outputs that are read. -/
def history (s : State F) : List (Int × List F × List Output) → Outcome (List (List (List F)) × State F)
  | [] => .ok ([], s)
  | (t, x, os) :: h => (readAll s t x os).bind fun r => (history r.2 h).map fun q => (r.1 :: q.1, q.2)

end Verif.Differentiator
