import Verif.Common.Outcome
import Mathlib.Order.Basic
import Mathlib.Order.Defs.LinearOrder

/-!
# Model of `PeriodicCall` (src/tools/periodic-call.cpp, include/sot/core/periodic-call.hh)

`std::map` is a list sorted by key. Keys are of any linearly ordered type `K`, signals of any type `S`.
Recomputing a signal may throw: this is a parameter `throws`. The forms that take a signal path look the
signal up in the pool and call the forms modelled here.
-/

namespace Verif.Periodic

variable {K S : Type} [LinearOrder K]

/-- `SignalMapType` (include/sot/core/periodic-call.hh:39-55): name, signal, downsampling factor. -/
abbrev Calls (K S : Type) := List (K × S × Nat)

/-- `signalMap[name] = SignalToCall(&sig, df)` on an ordered map. -/
def put (name : K) (x : S × Nat) : Calls K S → Calls K S
  | [] => [(name, x)]
  | (k, y) :: m =>
    if name < k then (name, x) :: (k, y) :: m
    else if name = k then (name, x) :: m
    else (k, y) :: put name x m

/-- `PeriodicCall::addDownsampledSignal` (src/tools/periodic-call.cpp:50-55). -/
def addDownsampledSignal (m : Calls K S) (name : K) (sig : S) (df : Nat) : Calls K S :=
  put name (sig, df) m

/-- `PeriodicCall::addSignal` (src/tools/periodic-call.cpp:37-40): factor 1. -/
def addSignal (m : Calls K S) (name : K) (sig : S) : Calls K S := put name (sig, 1) m

/-- `PeriodicCall::rmSignal` (src/tools/periodic-call.cpp:66-69). -/
def rmSignal (m : Calls K S) (name : K) : Calls K S := m.filter fun p => p.1 ≠ name

/-- `t % downsamplingFactor` (src/tools/periodic-call.cpp:77): `t` is converted to `unsigned int`;
`none` when the factor is 0 (division by zero). -/
def remainder (t : Int) (df : Nat) : Option Nat :=
  if df = 0 then none else some ((t % 4294967296).toNat % df)

/-- `PeriodicCall::runSignals` (src/tools/periodic-call.cpp:74-81): the calls done, in order, and how
the loop ended. -/
def runSignals (throws : S → Bool) (t : Int) : Calls K S → List (K × S) × Outcome Unit
  | [] => ([], .ok ())
  | (k, s, df) :: m =>
    match remainder t df with
    | none => ([], .ub)
    | some 0 =>
      if throws s then ([(k, s)], .throw)
      else
        let r := runSignals throws t m
        ((k, s) :: r.1, r.2)
    | some _ => runSignals throws t m

/-- The commands on the set of calls. -/
inductive Op (K S : Type) where
  | addDownsampled (name : K) (sig : S) (df : Nat)
  | add (name : K) (sig : S)
  | rm (name : K)
  | clear

/-- One command (`clear`: include/sot/core/periodic-call.hh:78). -/
def step (m : Calls K S) : Op K S → Calls K S
  | .addDownsampled n s df => addDownsampledSignal m n s df
  | .add n s => addSignal m n s
  | .rm n => rmSignal m n
  | .clear => []

/-- A history of commands from a new object (src/tools/periodic-call.cpp:32). -/
def run (ops : List (Op K S)) : Calls K S := ops.foldl step []

end Verif.Periodic
