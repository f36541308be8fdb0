import Mathlib.Algebra.Order.Field.Basic
import Mathlib.Data.Rat.Cast.Order

/-!
# Time stamps and timers: `TimeStamp`, `Timer`, `cmdChrono`

Simplifications: doubles are numbers with the operations that the code does (integers become doubles by a cast, exact or not). What the clocks of the system read is an argument. A signal with a cache
(`SignalTimeDependent`) without dependency is computed again exactly when it is asked for a later time than the last computation, as the
header says (include/sot/core/time-stamp.hh:77-80); this is the behaviour of dynamic-graph, which is not part of the repository.
-/

namespace Verif.Timing

variable {K : Type} [Zero K] [OfNat K 1000] [NatCast K] [IntCast K] [Add K] [Sub K] [Mul K] [Div K]

/-- `struct timeval`: seconds and microseconds. -/
structure Timeval where
  sec : Int
  usec : Int
  deriving DecidableEq

/-- `TimeStamp::getTimeStamp` (src/tools/time-stamp.cpp:70-80): the two components of the vector. -/
def stamp (c : Timeval) : K × K := (c.sec, c.usec)

/-- `TimeStamp::getTimeStampDouble` (src/tools/time-stamp.cpp:82-93), with the members `offsetValue` and `offsetSet`. -/
def stampDouble (offset : Option Nat) (v : K × K) : K :=
  (match offset with
    | some o => (v.1 - o) * 1000
    | none => v.1 * 1000) + v.2 / 1000

/-- The offset: not set by the constructor (src/tools/time-stamp.cpp:33-34), and by no other function. -/
def offset : Option Nat := none

/-- The signal `timeDouble`, which reads the signal `time`, hence the clock (src/tools/time-stamp.cpp:46-49). -/
def timeDouble (c : Timeval) : K := stampDouble offset (stamp c)

/-- The caches of the signals `synchro` and `synchroDouble`: the time of the last computation and its value
(src/tools/time-stamp.cpp:37-43). -/
structure Once (K : Type) where
  vec : Option (Int × (K × K))
  dbl : Option (Int × K)

/-- Nothing computed yet. -/
def Once.new : Once K := ⟨none, none⟩

/-- Reading a cache at a time. -/
def cached {V : Type} (cache : Option (Int × V)) (time : Int) (compute : V) : Int × V :=
  match cache with
  | some (t, v) => if t < time then (time, compute) else (t, v)
  | none => (time, compute)

/-- Reading the signal `synchro` when the clock gives `c`. -/
def synchro (s : Once K) (time : Int) (c : Timeval) : Once K × (K × K) :=
  let r := cached s.vec time (stamp c)
  (⟨some r, s.dbl⟩, r.2)

/-- Reading the signal `synchroDouble`: it is computed from the signal `time`, not from `synchro` (src/tools/time-stamp.cpp:40-43). -/
def synchroDouble (s : Once K) (time : Int) (c : Timeval) : Once K × K :=
  let r := cached s.dbl time (timeDouble c)
  (⟨s.vec, some r⟩, r.2)

/-- A use of the entity. -/
inductive Read where
  | vec (time : Int) (c : Timeval)
  | dbl (time : Int) (c : Timeval)

/-- One use. -/
def Once.step (s : Once K) : Read → Once K
  | .vec t c => (synchro s t c).1
  | .dbl t c => (synchroDouble s t c).1

/-! ### `Timer` -/

/-- What a computation of an output of the timer reads: the wall clock or the processor clock, before and after. -/
inductive Clock where
  | wall (t0 t1 : Timeval)
  | cpu (c0 c1 : Int)

/-- `CLOCKS_PER_SEC`, which POSIX fixes. -/
def clocksPerSec : Int := 1000000

/-- The duration that `compute` stores (include/sot/core/timer.hh:101-113). -/
def duration : Clock → K
  | .wall t0 t1 => ((t1.sec : K) - t0.sec) * 1000 + ((t1.usec : K) - t0.usec + 0) / 1000
  | .cpu c0 c1 => (((c1 - c0 : Int) : K) * 1000) / (clocksPerSec : K)

/-- The timer: the member `dt`, which `timerSOUT` gives (include/sot/core/timer.hh:115-125). -/
structure Timer (K : Type) where
  dt : K

/-- After construction (include/sot/core/timer.hh:139). -/
def Timer.new : Timer K := ⟨0⟩

/-- `Timer::compute` (include/sot/core/timer.hh:88-120): the input goes through. -/
def Timer.compute {T : Type} (_ : Timer K) (clk : Clock) (input : T) : Timer K × T := (⟨duration clk⟩, input)

/-- `cmdChrono` with another command than `help` (src/tools/timer.cpp:45-79): the duration that is written, and the state of the
program, on which the argument is not run (65-66). -/
def chrono {W : Type} (_ : String) (t0 t1 : Timeval) (w : W) : K × W := (duration (.wall t0 t1), w)

end Verif.Timing
