import Verif.Common.Outcome
import Verif.Flags.Model
import Verif.Periodic.Model

/-!
# Model of small entities and functions

The entity that recomputes signals when it is triggered (src/tools/periodic-call-entity.cpp), the `setflag`
function (src/factory/additional-functions.cpp), the constants (src/matrix/double-constant.cpp,
src/matrix/vector-constant.cpp, src/matrix/matrix-constant.cpp), the sign of an integer
(src/tools/binary-int-to-uint.cpp) and the Windows clock (src/tools/utils-windows.cpp).

The names and documentation strings of the signals and of the commands are not modelled. `PeriodicCall` is
inherited as `protected` by the entity and no command adds a signal to it: the set of signals is filled by a
derived class; the model starts from any set.
-/

namespace Verif.Small

open Verif

/-! ### The entity that recomputes signals -/

section Trigger
variable {K S : Type} [LinearOrder K]

/-- The two signals of the entity (include/sot/core/periodic-call-entity.hh:63-64). They are plain signals
with a function, called at each reading. -/
inductive Trigger where
  | triger
  | trigerOnce
  deriving DecidableEq, Repr

/-- Reading one of the two signals at `t` (`trigerCall`, `trigerOnceCall`,
src/tools/periodic-call-entity.cpp:43-51, `PeriodicCall::run`, src/tools/periodic-call.cpp:83-86): the
signals recomputed in order, the set of signals after, and how the reading ended. -/
def read (throws : S → Bool) (m : Periodic.Calls K S) (g : Trigger) (t : Int) :
    List (K × S) × Periodic.Calls K S × Outcome Unit :=
  let r := Periodic.runSignals throws t m
  match g, r.2 with
  | .trigerOnce, .ok () => (r.1, [], .ok ())
  | _, o => (r.1, m, o)

/-- A sequence of readings, each at its own time; what each of them recomputes. The reader goes on after an
exception. `throws` may change with the reading. -/
def reads (m : Periodic.Calls K S) : List ((S → Bool) × Trigger × Int) → List (List (K × S))
  | [] => []
  | (th, g, t) :: l => let r := read th m g t; r.1 :: reads r.2.1 l

end Trigger

/-! ### `setflag` -/

/-- What the pool finds for the path given to `setflag` (src/factory/additional-functions.cpp:36-37):
nothing (an exception of the library), a signal of another type (a failed cast), or a signal of flags with
the flags it gives now, `none` when reading it throws. -/
inductive Target where
  | missing
  | otherType
  | flags (now : Option Flags.Flags)

/-- How `setflag` ends: the help is printed, the signal takes flags, the exception of the library goes
through, or a syntax error of the factory is thrown. -/
inductive SetFlag where
  | help
  | stored (f : Flags.Flags)
  | rethrown
  | syntaxError
  deriving DecidableEq

/-- The characters `std::ws` skips. -/
def isWs (c : Char) : Bool :=
  c == ' ' || c == '\t' || c == '\n' || c == '\r' || c == '\x0b' || c == '\x0c'

/-- `AdditionalFunctions::cmdFlagSet` (src/factory/additional-functions.cpp:27-56). `line` is the name of
the command, `text` is what follows the path of the signal. -/
def cmdFlagSet (line : String) (tgt : Target) (text : List Char) : SetFlag :=
  if line = "help" then .help
  else match tgt with
    | .missing => .rethrown
    | .otherType => .syntaxError
    | .flags now =>
      let fl := now.getD (Flags.ofBool false)
      let r := Flags.parse fl (text.dropWhile isWs)
      if r.2 then .syntaxError else .stored r.1

/-- The flags of the signal after `setflag` (src/factory/additional-functions.cpp:47): those stored, the
present ones when nothing is stored. -/
def flagsAfter (now : Flags.Flags) (r : SetFlag) : Flags.Flags :=
  match r with
  | .stored f => f
  | _ => now

/-! ### Constants -/

/-- The commands of the vector constant (src/matrix/vector-constant.cpp:42, 51-54). -/
inductive VecCmd (R : Type) where
  | resize (n : Nat)
  | set (v : List R)

/-- The output after one command: `Resize::doExecute` (src/matrix/vector-constant-command.h:34-43) and
`setValue` (src/matrix/vector-constant.cpp:57-59). -/
def vecStep {R : Type} (zero : R) (_out : Option (List R)) : VecCmd R → Option (List R)
  | .resize n => some (List.replicate n zero)
  | .set v => some v

/-- The output of the vector constant after commands; `none` before the first one, when the signal holds
what the library of signals puts in it (src/matrix/vector-constant.cpp:24-28). -/
def vecOut {R : Type} (zero : R) (l : List (VecCmd R)) : Option (List R) := l.foldl (vecStep zero) none

/-- A dense matrix with its sizes, stored by rows. -/
structure Dense (R : Type) where
  rows : Nat
  cols : Nat
  get : Nat → Nat → R

/-- The commands of the matrix constant (src/matrix/matrix-constant.cpp:44, 53-56). -/
inductive MatCmd (R : Type) where
  | resize (rows cols : Nat)
  | set (m : Dense R)

/-- The output after one command: `Resize::doExecute` (src/matrix/matrix-constant-command.h:36-46) and
`setValue` (src/matrix/matrix-constant.cpp:59-61). -/
def matStep {R : Type} (zero : R) (_out : Option (Dense R)) : MatCmd R → Option (Dense R)
  | .resize rows cols => some ⟨rows, cols, fun _ _ => zero⟩
  | .set m => some m

/-- The output of the matrix constant after commands (src/matrix/matrix-constant.cpp:25-30). -/
def matOut {R : Type} (zero : R) (l : List (MatCmd R)) : Option (Dense R) := l.foldl (matStep zero) none

/-- The output of the number constant after commands `set` (src/matrix/double-constant.cpp:38-40). -/
def doubleOut {R : Type} (l : List R) : Option R := l.foldl (fun _ x => some x) none

/-! ### The sign of an integer -/

/-- `BinaryIntToUint::computeOutput` (src/tools/binary-int-to-uint.cpp:42-54). -/
def binary (i : Int) : Nat := if i < 0 then 0 else 1

/-! ### The Windows clock -/

/-- Conversion to a signed type of 32 bits, which `long` is on Windows. -/
def toLong (n : Nat) : Int :=
  let r : Nat := n % 4294967296
  if r < 2147483648 then (r : Int) else (r : Int) - 4294967296

/-- `gettimeofday` (src/tools/utils-windows.cpp:19-48), first half: the time in hundreds of nanoseconds
since 1601, in two words of 32 bits, becomes seconds and microseconds since 1970; the arithmetic is on
unsigned numbers of 64 bits. -/
def timeOfDay (high low : Nat) : Int × Int :=
  let tmp := (high <<< 32 ||| low) / 10
  let tmp := (tmp + (18446744073709551616 - 11644473600000000)) % 18446744073709551616
  (toLong (tmp / 1000000), toLong (tmp % 1000000))

/-- `gettimeofday` (src/tools/utils-windows.cpp:38-45), second half: whether `_tzset` is called and the
number of calls already done after, `tzflag`; the offset in minutes is that of the library divided by 60
(the division truncates towards zero). -/
def zoneCall (tzflag : Nat) (timezone : Int) : Bool × Nat × Int :=
  if tzflag = 0 then (true, tzflag + 1, timezone.tdiv 60) else (false, tzflag, timezone.tdiv 60)

end Verif.Small
