import Verif.Common.Outcome
import Mathlib.Algebra.Module.Defs
import Mathlib.Algebra.Field.Basic

/-!
# Model of `IntegratorAbstract` and `IntegratorEuler`
(include/sot/core/integrator-abstract.hh, include/sot/core/integrator-euler.hh)

Signals are in a vector space `V` over a field `F` (exact arithmetic, all the values of one size), coefficients of any type
`C` acting on signals (`double` or matrices); `isOne` is the test that a coefficient is the identity.
-/

namespace Verif.Euler

variable {F V C : Type} [Field F] [AddCommGroup V] [Module F V]

/-- Members (include/sot/core/integrator-abstract.hh:120-121, include/sot/core/integrator-euler.hh:97-103). -/
structure St (F V C : Type) where
  num : List C
  den : List C
  inMem : List V
  outMem : List V
  dt : F
  invdt : F

/-- `setSamplingPeriod` (include/sot/core/integrator-euler.hh:164-167). -/
def setSamplingPeriod (s : St F V C) (p : F) : St F V C := { s with dt := p, invdt := 1 / p }

/-- A new integrator (include/sot/core/integrator-euler.hh:64-75); `p0` is 0.005. -/
def init (p0 : F) : St F V C := ⟨[], [], [], [], p0, 1 / p0⟩

/-- The commands on coefficients (include/sot/core/integrator-abstract.hh:87-92). `pop_back` of an empty vector is undefined
behaviour. -/
def pushNum (s : St F V C) (c : C) : St F V C := { s with num := s.num ++ [c] }

/-- See `pushNum`. -/
def pushDen (s : St F V C) (c : C) : St F V C := { s with den := s.den ++ [c] }

/-- See `pushNum`. -/
def popNum (s : St F V C) : Outcome (St F V C) := if s.num = [] then .ub else .ok { s with num := s.num.dropLast }

/-- See `pushNum`. -/
def popDen (s : St F V C) : Outcome (St F V C) := if s.den = [] then .ub else .ok { s with den := s.den.dropLast }

/-- `initialize` (include/sot/core/integrator-euler.hh:171-197); `u` is the current value of the input. -/
def start (isOne : C → Bool) (s : St F V C) (u : V) : Outcome (St F V C) :=
  if s.num = [] then .throw
  else match s.den.getLast? with
    | none => .throw
    | some c =>
      if isOne c then
        .ok { s with
          inMem := List.replicate s.num.length u
          outMem := List.replicate s.den.length u }
      else .throw

/-- Step 2 of `integrate` (include/sot/core/integrator-euler.hh:121-128): `new` is the value just written at the previous
index, `old` what was there before (`tmp1`). Returns the rest of the memory and the sum. -/
def inputLoop (act : C → V → V) (invdt : F) : V → V → List V → List C → V → Outcome (List V × V)
  | _, _, mem, [], sum => .ok (mem, sum)
  | _, _, [], _ :: _, _ => .ub
  | new, old, m :: mem, c :: num, sum =>
    let x := invdt • (new - old)
    (inputLoop act invdt x m mem num (sum + act c x)).map fun r => (x :: r.1, r.2)

/-- Step 3 (include/sot/core/integrator-euler.hh:132-135): the last coefficient is not used. -/
def outputSum (act : C → V → V) : List C → List V → V → Outcome V
  | [], _, _ => .ub
  | [_], _, sum => .ok sum
  | _ :: _ :: _, [], _ => .ub
  | c :: c' :: den, o :: out, sum => outputSum act (c' :: den) out (sum - act c o)

/-- Step 4 (include/sot/core/integrator-euler.hh:140-143): `k` indices below the highest one. -/
def advance (dt : F) : Nat → List V → V → Outcome (List V)
  | _, [], _ => .ub
  | 0, _ :: rest, top => .ok (top :: rest)
  | k + 1, o :: rest, top =>
    (advance dt k rest top).bind fun r =>
      match r with
      | [] => .ub
      | n :: r => .ok ((o + dt • n) :: n :: r)

/-- `integrate` (include/sot/core/integrator-euler.hh:106-151): output and members. -/
def integrate (act : C → V → V) (s : St F V C) (u : V) : Outcome (V × St F V C) :=
  match s.inMem, s.num with
  | m0 :: mem, c0 :: num =>
    (inputLoop act s.invdt u m0 mem num (act c0 u)).bind fun r =>
    (outputSum act s.den s.outMem r.2).bind fun sum =>
    (advance s.dt (s.den.length - 1) s.outMem sum).bind fun out =>
    (rd out 0).map fun y => (y, { s with inMem := u :: r.1, outMem := out })
  | _, _ => .ub

/-- `derivative` (include/sot/core/integrator-euler.hh:153-162): recomputes the output (here with input `u`) and returns the
second memory. -/
def derivative (act : C → V → V) (s : St F V C) (u : V) : Outcome (V × St F V C) :=
  if s.outMem.length < 2 then .throw
  else (integrate act s u).bind fun r => (rd r.2.outMem 1).map fun d => (d, r.2)

/-- A history of inputs, with the outputs. -/
def run (act : C → V → V) : St F V C → List V → Outcome (List V × St F V C)
  | s, [] => .ok ([], s)
  | s, u :: us => (integrate act s u).bind fun r => (run act r.2 us).map fun q => (r.1 :: q.1, q.2)

/-- The commands, and the evaluation of the output. -/
inductive Op (F V C : Type) where
  | pushNum (c : C)
  | pushDen (c : C)
  | popNum
  | popDen
  | setSamplingPeriod (p : F)
  | start (u : V)
  | integrate (u : V)

/-- One operation. A command that throws changes nothing (the exception is reported to the user, who goes on). -/
def step (act : C → V → V) (isOne : C → Bool) (s : St F V C) : Op F V C → Outcome (St F V C)
  | .pushNum c => .ok (pushNum s c)
  | .pushDen c => .ok (pushDen s c)
  | .popNum => popNum s
  | .popDen => popDen s
  | .setSamplingPeriod p => .ok (setSamplingPeriod s p)
  | .start u => match start isOne s u with
    | .throw => .ok s
    | r => r
  | .integrate u => (integrate act s u).map (·.2)

/-- A history of operations. -/
def history (act : C → V → V) (isOne : C → Bool) : St F V C → List (Op F V C) → Outcome (St F V C)
  | s, [] => .ok s
  | s, o :: os => (step act isOne s o).bind fun s' => history act isOne s' os

end Verif.Euler
