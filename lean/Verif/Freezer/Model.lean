/-!
# Model of the CoM freezer

`CoMFreezer` (src/tools/com-freezer.cpp). The CoM is a value of any type: it is only copied. Times are
integers without overflow.
-/

namespace Verif.Freezer

/-- The members (include/sot/core/com-freezer.hh, initialised in src/tools/com-freezer.cpp:22-24). -/
structure State (V : Type) where
  lastCoM : V
  previousPG : Bool
  lastStop : Int

/-- The constructor; `v0` stands for the uninitialised content of the vector of size 3
(src/tools/com-freezer.cpp:22-24). -/
def State.fresh {V : Type} (v0 : V) : State V := ⟨v0, false, -1⟩

/-- What one evaluation reads: the time, the flag of the pattern generator (an unsigned int) and the
reference CoM. -/
structure Ev (V : Type) where
  time : Int
  pg : Nat
  com : V

/-- The first part of `computeFreezedCoM`, up to the first assignment of the output
(src/tools/com-freezer.cpp:50-65). -/
def update {V : Type} (s : State V) (e : Ev V) : State V :=
  if e.pg ≠ 0 then
    { s with lastCoM := e.com, previousPG := e.pg == 0 }
  else if s.previousPG then
    { lastStop := e.time, lastCoM := e.com, previousPG := e.pg == 0 }
  else if e.time < s.lastStop + 200 then
    { s with lastCoM := e.com }
  else s

/-- `computeFreezedCoM` (src/tools/com-freezer.cpp:46-79). Both exits give the member `m_lastCoM`. -/
def compute {V : Type} (s : State V) (e : Ev V) : State V × V :=
  let s1 := update s e
  let s2 := if s1.lastStop < 0 then { s1 with lastCoM := e.com, lastStop := e.time } else s1
  (s2, s2.lastCoM)

/-- The outputs of a sequence of evaluations. -/
def run {V : Type} (s : State V) : List (Ev V) → State V × List V
  | [] => (s, [])
  | e :: es =>
    let r := compute s e
    let q := run r.1 es
    (q.1, r.2 :: q.2)

end Verif.Freezer
