import Verif.Common.Outcome

/-!
# Model of `MultiBound` and `VectorMultiBound`
(src/task/multi-bound.cpp, include/sot/core/multi-bound.hh)

The type `R` of the numbers is a parameter (the code uses `double`); the text form of a number is given
by a `NumText R`.
-/

namespace Verif.MultiBound

/-- `enum MultiBoundModeType` (include/sot/core/multi-bound.hh:37). -/
inductive Mode where
  | single
  | double
  deriving DecidableEq, Repr

/-- `enum SupInfType` (include/sot/core/multi-bound.hh:38). -/
inductive Side where
  | sup
  | inf
  deriving DecidableEq, Repr

/-- `class MultiBound` (include/sot/core/multi-bound.hh:35-44). -/
structure MultiBound (R : Type) where
  mode : Mode
  boundSingle : R
  boundSup : R
  boundInf : R
  boundSupSetup : Bool
  boundInfSetup : Bool
  deriving DecidableEq, Repr

variable {R : Type}

/-- `MultiBound::MultiBound(const double x)` (src/task/multi-bound.cpp:16-22). `zero` is `0.`. -/
def ofSingle (zero x : R) : MultiBound R := ⟨.single, x, zero, zero, false, false⟩

/-- `MultiBound::MultiBound(const double xi, const double xs)` (src/task/multi-bound.cpp:24-30). -/
def ofDouble (zero xi xs : R) : MultiBound R := ⟨.double, zero, xs, xi, true, true⟩

/-- `MultiBound::MultiBound(const double x, const SupInfType bound)`
(src/task/multi-bound.cpp:32-38). -/
def ofSide (zero x : R) (bound : Side) : MultiBound R :=
  ⟨.double, zero, if bound = .sup then x else zero, if bound = .inf then x else zero,
   bound = .sup, bound = .inf⟩

/-- `MultiBound::getMode` (src/task/multi-bound.cpp:48). -/
def getMode (m : MultiBound R) : Mode := m.mode

/-- `MultiBound::getSingleBound` (src/task/multi-bound.cpp:49-55). -/
def getSingleBound (m : MultiBound R) : Outcome R :=
  if m.mode ≠ .single then .throw else .ok m.boundSingle

/-- `MultiBound::getDoubleBound` (src/task/multi-bound.cpp:56-78). -/
def getDoubleBound (m : MultiBound R) (bound : Side) : Outcome R :=
  if m.mode ≠ .double then .throw
  else match bound with
    | .sup => if !m.boundSupSetup then .throw else .ok m.boundSup
    | .inf => if !m.boundInfSetup then .throw else .ok m.boundInf

/-- `MultiBound::getDoubleBoundSetup` (src/task/multi-bound.cpp:79-91). -/
def getDoubleBoundSetup (m : MultiBound R) (bound : Side) : Outcome Bool :=
  if m.mode ≠ .double then .throw
  else match bound with
    | .sup => .ok m.boundSupSetup
    | .inf => .ok m.boundInfSetup

/-- The mode switch at the head of `setDoubleBound` (src/task/multi-bound.cpp:93-97). -/
def toDouble (m : MultiBound R) : MultiBound R :=
  if m.mode ≠ .double then { m with mode := .double, boundSupSetup := false, boundInfSetup := false }
  else m

/-- `MultiBound::setDoubleBound` (src/task/multi-bound.cpp:92-108). -/
def setDoubleBound (m : MultiBound R) (boundType : Side) (v : R) : MultiBound R :=
  match boundType with
  | .inf => { toDouble m with boundInfSetup := true, boundInf := v }
  | .sup => { toDouble m with boundSupSetup := true, boundSup := v }

/-- `MultiBound::unsetDoubleBound` (src/task/multi-bound.cpp:109-124). -/
def unsetDoubleBound (m : MultiBound R) (boundType : Side) : MultiBound R :=
  if m.mode ≠ .double then { m with mode := .double, boundSupSetup := false, boundInfSetup := false }
  else match boundType with
    | .inf => { m with boundInfSetup := false }
    | .sup => { m with boundSupSetup := false }

/-- `MultiBound::setSingleBound` (src/task/multi-bound.cpp:125-128). -/
def setSingleBound (m : MultiBound R) (v : R) : MultiBound R :=
  { m with mode := .single, boundSingle := v }

/-- The mutating member functions (src/task/multi-bound.cpp:92-128). -/
inductive Op (R : Type) where
  | setSingle (v : R)
  | setDouble (s : Side) (v : R)
  | unsetDouble (s : Side)
  deriving DecidableEq, Repr

/-- One mutating call (src/task/multi-bound.cpp:92-128). -/
def step (m : MultiBound R) : Op R → MultiBound R
  | .setSingle v => setSingleBound m v
  | .setDouble s v => setDoubleBound m s v
  | .unsetDouble s => unsetDoubleBound m s

/-- A history of mutating calls. -/
def run (m : MultiBound R) (ops : List (Op R)) : MultiBound R := ops.foldl step m

/-! ### Text form -/

/-- How numbers are written to and read from a stream (`os << x`, `is >> val`), which the code takes
from the standard library. `scan s` is the number at the head of `s` and what is left, `none` when the
extraction fails. -/
structure NumText (R : Type) where
  show_ : R → List Char
  scan : List Char → Option (R × List Char)

/-- What the round trip needs from the standard library: a printed number followed by a separator (or
by the end of the text) is read back exactly; it is not empty, does not start with `(`, and does not
start with `--`. -/
structure NumText.Exact {R : Type} (T : NumText R) (x : R) : Prop where
  scan_show : ∀ rest : List Char, (rest = [] ∨ ∃ c r, rest = c :: r ∧ c ∈ [',', ')', ']']) →
    T.scan (T.show_ x ++ rest) = some (x, rest)
  ne_nil : T.show_ x ≠ []
  head_ne_paren : ∀ c r, T.show_ x = c :: r → c ≠ '('
  no_dashes : ∀ r, T.show_ x ≠ '-' :: '-' :: r
  no_lone_dash : T.show_ x ≠ ['-']
  no_newline : ∀ c ∈ T.show_ x, c ≠ '\n'

/-- `operator<<(std::ostream &, const MultiBound &)` (src/task/multi-bound.cpp:146-168). -/
def print (T : NumText R) (m : MultiBound R) : List Char :=
  match m.mode with
  | .single => T.show_ m.boundSingle
  | .double =>
    ['('] ++ (if m.boundInfSetup then T.show_ m.boundInf else ['-', '-']) ++ [','] ++
      (if m.boundSupSetup then T.show_ m.boundSup else ['-', '-']) ++ [')']

/-- An input stream: the characters left, or `none` once an extraction has failed. -/
abbrev Stream := Option (List Char)

/-- `is.get(c)`: the character read and the stream after, `none` when nothing can be read (`c` is then
left untouched by the library and the stream is in the failed state). -/
def getc : Stream → Option (Char × Stream)
  | some (c :: cs) => some (c, some cs)
  | _ => none

/-- One side of a double bound: `is.get(c2,3)`, comparison with `"--"`, and otherwise putting the two
characters back and reading a number (src/task/multi-bound.cpp:177-189 and 199-208). The result is
`some v` for a number, `none` for `--`. `val` is what the local variable `val` holds before, `none`
when nothing has been stored in it. When fewer than two characters can be taken (the end of the text or
of the line comes first), putting back fails on a stream opened for reading, the extraction does not
take place, and the code stores what `val` holds: undefined behaviour when that is nothing, the previous
number otherwise, with a failed stream. When the number cannot be read the library stores `0` and the
stream fails: `(some zero, none)`. -/
def parseSide (T : NumText R) (zero : R) (val : Option R) : Stream → Outcome (Option R × Stream)
  | some (c0 :: c1 :: cs) =>
    if c0 = '\n' ∨ c1 = '\n' then stale val
    else if c0 = '-' ∧ c1 = '-' then .ok (none, some cs)
    else match T.scan (c0 :: c1 :: cs) with
      | some (v, rest) => .ok (some v, some rest)
      | none => .ok (some zero, none)
  | _ => stale val
where
  /-- What happens when the extraction does not take place (src/task/multi-bound.cpp:184-186, 203-205). -/
  stale : Option R → Outcome (Option R × Stream)
    | some v => .ok (some v, none)
    | none => .ub

/-- Waiting for the character `check` after a side (src/task/multi-bound.cpp:190-197, 209-216); when the
stream has failed, `c` keeps its previous value, which is never `check`, so both cases throw. -/
def expect (check : Char) (s : Stream) : Outcome Stream :=
  match getc s with
  | some (c, s') => if c ≠ check then .throw else .ok s'
  | none => .throw

/-- Storing a parsed side (src/task/multi-bound.cpp:186-188, 205-207). -/
def storeSide (m : MultiBound R) (side : Side) : Option R → MultiBound R
  | some v => setDoubleBound m side v
  | none => unsetDoubleBound m side

/-- `operator>>(std::istream &, MultiBound &)` (src/task/multi-bound.cpp:170-226): the bound and the
stream after a normal return. An empty or failed stream leaves the local `c` uninitialised: `ub`. -/
def parse (T : NumText R) (zero : R) (m : MultiBound R) (s : Stream) :
    Outcome (MultiBound R × Stream) :=
  match getc s with
  | none => .ub
  | some (c, s1) =>
    if c = '(' then
      (parseSide T zero none s1).bind fun (v1, s2) =>
      let m1 := storeSide m .inf v1
      (expect ',' s2).bind fun s3 =>
      (parseSide T zero v1 s3).bind fun (v2, s4) =>
      let m2 := storeSide m1 .sup v2
      (expect ')' s4).bind fun s5 => .ok (m2, s5)
    else
      match s.bind T.scan with
      | some (v, rest) => .ok (setSingleBound m v, some rest)
      | none => .ok (setSingleBound m zero, none)

/-- The elements of a vector separated by commas (src/task/multi-bound.cpp:230-234). -/
def printElems (T : NumText R) : List (MultiBound R) → List Char
  | [] => []
  | [m] => print T m
  | m :: ms => print T m ++ [','] ++ printElems T ms

/-- `operator<<(std::ostream &, const VectorMultiBound &)` (src/task/multi-bound.cpp:228-236). `N` is
the text form of the size. -/
def printVec (T : NumText R) (N : NumText Nat) (v : List (MultiBound R)) : List Char :=
  ['['] ++ N.show_ v.length ++ [']', '('] ++ printElems T v ++ [')']

/-- `SOT_MULTI_BOUND_CHECK_C` (src/task/multi-bound.cpp:130-141). On a failed stream the local `c` is
read uninitialised: `ub`. -/
def checkC (check : Char) (s : Stream) : Outcome Stream :=
  match getc s with
  | some (c, s') => if c ≠ check then .throw else .ok s'
  | none => .ub

/-- The reading loop (src/task/multi-bound.cpp:249-256). The list holds the slots still to be read. -/
def parseElems (T : NumText R) (zero : R) : List (MultiBound R) → Stream →
    Outcome (List (MultiBound R) × Stream)
  | [], s => .ok ([], s)
  | m :: ms, s =>
    (parse T zero m s).bind fun (m', s1) =>
    (checkC (if ms.isEmpty then ')' else ',') s1).bind fun s2 =>
    (parseElems T zero ms s2).bind fun (ms', s3) => .ok (m' :: ms', s3)

/-- `v.resize(n)` (src/task/multi-bound.cpp:244): existing elements are kept, new ones are
`MultiBound(0.)`. -/
def resize (zero : R) (v : List (MultiBound R)) (n : Nat) : List (MultiBound R) :=
  v.take n ++ List.replicate (n - v.length) (ofSingle zero zero)

/-- `operator>>(std::istream &, VectorMultiBound &)` (src/task/multi-bound.cpp:238-259). A size that
cannot be read leaves the stream failed, and the next `SOT_MULTI_BOUND_CHECK_C` reads an uninitialised
character. -/
def parseVec (T : NumText R) (N : NumText Nat) (zero : R) (v : List (MultiBound R)) (s : Stream) :
    Outcome (List (MultiBound R) × Stream) :=
  (checkC '[' s).bind fun s1 =>
  match s1.bind N.scan with
  | none => .ub
  | some (n, r) =>
    (checkC ']' (some r)).bind fun s2 =>
    (checkC '(' s2).bind fun s3 =>
    parseElems T zero (resize zero v n) s3

end Verif.MultiBound
