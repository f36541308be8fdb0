import Verif.Common.Outcome
import Mathlib.Algebra.Module.Defs
import Mathlib.Algebra.Field.Basic
import Mathlib.Algebra.BigOperators.Group.List.Basic

/-!
# Model of `CausalFilter` (src/filters/causal-filter.cpp, include/sot/core/causal-filter.hh)

Coefficients and time step are in a field `F` and the columns of the buffers (vectors of size `m_x_size`) in a vector space
`V` over `F`: exact arithmetic, and every input has the announced size. `x / s` is `s⁻¹ • x`; a division by zero, which gives
infinities in the code, is excluded by hypotheses of the theorems. `FilterDifferentiator` (src/filters/filter-differentiator.cpp)
only forwards to this class and copies the three parts of the result.
-/

namespace Verif.Causal

variable {F V : Type} [Field F] [AddCommGroup V] [Module F V]

/-- Members of `CausalFilter` (include/sot/core/causal-filter.hh:68-86). The two orders are the lengths of the two lists of
coefficients. -/
structure Filter (F V : Type) where
  dt : F
  num : List F
  den : List F
  firstSample : Bool
  ptn : Nat
  ptd : Nat
  input : List V
  output : List V

/-- Constructor (src/filters/causal-filter.cpp:36-55). -/
def init (V : Type) [Zero V] (dt : F) (num den : List F) : Filter F V :=
  ⟨dt, num, den, true, 0, 0, List.replicate num.length 0, List.replicate (den.length - 1) 0⟩

/-- The expression `x * num.sum() / den.sum()` (src/filters/causal-filter.cpp:64, 120). -/
def steady (num den : List F) (x : V) : V := den.sum⁻¹ • num.sum • x

/-- The filling of the buffers at the first sample (src/filters/causal-filter.cpp:60-66). -/
def fill (f : Filter F V) (x : V) : Filter F V :=
  if f.firstSample then
    { f with
      input := List.replicate f.num.length x
      output := List.replicate (f.den.length - 1) (steady f.num f.den x)
      firstSample := false }
  else f

/-- The coefficients in the order of the columns of a buffer whose latest column is `p`
(src/filters/causal-filter.cpp:72-75; 77-81 with the coefficients after the first). -/
def arrange (p : Nat) (c : List F) : List F := (c.take (p + 1)).reverse ++ (c.drop (p + 1)).reverse

/-- The product of a buffer and a vector of coefficients (src/filters/causal-filter.cpp:83). -/
def combine (w : List F) (cols : List V) : V := (List.zipWith (· • ·) w cols).sum

/-- The three parts of the result. -/
structure Out (V : Type) where
  x : V
  dx : V
  ddx : V

/-- `CausalFilter::get_x_dx_ddx` (src/filters/causal-filter.cpp:57-104). Without numerator, or with less than two
coefficients in the denominator, the blocks taken on the buffers are out of range. -/
def sample (f0 : Filter F V) (x : V) : Outcome (Out V × Filter F V) :=
  let f := fill f0 x
  let m := f.num.length
  let n := f.den.length
  if f.ptn < m ∧ f.ptd + 1 < n then
    let input := f.input.set f.ptn x
    let b := arrange f.ptn f.num
    let a := arrange f.ptd f.den.tail
    (rd f.den 0).bind fun a0 =>
    let y := a0⁻¹ • (combine b input - combine a f.output)
    let prev := if f.ptd = 0 then n - 2 else f.ptd - 1
    (rd f.output f.ptd).bind fun y1 => (rd f.output prev).bind fun y2 =>
    let ptn := if f.ptn + 1 < m then f.ptn + 1 else 0
    let ptd := if f.ptd + 1 < n - 1 then f.ptd + 1 else 0
    .ok (⟨y, f.dt⁻¹ • (y - y1), f.dt⁻¹ • f.dt⁻¹ • (y - (2 : F) • y1 + y2)⟩,
      { f with
        input := input
        ptn := ptn
        ptd := ptd
        output := f.output.set ptd y })
  else .ub

/-- `CausalFilter::switch_filter` (src/filters/causal-filter.cpp:106-134). -/
def switchFilter (f : Filter F V) (num den : List F) : Outcome (Filter F V) :=
  (rd f.input f.ptn).bind fun x =>
    if den.length = 0 then .ub
    else
      .ok { f with
        num := num
        den := den
        input := List.replicate num.length x
        output := List.replicate (den.length - 1) (steady num den x)
        ptn := 0
        ptd := 0 }

/-- A history of samples, with the results in order. -/
def run : Filter F V → List V → Outcome (List (Out V) × Filter F V)
  | f, [] => .ok ([], f)
  | f, x :: xs =>
    (sample f x).bind fun r => (run r.2 xs).map fun s => (r.1 :: s.1, s.2)

end Verif.Causal
