import Verif.Common.Outcome
import Mathlib.Algebra.Module.Defs
import Mathlib.Order.Defs.LinearOrder

/-!
# Model of the operator entities (src/matrix/operator.hh)

Vectors are lists of doubles (any type), dynamic matrices have a size and a function of the indices. A failed assertion, of
this code or of Eigen, is undefined behaviour. `res` is the buffer of the output signal: it may hold anything.
The operators on poses and rotations are in the geometry model.
-/

namespace Verif.Operators

variable {F : Type}

/-! ### Selections of a vector -/

/-- Eigen's `v.segment(i, n)`. -/
def segment (v : List F) (i n : Int) : Outcome (List F) :=
  if i < 0 ∨ n < 0 ∨ i + n > v.length then .ub else .ok ((v.drop i.toNat).take n.toNat)

/-- Eigen's `v.segment(i, n) = w`. -/
def setSegment (v : List F) (i n : Int) (w : List F) : Outcome (List F) :=
  if i < 0 ∨ n < 0 ∨ i + n > v.length ∨ w.length ≠ n then .ub
  else .ok (v.take i.toNat ++ w ++ v.drop (i.toNat + n.toNat))

/-- Fields of `VectorSelecter` (src/matrix/operator.hh:78-81). -/
structure Selecter where
  idxs : List (Int × Int)
  size : Int
  deriving DecidableEq, Repr

/-- Constructor (src/matrix/operator.hh:108). -/
def Selecter.new : Selecter := ⟨[], 0⟩

/-- The commands `selec` and `addSelec` (src/matrix/operator.hh:83-90). -/
inductive SelecCmd where
  | set (m M : Int)
  | add (m M : Int)
  deriving DecidableEq, Repr

/-- `setBounds`, `addBounds` (src/matrix/operator.hh:83-90). -/
def Selecter.cmd (s : Selecter) : SelecCmd → Selecter
  | .set m M => ⟨[(m, M - m)], M - m⟩
  | .add m M => ⟨s.idxs ++ [(m, M - m)], s.size + (M - m)⟩

/-- The loop of `VectorSelecter::operator()` (src/matrix/operator.hh:68-74). -/
def selecLoop (v : List F) : List (Int × Int) → Int → List F → Outcome (Int × List F)
  | [], r, res => .ok (r, res)
  | (R, nr) :: idxs, r, res =>
    (segment v R nr).bind fun w => (setSegment res r nr w).bind fun res' => selecLoop v idxs (r + nr) res'

/-- `VectorSelecter::operator()` (src/matrix/operator.hh:65-76). `res` is the output after `resize`: of the size asked for,
with any content. -/
def Selecter.apply (s : Selecter) (v res : List F) : Outcome (List F) :=
  if s.size < 0 ∨ (res.length : Int) ≠ s.size then .ub
  else (selecLoop v s.idxs 0 res).bind fun p => if p.1 = s.size then .ok p.2 else .ub

/-- `VectorComponent` (src/matrix/operator.hh:112-119); the index is not initialised at first. -/
def component (index : Option Int) (v : List F) : Outcome F :=
  match index with
  | none => .ub
  | some k => if k < 0 then .ub else rd v k.toNat

/-! ### Stacking -/

/-- A copy loop of `VectorStack` (src/matrix/operator.hh:607-612): `n` components of `v` from `k`. -/
def copyFrom (v : List F) (k : Int) : Nat → Outcome (List F)
  | 0 => .ok []
  | n + 1 => if k < 0 then .ub else (rd v k.toNat).bind fun x => (copyFrom v (k + 1) n).map (x :: ·)

/-- `VectorStack::operator()` (src/matrix/operator.hh:599-613). The bounds are not initialised before `selec1` and
`selec2` (615-622). -/
def stack (b1 b2 : Option (Int × Int)) (v1 v2 : List F) : Outcome (List F) :=
  match b1, b2 with
  | some (m1, M1), some (m2, M2) =>
    if ¬ (M1 ≥ m1 ∧ (v1.length : Int) ≥ M1) ∨ ¬ (M2 ≥ m2 ∧ (v2.length : Int) ≥ M2) then .ub
    else (copyFrom v1 m1 (M1 - m1).toNat).bind fun a => (copyFrom v2 m2 (M2 - m2).toNat).map fun b => a ++ b
  | _, _ => .ub

/-! ### Mixing -/

/-- `segment_t` of `VectorMix` (src/matrix/operator.hh:858-863), as given to `addSelec` (878-880): a negative signal index
becomes a large number. -/
structure MixSeg where
  sig : Int
  index : Int
  size : Int
  deriving DecidableEq, Repr

/-- The loop of `VectorMix::operator()` (src/matrix/operator.hh:870-875). -/
def mixLoop (vs : List (List F)) : List MixSeg → List F → Outcome (List F)
  | [], res => .ok res
  | s :: idxs, res =>
    if s.sig < 0 ∨ s.sig ≥ vs.length then .throw
    else (rd vs s.sig.toNat).bind fun w => (setSegment res s.index s.size w).bind fun res' => mixLoop vs idxs res'

/-- `VectorMix::operator()` (src/matrix/operator.hh:867-876). -/
def mix (idxs : List MixSeg) (vs : List (List F)) : Outcome (List F) := (rd vs 0).bind fun v => mixLoop vs idxs v

/-! ### Sum of the inputs -/

/-- The loop of `AdderVariadic::operator()` (src/matrix/operator.hh:913) from index `i`. -/
def addLoop {T : Type} [Add T] [SMul F T] (coeffs : List F) : List T → Nat → T → Outcome T
  | [], _, res => .ok res
  | v :: vs, i, res => (rd coeffs i).bind fun c => addLoop coeffs vs (i + 1) (res + c • v)

/-- `AdderVariadic::operator()` (src/matrix/operator.hh:909-914): `res` is left as it is when there is no input. Inputs of
different sizes are not modelled. -/
def adder {T : Type} [Add T] [SMul F T] (coeffs : List F) (vs : List T) (res : T) : Outcome T :=
  if vs.length ≠ coeffs.length then .ub
  else match vs with
    | [] => .ok res
    | v :: vs => (rd coeffs 0).bind fun c => addLoop coeffs vs 1 (c • v)

/-- The adder entity: its number of inputs and its coefficients. -/
structure Adder (F : Type) where
  n : Nat
  coeffs : List F
  deriving DecidableEq, Repr

/-- `updateSignalNumber`, called by `setSignalNumber` (src/matrix/operator.hh:921, include/sot/core/variadic-op.hh:106).
No name can clash, the entity names its inputs itself (property C46). -/
def Adder.setNumber [One F] (_ : Adder F) (n : Nat) : Adder F := ⟨n, List.replicate n 1⟩

/-- `setCoeffs` (src/matrix/operator.hh:916-920). -/
def Adder.setCoeffs (a : Adder F) (c : List F) : Outcome (Adder F) :=
  if a.n ≠ c.length then .throw else .ok { a with coeffs := c }

/-- Constructor: `initialize` (src/matrix/operator.hh:923-926) asks for two inputs. -/
def Adder.new [One F] : Adder F := Adder.setNumber ⟨0, []⟩ 2

/-- `addSignal` of the base class, in C++ (include/sot/core/variadic-op.hh:63-80): the operator is not told. -/
def Adder.addSignal (a : Adder F) : Adder F := { a with n := a.n + 1 }

/-! ### Product of the inputs -/

/-- `Multiplier::operator()` (src/matrix/operator.hh:946-953, 966-975) for values with an associative product. -/
def multiplier {T : Type} [Mul T] [One T] : List T → T
  | [] => 1
  | v :: vs => vs.foldl (· * ·) v

/-- One turn of the loop of `Multiplier<Vector>` (src/matrix/operator.hh:983). -/
def mulArrays [Mul F] (res v : List F) : Outcome (List F) :=
  if res.length ≠ v.length then .ub else .ok (List.zipWith (· * ·) res v)

/-- The loop of `Multiplier<Vector>` (src/matrix/operator.hh:983). -/
def mulVectorLoop [Mul F] : List (List F) → List F → Outcome (List F)
  | [], res => .ok res
  | v :: vs, res => (mulArrays res v).bind fun res' => mulVectorLoop vs res'

/-- `Multiplier<Vector>::operator()` (src/matrix/operator.hh:976-985). -/
def multiplierVector [Mul F] : List (List F) → Outcome (List F)
  | [] => .ok []
  | v :: vs => mulVectorLoop vs v

/-! ### Boolean operators -/

/-- The loop of `BoolOp` (src/matrix/operator.hh:998-1007). `isAnd` is `operation == 0`. -/
def boolLoop (isAnd : Bool) : List Bool → Bool → Bool
  | [], res => res
  | v :: vs, res =>
    if isAnd then (if !res then res else boolLoop isAnd vs v)
    else (if res then res else boolLoop isAnd vs v)

/-- `BoolOp::operator()` (src/matrix/operator.hh:992-1008). -/
def boolOp (isAnd : Bool) (vs : List Bool) (res : Bool) : Bool :=
  match vs with
  | [] => res
  | v :: vs => boolLoop isAnd vs v

/-! ### Comparisons, weighted sums -/

/-- `MatrixComparison::operator()` for vectors (src/matrix/operator.hh:726-735). -/
def compareVectors [LT F] [LE F] [DecidableLT F] [DecidableLE F] (any equal : Bool) (a b : List F) : Outcome Bool :=
  if a.length ≠ b.length then .ub
  else if equal && any then .ok ((List.zipWith (fun x y => decide (x ≤ y)) a b).any id)
  else if equal && !any then .ok ((List.zipWith (fun x y => decide (x ≤ y)) a b).all id)
  else if !equal && any then .ok ((List.zipWith (fun x y => decide (x < y)) a b).any id)
  else .ok ((List.zipWith (fun x y => decide (x < y)) a b).all id)

/-- `WeightedAdder::operator()` (src/matrix/operator.hh:786-790). The gains are not initialised before `setGain1` and
`setGain2` (797-802). -/
def weightedAdd {T : Type} [Add T] [SMul F T] (g1 g2 : Option F) (v1 v2 : T) : Outcome T :=
  match g1, g2 with
  | some a, some b => .ok (a • v1 + b • v2)
  | _, _ => .ub

/-! ### Temporal convolution -/

/-- A dynamic matrix. -/
structure DMat (F : Type) where
  rows : Nat
  cols : Nat
  val : Nat → Nat → F

/-- Eigen's `m(i, j)`. -/
def DMat.rd (m : DMat F) (i j : Int) : Outcome F :=
  if 0 ≤ i ∧ i < m.rows ∧ 0 ≤ j ∧ j < m.cols then .ok (m.val i.toNat j.toNat) else .ub

/-- The loop over the memory in `convolution` (src/matrix/operator.hh:675-685), from column `j`: it stops at the first vector
of another size. -/
def convLoop [Add F] [Mul F] (m : DMat F) : List (List F) → Nat → List F → List F
  | [], _, res => res
  | s :: mem, j, res =>
    if s.length ≠ m.rows then res
    else convLoop m mem (j + 1) ((List.range m.rows).zipWith (fun i p => p.1 + m.val i j * p.2) (res.zip s))

/-- `ConvolutionTemporal::convolution` (src/matrix/operator.hh:667-686). -/
def convolution [Add F] [Mul F] [Zero F] (mem : List (List F)) (m : DMat F) (res : List F) : List F :=
  if mem.length > m.cols then res else convLoop m mem 0 (List.replicate m.rows 0)

/-- `ConvolutionTemporal::operator()` (src/matrix/operator.hh:687-693): the memory after the call, and the output. -/
def convStep [Add F] [Mul F] [Zero F] (mem : List (List F)) (v : List F) (m : DMat F) (res : List F) :
    List (List F) × List F :=
  let mem' := (v :: mem).take m.cols
  (mem', convolution mem' m res)

/-! ### Selections of a matrix -/

/-- `MatrixSelector::operator()` (src/matrix/operator.hh:142-148): `res(i, j)` of the result, for bounds set by the
commands (154-161); `none` when they were not. -/
def matrixSelector (rowb colb : Option (Int × Int)) (m : DMat F) : Outcome (DMat F) :=
  match rowb, colb with
  | some (imin, imax), some (jmin, jmax) =>
    if ¬ (imin ≤ imax ∧ imax ≤ m.rows) ∨ ¬ (jmin ≤ jmax ∧ jmax ≤ m.cols) then .ub
    else if imin < imax ∧ jmin < jmax ∧ (imin < 0 ∨ jmin < 0) then .ub
    else .ok ⟨(imax - imin).toNat, (jmax - jmin).toNat, fun i j => m.val (imin + i).toNat (jmin + j).toNat⟩
  | _, _ => .ub

/-- `MatrixColumnSelector::operator()` (src/matrix/operator.hh:185-191). -/
def columnSelector (rowb : Option (Int × Int)) (col : Option Int) (m : DMat F) : Outcome (List F) :=
  match rowb, col with
  | some (imin, imax), some j =>
    if ¬ (imin ≤ imax ∧ imax ≤ m.rows) ∨ ¬ (j < m.cols) then .ub
    else if imin < imax ∧ (imin < 0 ∨ j < 0) then .ub
    else .ok ((List.range (imax - imin).toNat).map fun (i : Nat) => m.val (imin + i).toNat j.toNat)
  | _, _ => .ub

/-- `MatrixTranspose` (src/matrix/operator.hh:220-222). -/
def transpose (m : DMat F) : DMat F := ⟨m.cols, m.rows, fun i j => m.val j i⟩

/-- `Diagonalizer::operator()` (src/matrix/operator.hh:226-228): the size set by the command `resize` (233-236) is not
used. -/
def diagonal [Zero F] (_nbr _nbc : Nat) (v : List F) : DMat F :=
  ⟨v.length, v.length, fun i j => if i = j then v.getD i 0 else 0⟩

end Verif.Operators
