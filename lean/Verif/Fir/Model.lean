import Verif.Common.Outcome
import Mathlib.Algebra.Group.Defs

/-!
# Model of `detail::circular_buffer` and `FIRFilter` (include/sot/core/fir-filter.hh, src/matrix/fir-filter.cpp)

Samples are of any type `T`, coefficients of any type `C`; `act c x` is the product `c * x`. The checks of the sizes of
vectors inside `+=` and `*` (Eigen) are not modelled: `T` is an additive monoid. Assertions are off. `size_t` is `Nat`;
the one place where it can wrap (a buffer of capacity 0) is undefined behaviour in the model, because the wrapped index is
written.
-/

namespace Verif.Fir

variable {T C : Type}

/-- `circular_buffer` (include/sot/core/fir-filter.hh:64-68). -/
structure Buffer (T : Type) where
  buf : List T
  start : Nat
  numel : Nat

/-- `circular_buffer()` (include/sot/core/fir-filter.hh:34): one default-constructed element. -/
def Buffer.init (d : T) : Buffer T := ⟨[d], 0, 0⟩

/-- `push_front` (include/sot/core/fir-filter.hh:35-45). -/
def Buffer.pushFront (b : Buffer T) (x : T) : Outcome (Buffer T) :=
  let start := if b.start ≠ 0 then b.start - 1 else b.buf.length - 1
  if start < b.buf.length then
    .ok ⟨b.buf.set start x, start, if b.numel < b.buf.length then b.numel + 1 else b.numel⟩
  else .ub

/-- `reset_capacity(n)` (include/sot/core/fir-filter.hh:46-50): `vector::resize` keeps the first elements and adds
default-constructed ones. -/
def Buffer.resetCapacity (b : Buffer T) (n : Nat) (d : T) : Buffer T :=
  ⟨b.buf.take n ++ List.replicate (n - b.buf.length) d, 0, 0⟩

/-- `reset_capacity(n, el)` (include/sot/core/fir-filter.hh:51-56). -/
def Buffer.resetFill (_b : Buffer T) (n : Nat) (el : T) : Buffer T := ⟨List.replicate n el, 0, 0⟩

/-- `operator[]` (include/sot/core/fir-filter.hh:57-61): remainder by zero for an empty buffer. -/
def Buffer.get (b : Buffer T) (i : Nat) : Outcome T :=
  if b.buf.length = 0 then .ub else rd b.buf ((b.start + i) % b.buf.length)

/-- Members of `FIRFilter` (include/sot/core/fir-filter.hh:200-201). -/
structure Filter (T C : Type) where
  coefs : List C
  data : Buffer T

/-- A new filter (include/sot/core/fir-filter.hh:122-126): no coefficient. -/
def Filter.init (d : T) : Filter T C := ⟨[], Buffer.init d⟩

/-- `resizeBuffer` (include/sot/core/fir-filter.hh:177-181); `c0` is the default coefficient. -/
def Filter.resizeBuffer (f : Filter T C) (n : Nat) (d : T) (c0 : C) : Filter T C :=
  ⟨f.coefs.take n ++ List.replicate (n - f.coefs.length) c0, f.data.resetCapacity n d⟩

/-- `setElement` (include/sot/core/fir-filter.hh:187-189): no range check. -/
def Filter.setElement (f : Filter T C) (rank : Nat) (c : C) : Outcome (Filter T C) :=
  if rank < f.coefs.length then .ok { f with coefs := f.coefs.set rank c } else .ub

/-- The loop of `compute` (include/sot/core/fir-filter.hh:170-172), `k` iterations left from index `i`. -/
def accumulate [Add T] (act : C → T → T) (coefs : List C) (data : Buffer T) : Nat → Nat → T → Outcome T
  | 0, _, res => .ok res
  | k + 1, i, res =>
    (rd coefs i).bind fun c => (data.get i).bind fun x =>
      accumulate act coefs data k (i + 1) (res + act c x)

/-- `compute` (include/sot/core/fir-filter.hh:164-175): `res` is the previous content of the result and `reset` the
function `reset_signal`: it does nothing for `double` signals (include/sot/core/fir-filter.hh:193) and sets the vector to
zero for vector signals (src/matrix/fir-filter.cpp:54-67). -/
def Filter.compute [Add T] (act : C → T → T) (reset : T → T) (f : Filter T C) (res x : T) :
    Outcome (T × Filter T C) :=
  (f.data.pushFront x).bind fun data =>
    (accumulate act f.coefs data (min data.numel f.coefs.length) 0 (reset res)).map fun y =>
      (y, { f with data := data })

/-- The commands and the arrival of a sample. -/
inductive Op (T C : Type) where
  | setSize (n : Nat)
  | setElement (rank : Nat) (c : C)
  | sample (x : T)

/-- One operation; the result buffer of a sample does not matter for the state and is `res`. -/
def step [Add T] (act : C → T → T) (reset : T → T) (d res : T) (c0 : C) (f : Filter T C) :
    Op T C → Outcome (Filter T C)
  | .setSize n => .ok (f.resizeBuffer n d c0)
  | .setElement r c => f.setElement r c
  | .sample x => (f.compute act reset res x).map (·.2)

/-- A history of operations. -/
def run [Add T] (act : C → T → T) (reset : T → T) (d res : T) (c0 : C) :
    Filter T C → List (Op T C) → Outcome (Filter T C)
  | f, [] => .ok f
  | f, o :: os => (step act reset d res c0 f o).bind fun f' => run act reset d res c0 f' os

end Verif.Fir
