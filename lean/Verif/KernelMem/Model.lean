import Verif.Common.Outcome

/-!
# The memory of the projectors of the stack of tasks

The computation of the control (`Sot`) represents the projector of each level by a value. In the code it is a view (an Eigen map) on a
buffer that belongs to the task of a level, `MemoryTaskSOT`, and that is kept from one computation to the next. This is the model of the
buffers.

Simplifications: a buffer is a number, a new one for each allocation. The content of a buffer is one value of a type `C`, whatever the
dimensions. What a level computes from the projector that it gets is a function, an argument. The other buffers of the memory are in
`Sot`.
-/

namespace Verif.KernelMem

variable {C T : Type}

/-- The members `kernelMem`, its buffer (none: the null pointer) and its size, and `kernel`, a view: pointer, rows and columns
(include/sot/core/memory-task-sot.hh:39, 65). -/
structure Mem where
  buf : Option Nat
  size : Nat
  ptr : Option Nat
  rows : Nat
  cols : Nat

/-- The memories of the tasks, the next free number, and the contents of the buffers that are allocated. -/
structure Heap (C T : Type) where
  mems : T → Option Mem
  next : Nat
  content : Nat → Option C

/-- The heap at the start of the program. -/
def Heap.new : Heap C T := ⟨fun _ => none, 0, fun _ => none⟩

/-- `Matrix::resize` of a buffer to another size: the buffer is freed and another one, with any content, is allocated if needed. -/
def Heap.realloc (junk : C) (h : Heap C T) (old : Option Nat) (size : Nat) : Heap C T × Option Nat :=
  let freed : Nat → Option C := fun i => if some i = old then none else h.content i
  if size = 0 then (⟨h.mems, h.next, freed⟩, none)
  else (⟨h.mems, h.next + 1, fun i => if i = h.next then some junk else freed i⟩, some h.next)

variable [DecidableEq T]

/-- Set the memory of a task. -/
def Heap.setMem (h : Heap C T) (t : T) (m : Mem) : Heap C T := ⟨fun t' => if t' = t then some m else h.mems t', h.next, h.content⟩

/-- `getMemory` (src/sot/sot.cpp:399-408), with the constructor of the memory (src/sot/memory-task-sot.cpp:16-36) for a task of dimension
`dim` with `n` joints. -/
def Heap.getMemory (junk : C) (h : Heap C T) (t : T) (dim n : Nat) : Heap C T × Mem :=
  match h.mems t with
  | some m => (h, m)
  | none =>
    if dim < n then
      let r := h.realloc junk none ((n - dim) * n)
      let m : Mem := ⟨r.2, (n - dim) * n, none, 0, 0⟩
      (r.1.setMem t m, m)
    else
      let m : Mem := ⟨none, 0, none, 0, 0⟩
      (h.setMem t m, m)

/-- `getKernel`, with `resizeKernel` (include/sot/core/memory-task-sot.hh:41-51). -/
def Heap.getKernel (junk : C) (h : Heap C T) (t : T) (m : Mem) (r c : Nat) : Heap C T × Mem :=
  if m.rows ≠ r ∨ m.cols ≠ c then
    if m.size < r * c then
      let q := h.realloc junk m.buf (r * c)
      let m' : Mem := ⟨q.2, r * c, q.2, r, c⟩
      (q.1.setMem t m', m')
    else
      let m' : Mem := ⟨m.buf, m.size, m.buf, r, c⟩
      (h.setMem t m', m')
  else (h, m)

/-- The local variable `kernel` of the computation (src/sot/sot.cpp:509-522, 607-608): none, the projector that is given to the stack, or a view on
a buffer. -/
inductive View (C : Type) where
  | absent
  | given (cols : Nat) (value : C)
  | buffer (cols : Nat) (ptr : Option Nat)

/-- `kernel.cols()`. -/
def View.cols : View C → Nat
  | .absent => 0
  | .given c _ => c
  | .buffer c _ => c

/-- Read the projector: undefined when the buffer is not allocated. -/
def View.read (v : View C) (h : Heap C T) : Outcome (Option C) :=
  match v with
  | .absent => .ok none
  | .given _ x => .ok (some x)
  | .buffer _ none => .ub
  | .buffer _ (some i) =>
    match h.content i with
    | none => .ub
    | some x => .ok (some x)

/-- Whether the view is on this buffer. -/
def View.on (v : View C) (p : Option Nat) : Bool :=
  match v with
  | .buffer _ (some i) => p == some i
  | _ => false

/-- A level: its task, the dimension of the task, and what it computes from the projector that it gets: nothing when the level is
disabled, otherwise the columns and the value of the next projector. -/
structure Level (C T : Type) where
  task : T
  dim : Nat
  compute : Option C → Option (Nat × C)

/-- The kernel update of a level (src/sot/sot.cpp:599-609) from the view `v`, which has the value `x`. The product is evaluated after
`getKernel`, and `noalias` promises that the two buffers are different: the outcome is undefined when they are not. A view without coefficient is neither read nor written. -/
def update (junk : C) (n : Nat) (h : Heap C T) (v : View C) (l : Level C T) (m : Mem) (c : Nat) (y : C) : Outcome (Heap C T × View C) :=
  let q := h.getKernel junk l.task m n c
  if n * c = 0 then .ok (q.1, .buffer c q.2.ptr)
  else
    (v.read q.1).bind fun _ =>
      if v.on q.2.ptr then .ub
      else
        match q.2.ptr with
        | none => .ub
        | some i => .ok (⟨q.1.mems, q.1.next, fun j => if j = i then some y else q.1.content j⟩, .buffer c q.2.ptr)

/-- The loop (src/sot/sot.cpp:523-637) on the levels: the projectors that the levels get, and the heap. -/
def loop (junk : C) (n : Nat) (h : Heap C T) (v : View C) : List (Level C T) → Outcome (List (Option C) × Heap C T)
  | [] => .ok ([], h)
  | l :: ls =>
    let g := h.getMemory junk l.task l.dim n
    (v.read g.1).bind fun x =>
      if ls.isEmpty then .ok ([x], g.1)
      else
        match l.compute x with
        | none => if v.cols = 0 then .ok ([x], g.1) else (loop junk n g.1 v ls).map fun r => (x :: r.1, r.2)
        | some (c, y) =>
          (update junk n g.1 v l g.2 c y).bind fun q =>
            if c = 0 then .ok ([x], q.1) else (loop junk n q.1 q.2 ls).map fun r => (x :: r.1, r.2)

end Verif.KernelMem
