import Mathlib.Logic.Function.Basic

/-!
# Model of `Mailbox` (include/sot/core/mailbox.hxx)

Any number of threads, interleaved in any order at the level of single memory accesses. An object is a vector of
`n` words of type `α`, copied one word at a time; a timestamp is one value of type `τ`. The mutex is held by at
most one thread; `scoped_lock` waits (the step is not enabled while another thread holds the mutex),
`scoped_try_lock` does not. Each thread has its own result buffer (the argument `res` of `get`). The signals built on
`get` belong to dynamic-graph and are in `Verif.Mailbox.Signals`; the destructor is not modelled.
-/

namespace Verif.Mailbox

variable {n : Nat} {α τ : Type}

/-- Where a thread is. -/
inductive Pc (n : Nat) (α τ : Type) where
  /-- outside -/
  | idle
  /-- `post`: mutex held, `i` words of the object written -/
  | posting (m : Fin n → α) (i : Nat)
  /-- `post`: object and timestamp written -/
  | stamped (m : Fin n → α) (s : τ)
  /-- `post`: object, timestamp and update mark written -/
  | marked (m : Fin n → α) (s : τ)
  /-- `get`: mutex held, nothing read -/
  | entered
  /-- `get`: timestamp read -/
  | stampRead
  /-- `get`: timestamp read, update mark cleared, `i` words of the object read -/
  | getting (i : Nat)

/-- Shared members (include/sot/core/mailbox.hh:64-67), buffers and positions of the threads. -/
structure St (n : Nat) (α τ : Type) where
  lock : Option Nat
  obj : Fin n → α
  stamp : τ
  update : Bool
  pc : Nat → Pc n α τ
  bufObj : Nat → Fin n → α
  bufStamp : Nat → τ

/-- What the scheduler can choose. `go t c` lets thread `t` do its next memory access, `c` being the clock. -/
inductive Act (n : Nat) (α τ : Type) where
  | post (t : Nat) (m : Fin n → α)
  | get (t : Nat)
  | ask (t : Nat)
  | go (t : Nat) (clock : τ)

/-- What the callers observe: end of a `post`, end of a `get` that had the mutex, end of a `get` that had not
(with the content of the buffer), result of `hasBeenUpdated` with and without the mutex. -/
inductive Ev (n : Nat) (α τ : Type) where
  | posted (m : Fin n → α) (s : τ)
  | got (t : Nat) (m : Fin n → α) (s : τ)
  | stale (t : Nat) (m : Fin n → α) (s : τ)
  | asked (t : Nat) (b : Bool)
  | askedBusy (t : Nat) (b : Bool)

/-- Initial state (include/sot/core/mailbox.hxx:22-26): any object and timestamp, any content of the buffers. -/
def init (m0 : Fin n → α) (s0 : τ) (b0 : Nat → Fin n → α) (t0 : Nat → τ) : St n α τ :=
  ⟨none, m0, s0, false, fun _ => .idle, b0, t0⟩

/-- The next memory access of a thread that is inside `post` (include/sot/core/mailbox.hxx:80-83) or `get`
(include/sot/core/mailbox.hxx:65-73). -/
def go (s : St n α τ) (t : Nat) (clock : τ) : Option (St n α τ × Option (Ev n α τ)) :=
  match s.pc t with
  | .idle => none
  | .posting m i =>
    if h : i < n then
      some ({ s with
        obj := Function.update s.obj ⟨i, h⟩ (m ⟨i, h⟩)
        pc := Function.update s.pc t (.posting m (i + 1)) }, none)
    else some ({ s with stamp := clock, pc := Function.update s.pc t (.stamped m clock) }, none)
  | .stamped m c => some ({ s with update := true, pc := Function.update s.pc t (.marked m c) }, none)
  | .marked m c =>
    some ({ s with lock := none, pc := Function.update s.pc t .idle }, some (.posted m c))
  | .entered =>
    some ({ s with
      bufStamp := Function.update s.bufStamp t s.stamp
      pc := Function.update s.pc t .stampRead }, none)
  | .stampRead => some ({ s with update := false, pc := Function.update s.pc t (.getting 0) }, none)
  | .getting i =>
    if h : i < n then
      some ({ s with
        bufObj := Function.update s.bufObj t (Function.update (s.bufObj t) ⟨i, h⟩ (s.obj ⟨i, h⟩))
        pc := Function.update s.pc t (.getting (i + 1)) }, none)
    else
      some ({ s with lock := none, pc := Function.update s.pc t .idle },
        some (.got t (s.bufObj t) (s.bufStamp t)))

/-- One choice of the scheduler; `none` when it is not enabled. `post` starts by waiting for the mutex
(include/sot/core/mailbox.hxx:79), `get` and `hasBeenUpdated` by trying it (include/sot/core/mailbox.hxx:49-55, 63). -/
def step (s : St n α τ) : Act n α τ → Option (St n α τ × Option (Ev n α τ))
  | .post t m =>
    match s.pc t, s.lock with
    | .idle, none =>
      some ({ s with lock := some t, pc := Function.update s.pc t (.posting m 0) }, none)
    | _, _ => none
  | .get t =>
    match s.pc t, s.lock with
    | .idle, none => some ({ s with lock := some t, pc := Function.update s.pc t .entered }, none)
    | .idle, some _ => some (s, some (.stale t (s.bufObj t) (s.bufStamp t)))
    | _, _ => none
  | .ask t =>
    match s.pc t, s.lock with
    | .idle, none => some (s, some (.asked t s.update))
    | .idle, some _ => some (s, some (.askedBusy t false))
    | _, _ => none
  | .go t c => go s t c

/-- A schedule: the choices that are not enabled are passed over. The result is the final state and what the
callers observed, in order. -/
def run : St n α τ → List (Act n α τ) → St n α τ × List (Ev n α τ)
  | s, [] => (s, [])
  | s, a :: as =>
    match step s a with
    | none => run s as
    | some (s', none) => run s' as
    | some (s', some e) => ((run s' as).1, e :: (run s' as).2)

end Verif.Mailbox
