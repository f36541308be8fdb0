/-!
# The interruptible loop of the Python library

Two threads: the script, which calls the methods, and the loop. Each line that reads or writes an attribute is one indivisible step, and the
steps of the two threads are interleaved in any order. The body of the loop is one step that counts its calls. Starting a thread twice raises
an exception in the script.
-/

namespace Verif.ThreadLoop

/-- The place of the thread of the loop in `run` (src/dynamic_graph/sot/core/utils/thread_interruptible_loop.py:52-63). -/
inductive Pc where
  | notStarted
  /-- line 53 -/
  | clearQuit
  /-- line 54 -/
  | setRunning
  /-- line 55 -/
  | testQuit
  /-- line 56 -/
  | testPlay
  /-- line 57 -/
  | body
  /-- line 58 -/
  | count
  /-- line 59 -/
  | testOnce
  /-- line 60 -/
  | undoPlay
  /-- line 61 -/
  | sleep
  /-- line 62 -/
  | clearRunning
  | ended
deriving DecidableEq, Repr

/-- The place of the script in the methods `play` (lines 39-43), `start` (65-67) and `once` (48-50). -/
inductive Sc where
  | idle
  /-- line 66 -/
  | start0
  /-- line 67 -/
  | start1
  /-- line 42 -/
  | play1
  /-- line 43 -/
  | play2
  /-- line 50 -/
  | once1
deriving DecidableEq, Repr

/-- The attributes (src/dynamic_graph/sot/core/utils/thread_interruptible_loop.py:21-27), the places of the threads, the number of calls of
the body, and whether a method raised an exception. -/
structure S where
  isQuit : Bool := false
  isPlay : Bool := false
  isOnce : Bool := false
  isRunning : Bool := false
  iter : Nat := 0
  bodies : Nat := 0
  pc : Pc := .notStarted
  sc : Sc := .idle
  failed : Bool := false
deriving DecidableEq, Repr

/-- One step of the thread of the loop (src/dynamic_graph/sot/core/utils/thread_interruptible_loop.py:52-63). -/
def loopStep (s : S) : S :=
  match s.pc with
  | .notStarted => s
  | .clearQuit => { s with isQuit := false, pc := .setRunning }
  | .setRunning => { s with isRunning := true, pc := .testQuit }
  | .testQuit => { s with pc := if s.isQuit then .clearRunning else .testPlay }
  | .testPlay => { s with pc := if s.isPlay then .body else .sleep }
  | .body => { s with bodies := s.bodies + 1, pc := .count }
  | .count => { s with iter := s.iter + 1, pc := .testOnce }
  | .testOnce => { s with pc := if s.isOnce then .undoPlay else .sleep }
  | .undoPlay => { s with isPlay := false, pc := .sleep }
  | .sleep => { s with pc := .testQuit }
  | .clearRunning => { s with isRunning := false, pc := .ended }
  | .ended => s

/-- The next step of a method of the script that is not finished. -/
def scriptStep (s : S) : S :=
  match s.sc with
  | .idle => s
  | .start0 => { s with isPlay := true, sc := .start1 }
  | .start1 => if s.pc = .notStarted then { s with pc := .clearQuit, sc := .play1 } else { s with failed := true, sc := .idle }
  | .play1 => { s with isOnce := false, sc := .play2 }
  | .play2 => { s with isPlay := true, sc := .idle }
  | .once1 => { s with isPlay := true, sc := .idle }

/-- `quit` (src/dynamic_graph/sot/core/utils/thread_interruptible_loop.py:33-34), when the script is free. -/
def quit (s : S) : S := if s.sc = .idle then { s with isQuit := true } else s

/-- `pause` (src/dynamic_graph/sot/core/utils/thread_interruptible_loop.py:45-46), when the script is free. -/
def pause (s : S) : S := if s.sc = .idle then { s with isPlay := false } else s

/-- The first step of `once` (src/dynamic_graph/sot/core/utils/thread_interruptible_loop.py:48-49). -/
def once (s : S) : S := if s.sc = .idle then { s with isOnce := true, sc := .once1 } else s

/-- The first step of `play` (src/dynamic_graph/sot/core/utils/thread_interruptible_loop.py:39-41). -/
def play (s : S) : S := if s.sc = .idle then { s with sc := if s.isRunning then .play1 else .start0 } else s

/-- A step of one of the threads. -/
inductive Act where
  | loop
  | script
  | quit
  | pause
  | once
  | play
deriving DecidableEq, Repr

/-- The step. -/
def act (s : S) : Act → S
  | .loop => loopStep s
  | .script => scriptStep s
  | .quit => quit s
  | .pause => pause s
  | .once => once s
  | .play => play s

/-- An execution: the steps in the order of the interleaving. -/
def exec (s : S) (as : List Act) : S := as.foldl act s

/-- The thread of the loop runs alone. -/
def alone (n : Nat) (s : S) : S := exec s (List.replicate n .loop)

/-- `restart` (src/dynamic_graph/sot/core/utils/thread_interruptible_loop.py:69-73), when the script is free and the thread of the loop makes `n`
steps during `join`: `none` while `join` waits. `join` raises an exception when the thread was not started. The lines 72 and 73 follow `play`,
which has four steps. -/
def restart (n : Nat) (s : S) : Option S :=
  if s.pc = .notStarted then some { s with failed := true }
  else if (alone n s).pc = .ended then some (exec (alone n s) [.play, .script, .script, .script, .script])
  else none

/-- The shortcuts `next` and `n + x` (src/dynamic_graph/sot/core/utils/thread_interruptible_loop.py:110-117): the script calls the body. -/
def next (x : Nat) (s : S) : S :=
  match x with
  | 0 => s
  | x + 1 => next x { s with bodies := s.bodies + 1 }

end Verif.ThreadLoop
