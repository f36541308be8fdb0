/-!
# The calendar of actions of the Python library

Simplifications: a function is an object with an identity, a documentation and perhaps a member `functor`; calling it changes the calendar in
a given way and may raise an exception, its other effects are the trace of the calls. The dictionary of events gives a list for each key.
A loop over a list that the called functions change is a loop over the positions, as in Python; since it may not end, it has a bound on the
number of calls, and has no result when the bound is reached. An operation gives the calendar after it and whether it ended without an
exception. Messages are not modelled.
-/

namespace Verif.Calendar

/-- Keys of the events: a time, or one of the objects `ALWAYS` and `STOP` (src/dynamic_graph/sot/core/utils/attime.py:14-25). -/
inductive Key where
  | at (t : Int)
  | always
  | stop
deriving DecidableEq, Repr

/-- A pair of a function and a documentation. -/
abbrev Pair := Nat × Option String

/-- `Calendar` (src/dynamic_graph/sot/core/utils/attime.py:28-32). -/
structure Cal where
  events : Key → Option (List Pair)
  ping : List Nat

/-- `Calendar.__init__` (src/dynamic_graph/sot/core/utils/attime.py:29-31). -/
def Cal.init : Cal := ⟨fun _ => none, []⟩

/-- The end of `registerEvent` (src/dynamic_graph/sot/core/utils/attime.py:55-57). -/
def Cal.append (c : Cal) (k : Key) (p : Pair) : Cal :=
  { c with events := fun k' => if k' = k then some ((c.events k).getD [] ++ [p]) else c.events k' }

/-- `registerEvent` (src/dynamic_graph/sot/core/utils/attime.py:48-57): a key that is not in the dictionary and a pair that is not in the list
are errors. -/
def Cal.registerEvent (c : Cal) (k : Key) (p : Pair) : Cal × Bool :=
  if k = .stop then
    match c.events .always with
    | none => (c, false)
    | some l =>
      if p ∈ l then (({ c with events := fun k' => if k' = .always then some (l.erase p) else c.events k' } : Cal).append k p, true)
      else (c, false)
  else (c.append k p, true)

/-- An argument of the registration: a callable object with its documentation and its member `functor`, a tuple, a string, or an object
without attributes, as a list. -/
inductive Arg where
  | fn (f : Nat) (doc : Option String) (functor : Option Pair)
  | tuple (p : Pair)
  | str (s : String)
  | other
deriving DecidableEq, Repr

/-- The loop of `registerEvents` (src/dynamic_graph/sot/core/utils/attime.py:67-74). -/
def Cal.registerLoop (c : Cal) (k : Key) : List Arg → Cal × Bool
  | [] => (c, true)
  | a :: as =>
    let r : Cal × Bool := match a with
      | .tuple p => c.registerEvent k p
      | .fn _ _ (some p) => c.registerEvent k p
      | .fn f doc none => c.registerEvent k (f, doc)
      | .str _ => (c, false)
      | .other => (c, false)
    if r.2 then r.1.registerLoop k as else r

/-- `registerEvents` (src/dynamic_graph/sot/core/utils/attime.py:59-74). -/
def Cal.registerEvents (c : Cal) (k : Key) (args : List Arg) : Cal × Bool :=
  match args with
  | [.fn f _ _, .str s] => c.registerEvent k (f, some s)
  | args => c.registerLoop k args

/-- `stop` (src/dynamic_graph/sot/core/utils/attime.py:45-46). -/
def Cal.stop (c : Cal) (args : List Arg) : Cal × Bool := c.registerEvents .stop args

/-- `addPing` (src/dynamic_graph/sot/core/utils/attime.py:76-77). -/
def Cal.addPing (c : Cal) (f : Nat) : Cal := { c with ping := c.ping ++ [f] }

/-- The decoration of the function `f` (src/dynamic_graph/sot/core/utils/attime.py:106-133): it is registered, and its name denotes a new
object `d`, whose documentation is completed and which has no member `functor`. -/
def Cal.decorate (c : Cal) (k : Key) (keyText : String) (f : Nat) (doc : Option String) (d : Nat) : (Cal × Bool) × Arg :=
  let doc' := doc.getD "No doc fun"
  (c.registerEvents k [.fn f (some doc') none, .str doc'],
    .fn d (if doc'.isEmpty then none else some (doc' ++ " (will be run at time " ++ keyText ++ ")")) none)

/-- What a call of a function does: the calendar after it, and whether it returned. -/
abbrev Effect := Nat → Cal → Cal × Bool

/-- The loop over the list of a key (src/dynamic_graph/sot/core/utils/attime.py:85-86, 89-98). -/
def loopKey (eff : Effect) (k : Key) : Nat → Nat → Cal → List Nat → Option (List Nat × Cal × Bool)
  | 0, _, _, _ => none
  | n + 1, i, c, tr =>
    match ((c.events k).getD [])[i]? with
    | none => some (tr, c, true)
    | some p =>
      let r := eff p.1 c
      if r.2 then loopKey eff k n (i + 1) r.1 (tr ++ [p.1]) else some (tr ++ [p.1], r.1, false)

/-- `callPing` (src/dynamic_graph/sot/core/utils/attime.py:79-81). -/
def loopPing (eff : Effect) : Nat → Nat → Cal → List Nat → Option (List Nat × Cal × Bool)
  | 0, _, _, _ => none
  | n + 1, i, c, tr =>
    match c.ping[i]? with
    | none => some (tr, c, true)
    | some f =>
      let r := eff f c
      if r.2 then loopPing eff n (i + 1) r.1 (tr ++ [f]) else some (tr ++ [f], r.1, false)

/-- `run` (src/dynamic_graph/sot/core/utils/attime.py:83-98), each loop having at most `n` turns. -/
def Cal.run (eff : Effect) (n : Nat) (c : Cal) (t : Int) : Option (List Nat × Cal × Bool) :=
  let first := if (c.events .always).isSome then loopKey eff .always n 0 c [] else some ([], c, true)
  match first with
  | none => none
  | some (tr, c1, false) => some (tr, c1, false)
  | some (tr, c1, true) =>
    if (c1.events (.at t)).isSome then
      match loopPing eff n 0 c1 tr with
      | none => none
      | some (tr2, c2, false) => some (tr2, c2, false)
      | some (tr2, c2, true) => loopKey eff (.at t) n 0 c2 tr2
    else some (tr, c1, true)

/-- `fastForward` (src/dynamic_graph/sot/core/utils/attime.py:135-137), over the times that remain. -/
def Cal.forward (eff : Effect) (n : Nat) : List Int → Cal → List Nat → Option (List Nat × Cal × Bool)
  | [], c, tr => some (tr, c, true)
  | t :: ts, c, tr =>
    match c.run eff n t with
    | none => none
    | some (tr2, c2, true) => forward eff n ts c2 (tr ++ tr2)
    | some (tr2, c2, false) => some (tr ++ tr2, c2, false)

/-- `fastForward` (src/dynamic_graph/sot/core/utils/attime.py:135-137). -/
def Cal.fastForward (eff : Effect) (n : Nat) (c : Cal) (t : Int) : Option (List Nat × Cal × Bool) :=
  Cal.forward eff n ((List.range (t + 1).toNat).map fun i => Int.ofNat i) c []

end Verif.Calendar
