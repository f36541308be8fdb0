import Verif.Common.Outcome

/-!
# Model of the viewer helpers
(src/dynamic_graph/sot/core/utils/viewer_helper.py, src/dynamic_graph/sot/core/utils/viewer_loger.py)

Texts are lists of characters. The viewer is a list of what it received. Python functions assigned to the
class of the robot are constructors of a type; calling them is a function with a bound on the depth of calls,
which answers nothing when the bound is reached (Python raises `RecursionError` there).

Not modelled: what is printed on the terminal, `RobotViewerFaked.update`, the time at which the buffered files
reach the disk, names of elements with a `/` (the file is then in another directory).
-/

namespace Verif.Viewer

open Verif

abbrev Text := List Char

/-! ### The log -/

/-- What the log knows: the files of the disk, the opened files by element, and what the viewer received. -/
structure Log (V : Type) where
  disk : Text → Option Text
  opened : List Text
  shown : List (Text × List V)

/-- The beginning `/tmp/view` of the names of files
(src/dynamic_graph/sot/core/utils/viewer_loger.py:20, 26). -/
def tmpView : Text := ['/', 't', 'm', 'p', '/', 'v', 'i', 'e', 'w']

/-- The end of the names of files (src/dynamic_graph/sot/core/utils/viewer_loger.py:20, 26). -/
def dat : Text := ['.', 'd', 'a', 't']

/-- The file of an element (src/dynamic_graph/sot/core/utils/viewer_loger.py:26). -/
def filePath (name : Text) : Text := tmpView ++ '_' :: (name ++ dat)

/-- The files that `/tmp/view*.dat` stands for (src/dynamic_graph/sot/core/utils/viewer_loger.py:20). -/
def Globbed (p : Text) : Prop := ∃ x : Text, '/' ∉ x ∧ p = tmpView ++ (x ++ dat)

open scoped Classical in
/-- `ViewerLoger.__init__` (src/dynamic_graph/sot/core/utils/viewer_loger.py:16-21). -/
noncomputable def Log.init {V : Type} (disk : Text → Option Text) : Log V where
  disk p := if Globbed p then none else disk p
  opened := []
  shown := []

/-- `"\t".join(...)`: the elements with a separator between them
(src/dynamic_graph/sot/core/utils/viewer_loger.py:28-36). -/
def join (sep : Char) : List Text → Text
  | [] => []
  | [x] => x
  | x :: l => x ++ sep :: join sep l

/-- One line of the log: the time, the state, separated by tabulations
(src/dynamic_graph/sot/core/utils/viewer_loger.py:27-38). `str` is the text of a number. -/
def line {V : Type} (str : V → Text) (t : V) (state : List V) : Text :=
  join '\t' ((t :: state).map str) ++ ['\n']

/-- `ViewerLoger.updateElementConfig` (src/dynamic_graph/sot/core/utils/viewer_loger.py:23-39): the file is
emptied when the element is met for the first time, then the line is appended, then the viewer is called;
`fails` tells that the viewer raises an exception. -/
def Log.update {V : Type} (str : V → Text) (l : Log V) (fails : Bool) (t : V) (name : Text)
    (state : List V) : Log V × Outcome Unit :=
  let l : Log V := if name ∈ l.opened then l else
    { l with
      disk := fun p => if p = filePath name then some [] else l.disk p
      opened := name :: l.opened }
  let l : Log V :=
    { l with
      disk := fun p => if p = filePath name then (l.disk p).map (· ++ line str t state) else l.disk p }
  if fails then (l, .throw) else ({ l with shown := l.shown ++ [(name, state)] }, .ok ())

/-- A call of `updateElementConfig`. -/
structure Update (V : Type) where
  fails : Bool
  time : V
  name : Text
  state : List V

/-- A sequence of calls; the caller goes on after an exception. -/
def Log.run {V : Type} (str : V → Text) (l : Log V) (us : List (Update V)) : Log V :=
  us.foldl (fun l u => (l.update str u.fails u.time u.name u.state).1) l

/-! ### The robot and its class -/

/-- What a method of the robot can be: the one written in the class, or the one that shows the robot after
(src/dynamic_graph/sot/core/utils/viewer_helper.py:26-36). -/
inductive Meth where
  | orig
  | view
  deriving DecidableEq, Repr

/-- The attributes of the class that the helper reads and writes: absent when `none`. `stateFullSize` is the
number of zeros added to the state. -/
structure Cls where
  increment : Option Meth
  incrementNoView : Option Meth
  set : Option Meth
  setNoView : Option Meth
  refresh : Bool
  stateFullSize : Option Nat
  deriving DecidableEq, Repr

/-- The class before any call of the helper, with both methods. -/
def Cls.new : Cls := ⟨some .orig, none, some .orig, none, false, none⟩

/-- The viewer of a robot: absent, the real one, or the one that does nothing. -/
inductive Client where
  | absent
  | real
  | faked
  deriving DecidableEq, Repr

/-- The attributes of the robot itself: its viewer and whether it has a list of things to display. -/
structure Inst where
  viewer : Client
  hasList : Bool
  deriving DecidableEq, Repr

/-- What happens outside the helper: whether `robotviewer` can be imported, whether the client can be made,
whether the first refresh passes, and the options of the call. -/
structure Env where
  importOk : Bool
  clientOk : Bool
  refreshOk : Bool
  small : Bool
  smallExtra : Nat
  dorefresh : Bool
  deriving DecidableEq, Repr

/-- `addRobotViewer` (src/dynamic_graph/sot/core/utils/viewer_helper.py:39-80): the class and the robot after.
Any exception ends in the viewer that does nothing; what was assigned before stays. -/
def addRobotViewer (e : Env) (c : Cls) (i : Inst) : Cls × Inst :=
  let faked (c : Cls) (i : Inst) : Cls × Inst := (c, { i with viewer := .faked })
  if !e.importOk then faked c i
  else
    let c := { c with stateFullSize := some (if e.small then e.smallExtra else 0) }
    if !e.clientOk then faked c i
    else
      let i := { i with viewer := .real }
      let c := { c with refresh := true }
      match c.increment with
      | none => faked c i
      | some inc =>
        let c := { c with incrementNoView := some inc }
        let c := { c with increment := some .view }
        match c.set with
        | none => faked c i
        | some st =>
          let c := { c with setNoView := some st }
          let c := { c with set := some .view }
          let i := { i with hasList := true }
          if e.dorefresh && !e.refreshOk then faked c i else (c, i)

/-- What is observed of a robot: its own step or its own setting is run, the viewer receives its
configuration, the things to display are displayed. -/
inductive Ev where
  | stepped
  | wasSet
  | sent
  | displayed
  deriving DecidableEq, Repr

/-- `refreshView` (src/dynamic_graph/sot/core/utils/viewer_helper.py:13-23) on a robot whose state can be
read: the events and how it ends. The viewer that does nothing receives nothing. -/
def refresh (c : Cls) (i : Inst) : List Ev × Outcome Unit :=
  if !c.refresh then ([], .throw)
  else match i.viewer with
    | .absent => ([], .throw)
    | v =>
      if c.stateFullSize.isNone then ([], .throw)
      else
        let ev := if v = .real then [Ev.sent] else []
        if i.hasList then (ev ++ [.displayed], .ok ()) else (ev, .throw)

/-- Calling `robot.increment(dt)` (`own := .stepped`) or `robot.set(...)` (`own := .wasSet`), where `m` is the
attribute called and `noView` the one called by `incrementView` or `setView`
(src/dynamic_graph/sot/core/utils/viewer_helper.py:26-36): at most `depth` nested calls, `none` when they do not
suffice. -/
def call (c : Cls) (i : Inst) (own : Ev) (noView : Option Meth) :
    Nat → Option Meth → Option (List Ev × Outcome Unit)
  | 0, _ => none
  | _ + 1, none => some ([], .throw)
  | _ + 1, some .orig => some ([own], .ok ())
  | d + 1, some .view =>
    match call c i own noView d noView with
    | none => none
    | some (ev, .ok ()) => let r := refresh c i; some (ev ++ r.1, r.2)
    | some (ev, o) => some (ev, o)

/-- `robot.increment(dt)` after the helper. -/
def increment (c : Cls) (i : Inst) (depth : Nat) : Option (List Ev × Outcome Unit) :=
  call c i .stepped c.incrementNoView depth c.increment

/-- `robot.set(...)` after the helper. -/
def setCfg (c : Cls) (i : Inst) (depth : Nat) : Option (List Ev × Outcome Unit) :=
  call c i .wasSet c.setNoView depth c.set

/-- The name under which `refreshView` sends the robot
(src/dynamic_graph/sot/core/utils/viewer_helper.py:14-19). -/
def sentName (name : String) : String :=
  let _first := if name = "robot" then some "hrp" else none
  if name = "robot_device" then "hrp" else name

/-- The value of the signal of the state: a tuple of numbers or an array of the numeric library. -/
inductive Value (V : Type) where
  | tuple (l : List V)
  | array (l : List V)

/-- `stateFullSize` (src/dynamic_graph/sot/core/utils/viewer_helper.py:9-10) with `extra` zeros: a tuple is
concatenated; adding a tuple to an array adds the components, a length of one being repeated, and raises an
exception when the lengths differ otherwise. -/
def stateFullSize {V : Type} (zero : V) (extra : Nat) : Value V → Outcome (List V)
  | .tuple l => .ok (l ++ List.replicate extra zero)
  | .array l =>
    if extra = l.length ∨ extra = 1 then .ok l
    else match l with
      | [x] => .ok (List.replicate extra x)
      | _ => .throw

/-- `VisualPinger.__init__` (src/dynamic_graph/sot/core/utils/viewer_helper.py:88-94): the member `pos` and
the values of `pos` sent so far (the height sent is a tenth of it). -/
def pingInit : Nat × List Nat := (1, [1])

/-- `VisualPinger.__call__` (src/dynamic_graph/sot/core/utils/viewer_helper.py:96-98). -/
def pingCall (s : Nat × List Nat) : Nat × List Nat := (s.1 + 1, s.2 ++ [s.1 + 1])

/-- The pinger after `n` calls. -/
def pings : Nat → Nat × List Nat
  | 0 => pingInit
  | n + 1 => pingCall (pings n)

/-- `updateComDisplay` (src/dynamic_graph/sot/core/utils/viewer_helper.py:101-105): what the viewer receives,
if anything. -/
def updateComDisplay {V : Type} (zero : V) (time : Int) (value : List V) : Outcome (Option (List V)) :=
  if 0 < time then
    match value with
    | x :: y :: _ => .ok (some [x, y, zero, zero, zero, zero])
    | _ => .throw
  else .ok none

end Verif.Viewer
