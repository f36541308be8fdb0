import Verif.Common.Outcome

/-!
# Model of the entities with a variable number of inputs (include/sot/core/variadic-op.hh) and of the switch
(include/sot/core/switch.hh)

An input signal is known by the rank of its creation and its short name; names given by the user contain no `:`, so that
the short name is the name given. From dynamic-graph only this is used: registering a signal under a short name already
registered in the entity raises an exception and changes nothing, deregistering an unknown name raises an exception.
-/

namespace Verif.Variadic

/-- A signal pointed to by `signalsIN`. -/
structure Sig where
  id : Nat
  name : String
  deriving DecidableEq, Repr

/-- A pointer stored in `signalsIN` (include/sot/core/variadic-op.hh:118). -/
inductive Slot where
  | null
  | live (g : Sig)
  | freed
  deriving DecidableEq, Repr

/-- The state of a variadic entity: `signalsIN`, the short names registered in the entity, the inputs the output
`SOUT` depends on, and the rank of the next signal. -/
structure State where
  inputs : List Slot
  registered : List String
  deps : List Nat
  next : Nat
  deriving DecidableEq, Repr

/-- Constructor (include/sot/core/variadic-op.hh:44-51). `reserved` are the names registered by the entity itself: `sout`,
and `selection` and `boolSelection` for the switch (include/sot/core/switch.hh:33). -/
def new (reserved : List String) : State := ⟨[], reserved, [], 0⟩

/-- The outcome of a method, with the state it leaves (meaningless after undefined behaviour). -/
abbrev Res := Outcome Unit × State

/-- Go on after a normal return. -/
def Res.andThen (r : Res) (f : State → Res) : Res :=
  match r.1 with
  | .ok _ => f r.2
  | _ => r

/-- `_declareSignal` (include/sot/core/variadic-op.hh:131-134). -/
def declare (s : State) (g : Sig) : Res :=
  if g.name ∈ s.registered then (.throw, s)
  else (.ok (), { s with registered := g.name :: s.registered, deps := g.id :: s.deps })

/-- `_removeSignal` (include/sot/core/variadic-op.hh:125-130). -/
def removeAt (s : State) (i : Nat) : Res :=
  match s.inputs[i]? with
  | some (.live g) =>
    if g.name ∈ s.registered then
      (.ok (), { s with registered := s.registered.filter (· ≠ g.name), deps := s.deps.filter (· ≠ g.id),
                        inputs := s.inputs.set i .freed })
    else (.throw, s)
  | _ => (.ub, s)

/-- `addSignal(name)` (include/sot/core/variadic-op.hh:69-80). -/
def addNamed (s : State) (name : String) : Res :=
  let g : Sig := ⟨s.next, name⟩
  (declare { s with next := s.next + 1 } g).andThen fun s' => (.ok (), { s' with inputs := s'.inputs ++ [.live g] })

/-- `"sin" << i`. -/
def defaultName (i : Nat) : String := "sin" ++ toString i

/-- `addSignal()` (include/sot/core/variadic-op.hh:63-67). -/
def addDefault (s : State) : Res := addNamed s (defaultName s.inputs.length)

/-- `removeSignal()` (include/sot/core/variadic-op.hh:82-87). -/
def removeLast (s : State) : Res :=
  if s.inputs.length = 0 then (.ub, s)
  else (removeAt s (s.inputs.length - 1)).andThen fun s' => (.ok (), { s' with inputs := s'.inputs.dropLast })

/-- The first loop of `setSignalNumber` (include/sot/core/variadic-op.hh:92), with `k` turns left. -/
def removeFrom (s : State) (i : Nat) : Nat → Res
  | 0 => (.ok (), s)
  | k + 1 => (removeAt s i).andThen fun s' => removeFrom s' (i + 1) k

/-- The second loop of `setSignalNumber` (include/sot/core/variadic-op.hh:96-105), with `k` turns left. -/
def declareFrom (s : State) (i : Nat) : Nat → Res
  | 0 => (.ok (), s)
  | k + 1 =>
    let g : Sig := ⟨s.next, defaultName i⟩
    (declare { s with next := s.next + 1, inputs := s.inputs.set i (.live g) } g).andThen fun s' =>
      declareFrom s' (i + 1) k

/-- `setSignalNumber` (include/sot/core/variadic-op.hh:89-107) without the final notification. -/
def setSignalNumber (s : State) (n : Int) : Res :=
  if n < 0 then (.ub, s)
  else
    let m := n.toNat
    let old := s.inputs.length
    (removeFrom s m (old - m)).andThen fun s' =>
      declareFrom { s' with inputs := s'.inputs.take m ++ List.replicate (m - old) .null } old (m - old)

/-- `getSignalNumber` (include/sot/core/variadic-op.hh:109). -/
def getSignalNumber (s : State) : Nat := s.inputs.length

/-- `getSignalIn` (include/sot/core/variadic-op.hh:111-115). -/
def getSignalIn (s : State) (i : Int) : Outcome Slot :=
  if i < 0 ∨ i ≥ s.inputs.length then .throw
  else match s.inputs[i.toNat]? with
    | some x => .ok x
    | none => .ub

/-- `Switch::signal` (include/sot/core/switch.hh:65-78). `selection` and `boolSelection` are `none` when not plugged; reading
an input that is not plugged raises an exception in dynamic-graph. `access` reads an input at the time of the call. -/
def switchSignal {V : Type} (s : State) (access : Sig → Outcome V) (selection : Option Int)
    (boolSelection : Option Bool) : Outcome V :=
  let sel : Outcome Int := match selection with
    | some k => .ok k
    | none => match boolSelection with
      | some b => .ok (if b then 1 else 0)
      | none => .throw
  sel.bind fun k =>
    if k < 0 ∨ k ≥ s.inputs.length then .throw
    else match s.inputs[k.toNat]? with
      | some (.live g) => access g
      | _ => .ub

end Verif.Variadic
