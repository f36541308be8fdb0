import Mathlib.Data.List.Basic

/-!
# Vocabulary of the properties of the features
-/

namespace Verif.Features

/-- The selected positions below `n`, in order. -/
def picked (sel : Nat → Bool) (n : Nat) : List Nat := (List.range n).filter sel

/-- What a history of requests (joint, activate or not) asks for the joint `i`: the last one about it; inactive when there
is none. -/
def wanted (hist : List (Nat × Bool)) (i : Nat) : Bool :=
  match hist.reverse.find? (fun r => r.1 == i) with
  | some r => r.2
  | none => false

/-- Row `i` of the identity of size `n`. -/
def unitRow {F : Type} [Zero F] [One F] (n i : Nat) : List F := (List.range n).map fun j => if j = i then 1 else 0

end Verif.Features
