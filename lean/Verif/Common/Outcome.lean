/-!
# Outcomes of a C++ call

Every modelled function that can fail returns an `Outcome`: a normal value, a C++ exception, or
undefined behaviour (out-of-range access, null dereference, integer division by zero, ...).
Undefined behaviour is kept distinct from exceptions so that a theorem that says `= .ok v` also says
that the code is memory safe on that input.
-/

namespace Verif

/-- Result of a C++ call. `throw` stands for any C++ exception reaching the caller, `ub` for undefined
behaviour. Not tied to one place in /repo: it is the vocabulary of all the models. -/
inductive Outcome (α : Type) where
  | ok (a : α)
  | throw
  | ub
  deriving DecidableEq, Repr

namespace Outcome

/-- Sequencing: the second computation runs only after a normal return. -/
def bind {α β : Type} (x : Outcome α) (f : α → Outcome β) : Outcome β :=
  match x with
  | .ok a => f a
  | .throw => .throw
  | .ub => .ub

/-- Apply a function to the normal result. -/
def map {α β : Type} (f : α → β) (x : Outcome α) : Outcome β :=
  match x with
  | .ok a => .ok (f a)
  | .throw => .throw
  | .ub => .ub

@[simp] theorem bind_ok {α β : Type} (a : α) (f : α → Outcome β) : (Outcome.ok a).bind f = f a := rfl
@[simp] theorem bind_throw {α β : Type} (f : α → Outcome β) :
    (Outcome.throw : Outcome α).bind f = .throw := rfl
@[simp] theorem bind_ub {α β : Type} (f : α → Outcome β) :
    (Outcome.ub : Outcome α).bind f = .ub := rfl
@[simp] theorem map_ok {α β : Type} (a : α) (f : α → β) : (Outcome.ok a).map f = .ok (f a) := rfl
@[simp] theorem map_throw {α β : Type} (f : α → β) :
    (Outcome.throw : Outcome α).map f = .throw := rfl
@[simp] theorem map_ub {α β : Type} (f : α → β) : (Outcome.ub : Outcome α).map f = .ub := rfl

theorem bind_eq_ok {α β : Type} {x : Outcome α} {f : α → Outcome β} {b : β} :
    x.bind f = .ok b ↔ ∃ a, x = .ok a ∧ f a = .ok b := by
  cases x <;> simp

theorem map_eq_ok {α β : Type} {x : Outcome α} {f : α → β} {b : β} :
    x.map f = .ok b ↔ ∃ a, x = .ok a ∧ f a = b := by
  cases x <;> simp

end Outcome

/-- `v[i]` / `v(i)` of a C++ vector without range check: out of range is undefined behaviour. -/
def rd {α : Type} (v : List α) (i : Nat) : Outcome α :=
  match v[i]? with
  | some a => .ok a
  | none => .ub

@[simp] theorem rd_of_lt {α : Type} (v : List α) (i : Nat) (h : i < v.length) :
    rd v i = .ok v[i] := by
  simp [rd, List.getElem?_eq_getElem h]

theorem rd_eq_ok {α : Type} {v : List α} {i : Nat} {a : α} :
    rd v i = .ok a ↔ v[i]? = some a := by
  unfold rd
  cases h : v[i]? <;> simp

theorem rd_eq_ub {α : Type} {v : List α} {i : Nat} : rd v i = .ub ↔ v.length ≤ i := by
  unfold rd
  cases h : v[i]? with
  | none => simpa using h
  | some a =>
    simp
    exact (List.getElem?_eq_some_iff.mp h).1

end Verif
