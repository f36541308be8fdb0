import Verif.Common.Outcome

/-!
# Unchecked accesses with a signed index
-/

namespace Verif

/-- `v[k]` with a signed index, without range check. -/
def rdI {α : Type} (v : List α) (k : Int) : Outcome α := if k < 0 then .ub else rd v k.toNat

/-- `v[k] = x` with a signed index, without range check. -/
def wrI {α : Type} (v : List α) (k : Int) (x : α) : Outcome (List α) :=
  if 0 ≤ k ∧ k < v.length then .ok (v.set k.toNat x) else .ub

/-- `v[k] = x`, without range check. -/
def wr {α : Type} (v : List α) (k : Nat) (x : α) : Outcome (List α) :=
  if k < v.length then .ok (v.set k x) else .ub

@[simp] theorem rdI_natCast {α : Type} (v : List α) (k : Nat) : rdI v (k : Int) = rd v k := by
  have : ¬ ((k : Int) < 0) := by omega
  simp [rdI, this]

theorem wr_of_lt {α : Type} (v : List α) (k : Nat) (x : α) (h : k < v.length) : wr v k x = .ok (v.set k x) := by
  simp [wr, h]

theorem wrI_natCast {α : Type} (v : List α) (k : Nat) (x : α) : wrI v (k : Int) x = wr v k x := by
  simp [wrI, wr]

end Verif
