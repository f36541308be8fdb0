import Verif.Sot.Control

/-!
# Vocabulary of the statements about the control law

These definitions do not use the helper functions of the model, except `Regular`, which has to talk
about the singular values met along the run.
-/

namespace Verif.Sot

open Matrix Verif.MultiBound

variable {n : ℕ}

/-- The jacobian a level works with: a column is kept when the mask of the task reads `true` at that
joint, and is zero otherwise. -/
noncomputable def effJac (lv : Level n) : Matrix (Fin lv.m) (Fin n) ℝ :=
  open Classical in
  Matrix.of fun i j =>
    match lv.selec with
    | none => lv.jac i j
    | some f => if Flags.call f ((j : ℕ) : Int) = .ok true then lv.jac i j else 0

/-- The task asks for the velocity `e`: every component is a single bound with that value. -/
def Requests (lv : Level n) (e : Fin lv.m → ℝ) : Prop :=
  ∀ i, (lv.task i).mode = .single ∧ (lv.task i).boundSingle = e i

/-- Directions available to a level: all of them without kernel, the columns of the kernel otherwise. -/
def basis (k : Option (Kernel n)) : Kernel n := k.getD ⟨n, 1⟩

/-- No singular value met along the run lies in `(0, th]`. -/
def RegularFrom (svd : ∀ {m c : ℕ} (A : Matrix (Fin m) (Fin c) ℝ), Svd A)
    (th maxSq : ℝ) (accel : Bool) : List (Level n) → St n → Prop
  | [], _ => True
  | lv :: rest, st =>
    (∀ k, (svd (effJac lv * (basis st.kernel).K)).σ k ≤ th →
      (svd (effJac lv * (basis st.kernel).K)).σ k = 0) ∧
    ∀ st', levelStep svd th maxSq accel rest.isEmpty st lv = .ok st' →
      RegularFrom svd th maxSq accel rest st'

/-- The state of the loop before the first level. -/
def startSt (n : ℕ) (q0 : Option DynVec) (proj0 : Option DynMat) : St n :=
  match q0 with
  | some q => ⟨fun i => if h : i.val < q.size then q.v ⟨i.val, h⟩ else 0, false, initKernel n proj0, 0, []⟩
  | none => ⟨0, true, initKernel n proj0, 0, []⟩

/-- The run of the control law meets no singular value in `(0, th]`. -/
def Regular (svd : ∀ {m c : ℕ} (A : Matrix (Fin m) (Fin c) ℝ), Svd A)
    (n : ℕ) (th maxSq : ℝ) (accel : Bool) (q0 : Option DynVec) (proj0 : Option DynMat)
    (stack : List (Level n)) : Prop :=
  RegularFrom svd th maxSq accel stack (startSt n q0 proj0)

end Verif.Sot
