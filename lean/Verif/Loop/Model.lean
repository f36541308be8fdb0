import Verif.Sot.Control
import Verif.Task.Model
import Verif.Device.Model
import Verif.Features.Model

/-!
# The closed loop: features, tasks, stack and device together

The state of the device is plugged into the features, the features belong to tasks (src/task/task.cpp), the tasks are in
the stack (src/sot/sot.cpp), whose control is plugged into the device (src/tools/device.cpp). This file connects the models of
these entities as the signals do; the entities themselves are modelled in `Verif.Features`, `Verif.Task`, `Verif.Sot` and
`Verif.Device`.

Simplifications: at each step every signal is computed once (the state is a new value at each step; the dependencies
that are declared are the matter of `Verif.Depend`). The option of the derivative of the error is off, the acceleration of the
posture is off (its default, src/sot/sot.cpp:66), no initial control and no projector are plugged. A state with a NaN is not
followed: reading it is `ub` here. The memory of a task that the resolution does not reach is allocated at the first step as well
(in the code, at the first step that reaches it, with the sizes of that step).
-/

namespace Verif.Loop

open Verif Verif.MultiBound

/-- What a task reads from a feature, as a function of the state: the error and the Jacobian
(src/task/task.cpp:188, 277). -/
structure Feat where
  err : List ℝ → Outcome (List ℝ)
  jac : List ℝ → Outcome (Task.DMat ℝ)

/-- A task: its features, its gain and the joints it controls (include/sot/core/task.hh:77, 108-110). -/
structure TaskDef where
  feats : List Feat
  gain : ℝ
  selec : Flags.Flags

/-- What a task keeps between two steps: the buffers of the error and of the Jacobian, and the sizes of the memory allocated by
the stack (src/sot/sot.cpp:399-408). -/
structure Buf where
  err : List ℝ
  jac : Task.DMat ℝ
  mem : Option (Nat × Nat)

/-- Nothing computed yet. -/
def Buf.new : Buf := ⟨[], ⟨0, 0, fun _ _ => none⟩, none⟩

/-- The values of all the elements, in order. -/
def collect {A B : Type} (f : A → Outcome B) : List A → Outcome (List B)
  | [] => .ok []
  | a :: l => (f a).bind fun b => (collect f l).map (b :: ·)

open scoped Classical in
/-- What the stack reads from a task: its vector and its Jacobian (src/sot/sot.cpp:536-540). The number of rows has to be the size of the
vector and the number of columns the number of joints; a component that was never written is not a number: `ub`. -/
noncomputable def level (n : Nat) (selec : Flags.Flags) (mem : Option (Nat × Nat)) (t : List (MultiBound ℝ)) (J : Task.DMat ℝ) :
    Outcome (Sot.Level n) :=
  if J.rows = t.length ∧ J.cols = n ∧ ∀ i < t.length, ∀ j < n, J.at_ i j ≠ none then
    .ok {
      m := t.length
      jac := Matrix.of fun i j => (J.at_ i.val j.val).getD 0
      selec := some selec
      task := fun i => t[i]
      fullPosture := false
      mem := mem }
  else .ub

/-- One task at one step: the level and what the task keeps (src/task/task.cpp:148-313). -/
noncomputable def evalTask (n : Nat) (q : List ℝ) (t : TaskDef) (b : Buf) : Outcome (Sot.Level n × Buf) :=
  (collect (fun f : Feat => f.err q) t.feats).bind fun es =>
  (Task.computeError b.err es).bind fun e =>
  (Task.computeTask t.gain false e []).bind fun v =>
  (collect (fun f : Feat => f.jac q) t.feats).bind fun js =>
  (Task.computeJacobian b.jac js).bind fun J =>
  (level n t.selec b.mem v J).map fun lv => (lv, ⟨e, J, some (b.mem.getD (v.length, n))⟩)

/-- All the tasks of the stack, in order (src/sot/sot.cpp:524-528). -/
noncomputable def evalTasks (n : Nat) (q : List ℝ) : List TaskDef → List Buf → Outcome (List (Sot.Level n × Buf))
  | t :: ts, b :: bs => (evalTask n q t b).bind fun r => (evalTasks n q ts bs).map (r :: ·)
  | _, _ => .ok []

/-- The numbers of the state of the device. -/
def numbers : List (Option ℝ) → Outcome (List ℝ)
  | [] => .ok []
  | none :: _ => .ub
  | some x :: l => (numbers l).map (x :: ·)

/-- The parameters of the loop: the decomposition, the number of joints, the threshold and the limit of the stack, the integration of
the base, the tasks, the period. -/
structure Params where
  svd : ∀ {m c : ℕ} (A : Matrix (Fin m) (Fin c) ℝ), Svd A
  n : Nat
  th : ℝ
  maxSq : ℝ
  ff : List (Option ℝ) → List (Option ℝ) → ℝ → (Fin 6 → Option ℝ)
  tasks : List TaskDef
  dt : ℝ

/-- The state of the loop: the device, what the tasks keep, and for each step done so far the levels reported as disabled. -/
structure St where
  dev : Device.Dev ℝ
  bufs : List Buf
  reports : List (List Nat)

/-- The control at a state (the loop on the tasks of the stack, src/sot/sot.cpp:524-548, reads the tasks; the resolution itself is
`Verif.Sot.computeControlLaw`). -/
noncomputable def control (P : Params) (s : St) : Outcome ((Fin P.n → ℝ) × List Nat × List Buf) :=
  (numbers s.dev.stateSOUT).bind fun q =>
  (evalTasks P.n q P.tasks s.bufs).bind fun lb =>
  (Sot.computeControlLaw P.svd P.n P.th P.maxSq false none none (lb.map Prod.fst)).map fun r =>
    (r.1, r.2, lb.map Prod.snd)

/-- One step: `increment` reads the control and integrates it (src/tools/device.cpp:414-476). -/
noncomputable def step (P : Params) (s : St) : Outcome St :=
  (control P s).bind fun c =>
  (Device.increment P.ff s.dev (List.ofFn fun i => some (c.1 i)) P.dt).map fun d => ⟨d, c.2.2, s.reports ++ [c.2.1]⟩

/-- Several steps. -/
noncomputable def steps (P : Params) : Nat → St → Outcome St
  | 0, s => .ok s
  | k + 1, s => (steps P k s).bind (step P)

/-- The loop at the beginning, with a device whose state can be read. -/
def start (P : Params) (d : Device.Dev ℝ) : St := ⟨d, P.tasks.map fun _ => .new, []⟩

/-- The feature of a posture as the task reads it (src/feature/feature-posture.cpp:73-86, 105-150). -/
def postureFeat (p : Features.Posture ℝ) (posture : List ℝ) : Feat where
  err q := p.error q posture (List.replicate p.nb 0)
  jac _ := .ok ⟨p.jac.length, p.jacCols, fun i j => (p.jac[i]?).bind fun r => r[j]?⟩

end Verif.Loop
