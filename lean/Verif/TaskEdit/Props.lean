import Verif.TaskEdit.Model
import Verif.Depend.Props
import Verif.Flags.Props
import Verif.Task.ErrorProps
import Verif.Task.JacobianProps
import Verif.Task.TaskProps

/-!
# C128: the features of a task, the selection of its controls, and the answers of its outputs
-/

namespace Verif.TaskEdit

open Verif.MultiBound Verif.Depend
open Verif.Flags (Flags)

variable {F : Type}

/-! ### The list of features -/

/-- The features that the commands add, the unknown names being skipped. -/
def added (find : String → Option F) (l : List Cmd) : List F :=
  l.filterMap fun c => match c with
    | .add name => find name
    | _ => none

variable [DecidableEq F] {find : String → Option F}

theorem step_add (s : State F) (name : String) :
    step find s (.add name) = match find name with
      | some f => addFeature s f
      | none => s := by
  simp only [step, addFromName]
  cases find name <;> rfl

theorem features_noClear : ∀ (l : List Cmd), (∀ c ∈ l, c ≠ .clear) → ∀ s : State F, (run find s l).features = s.features ++ added find l
  | [], _, s => by simp [run, added]
  | c :: l, h, s => by
    have ih := features_noClear l (fun c hc => h c (List.mem_cons_of_mem _ hc)) (step find s c)
    have : run find s (c :: l) = run find (step find s c) l := rfl
    rw [this, ih]
    cases c with
    | add name => rw [step_add]; cases hf : find name <;> simp [added, hf, addFeature]
    | clear => exact absurd rfl (h .clear List.mem_cons_self)
    | setWithDerivative b => simp [step, added]
    | setSelection a => simp [step, added]
    | addSelection a => simp [step, added, addControlSelection]
    | clearSelection => simp [step, added]

/-- **C128.** The features of a task are the known ones that were added since it was created or last cleared, in the order of the commands
and as many times as they were added, whatever the other commands. -/
theorem C128_list (k : Kind) (h l : List Cmd) (hl : ∀ c ∈ l, c ≠ .clear) :
    (run find (new k) l).features = added find l ∧ (run find (new k) (h ++ .clear :: l)).features = added find l := by
  refine ⟨by rw [features_noClear l hl]; rfl, ?_⟩
  have : run find (new k) (h ++ .clear :: l) = run find (clear (run find (new k) h)) l := by simp [run, step]
  rw [this, features_noClear l hl]
  rfl

/-- **C128.** A name that the pool does not know is refused with an exception and changes nothing; a known one is accepted. -/
theorem C128_name (s : State F) (name : String) :
    (find name = none → addFromName find s name = .throw ∧ step find s (.add name) = s) ∧
      (∀ f, find name = some f → ∃ s', addFromName find s name = .ok s' ∧ step find s (.add name) = s' ∧ s'.features = s.features ++ [f]) := by
  constructor
  · intro h
    simp [addFromName, step, h]
  · intro f h
    exact ⟨addFeature s f, by simp [addFromName, h], by simp [step, addFromName, h], rfl⟩

/-! ### The declared dependencies -/

/-- What an output of a task of class `k` with these features depends on. -/
def Declared (k : Kind) (feats : List F) : Out → Sig F → Prop
  | .error, s => ∃ f ∈ feats, s = .featError f
  | .derivative, s => s = .error ∨ ∃ f ∈ feats, s = .featErrorDot f
  | .jacobian, s => s = .selec ∨ ∃ f ∈ feats, s = .featJacobian f
  | .task, s =>
    match k with
    | .unilateral => s = .position ∨ s = .dt ∨ s = .referenceInf ∨ s = .referenceSup
    | .pd => s = .gain ∨ s = .error ∨ s = .derivative ∨ s = .variationOut
    | _ => s = .gain ∨ s = .error ∨ s = .derivative

/-- The dependencies of the outputs are those of the features of the list. -/
def Exact (k : Kind) (s : State F) : Prop := ∀ o i, i ∈ s.deps o ↔ Declared k s.features o i

theorem exact_new (k : Kind) : Exact k (new k : State F) := by
  intro o i
  cases o <;> cases k <;> simp [new, newDeps, Declared] <;> tauto

theorem exact_add {k : Kind} {s : State F} (h : Exact k s) (f : F) : Exact k (addFeature s f) := by
  intro o i
  have := h o i
  cases o <;> simp only [addFeature, addDep, if_true, if_false, reduceCtorEq, List.mem_cons, Declared, List.mem_append, List.not_mem_nil,
    or_false] at this ⊢
  · rw [this]; constructor
    · rintro (rfl | ⟨g, hg, rfl⟩)
      · exact ⟨f, Or.inr rfl, rfl⟩
      · exact ⟨g, Or.inl hg, rfl⟩
    · rintro ⟨g, hg | rfl, rfl⟩
      · exact Or.inr ⟨g, hg, rfl⟩
      · exact Or.inl rfl
  · rw [this]; constructor
    · rintro (rfl | rfl | ⟨g, hg, rfl⟩)
      · exact Or.inr ⟨f, Or.inr rfl, rfl⟩
      · exact Or.inl rfl
      · exact Or.inr ⟨g, Or.inl hg, rfl⟩
    · rintro (rfl | ⟨g, hg | rfl, rfl⟩)
      · exact Or.inr (Or.inl rfl)
      · exact Or.inr (Or.inr ⟨g, hg, rfl⟩)
      · exact Or.inl rfl
  · rw [this]; constructor
    · rintro (rfl | rfl | ⟨g, hg, rfl⟩)
      · exact Or.inr ⟨f, Or.inr rfl, rfl⟩
      · exact Or.inl rfl
      · exact Or.inr ⟨g, Or.inl hg, rfl⟩
    · rintro (rfl | ⟨g, hg | rfl, rfl⟩)
      · exact Or.inr (Or.inl rfl)
      · exact Or.inr (Or.inr ⟨g, hg, rfl⟩)
      · exact Or.inl rfl
  · exact this

theorem mem_removeDeps (o : Out) (i : Sig F) : ∀ (l : List F) (d : Out → List (Sig F)), i ∈ removeDeps l d o ↔ i ∈ d o ∧ ∀ f ∈ l,
      ¬(o = .jacobian ∧ i = .featJacobian f) ∧ ¬(o = .error ∧ i = .featError f) ∧ ¬(o = .derivative ∧ i = .featErrorDot f)
  | [], d => by simp [removeDeps]
  | f :: l, d => by
    rw [removeDeps, mem_removeDeps o i l]
    cases o <;> simp [removeDep] <;> tauto

theorem exact_clear {k : Kind} {s : State F} (h : Exact k s) : Exact k (clear s) := by
  intro o i
  simp only [clear, mem_removeDeps, h o i]
  cases o <;> simp only [Declared, reduceCtorEq, false_and, not_false_eq_true, true_and, and_true, List.not_mem_nil, exists_false,
    or_false, implies_true, true_and, and_true]
  · simp only [iff_false, not_and]
    rintro ⟨f, hf, rfl⟩ hn
    exact hn f hf rfl
  · constructor
    · rintro ⟨rfl | ⟨f, hf, rfl⟩, hn⟩
      · rfl
      · exact absurd rfl (hn f hf)
    · rintro rfl
      exact ⟨Or.inl rfl, by simp⟩
  · constructor
    · rintro ⟨rfl | ⟨f, hf, rfl⟩, hn⟩
      · rfl
      · exact absurd rfl (hn f hf)
    · rintro rfl
      exact ⟨Or.inl rfl, by simp⟩

theorem exact_run (k : Kind) : ∀ (l : List Cmd) (s : State F), Exact k s → Exact k (run find s l)
  | [], _, h => h
  | c :: l, s, h => by
    refine exact_run k l (step find s c) ?_
    cases c with
    | add name =>
      rw [step_add]
      cases find name with
      | none => exact h
      | some f => exact exact_add h f
    | clear => exact exact_clear h
    | setWithDerivative b => exact h
    | setSelection a => exact h
    | addSelection a => exact h
    | clearSelection => exact h

/-- **C128.** After every history, the outputs of a task depend on the signals of the features of its list, on no other feature, and on
their own inputs: a feature that is cleared is forgotten, also when it was added twice. -/
theorem C128_depends (k : Kind) (l : List Cmd) (o : Out) (i : Sig F) :
    i ∈ (run find (new k) l).deps o ↔ Declared k (run find (new k) l).features o i := exact_run k l _ (exact_new k) o i

/-! ### The signals that are read are declared -/

variable {R : Type}

/-- **C128.** As long as the task is not edited, the error, the derivative and the jacobian of a task of any class answer the values for the
present signals, whatever its history. -/
theorem C128_features_up_to_date [Zero R] (k : Kind) (l : List Cmd) (prev : List R) (J : Task.DMat R) :
    UpToDate (errorOut (run find (new k) l) prev) ∧ UpToDate (derivativeOut (R := R) (run find (new k) l)) ∧
      UpToDate (jacobianOut (run find (new k) l) J) := by
  have h := C128_depends (find := find) k l
  refine ⟨?_, ?_, ?_⟩ <;> rw [C120_iff] <;> intro x y hxy
  · have : (run find (new k) l).features.map (fun f => x (.featError f)) = (run find (new k) l).features.map fun f => y (.featError f) :=
      List.map_congr_left fun f hf => hxy _ ((h .error _).mpr ⟨f, hf, rfl⟩)
    simp only [errorOut]
    exact congrArg _ this
  · have : (run find (new k) l).features.map (fun f => x (.featErrorDot f)) =
        (run find (new k) l).features.map fun f => y (.featErrorDot f) :=
      List.map_congr_left fun f hf => hxy _ ((h .derivative _).mpr (Or.inr ⟨f, hf, rfl⟩))
    have he : x .error = y .error := hxy _ ((h .derivative _).mpr (Or.inl rfl))
    simp only [derivativeOut]
    rw [he]
    exact congrArg _ this
  · have : (run find (new k) l).features.map (fun f => x (.featJacobian f)) =
        (run find (new k) l).features.map fun f => y (.featJacobian f) :=
      List.map_congr_left fun f hf => hxy _ ((h .jacobian _).mpr (Or.inr ⟨f, hf, rfl⟩))
    simp only [jacobianOut]
    exact congrArg _ this

/-- **C128.** So do the velocity of a task, also with the derivative of the error, and that of a unilateral task. -/
theorem C128_task_up_to_date [Ring R] (l : List Cmd) : UpToDate (taskOut (R := R) (run find (new .plain) l)) := by
  have h := C128_depends (find := find) .plain l .task
  rw [C120_iff]
  intro x y hxy
  have h1 : x .gain = y .gain := hxy _ ((h _).mpr (Or.inl rfl))
  have h2 : x .error = y .error := hxy _ ((h _).mpr (Or.inr (Or.inl rfl)))
  have h3 : x .derivative = y .derivative := hxy _ ((h _).mpr (Or.inr (Or.inr rfl)))
  simp only [taskOut, decrease, h1, h2, h3]

/-- **C128.** The velocity of a unilateral task. -/
theorem C128_unilateral_up_to_date [Zero R] [Sub R] [Div R] (l : List Cmd) :
    UpToDate (unilateralOut (R := R) (run find (new .unilateral) l)) := by
  have h := C128_depends (find := find) .unilateral l .task
  rw [C120_iff]
  intro x y hxy
  have h1 : x .position = y .position := hxy _ ((h _).mpr (Or.inl rfl))
  have h2 : x .dt = y .dt := hxy _ ((h _).mpr (Or.inr (Or.inl rfl)))
  have h3 : x .referenceInf = y .referenceInf := hxy _ ((h _).mpr (Or.inr (Or.inr (Or.inl rfl))))
  have h4 : x .referenceSup = y .referenceSup := hxy _ ((h _).mpr (Or.inr (Or.inr (Or.inr rfl))))
  simp only [unilateralOut, h1, h2, h3, h4]

/-- **C128.** The velocity of a PD task forgets the input of the variation of the error: what another entity computes there is not seen
before another signal of the task is set. -/
theorem C128_pd_counterexample (l : List Cmd) (hw : (run find (new .pd) l).withDerivative = false) :
    Forgets (pdOut (1 : ℚ) (run find (new .pd) l)) .variationIn := by
  have h := C128_depends (find := find) .pd l .task .variationIn
  refine ⟨fun hi => ?_, fun i => match i with
    | .featError _ => ([] : List ℚ)
    | .featErrorDot _ => ([] : List ℚ)
    | .featJacobian _ => (⟨0, 0, fun _ _ => none⟩ : Task.DMat ℚ)
    | .gain => (0 : ℚ)
    | .selec => (⟨[], true⟩ : Flags)
    | .error => ([0] : List ℚ)
    | .derivative => ([] : List (Option ℚ))
    | .variationOut => ([] : List ℚ)
    | .variationIn => ([0] : List ℚ)
    | .referenceSup => ([] : List ℚ)
    | .referenceInf => ([] : List ℚ)
    | .dt => (0 : ℚ)
    | .position => ([] : List ℚ), ([1] : List ℚ), ?_⟩
  · have := h.mp hi
    simp [Declared] at this
  · intro he
    simp [pdOut, decrease, hw, Function.update, Task.pdLoop, getSingleBound, ofSingle, rd] at he

/-- **C128.** The jacobian declares the selection of the controls, and does not read it: the stack, which reads it and depends on the
jacobian, sees its changes, and the jacobian itself is computed again to the same value. -/
theorem C128_selection_seen (k : Kind) (l : List Cmd) (J : Task.DMat R) (x y : ∀ i : Sig F, Val R i)
    (hxy : ∀ i, i ≠ .selec → x i = y i) :
    Sig.selec ∈ (run find (new k) l).deps .jacobian ∧
      (jacobianOut (run find (new k) l) J).compute x = (jacobianOut (run find (new k) l) J).compute y := by
  refine ⟨(C128_depends k l .jacobian _).mpr (Or.inl rfl), ?_⟩
  simp only [jacobianOut]
  congr 1
  exact List.map_congr_left fun f _ => hxy (.featJacobian f) (by simp)

/-! ### What the outputs are -/

/-- **C128.** The error and the jacobian of a task are those of its features put one after the other in the order of the list, once the
outputs have the size; a task without features has none. -/
theorem C128_values [Zero R] (s : State F) (x : ∀ i : Sig F, Val R i) (prev : List R) (J : Task.DMat R) (errs : F → List R)
    (jacs : F → Task.DMat R) (he : ∀ f, x (.featError f) = errs f) (hJ : ∀ f, x (.featJacobian f) = jacs f) :
    (s.features ≠ [] → (s.features.flatMap errs).length ≤ prev.length → (errorOut s prev).compute x = .ok (s.features.flatMap errs)) ∧
      (s.features ≠ [] → 0 < J.cols → (∀ f ∈ s.features, (jacs f).cols = J.cols) →
        ∃ K, (jacobianOut s J).compute x = .ok K ∧ Task.IsStack K (s.features.map jacs) J.cols) ∧
      (s.features = [] → (errorOut s prev).compute x = .throw ∧ (jacobianOut s J).compute x = .throw) := by
  have e1 : s.features.map (fun f => x (.featError f)) = s.features.map errs := List.map_congr_left fun f _ => he f
  have e2 : s.features.map (fun f => x (.featJacobian f)) = s.features.map jacs := List.map_congr_left fun f _ => hJ f
  have c1 : (errorOut s prev).compute x = Task.computeError prev (s.features.map errs) := congrArg (Task.computeError prev) e1
  have c2 : (jacobianOut s J).compute x = Task.computeJacobian J (s.features.map jacs) := congrArg (Task.computeJacobian J) e2
  refine ⟨fun hn hl => ?_, fun hn hc ha => ?_, fun hn => ⟨?_, ?_⟩⟩
  · rw [c1, Task.C14_concatenation_partial prev (s.features.map errs) (by simpa using hn) (by rwa [← List.flatMap_def]), ← List.flatMap_def]
  · rw [c2]
    exact Task.C15_stack_partial J (s.features.map jacs) J.cols hc rfl (by simpa using hn) (by simpa using ha)
  · rw [c1, hn]; rfl
  · rw [c2, hn]; rfl

/-- **C128.** The derivative of a task is that of its features put one after the other, when it has the size of the error. -/
theorem C128_derivative (s : State F) (x : ∀ i : Sig F, Val R i) (err : List R) (dots : F → List R) (he : x .error = err)
    (hd : ∀ f, x (.featErrorDot f) = dots f) (hl : (s.features.flatMap dots).length = err.length) :
    (derivativeOut s).compute x = .ok ((s.features.flatMap dots).map some) := by
  have e1 : s.features.map (fun f => x (.featErrorDot f)) = s.features.map dots := List.map_congr_left fun f _ => hd f
  have c1 : (derivativeOut s).compute x = Task.computeErrorTimeDerivative err.length (s.features.map dots) := by
    have : (derivativeOut s).compute x = Task.computeErrorTimeDerivative (List.length (α := R) (x .error)) (s.features.map dots) :=
      congrArg (Task.computeErrorTimeDerivative _) e1
    rw [this, he]
  rw [c1, Task.computeErrorTimeDerivative, Task.dotLoop_ok _ _ _ (by rw [List.length_replicate, ← List.flatMap_def]; omega),
    List.drop_eq_nil_of_le (by rw [List.length_replicate, ← List.flatMap_def]; omega), ← List.flatMap_def]
  simp

/-- **C128.** The velocity of a task, without and with the derivative, and that of a PD task. -/
theorem C128_velocity [CommRing R] (s : State F) (x : ∀ i : Sig F, Val R i) (err dot var : List R) (gain beta : R) (he : x .error = err)
    (hg : x .gain = gain) (hd : x .derivative = dot.map some) (hv : x .variationIn = var) (h1 : dot.length = err.length)
    (h2 : var.length = err.length) :
    (∃ t, (taskOut s).compute x = .ok t ∧ Task.Singles t (if s.withDerivative then List.zipWith (fun e d => -(gain * e) - d) err dot
        else err.map fun e => -(gain * e))) ∧
      ∃ t, (pdOut beta s).compute x = .ok t ∧
        Task.Singles t (List.zipWith (fun r d => r - beta * d)
          (if s.withDerivative then List.zipWith (fun e d => -(gain * e) - d) err dot else err.map fun e => -(gain * e)) var) := by
  have key : decrease s x = .ok ((if s.withDerivative then List.zipWith (fun e d => -(gain * e) - d) err dot
      else err.map fun e => -(gain * e)).map fun r => ofSingle 0 r) := by
    have hm : (err.map fun e => ofSingle (0 : R) (-e * gain)) = (err.map fun e => -(gain * e)).map fun r => ofSingle (0 : R) r := by
      rw [List.map_map]; congr 1; funext e; simp only [Function.comp]; congr 1; ring
    simp only [decrease]
    rw [he, hg, hd]
    by_cases hw : s.withDerivative = true
    · simp only [hw, if_true]
      refine (congrArg (fun r => Task.subtractLoop (dot.map some) r 0) hm).trans ?_
      rw [Task.subtractLoop_ok dot _ 0 (by rw [List.length_map]; omega), List.drop_zero, List.zipWith_map_left]
    · simp only [hw, Bool.false_eq_true, if_false]
      exact congrArg Outcome.ok hm
  refine ⟨⟨_, key, Task.singles_map _⟩, ⟨_, ?_, Task.singles_map (List.zipWith (fun r d => r - beta * d)
      (if s.withDerivative then List.zipWith (fun e d => -(gain * e) - d) err dot else err.map fun e => -(gain * e)) var)⟩⟩
  simp only [pdOut, key, Outcome.bind_ok]
  rw [hv]
  refine (Task.pdLoop_ok beta var _ 0 ?_).trans (by rw [List.drop_zero])
  by_cases hw : s.withDerivative = true
  · simp [hw, h1, h2]
  · simp [hw, h2]

/-- **C128.** The velocity of a unilateral task: a velocity is between its bounds exactly when it leads, after `dt`, between the references. -/
theorem C128_unilateral (s : State F) (x : ∀ i : Sig F, Val ℚ i) (lo up pos : List ℚ) (dt : ℚ) (hi : x .referenceInf = lo)
    (hs : x .referenceSup = up) (hp : x .position = pos) (ht : x .dt = dt) (hdt : 0 < dt) (h1 : lo.length = pos.length)
    (h2 : up.length = pos.length) :
    ∃ t, (unilateralOut s).compute x = .ok t ∧ t.length = pos.length ∧ ∀ k (h : k < pos.length) (_ : k < t.length),
      ∃ a b, getDoubleBound t[k] .inf = .ok a ∧ getDoubleBound t[k] .sup = .ok b ∧
        ∀ v, (a ≤ v ∧ v ≤ b) ↔ (lo[k] ≤ pos[k] + v * dt ∧ pos[k] + v * dt ≤ up[k]) := by
  obtain ⟨t, he, hl, hk⟩ := Task.C18_velocity_iff_position lo up pos dt hdt (by omega) (by omega)
  refine ⟨t, ?_, hl, fun k h h' => ?_⟩
  · rw [← he]
    simp only [unilateralOut]
    rw [hi, hs, hp, ht]
  · obtain ⟨_, _, a, b, ha, hb, hv⟩ := hk k h h'
    exact ⟨a, b, ha, hb, hv⟩

/-! ### Edits between the questions -/

variable {V : Sig F → Type} {β : Type} {out : State F → Output V β}

/-- The answer to a question. -/
def answer (find : String → Option F) (out : State F → Output V β) (s : State F) (c : Cache V β) : List β := (live find out s c .ask).2

/-- The signals now, from the values `x` of the beginning. -/
def present (x : ∀ i, V i) : List (Event V) → ∀ i, V i
  | [] => x
  | .set who y :: l => present (fun i => if who i then y i else x i) l
  | _ :: l => present x l

/-- The edits among the events. -/
def edits (l : List (Event V)) : List Cmd :=
  l.filterMap fun e => match e with
    | .edit c => some c
    | _ => none

theorem after_cons (s : State F) (c : Cache V β) (e : Event V) (l : List (Event V)) :
    after find out s c (e :: l) = after find out (live find out s c e).1.1 (live find out s c e).1.2 l := rfl

theorem after_append (s : State F) (c : Cache V β) (l m : List (Event V)) :
    after find out s c (l ++ m) = after find out (after find out s c l).1 (after find out s c l).2 m := by
  simp [after, List.foldl_append]

theorem ask_inputs (o : Output V β) (c : Cache V β) : (o.step c .ask).1.inputs = c.inputs := by
  simp only [Output.step]
  split
  · split <;> rfl
  · rfl

theorem ask_stale {o : Output V β} {c : Cache V β} (h : o.stale c = true) :
    o.step c .ask = (⟨c.inputs, fun _ => false, some (o.compute c.inputs)⟩, [o.compute c.inputs]) := by
  simp only [Output.step]
  cases hv : c.value with
  | none => rfl
  | some b => simp [h]

theorem ask_not_stale {o : Output V β} {c : Cache V β} (h : o.stale c = false) : ∃ b, c.value = some b ∧ o.step c .ask = (c, [b]) := by
  cases hv : c.value with
  | none => simp [Output.stale, hv] at h
  | some b => exact ⟨b, rfl, by simp [Output.step, hv, h]⟩

theorem after_state : ∀ (l : List (Event V)) (s : State F) (c : Cache V β), (after find out s c l).1 = run find s (edits l)
  | [], _, _ => rfl
  | .set who x :: l, s, c => by rw [after_cons, after_state l]; rfl
  | .edit e :: l, s, c => by rw [after_cons, after_state l]; rfl
  | .ask :: l, s, c => by rw [after_cons, after_state l]; rfl

theorem after_inputs : ∀ (l : List (Event V)) (s : State F) (c : Cache V β), (after find out s c l).2.inputs = present c.inputs l
  | [], _, _ => rfl
  | .set who x :: l, s, c => by rw [after_cons, after_inputs l]; rfl
  | .edit e :: l, s, c => by rw [after_cons, after_inputs l]; rfl
  | .ask :: l, s, c => by rw [after_cons, after_inputs l, live, ask_inputs]; rfl

theorem set_stays {i : Sig F} : ∀ (m : List (Event V)), .ask ∉ m → ∀ (s : State F) (c : Cache V β), c.set i = true →
    (after find out s c m).2.set i = true
  | [], _, _, _, h => h
  | .set who x :: m, hm, s, c, h => by
    rw [after_cons]
    exact set_stays m (fun h => hm (List.mem_cons_of_mem _ h)) _ _ (by simp [live, Output.step, h])
  | .edit e :: m, hm, s, c, h => by
    rw [after_cons]
    exact set_stays m (fun h => hm (List.mem_cons_of_mem _ h)) _ _ h
  | .ask :: m, hm, _, _, _ => absurd List.mem_cons_self hm

theorem set_marks {i : Sig F} {who : Sig F → Bool} {y : ∀ i, V i} (hw : who i = true) : ∀ (m : List (Event V)), .ask ∉ m →
    .set who y ∈ m → ∀ (s : State F) (c : Cache V β), (after find out s c m).2.set i = true
  | [], _, h, _, _ => by simp at h
  | e :: m, hm, h, s, c => by
    have hm' : Event.ask ∉ m := fun h => hm (List.mem_cons_of_mem _ h)
    rw [after_cons]
    rcases List.mem_cons.mp h with rfl | h
    · exact set_stays m hm' _ _ (by simp [live, Output.step, hw])
    · exact set_marks hw m hm' h _ _

/-- **C128.** After any events, when a signal that the output declares now has been set since the last question, the answer is the value of
the output of the task as it is now, for the present signals: an edit is taken into account with the next change of a signal of the
features of the new list. -/
theorem C128_touched (k : Kind) (x : ∀ i, V i) (h m : List (Event V)) (hm : .ask ∉ m) {who : Sig F → Bool} {y : ∀ i, V i}
    (hs : .set who y ∈ m) {i : Sig F} (hw : who i = true) (hi : i ∈ (out (run find (new k) (edits (h ++ m)))).deps) :
    answer find out (after find out (new k) (Cache.new x) (h ++ m)).1 (after find out (new k) (Cache.new x) (h ++ m)).2 =
      [(out (run find (new k) (edits (h ++ m)))).compute (present x (h ++ m))] := by
  have hset : (after find out (new k) (Cache.new x) (h ++ m)).2.set i = true := by
    rw [after_append]
    exact set_marks hw m hm hs _ _
  have hst : (out (after find out (new k) (Cache.new x) (h ++ m)).1).stale (after find out (new k) (Cache.new x) (h ++ m)).2 = true := by
    simp only [Output.stale, Bool.or_eq_true, List.any_eq_true]
    exact Or.inr ⟨i, by rw [after_state]; exact hi, hset⟩
  rw [answer, live, ask_stale hst, after_inputs, after_state]
  rfl

/-- **C128.** The first question is answered with the value of the output. -/
theorem C128_first (k : Kind) (x : ∀ i, V i) (m : List (Event V)) (hm : .ask ∉ m) :
    answer find out (after find out (new k) (Cache.new x) m).1 (after find out (new k) (Cache.new x) m).2 =
      [(out (run find (new k) (edits m))).compute (present x m)] := by
  have hv : ∀ (m : List (Event V)), .ask ∉ m → ∀ (s : State F) (c : Cache V β), c.value = none → (after find out s c m).2.value = none := by
    intro m
    induction m with
    | nil => intro _ s c h; exact h
    | cons e m ih =>
      intro hm s c h
      rw [after_cons]
      apply ih (fun h => hm (List.mem_cons_of_mem _ h))
      cases e with
      | set who y => exact h
      | edit e => exact h
      | ask => exact absurd List.mem_cons_self hm
  have hst : (out (after find out (new k) (Cache.new x) m).1).stale (after find out (new k) (Cache.new x) m).2 = true := by
    have := hv m hm (new k) (Cache.new x) rfl
    simp [Output.stale, this]
  rw [answer, live, ask_stale hst, after_inputs, after_state]
  rfl

/-- **C128.** When the task is not edited since a right answer, the next answer is right, for an output that declares what it reads. -/
theorem C128_unedited (k : Kind) (x : ∀ i, V i) (h m : List (Event V)) (hm : ∀ e ∈ m, ∃ who y, e = .set who y)
    (hd : DependsOnlyOn (out (run find (new k) (edits h))).compute (out (run find (new k) (edits h))).deps)
    (hr : answer find out (after find out (new k) (Cache.new x) h).1 (after find out (new k) (Cache.new x) h).2 =
      [(out (run find (new k) (edits h))).compute (present x h)]) :
    answer find out (after find out (new k) (Cache.new x) (h ++ .ask :: m)).1 (after find out (new k) (Cache.new x) (h ++ .ask :: m)).2 =
      [(out (run find (new k) (edits h))).compute (present x (h ++ .ask :: m))] := by
  have hed : edits (h ++ .ask :: m) = edits h := by
    have : edits m = [] := by
      rw [edits, List.filterMap_eq_nil_iff]
      intro e he
      obtain ⟨who, y, rfl⟩ := hm e he
      rfl
    simp only [edits, List.filterMap_append, List.filterMap_cons] at this ⊢
    rw [this, List.append_nil]
  have hask : Event.ask ∉ m := by
    intro he
    obtain ⟨who, y, h⟩ := hm _ he
    cases h
  -- the value kept after the question is the one that was answered
  have hkept : (after find out (new k) (Cache.new x) (h ++ [.ask])).2.value =
      some ((out (run find (new k) (edits h))).compute (present x h)) := by
    rw [after_append]
    simp only [after, List.foldl_cons, List.foldl_nil] at hr ⊢
    generalize hp : List.foldl (fun p e => (live find out p.1 p.2 e).1) (new k, Cache.new x) h = p at hr ⊢
    simp only [answer, live] at hr ⊢
    by_cases hst : (out p.1).stale p.2 = true
    · rw [ask_stale hst] at hr ⊢
      simp only [List.cons.injEq, and_true] at hr
      simp only [hr]
    · obtain ⟨b, hb, he⟩ := ask_not_stale (Bool.eq_false_iff.mpr hst)
      rw [he] at hr ⊢
      simp only [List.cons.injEq, and_true] at hr
      rw [hb, hr]
  have hval : ∀ (m : List (Event V)), .ask ∉ m → ∀ (s : State F) (c : Cache V β), (after find out s c m).2.value = c.value := by
    intro m
    induction m with
    | nil => intro _ s c; rfl
    | cons e m ih =>
      intro hm s c
      rw [after_cons, ih (fun h => hm (List.mem_cons_of_mem _ h))]
      cases e with
      | set who y => rfl
      | edit e => rfl
      | ask => exact absurd List.mem_cons_self hm
  have happ : after find out (new k) (Cache.new x) (h ++ .ask :: m) =
      after find out (after find out (new k) (Cache.new x) (h ++ [.ask])).1 (after find out (new k) (Cache.new x) (h ++ [.ask])).2 m := by
    rw [← after_append]; simp
  have hst : (after find out (new k) (Cache.new x) (h ++ .ask :: m)).1 = run find (new k) (edits h) := by rw [after_state, hed]
  have hin : (after find out (new k) (Cache.new x) (h ++ .ask :: m)).2.inputs = present x (h ++ .ask :: m) := by rw [after_inputs]; rfl
  by_cases hs : (out (after find out (new k) (Cache.new x) (h ++ .ask :: m)).1).stale
      (after find out (new k) (Cache.new x) (h ++ .ask :: m)).2 = true
  · rw [answer, live, ask_stale hs, hin, hst]
  · have hs' := Bool.eq_false_iff.mpr hs
    obtain ⟨b, hb, he⟩ := ask_not_stale hs'
    rw [answer, live, he]
    have hv := hval m hask (after find out (new k) (Cache.new x) (h ++ [.ask])).1 (after find out (new k) (Cache.new x) (h ++ [.ask])).2
    rw [← happ, hb, hkept] at hv
    obtain rfl := Option.some.inj hv
    simp only [List.cons.injEq, and_true]
    apply hd
    intro i hi
    -- the signal has not been set by `m`
    have hno : ∀ who y, Event.set who y ∈ m → who i = false := by
      intro who y hmem
      cases hw : who i with
      | false => rfl
      | true =>
        have := set_marks (find := find) (out := out) hw m hask hmem (after find out (new k) (Cache.new x) (h ++ [.ask])).1
          (after find out (new k) (Cache.new x) (h ++ [.ask])).2
        rw [← happ] at this
        simp only [Output.stale, Bool.or_eq_false_iff, List.any_eq_false] at hs'
        exact absurd this (hs'.2 i (by rw [hst]; exact hi))
    have hpres : ∀ (m : List (Event V)), (∀ e ∈ m, ∃ who y, e = Event.set who y) → (∀ who y, Event.set who y ∈ m → who i = false) →
        ∀ z : ∀ i, V i, present z m i = z i := by
      intro m
      induction m with
      | nil => intro _ _ z; rfl
      | cons e m ih =>
        intro hm hn z
        obtain ⟨who, y, rfl⟩ := hm e List.mem_cons_self
        rw [present, ih (fun e he => hm e (List.mem_cons_of_mem _ he)) (fun w y hw => hn w y (List.mem_cons_of_mem _ hw)),
          if_neg (by simp [hn who y List.mem_cons_self])]
    have happp : ∀ (l : List (Event V)) (z : ∀ i, V i), present z (l ++ .ask :: m) = present (present z l) m := by
      intro l
      induction l with
      | nil => intro z; rfl
      | cons e l ih => intro z; cases e <;> exact ih _
    rw [happp, hpres m hm hno]

/-- **C128.** Once the output is computed, edits alone do not change the answer, whatever was added to the task or cleared. -/
theorem C128_edits_alone (k : Kind) (x : ∀ i, V i) (m : List (Event V)) (hm : .ask ∉ m) (l : List Cmd) :
    answer find out (after find out (new k) (Cache.new x) (m ++ .ask :: l.map .edit)).1
        (after find out (new k) (Cache.new x) (m ++ .ask :: l.map .edit)).2 =
      [(out (run find (new k) (edits m))).compute (present x m)] := by
  have hfirst := C128_first (find := find) (out := out) k x m hm
  have key : ∀ (l : List Cmd) (s : State F) (c : Cache V β), (after find out s c (l.map Event.edit)).2 = c := by
    intro l
    induction l with
    | nil => intro s c; rfl
    | cons e l ih => intro s c; exact ih _ _
  rw [after_append, after_cons]
  generalize hp : after find out (new k) (Cache.new x) m = p at hfirst ⊢
  by_cases hst : (out p.1).stale p.2 = true
  · rw [answer, live, ask_stale hst] at hfirst
    simp only [List.cons.injEq, and_true] at hfirst
    rw [answer, key]
    simp only [live, ask_stale hst]
    simp [Output.step, Output.stale, hfirst]
  · have hv : p.2.value = none := by
      have hv : ∀ (m : List (Event V)), .ask ∉ m → ∀ (s : State F) (c : Cache V β), c.value = none →
          (after find out s c m).2.value = none := by
        intro m
        induction m with
        | nil => intro _ s c h; exact h
        | cons e m ih =>
          intro hm s c h
          rw [after_cons]
          apply ih (fun h => hm (List.mem_cons_of_mem _ h))
          cases e with
          | set who y => exact h
          | edit e => exact h
          | ask => exact absurd List.mem_cons_self hm
      rw [← hp]
      exact hv m hm _ _ rfl
    simp [Output.stale, hv] at hst

/-- **C128.** A task that is cleared after its error has been computed answers this error again, where a task without features raises an
exception; a feature added then is not in the answer either. -/
theorem C128_edits_counterexample :
    let find : String → Option Bool := fun n => if n = "a" then some true else if n = "b" then some false else none
    let x : ∀ i : Sig Bool, Val ℚ i := fun i => match i with
      | .featError f => (if f then [1, 2] else [3] : List ℚ)
      | .featErrorDot _ => ([] : List ℚ)
      | .featJacobian _ => (⟨0, 0, fun _ _ => none⟩ : Task.DMat ℚ)
      | .gain => (0 : ℚ)
      | .selec => (⟨[], true⟩ : Flags)
      | .error => ([] : List ℚ)
      | .derivative => ([] : List (Option ℚ))
      | .variationOut => ([] : List ℚ)
      | .variationIn => ([] : List ℚ)
      | .referenceSup => ([] : List ℚ)
      | .referenceInf => ([] : List ℚ)
      | .dt => (0 : ℚ)
      | .position => ([] : List ℚ)
    let out : State Bool → Output (Val ℚ) (Outcome (List ℚ)) := fun s => errorOut s []
    let ans := fun l => answer find out (after find out (new .plain) (Cache.new x) l).1 (after find out (new .plain) (Cache.new x) l).2
    ans [.edit (.add "a")] = [.ok [1, 2]] ∧ ans [.edit (.add "a"), .ask, .edit .clear] = [.ok [1, 2]] ∧
      ans [.edit (.add "a"), .ask, .edit .clear, .edit (.add "b")] = [.ok [1, 2]] ∧ ans [.edit (.add "b")] = [.ok [3]] ∧ ans [] = [.throw] := by
  have g : Task.growDim 2 1 = 2 := by unfold Task.growDim; norm_num; unfold Task.growDim; norm_num
  simp [answer, after, live, step, addFromName, addFeature, new, newDeps, addDep, clear, removeDeps, removeDep, Output.step, Output.stale,
    Cache.new, errorOut, Task.computeError, Task.errorLoop, Task.growBuf, Task.writeVec, g]

/-! ### The selection of the controls -/

/-- **C128.** What the commands on the selection do, control by control: the selection is set, or restricted to the controls that are also
in the given one (although the command is said to add), or emptied. The other commands do not touch it. -/
theorem C128_selection (s : State F) (act : Flags) (name : String) (b : Bool) (j : Int) (hj : 0 ≤ j) :
    Flags.call (step find s (.setSelection act)).selec j = Flags.call act j ∧
      Flags.call (step find s (.addSelection act)).selec j =
        (Flags.call s.selec j).bind (fun p => (Flags.call act j).map fun q => p && q) ∧
      Flags.call (step find s .clearSelection).selec j = .ok false ∧ Flags.call (new .plain : State F).selec j = .ok true ∧
      (step find s (.add name)).selec = s.selec ∧ (step find s .clear).selec = s.selec ∧
      (step find s (.setWithDerivative b)).selec = s.selec := by
  refine ⟨rfl, ?_, ?_, ?_, ?_, rfl, rfl⟩
  · obtain ⟨p, q, hp, hq, ha, _⟩ := Flags.C01_assign_forms s.selec act j hj
    rw [hp, hq]
    exact ha
  · simp [step, Flags.call, Flags.ofBool, show ¬j < 0 by omega]
  · simp [new, Flags.call, Flags.ofBool, show ¬j < 0 by omega]
  · rw [step_add]; cases find name <;> rfl

/-- **C128.** Once the selection is emptied, it can be given only as a whole: no number of commands that add to it selects a control. -/
theorem C128_selection_lost (s : State F) (l : List Cmd) (hl : ∀ c ∈ l, ∀ act, c ≠ .setSelection act) (j : Int) (hj : 0 ≤ j) :
    Flags.call (run find s (.clearSelection :: l)).selec j = .ok false := by
  have key : ∀ (l : List Cmd), (∀ c ∈ l, ∀ act, c ≠ .setSelection act) → ∀ s : State F, Flags.call s.selec j = .ok false →
      Flags.call (run find s l).selec j = .ok false := by
    intro l
    induction l with
    | nil => intro _ s h; exact h
    | cons c l ih =>
      intro hl s h
      refine ih (fun c hc => hl c (List.mem_cons_of_mem _ hc)) (step find s c) ?_
      cases c with
      | add name => rw [(C128_selection s (Flags.ofBool true) name true j hj).2.2.2.2.1]; exact h
      | clear => exact h
      | setWithDerivative b => exact h
      | setSelection act => exact absurd rfl (hl _ List.mem_cons_self act)
      | addSelection act =>
        obtain ⟨q, hq⟩ := Flags.C01_read_total act j hj
        rw [(C128_selection s act "" true j hj).2.1, h, hq]
        rfl
      | clearSelection => exact (C128_selection s (Flags.ofBool true) "" true j hj).2.2.1
  exact key l hl _ (C128_selection s (Flags.ofBool true) "" true j hj).2.2.1

/-- A task that gets two features, one of them twice, is cleared and gets one again: the list, and the dependencies of the error. -/
example : let find : String → Option Nat := fun n => if n = "a" then some 0 else if n = "b" then some 1 else none
    let s := run find (new .plain) [.add "a", .add "b", .add "a", .clear, .add "z", .add "b", .setWithDerivative true]
    s.features = [1] ∧ s.deps .error = [.featError 1] ∧ s.deps .derivative = [.featErrorDot 1, .error] ∧
      s.deps .jacobian = [.featJacobian 1, .selec] := by decide

end Verif.TaskEdit
