import Verif.Sequencer.Model
import Verif.Common.Lists
import Mathlib.Tactic.Linarith
import Mathlib.Tactic.NormNum

/-!
# C62 and C92: the sequencer
-/

namespace Verif.Sequencer

/-! ### Statements -/

/-- What an event asks of a stack of tasks which exists. -/
def Event.request (e : Event) : List Request :=
  match e.kind, e.task with
  | .add, some t => [.push t]
  | .rm, some t => [.remove t]
  | _, _ => []

/-- The registrations of a list: an event and its time. -/
def register (s : State) (adds : List (Event × ℕ)) : State := adds.foldl (fun s a => addTask s (some a.1) a.2) s

/-- The events registered for a time, in the order of their registrations. -/
def due (adds : List (Event × ℕ)) (k : ℕ) : List Event := (adds.filter fun a => a.2 = k).map (·.1)

/-- What the events registered for a time ask. -/
def asked (adds : List (Event × ℕ)) (k : ℕ) : List Request := (due adds k).flatMap Event.request

/-! ### Lemmas -/

theorem exec_valid (e : Event) : e.exec .valid = .ok e.request := by
  unfold Event.exec Event.request
  cases e.kind <;> cases e.task <;> rfl

theorem execAll_valid (l : List Event) : execAll .valid (l.map some) = .ok (l.flatMap Event.request) := by
  induction l with
  | nil => rfl
  | cons e l ih => simp [execAll, exec_valid, ih]

theorem addTask_find (s : State) (e : Option Event) (t k : ℕ) :
    ((addTask s e t).taskMap.find k).getD [] = (s.taskMap.find k).getD [] ++ (if t = k then [e] else []) := by
  unfold addTask
  split
  · rename_i h
    by_cases c : t = k
    · subst c; simp [SMap.find_put, h]
    · simp [SMap.find_put, c, Ne.symm c]
  · rename_i l h
    by_cases c : t = k
    · subst c; simp [SMap.find_put, h]
    · simp [SMap.find_put, c, Ne.symm c]

theorem addTask_other (s : State) (e : Option Event) (t : ℕ) :
    (addTask s e t).sot = s.sot ∧ (addTask s e t).timeInit = s.timeInit ∧ (addTask s e t).playMode = s.playMode := by
  unfold addTask
  split <;> simp

theorem register_spec (adds : List (Event × ℕ)) : ∀ s : State,
    (register s adds).sot = s.sot ∧ (register s adds).timeInit = s.timeInit ∧
      (register s adds).playMode = s.playMode ∧
      ∀ k, ((register s adds).taskMap.find k).getD [] = (s.taskMap.find k).getD [] ++ (due adds k).map some := by
  induction adds with
  | nil => intro s; simp [register, due]
  | cons a adds ih =>
    intro s
    obtain ⟨i1, i2, i3, i4⟩ := ih (addTask s (some a.1) a.2)
    obtain ⟨o1, o2, o3⟩ := addTask_other s (some a.1) a.2
    refine ⟨i1.trans o1, i2.trans o2, i3.trans o3, fun k => ?_⟩
    have : (register s (a :: adds)) = register (addTask s (some a.1) a.2) adds := rfl
    rw [this, i4 k, addTask_find]
    by_cases c : a.2 = k <;> simp [due, c]

theorem run_append (h₁ h₂ : List Op) : ∀ s, run s (h₁ ++ h₂)
    = (run s h₁).bind fun a => (run a.1 h₂).map fun b => (b.1, a.2 ++ b.2) := by
  induction h₁ with
  | nil =>
    intro s
    simp only [List.nil_append, run, Outcome.bind_ok]
    cases run s h₂ <;> rfl
  | cons o h ih =>
    intro s
    simp only [List.cons_append, run]
    cases step s o with
    | ok a =>
      simp only [Outcome.bind_ok, ih]
      cases run a.1 h with
      | ok b =>
        simp only [Outcome.bind_ok, Outcome.map_ok]
        cases run b.1 h₂ <;> simp
      | throw => rfl
      | ub => rfl
    | throw => rfl
    | ub => rfl

/-! ### C62 -/

/-- The property fails: no public method raises the flag without which a trigger does nothing, so no event is ever run,
whatever was registered. -/
theorem C62_never_runs_counterexample (h : List Op) (s : State) (r : List Request)
    (hr : run State.create h = .ok (s, r)) : r = [] ∧ s.playMode = false ∧ s.timeInit = -1 := by
  suffices H : ∀ (h : List Op) (s0 : State), s0.playMode = false → s0.timeInit = -1 → ∀ s r, run s0 h = .ok (s, r) →
      r = [] ∧ s.playMode = false ∧ s.timeInit = -1 from H h _ rfl rfl s r hr
  clear hr h s r
  intro h
  induction h with
  | nil =>
    intro s0 h0 h1 s r hr
    simp only [run, Outcome.ok.injEq, Prod.mk.injEq] at hr
    exact ⟨hr.2.symm, hr.1 ▸ h0, hr.1 ▸ h1⟩
  | cons o h ih =>
    intro s0 h0 h1 s r hr
    simp only [run, Outcome.bind_eq_ok, Outcome.map_eq_ok] at hr
    obtain ⟨⟨s1, r1⟩, e1, ⟨s2, r2⟩, e2, e3⟩ := hr
    have key : r1 = [] ∧ s1.playMode = false ∧ s1.timeInit = -1 := by
      cases o with
      | setSotRef p =>
        simp only [step, Outcome.ok.injEq, Prod.mk.injEq] at e1
        exact ⟨e1.2.symm, e1.1 ▸ h0, e1.1 ▸ h1⟩
      | addTask e t =>
        simp only [step, Outcome.ok.injEq, Prod.mk.injEq] at e1
        obtain ⟨-, o2, o3⟩ := addTask_other s0 e t
        exact ⟨e1.2.symm, e1.1 ▸ o3.trans h0, e1.1 ▸ o2.trans h1⟩
      | rmTask k n t =>
        simp only [step, rmTask, Outcome.map_eq_ok, Prod.mk.injEq] at e1
        obtain ⟨s', e', rfl, rfl⟩ := e1
        split at e'
        · simp only [Outcome.ok.injEq] at e'
          subst e'
          exact ⟨rfl, h0, h1⟩
        · simp only [Outcome.map_eq_ok] at e'
          obtain ⟨f, -, rfl⟩ := e'
          refine ⟨rfl, ?_, ?_⟩
          · repeat' split
            all_goals exact h0
          · repeat' split
            all_goals exact h1
      | clearAll =>
        simp only [step, clearAll, Outcome.map_eq_ok, Prod.mk.injEq] at e1
        obtain ⟨s', e', rfl, rfl⟩ := e1
        split at e'
        · simp only [Outcome.ok.injEq] at e'
          subst e'
          exact ⟨rfl, h0, h1⟩
        · simp at e'
      | trigger t =>
        simp only [step, trigger, h0, Bool.false_eq_true, not_false_eq_true, if_true, Outcome.ok.injEq,
          Prod.mk.injEq] at e1
        exact ⟨e1.2.symm, e1.1 ▸ h0, e1.1 ▸ h1⟩
    obtain ⟨k1, k2, k3⟩ := ih s1 key.2.1 key.2.2 s2 r2 e2
    simp only [Prod.mk.injEq] at e3
    refine ⟨?_, e3.1 ▸ k2, e3.1 ▸ k3⟩
    rw [← e3.2, key.1, k1]
    rfl

/-- An event due at the first tick, triggered at that tick, with a stack to act on: nothing is asked of the stack. -/
theorem C62_event_not_run_counterexample :
    ∃ s, run State.create
      [.setSotRef .valid, .addTask (some ⟨1, .add, "task", some "task"⟩) 0, .trigger 0] = .ok (s, []) :=
  ⟨_, rfl⟩

theorem trigger_playing (s : State) (hp : s.playMode = true) (hs : s.sot = .valid) (adds : List (Event × ℕ))
    (hf : ∀ k, (s.taskMap.find k).getD [] = (due adds k).map some) (t0 : ℤ)
    (h0 : t0 = if s.timeInit = -1 then t else s.timeInit) (hle : t0 ≤ t) (hlt : t - t0 < 2 ^ 31) :
    trigger s t = .ok ({ s with timeInit := t0 }, asked adds (t - t0).toNat) := by
  have hi : IsInt (t - t0) := ⟨by have := sub_nonneg.mpr hle; norm_num; linarith, hlt⟩
  have hmod : (t - t0) % 2 ^ 32 = t - t0 := Int.emod_eq_of_lt (by linarith) (by norm_num at *; linarith)
  obtain ⟨sot, tm, ti, pm⟩ := s
  simp only at hp hs hf h0
  subst hp hs
  have e : (if ti = -1 then ({ sot := .valid, taskMap := tm, timeInit := t, playMode := true } : State)
      else ⟨.valid, tm, ti, true⟩) = ⟨.valid, tm, t0, true⟩ := by
    rw [h0]; split <;> rfl
  simp only [trigger, not_true_eq_false, if_false, e, hi, hmod]
  have hk := hf (t - t0).toNat
  cases fd : tm.find (t - t0).toNat with
  | none =>
    rw [fd] at hk
    have : due adds (t - t0).toNat = [] := by simpa using hk.symm
    simp [asked, this]
  | some l =>
    rw [fd] at hk
    have : l = (due adds (t - t0).toNat).map some := hk
    simp only [this, execAll_valid, Outcome.map_ok]
    rfl

/-- What is missing for the property: if the flag were raised, each event would be run at the triggers whose distance to the
first one is the time it was registered for, in the order of the registrations, and at no other. -/
theorem C62_due_partial (adds : List (Event × ℕ)) (t0 : ℤ) (h0 : t0 ≠ -1) (ts : List ℤ)
    (hts : ∀ t ∈ ts, t0 ≤ t ∧ t - t0 < 2 ^ 31) :
    ∃ s, run (register { State.create with playMode := true, sot := .valid } adds) ((t0 :: ts).map Op.trigger)
      = .ok (s, (t0 :: ts).flatMap fun t => asked adds (t - t0).toNat) := by
  obtain ⟨r1, r2, r3, r4⟩ := register_spec adds { State.create with playMode := true, sot := .valid }
  have r4' : ∀ k, ((register { State.create with playMode := true, sot := .valid } adds).taskMap.find k).getD []
      = (due adds k).map some := by
    intro k
    rw [r4 k]
    rfl
  generalize register { State.create with playMode := true, sot := .valid } adds = s at *
  have first := trigger_playing (t := t0) s r3 r1 adds r4' t0 (by rw [r2]; rfl) le_rfl (by norm_num)
  suffices H : ∀ (ts : List ℤ) (s : State), s.playMode = true → s.sot = .valid → s.timeInit = t0 →
      (∀ k, (s.taskMap.find k).getD [] = (due adds k).map some) → (∀ t ∈ ts, t0 ≤ t ∧ t - t0 < 2 ^ 31) →
      ∃ s', run s (ts.map Op.trigger) = .ok (s', ts.flatMap fun t => asked adds (t - t0).toNat) by
    obtain ⟨s', e⟩ := H ts { s with timeInit := t0 } r3 r1 rfl r4' hts
    refine ⟨s', ?_⟩
    simp only [List.map_cons, run, step, first, Outcome.bind_ok, e, Outcome.map_ok, List.flatMap_cons]
  intro ts
  induction ts with
  | nil => exact fun s _ _ _ _ _ => ⟨s, rfl⟩
  | cons t ts ih =>
    intro s p1 p2 p3 p4 p5
    obtain ⟨l1, l2⟩ := p5 t (List.mem_cons_self ..)
    have tr := trigger_playing (t := t) s p1 p2 adds p4 t0 (by rw [p3, if_neg h0]) l1 l2
    obtain ⟨s', e⟩ := ih { s with timeInit := t0 } p1 p2 rfl p4 fun t ht => p5 t (List.mem_cons_of_mem _ ht)
    refine ⟨s', ?_⟩
    simp only [List.map_cons, run, step, tr, Outcome.bind_ok, e, Outcome.map_ok, List.flatMap_cons]

/-- Even then a first trigger at time -1 is taken for no trigger: the next one starts the count again, and the events of the
first tick are run twice. -/
theorem C62_minus_one_counterexample :
    ∃ s, run (register { State.create with playMode := true, sot := .valid } [(⟨1, .add, "task", some "task"⟩, 0)])
      [.trigger (-1), .trigger 0] = .ok (s, [.push "task", .push "task"]) :=
  ⟨_, rfl⟩

/-- Even then a sequencer to which no stack was given reads a pointer which is not initialised. -/
theorem C62_no_stack_counterexample :
    run (register { State.create with playMode := true } [(⟨1, .add, "task", some "task"⟩, 0)]) [.trigger 0] = .ub := rfl

/-! ### C92 -/

/-- The schedule: the registrations for a time are kept in order. -/
theorem C92_add (s : State) (e : Option Event) (t k : ℕ) :
    ((addTask s e t).taskMap.find k).getD [] = (s.taskMap.find k).getD [] ++ (if t = k then [e] else []) :=
  addTask_find s e t k

theorem findEvent_none (kind : Kind) (name : String) (l : List Event)
    (h : ∀ e ∈ l, ¬ (e.kind = kind ∧ e.name = name)) : findEvent kind name (l.map some) = .ok none := by
  induction l with
  | nil => rfl
  | cons e l ih =>
    rw [List.map_cons, findEvent, if_neg (h e (List.mem_cons_self ..))]
    exact ih fun e' h' => h e' (List.mem_cons_of_mem _ h')

theorem findEvent_first (kind : Kind) (name : String) (a b : List Event) (e : Event)
    (ha : ∀ x ∈ a, ¬ (x.kind = kind ∧ x.name = name)) (he : e.kind = kind ∧ e.name = name) :
    findEvent kind name ((a ++ e :: b).map some) = .ok (some e) := by
  induction a with
  | nil => simp [findEvent, he]
  | cons x a ih =>
    rw [List.cons_append, List.map_cons, findEvent, if_neg (ha x (List.mem_cons_self ..))]
    exact ih fun e' h' => ha e' (List.mem_cons_of_mem _ h')

/-- Removing an event from a time: the first one of that type and that name goes, the others stay in order, and the other
times are not changed, when the events are distinct objects. -/
theorem C92_remove (s : State) (kind : Kind) (name : String) (time : ℕ) (a b : List Event) (e : Event)
    (hs : s.taskMap.find time = some ((a ++ e :: b).map some))
    (ha : ∀ x ∈ a, ¬ (x.kind = kind ∧ x.name = name)) (he : e.kind = kind ∧ e.name = name)
    (hd : ∀ x ∈ a ++ b, x.ptr ≠ e.ptr) :
    ∃ s', rmTask s kind name time = .ok s' ∧
      s'.taskMap.find time = (if a ++ b = [] then none else some ((a ++ b).map some)) ∧
      ∀ k, k ≠ time → s'.taskMap.find k = s.taskMap.find k := by
  have rm : removePtr e.ptr ((a ++ e :: b).map some) = (a ++ b).map some := by
    have keep : ∀ l : List Event, (∀ x ∈ l, x.ptr ≠ e.ptr) → removePtr e.ptr (l.map some) = l.map some := by
      intro l hl
      unfold removePtr
      rw [List.filter_eq_self]
      intro x hx
      obtain ⟨y, hy, rfl⟩ := List.mem_map.mp hx
      simpa using hl y hy
    have ka := keep a fun x hx => hd x (List.mem_append_left _ hx)
    have kb := keep b fun x hx => hd x (List.mem_append_right _ hx)
    simp only [List.map_append, List.map_cons, removePtr, List.filter_append] at ka kb ⊢
    rw [ka, List.filter_cons_of_neg (by simp), kb]
  refine ⟨if ((a ++ b).map some).isEmpty then { s with taskMap := s.taskMap.erase time }
    else { s with taskMap := s.taskMap.put time ((a ++ b).map some) },
    by simp only [rmTask, hs, findEvent_first kind name a b e ha he, Outcome.map_ok, rm], ?_, ?_⟩
  · by_cases c : a ++ b = []
    · simp [c, SMap.find_erase]
    · have c' : ((a ++ b).map some).isEmpty = false := by
        rw [List.isEmpty_eq_false_iff]
        simpa using c
      rw [if_neg c, if_neg (by simp only [c', Bool.false_eq_true, not_false_eq_true])]
      simp only [SMap.find_put, if_true]
  · intro k hk
    split
    · simp [SMap.find_erase, hk]
    · simp [SMap.find_put, hk]

/-- Removing what is not there changes nothing of what is due at any time. -/
theorem C92_remove_absent (s : State) (kind : Kind) (name : String) (time : ℕ) (l : List Event) (hl : l ≠ [])
    (hs : s.taskMap.find time = some (l.map some)) (ha : ∀ x ∈ l, ¬ (x.kind = kind ∧ x.name = name)) :
    ∃ s', rmTask s kind name time = .ok s' ∧ ∀ k, s'.taskMap.find k = s.taskMap.find k := by
  have c' : (l.map some).isEmpty = false := by
    rw [List.isEmpty_eq_false_iff]
    simpa using hl
  refine ⟨_, by simp only [rmTask, hs, findEvent_none kind name l ha, Outcome.map_ok, c']; rfl, fun k => ?_⟩
  simp only [Bool.false_eq_true, if_false, SMap.find_put]
  split
  · rename_i h; rw [h, hs]
  · rfl

/-- Removing at a time for which nothing is registered changes nothing. -/
theorem C92_remove_no_time (s : State) (kind : Kind) (name : String) (time : ℕ) (hs : s.taskMap.find time = none) :
    rmTask s kind name time = .ok s := by simp [rmTask, hs]

/-- An event registered twice for a time is removed twice by one call. -/
theorem C92_remove_twice_counterexample (e : Event) (k : Kind) (hk : e.kind = k) :
    rmTask (register State.create [(e, 4), (e, 4)]) k e.name 4 = .ok State.create := by
  subst hk
  simp [register, addTask, rmTask, State.create, SMap.find, SMap.put, findEvent, removePtr, SMap.erase]

/-- A null event, which `trigger` skips, makes `rmTask` dereference it. -/
theorem C92_null_counterexample (k : Kind) (name : String) (s : State) (t : ℕ) (hs : s.taskMap.find t = none) :
    rmTask (addTask s none t) k name t = .ub := by
  simp [addTask, rmTask, hs, SMap.find_put, findEvent]

/-- Clearing empties the schedule when no event is registered twice. -/
theorem C92_clear (s : State) (h : (deleted s).Nodup) :
    clearAll s = .ok { s with taskMap := [] } := by simp [clearAll, h]

/-- An event registered for two times is deleted twice. -/
theorem C92_clear_shared_counterexample (e : Event) :
    clearAll (register State.create [(e, 4), (e, 9)]) = .ub := by
  simp [register, addTask, State.create, SMap.find, SMap.put, clearAll, deleted]

/-! ### Examples -/

/-- Three events, two of them for the same tick. -/
def exAdds : List (Event × ℕ) :=
  [(⟨1, .add, "a", some "a"⟩, 2), (⟨2, .rm, "b", some "b"⟩, 0), (⟨3, .add, "c", some "c"⟩, 2)]

example : ([5, 6, 7].flatMap fun t : ℤ => asked exAdds (t - 5).toNat) = [.remove "b", .push "a", .push "c"] := by
  decide

example : ∀ t ∈ [(6 : ℤ), 7], (5 : ℤ) ≤ t ∧ t - 5 < 2 ^ 31 := by decide

example : (deleted (register State.create exAdds)).Nodup := by decide

example : (register State.create exAdds).taskMap.find 2
    = some (([] ++ (⟨1, .add, "a", some "a"⟩ : Event) :: [⟨3, .add, "c", some "c"⟩]).map some) := by decide

end Verif.Sequencer
