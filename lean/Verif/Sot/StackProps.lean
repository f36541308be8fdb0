import Verif.Sot.Stack

/-!
# Properties C07 and C08: stack commands
-/

namespace Verif.Sot

variable {T : Type} [DecidableEq T]

theorem find_le (t : T) (l : List T) : find t l ≤ l.length := by
  induction l with
  | nil => simp [find]
  | cons x xs ih => simp only [find]; split <;> simp <;> omega

theorem find_append (t : T) (a b : List T) (ha : t ∉ a) :
    find t (a ++ t :: b) = a.length := by
  induction a with
  | nil => simp [find]
  | cons x xs ih =>
    have hx : ¬ x = t := by
      rintro rfl; exact ha (by simp)
    have ih := ih (fun h => ha (by simp [h]))
    simp [find, hx, ih]

theorem find_eq_length (t : T) (l : List T) : find t l = l.length ↔ t ∉ l := by
  induction l with
  | nil => simp [find]
  | cons x xs ih =>
    simp only [find]
    split
    · rename_i h; subst h; simp
    · rename_i h
      have h' : ¬ t = x := fun e => h e.symm
      simp [h', ih]

theorem exists_split (t : T) (l : List T) (h : t ∈ l) : ∃ a b, l = a ++ t :: b ∧ t ∉ a := by
  induction l with
  | nil => simp at h
  | cons x xs ih =>
    by_cases hx : x = t
    · exact ⟨[], xs, by simp [hx], by simp⟩
    · have hx' : ¬ t = x := fun e => hx e.symm
      have : t ∈ xs := by simpa [hx'] using h
      obtain ⟨a, b, rfl, hn⟩ := ih this
      exact ⟨x :: a, b, by simp, by simp [hx', hn]⟩

omit [DecidableEq T] in
theorem eraseIdx_append_cons (a b : List T) (t : T) :
    (a ++ t :: b).eraseIdx a.length = a ++ b := by
  induction a with
  | nil => simp
  | cons x xs ih => simp [ih]

/-! ## C07: stack edits are list edits -/

/-- C07. `push` adds the task at the lowest priority; it is refused (exception, nothing changes) only
while the number of joints is zero. -/
theorem C07_push (s : State T) (t : T) :
    (s.nbJoints = 0 → push s t = .throw) ∧
    (s.nbJoints ≠ 0 → ∃ s', push s t = .ok s' ∧ s'.stack = s.stack ++ [t] ∧
      s'.nbJoints = s.nbJoints) := by
  constructor
  · intro h; simp [push, h]
  · intro h
    exact ⟨{ s with stack := s.stack ++ [t], deps := addDeps s.deps t, ready := true },
      by simp [push, h], rfl, rfl⟩

/-- C07. `pop` returns and removes the task of lowest priority. -/
theorem C07_pop (s : State T) (l : List T) (t : T) (h : s.stack = l ++ [t]) :
    ∃ s', pop s = .ok (t, s') ∧ s'.stack = l := by
  refine ⟨_, by simp [pop, h]; rfl, by simp⟩

/-- C07. On an empty stack `pop` has undefined behaviour: the precondition of `C07_pop` is needed. -/
theorem C07_pop_empty_ub (s : State T) (h : s.stack = []) : pop s = .ub := by
  simp [pop, h]

/-- C07. `exist` tells membership. -/
theorem C07_exist (s : State T) (t : T) : exist s t = true ↔ t ∈ s.stack := by
  have h1 := find_eq_length t s.stack
  have h2 := find_le t s.stack
  simp only [exist, decide_eq_true_eq]
  constructor
  · intro h
    by_cases hm : t ∈ s.stack
    · exact hm
    · have := h1.mpr hm; omega
  · intro hm
    have : find t s.stack ≠ s.stack.length := fun h => (h1.mp h) hm
    omega

/-- C07. `remove` deletes the first occurrence and nothing else; an absent task changes nothing. -/
theorem C07_remove (s : State T) (t : T) :
    (t ∉ s.stack → remove s t = s) ∧
    (∀ a b, s.stack = a ++ t :: b → t ∉ a → (remove s t).stack = a ++ b) := by
  constructor
  · intro h; simp [remove, (find_eq_length t s.stack).mpr h]
  · intro a b h ha
    have hf : find t s.stack = a.length := by rw [h]; exact find_append t a b ha
    have hne : a.length ≠ s.stack.length := by rw [h]; simp
    simp only [remove, hf, hne, if_false]
    rw [h]; exact eraseIdx_append_cons a b t

/-- C07. `up` exchanges the task with its neighbour of higher priority. Nothing changes when it is
already first or absent. -/
theorem C07_up (s : State T) (t : T) :
    (t ∉ s.stack → up s t = s) ∧
    (∀ b, s.stack = t :: b → up s t = s) ∧
    (∀ a x b, s.stack = a ++ x :: t :: b → t ∉ a → t ≠ x →
      (up s t).stack = a ++ t :: x :: b) := by
  refine ⟨?_, ?_, ?_⟩
  · intro h
    have hf := (find_eq_length t s.stack).mpr h
    simp only [up, hf]
    split
    · rfl
    · simp
  · intro b h
    simp [up, h, find]
  · intro a x b h ha hx
    have h' : s.stack = (a ++ [x]) ++ t :: b := by simp [h]
    have ha' : t ∉ a ++ [x] := by simp [ha, hx]
    have hf : find t s.stack = (a ++ [x]).length := by rw [h']; exact find_append t _ b ha'
    have hne : (a ++ [x]).length ≠ s.stack.length := by rw [h']; simp
    simp only [up, hf, hne, if_false]
    rw [h', eraseIdx_append_cons]
    simp [insertAt]

/-- C07. `down` exchanges the task with its neighbour of lower priority. Nothing changes in the order
when it is already last or absent. -/
theorem C07_down (s : State T) (t : T) :
    (t ∉ s.stack → down s t = s) ∧
    (∀ a, s.stack = a ++ [t] → t ∉ a → (down s t).stack = s.stack) ∧
    (∀ a x b, s.stack = a ++ t :: x :: b → t ∉ a → (down s t).stack = a ++ x :: t :: b) := by
  refine ⟨?_, ?_, ?_⟩
  · intro h
    simp [down, (find_eq_length t s.stack).mpr h]
  · intro a h ha
    have hf : find t s.stack = a.length := by rw [h]; exact find_append t a [] ha
    have he : s.stack.eraseIdx a.length = a := by
      rw [h]; simpa using eraseIdx_append_cons a [] t
    have hne : a.length ≠ s.stack.length := by rw [h]; simp
    simp only [down, hf, hne, if_false, he]
    simp [h]
  · intro a x b h ha
    have hf : find t s.stack = a.length := by rw [h]; exact find_append t a _ ha
    have he : s.stack.eraseIdx a.length = a ++ x :: b := by
      rw [h]; exact eraseIdx_append_cons a (x :: b) t
    have hne : a.length ≠ s.stack.length := by rw [h]; simp
    simp only [down, hf, hne, if_false, he]
    have h1 : a.length ≠ (a ++ x :: b).length := by simp
    simp only [h1, if_false, insertAt]
    have h2 : a ++ x :: b = (a ++ [x]) ++ b := by simp
    have h3 : a.length + 1 = (a ++ [x]).length := by simp
    rw [h2, h3, List.take_left, List.drop_left]
    simp

/-- C07. `clear` empties the stack. -/
theorem C07_clear (s : State T) : (clear s).stack = [] := rfl

/-- C07, over histories: re-ordering commands never lose, add or duplicate a task. -/
theorem C07_reorder_perm (s : State T) (t : T) :
    (up s t).stack.Perm s.stack ∧ (down s t).stack.Perm s.stack := by
  obtain ⟨u1, u2, u3⟩ := C07_up s t
  obtain ⟨d1, d2, d3⟩ := C07_down s t
  by_cases h : t ∈ s.stack
  · obtain ⟨a, b, hs, ha⟩ := exists_split t s.stack h
    constructor
    · rcases List.eq_nil_or_concat a with rfl | ⟨a', x, rfl⟩
      · rw [u2 b (by simpa using hs)]
      · have hs' : s.stack = a' ++ x :: t :: b := by simp [hs]
        have hta : t ∉ a' := fun h => ha (by simp [h])
        have htx : t ≠ x := fun h => ha (by simp [h])
        rw [u3 a' x b hs' hta htx, hs']
        exact List.Perm.append_left a' (List.Perm.swap x t b)
    · cases b with
      | nil => rw [d2 a hs ha]
      | cons x b =>
        rw [d3 a x b hs ha, hs]
        exact List.Perm.append_left a (List.Perm.swap t x b)
  · rw [u1 h, d1 h]; exact ⟨List.Perm.refl _, List.Perm.refl _⟩

example : (up (⟨[1, 2, 3], [], false, 4⟩ : State Nat) 3).stack = [1, 3, 2] ∧
    (down (⟨[1, 2, 3], [], false, 4⟩ : State Nat) 1).stack = [2, 1, 3] ∧
    (remove (⟨[1, 2, 3, 2], [], false, 4⟩ : State Nat) 2).stack = [1, 3, 2] := by decide

/-! ## C08: dependencies of the control follow the stack -/

theorem mem_removeDeps (deps : List (Sig T)) (t : T) (d : Sig T) :
    d ∈ removeDeps deps t ↔ d ∈ deps ∧ d ≠ .task t ∧ d ≠ .jacobian t := by
  simp [removeDeps, List.mem_filter]

theorem mem_removeAllDeps (l : List T) (deps : List (Sig T)) (d : Sig T) :
    d ∈ removeAllDeps deps l ↔ d ∈ deps ∧ ∀ t ∈ l, d ≠ .task t ∧ d ≠ .jacobian t := by
  induction l generalizing deps with
  | nil => simp [removeAllDeps]
  | cons t ts ih =>
    simp only [removeAllDeps, ih, mem_removeDeps, List.mem_cons, forall_eq_or_imp]
    grind

/-- The control depends on both signals of exactly the tasks of the stack. -/
def DepsExact (s : State T) : Prop :=
  ∀ t, (t ∈ s.stack ↔ .task t ∈ s.deps) ∧ (t ∈ s.stack ↔ .jacobian t ∈ s.deps)

/-- The control depends on no task outside the stack. -/
def DepsSound (s : State T) : Prop :=
  ∀ t, (.task t ∈ s.deps → t ∈ s.stack) ∧ (.jacobian t ∈ s.deps → t ∈ s.stack)

/-- A history that never pushes a task already in the stack. -/
def NoDupPush : State T → List (Cmd T) → Prop
  | _, [] => True
  | s, c :: cs =>
    (match c with
      | .push t => t ∉ s.stack
      | _ => True) ∧
    ∀ s', step s c = .ok s' → NoDupPush s' cs

theorem nodup_remove {s : State T} (h : s.stack.Nodup) (t : T) :
    (remove s t).stack.Nodup ∧ ∀ u, u ∈ (remove s t).stack ↔ u ∈ s.stack ∧ u ≠ t := by
  obtain ⟨r1, r2⟩ := C07_remove s t
  by_cases hm : t ∈ s.stack
  · obtain ⟨a, b, hs, ha⟩ := exists_split t s.stack hm
    rw [r2 a b hs ha]
    rw [hs] at h
    have hp : (a ++ t :: b).Perm (t :: (a ++ b)) := List.perm_middle
    have h' := hp.nodup_iff.mp h
    rw [List.nodup_cons] at h'
    refine ⟨h'.2, fun u => ?_⟩
    rw [hs]
    constructor
    · intro hu
      refine ⟨by simp at hu ⊢; grind, ?_⟩
      rintro rfl; exact h'.1 hu
    · rintro ⟨hu, hne⟩
      simp at hu ⊢; grind
  · rw [r1 hm]
    exact ⟨h, fun u => ⟨fun hu => ⟨hu, by rintro rfl; exact hm hu⟩, fun hu => hu.1⟩⟩

theorem remove_deps {s : State T} (t : T) (hm : t ∈ s.stack) :
    (remove s t).deps = removeDeps s.deps t := by
  have : ¬ find t s.stack = s.stack.length := fun h => ((find_eq_length t s.stack).mp h) hm
  simp [remove, this]

theorem up_deps (s : State T) (t : T) : (up s t).deps = s.deps := by
  simp only [up]; split
  · rfl
  · split <;> rfl

theorem down_deps (s : State T) (t : T) : (down s t).deps = s.deps := by
  simp only [down]; split
  · rfl
  · split <;> rfl

theorem step_exact (s s' : State T) (c : Cmd T) (hs : s.stack.Nodup ∧ DepsExact s)
    (hc : match c with | .push t => t ∉ s.stack | _ => True) (h : step s c = .ok s') :
    s'.stack.Nodup ∧ DepsExact s' := by
  obtain ⟨hnd, hex⟩ := hs
  cases c with
  | push t =>
    simp only [step] at h
    split at h
    · simp at h; subst h; exact ⟨hnd, hex⟩
    · rename_i hj
      simp [push, hj] at h
      subst h
      simp only at hc
      refine ⟨?_, fun u => ?_⟩
      · simp only
        rw [List.nodup_append]
        refine ⟨hnd, by simp, ?_⟩
        intro a ha b hb
        simp at hb; subst hb
        rintro rfl; exact hc ha
      · have := hex u
        simp only [addDeps, List.mem_append, List.mem_cons, List.not_mem_nil, or_false,
          reduceCtorEq, false_or, Sig.task.injEq, Sig.jacobian.injEq]
        constructor
        · rw [← this.1]; grind
        · rw [← this.2]; grind
  | pop =>
    simp only [step] at h
    rcases List.eq_nil_or_concat s.stack with he | ⟨l, t, he⟩
    · simp [pop, he] at h
    · simp only [pop, he, List.concat_eq_append, List.getLast?_append, List.getLast?_singleton,
        Option.some_or, Outcome.map_ok, Outcome.ok.injEq] at h
      subst h
      simp only [List.concat_eq_append] at he
      have hn : (l ++ [t]).Nodup := by rw [← he]; exact hnd
      rw [List.nodup_append] at hn
      refine ⟨?_, fun u => ?_⟩
      · simp [hn.1]
      · have := hex u
        simp only [mem_removeDeps, List.dropLast_concat]
        rw [← this.1, ← this.2, he]
        have htl : t ∉ l := fun hm => hn.2.2 t hm t (by simp) rfl
        constructor <;> simp <;> grind
  | remove t =>
    simp only [step, Outcome.ok.injEq] at h
    subst h
    obtain ⟨h1, h2⟩ := nodup_remove hnd t
    refine ⟨h1, fun u => ?_⟩
    rw [h2 u]
    by_cases hm : t ∈ s.stack
    · rw [remove_deps t hm]
      simp only [mem_removeDeps]
      have := hex u
      rw [← this.1, ← this.2]
      constructor <;> simp
    · rw [(C07_remove s t).1 hm]
      have := hex u
      rw [← this.1, ← this.2]
      constructor <;> (constructor <;> intro hu <;> first | exact hu.1 | exact ⟨hu, by
        rintro rfl; exact hm hu⟩)
  | up t =>
    simp only [step, Outcome.ok.injEq] at h
    subst h
    have hp := (C07_reorder_perm s t).1
    refine ⟨hp.nodup_iff.mpr hnd, fun u => ?_⟩
    rw [up_deps, hp.mem_iff]; exact hex u
  | down t =>
    simp only [step, Outcome.ok.injEq] at h
    subst h
    have hp := (C07_reorder_perm s t).2
    refine ⟨hp.nodup_iff.mpr hnd, fun u => ?_⟩
    rw [down_deps, hp.mem_iff]; exact hex u
  | clear =>
    simp only [step, Outcome.ok.injEq] at h
    subst h
    refine ⟨by simp [clear], fun u => ?_⟩
    have := hex u
    simp only [clear, List.not_mem_nil, false_iff, mem_removeAllDeps]
    constructor
    · rintro ⟨hd, hall⟩
      exact (hall u (this.1.mpr hd)).1 rfl
    · rintro ⟨hd, hall⟩
      exact (hall u (this.2.mpr hd)).2 rfl
  | setSize n =>
    simp only [step, Outcome.ok.injEq] at h
    subst h; exact ⟨hnd, hex⟩
  | compute =>
    simp only [step, Outcome.ok.injEq] at h
    subst h; exact ⟨hnd, hex⟩

/-- C08, for histories without duplicates: after any commands that never push a task already in the
stack, the control depends on the task and jacobian signals of exactly the tasks in the stack. -/
theorem C08_deps_exact_partial (cmds : List (Cmd T)) (s' : State T)
    (hnd : NoDupPush init cmds) (h : run init cmds = .ok s') : DepsExact s' := by
  suffices H : ∀ (cmds : List (Cmd T)) (s : State T), s.stack.Nodup ∧ DepsExact s →
      NoDupPush s cmds → run s cmds = .ok s' → s'.stack.Nodup ∧ DepsExact s' from
    (H cmds init ⟨by simp [init], fun t => by simp [init]⟩ hnd h).2
  intro cmds
  induction cmds with
  | nil => intro s hs _ h; simp [run] at h; subst h; exact hs
  | cons c cs ih =>
    intro s hs hnd h
    simp only [run] at h
    cases hst : step s c with
    | ok s1 =>
      rw [hst] at h
      exact ih s1 (step_exact s s1 c hs hnd.1 hst) (hnd.2 s1 hst) h
    | throw => rw [hst] at h; simp at h
    | ub => rw [hst] at h; simp at h

example : NoDupPush init
    ([.setSize 6, .push 1, .push 2, .up 2, .remove 1, .push 1, .pop] : List (Cmd Nat)) ∧
    run init ([.setSize 6, .push 1, .push 2, .up 2, .remove 1, .push 1, .pop] : List (Cmd Nat))
      = .ok ⟨[2], [.jacobian 2, .task 2], true, 6⟩ := by
  refine ⟨?_, by decide⟩
  simp [NoDupPush, step, init, defineNbDof, push, up, remove, find, insertAt, pop]

theorem step_sound (s s' : State T) (c : Cmd T) (hs : DepsSound s) (h : step s c = .ok s') :
    DepsSound s' := by
  cases c with
  | push t =>
    simp only [step] at h
    split at h
    · simp at h; subst h; exact hs
    · rename_i hj
      simp [push, hj] at h
      subst h
      intro u
      have := hs u
      simp only [addDeps, List.mem_append, List.mem_cons, List.not_mem_nil, or_false,
          reduceCtorEq, false_or, Sig.task.injEq, Sig.jacobian.injEq]
      grind
  | pop =>
    simp only [step] at h
    rcases List.eq_nil_or_concat s.stack with he | ⟨l, t, he⟩
    · simp [pop, he] at h
    · simp only [pop, he, List.concat_eq_append, List.getLast?_append, List.getLast?_singleton,
        Option.some_or, Outcome.map_ok, Outcome.ok.injEq] at h
      subst h
      simp only [List.concat_eq_append] at he
      intro u
      have := hs u
      rw [he] at this
      simp only [mem_removeDeps, List.dropLast_concat]
      simp at this ⊢
      grind
  | remove t =>
    simp only [step, Outcome.ok.injEq] at h
    subst h
    by_cases hm : t ∈ s.stack
    · obtain ⟨a, b, hst, ha⟩ := exists_split t s.stack hm
      intro u
      have := hs u
      rw [remove_deps t hm, (C07_remove s t).2 a b hst ha]
      rw [hst] at this
      simp only [mem_removeDeps]
      simp at this ⊢
      grind
    · rw [(C07_remove s t).1 hm]; exact hs
  | up t =>
    simp only [step, Outcome.ok.injEq] at h
    subst h
    intro u
    rw [up_deps, (C07_reorder_perm s t).1.mem_iff]; exact hs u
  | down t =>
    simp only [step, Outcome.ok.injEq] at h
    subst h
    intro u
    rw [down_deps, (C07_reorder_perm s t).2.mem_iff]; exact hs u
  | clear =>
    simp only [step, Outcome.ok.injEq] at h
    subst h
    intro u
    have := hs u
    simp only [clear, mem_removeAllDeps]
    constructor
    · rintro ⟨hd, hall⟩; exact absurd rfl (hall u (this.1 hd)).1
    · rintro ⟨hd, hall⟩; exact absurd rfl (hall u (this.2 hd)).2
  | setSize n =>
    simp only [step, Outcome.ok.injEq] at h
    subst h; exact hs
  | compute =>
    simp only [step, Outcome.ok.injEq] at h
    subst h; exact hs

/-- C08, one direction for all histories: the control never depends on a task outside the stack. -/
theorem C08_deps_sound (cmds : List (Cmd T)) (s' : State T) (h : run init cmds = .ok s') :
    DepsSound s' := by
  suffices H : ∀ (cmds : List (Cmd T)) (s : State T), DepsSound s →
      run s cmds = .ok s' → DepsSound s' from
    H cmds init (fun t => by simp [init]) h
  intro cmds
  induction cmds with
  | nil => intro s hs h; simp [run] at h; subst h; exact hs
  | cons c cs ih =>
    intro s hs h
    simp only [run] at h
    cases hst : step s c with
    | ok s1 => rw [hst] at h; exact ih s1 (step_sound s s1 c hs hst) h
    | throw => rw [hst] at h; simp at h
    | ub => rw [hst] at h; simp at h

/-- Disagreement: when a task has been pushed twice, removing it once leaves it in the stack without
any dependency, so the control is no longer recomputed when that task changes. -/
theorem C08_duplicate_counterexample :
    ∃ s' : State Nat, run init [.setSize 6, .push 1, .push 1, .remove 1] = .ok s' ∧
      1 ∈ s'.stack ∧ Sig.task 1 ∉ s'.deps ∧ Sig.jacobian 1 ∉ s'.deps := by
  refine ⟨⟨[1], [], true, 6⟩, by decide, by decide, by decide, by decide⟩

/-- C08. A command that changes the stack marks the control as to be recomputed. -/
theorem C08_change_marks_ready (s s' : State T) (c : Cmd T) (h : step s c = .ok s')
    (hch : s'.stack ≠ s.stack) : s'.ready = true := by
  cases c with
  | push t =>
    simp only [step] at h
    split at h
    · simp at h; subst h; exact absurd rfl hch
    · rename_i hj; simp [push, hj] at h; subst h; rfl
  | pop =>
    simp only [step, pop] at h
    split at h
    · simp at h
    · simp at h; subst h; rfl
  | remove t =>
    simp only [step, Outcome.ok.injEq] at h; subst h
    simp only [remove] at hch ⊢
    split
    · rename_i h; simp [h] at hch
    · rfl
  | up t =>
    simp only [step, Outcome.ok.injEq] at h; subst h
    simp only [up] at hch ⊢
    split
    · rename_i h; simp [h] at hch
    · split
      · rename_i h h2; simp [h2] at hch
      · rfl
  | down t =>
    simp only [step, Outcome.ok.injEq] at h; subst h
    simp only [down] at hch ⊢
    split
    · rename_i h; simp [h] at hch
    · split <;> rfl
  | clear => simp only [step, Outcome.ok.injEq] at h; subst h; rfl
  | setSize n => simp only [step, Outcome.ok.injEq] at h; subst h; rfl
  | compute => simp only [step, Outcome.ok.injEq] at h; subst h; exact absurd rfl hch

example : ∃ s' : State Nat, step ⟨[1, 2], [], false, 3⟩ (.up 2) = .ok s' ∧
    s'.stack ≠ [1, 2] := ⟨⟨[2, 1], [], true, 3⟩, by decide, by decide⟩

end Verif.Sot
