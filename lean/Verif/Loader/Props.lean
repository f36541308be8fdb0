import Verif.Loader.Model
import Mathlib.Tactic.Common

/-!
# Properties of the loader (C106)
-/

namespace Verif.Loader

/-- An interface can be used after the calls `l`: it was created by a handle that is not closed, and not destroyed. -/
def Usable (i : Nat) (l : List Ev) : Prop := ∃ h, .created i h ∈ l ∧ .closed h ∉ l ∧ ∀ h', .destroyed i h' ∉ l

/-- A handle is open after the calls `l`. -/
def IsOpen (h : Nat) (l : List Ev) : Prop := .opened h ∈ l ∧ .closed h ∉ l

/-- The calls are legal: handles and interfaces are used only between their creation and their destruction, and are destroyed or closed at
most once. -/
def Legal : List Ev → Prop
  | [] => True
  | .opened h :: l => Legal l ∧ .opened h ∉ l
  | .created i h :: l => Legal l ∧ IsOpen h l ∧ ∀ h', .created i h' ∉ l
  | .sensors i :: l => Legal l ∧ Usable i l
  | .control i :: l => Legal l ∧ Usable i l
  | .destroyed i h :: l => Legal l ∧ Usable i l ∧ IsOpen h l
  | .closed h :: l => Legal l ∧ IsOpen h l
  | .deregistered _ :: l => Legal l

/-- The number of an event. -/
def Ev.Below (n : Nat) : Ev → Prop
  | .opened h => h < n
  | .created i h => i < n ∧ h < n
  | .sensors i => i < n
  | .control i => i < n
  | .destroyed i h => i < n ∧ h < n
  | .closed h => h < n
  | .deregistered _ => True

theorem Ev.Below.mono {n m : Nat} (h : n ≤ m) {e : Ev} (he : e.Below n) : e.Below m := by
  cases e <;> simp only [Ev.Below] at he ⊢ <;> omega

/-- The invariant. -/
structure Inv (s : State) : Prop where
  legal : Legal s.log
  below : ∀ e ∈ s.log, e.Below s.next
  interface : ∀ i, s.interface = some i → Usable i s.log
  library : ∀ h, s.library = some h → IsOpen h s.log

theorem Usable.cons {i : Nat} {l : List Ev} (h : Usable i l) {e : Ev} (h1 : ∀ h, e ≠ .closed h) (h2 : ∀ h', e ≠ .destroyed i h') :
    Usable i (e :: l) := by
  obtain ⟨k, a, b, c⟩ := h
  exact ⟨k, List.mem_cons_of_mem _ a, by simp [b, (h1 k).symm], by intro h'; simp [c h', (h2 h').symm]⟩

theorem IsOpen.cons {h : Nat} {l : List Ev} (ho : IsOpen h l) {e : Ev} (h1 : e ≠ .closed h) : IsOpen h (e :: l) :=
  ⟨List.mem_cons_of_mem _ ho.1, by simp [ho.2, h1.symm]⟩

theorem inv_new : Inv .new := ⟨trivial, by simp [State.new], by simp [State.new], by simp [State.new]⟩

theorem Inv.deregister {s : State} (h : Inv s) : Inv (deregister s) := by
  rw [Loader.deregister]
  split_ifs
  · refine ⟨h.legal, ?_, fun i hi => (h.interface i hi).cons (by simp) (by simp), fun k hk => (h.library k hk).cons (by simp)⟩
    intro e he
    rcases List.mem_cons.1 he with rfl | he
    · trivial
    · exact h.below e he
  · exact h

theorem deregister_fields (s : State) : (deregister s).interface = s.interface ∧ (deregister s).library = s.library ∧
    (deregister s).stopped = s.stopped ∧ (deregister s).next = s.next ∧ (deregister s).device = s.device := by
  rw [Loader.deregister]
  split_ifs <;> simp

theorem Inv.opened {s : State} (h : Inv s) : Legal (.opened s.next :: s.log) ∧ IsOpen s.next (.opened s.next :: s.log) ∧
    ∀ e ∈ (.opened s.next :: s.log : List Ev), e.Below (s.next + 1) := by
  refine ⟨⟨h.legal, ?_⟩, ⟨List.mem_cons_self, ?_⟩, ?_⟩
  · intro hm
    exact absurd (h.below _ hm) (by simp [Ev.Below])
  · intro hm
    rcases List.mem_cons.1 hm with e | hm
    · cases e
    · exact absurd (h.below _ hm) (by simp [Ev.Below])
  · intro e he
    rcases List.mem_cons.1 he with rfl | he
    · simp [Ev.Below]
    · exact (h.below e he).mono (by omega)

theorem Inv.step {s : State} (h : Inv s) (o : Op) : Inv (step s o).1 := by
  cases o with
  | start => exact ⟨h.legal, h.below, h.interface, h.library⟩
  | stop => exact ⟨h.legal, h.below, h.interface, h.library⟩
  | loadDevice n => exact ⟨h.legal, h.below, h.interface, h.library⟩
  | init opens finds =>
    obtain ⟨h1, h2, h3⟩ := h.opened
    simp only [Loader.step, initialization]
    split_ifs
    · have hfresh : ∀ h', Ev.created (s.next + 1) h' ∉ (.opened s.next :: s.log : List Ev) := by
        intro h' hm
        exact absurd (h3 _ hm).1 (by omega)
      refine ⟨⟨h1, h2, hfresh⟩, ?_, ?_, ?_⟩
      · intro e he
        rcases List.mem_cons.1 he with rfl | he
        · simp [Ev.Below]
        · exact (h3 e he).mono (by simp)
      · intro i hi
        simp only [Option.some.injEq] at hi
        subst hi
        refine ⟨s.next, List.mem_cons_self, ?_, ?_⟩
        · have := h2.2
          simpa using this
        · intro h' hm
          rcases List.mem_cons.1 hm with e | hm
          · cases e
          · exact absurd (h3 _ hm).1 (by omega)
      · intro k hk
        simp only [Option.some.injEq] at hk
        subst hk
        exact h2.cons (by simp)
    · refine ⟨h1, h3, fun i hi => (h.interface i hi).cons (by simp) (by simp), ?_⟩
      intro k hk
      simp only [Option.some.injEq] at hk
      subst hk
      exact h2
    · exact ⟨h.legal, h.below, h.interface, by simp⟩
  | cleanUp finds =>
    have hd := h.deregister
    simp only [Loader.step, Loader.cleanUp]
    split
    · rename_i k i hk hi
      split_ifs
      · refine ⟨⟨⟨hd.legal, hd.interface i hi, hd.library k hk⟩, (hd.library k hk).cons (by simp)⟩, ?_, by simp, by simp⟩
        intro e he
        have hk' := hd.below _ (hd.library k hk).1
        obtain ⟨k', hc, -, -⟩ := hd.interface i hi
        have hi' := (hd.below _ hc).1
        rcases List.mem_cons.1 he with rfl | he
        · exact hk'
        · rcases List.mem_cons.1 he with rfl | he
          · exact ⟨hi', hk'⟩
          · exact hd.below e he
      · exact hd
    · exact hd
  | iterate r =>
    simp only [Loader.step, oneIteration]
    split_ifs
    · exact h
    · cases hi : s.interface with
      | none => exact ⟨h.legal, h.below, by simp [hi], h.library⟩
      | some i =>
        have hu := h.interface i hi
        have hib : i < s.next := by
          obtain ⟨k', hc, -, -⟩ := hu
          exact (h.below _ hc).1
        have hu1 : Usable i (.sensors i :: s.log) := hu.cons (by simp) (by simp)
        have one : Inv { s with log := .sensors i :: s.log } := by
          refine ⟨⟨h.legal, hu⟩, ?_, fun j hj => (h.interface j hj).cons (by simp) (by simp), fun k hk => (h.library k hk).cons (by simp)⟩
          intro e he
          rcases List.mem_cons.1 he with rfl | he
          · exact hib
          · exact h.below e he
        have two : Inv { s with log := .control i :: .sensors i :: s.log } := by
          refine ⟨⟨one.legal, hu1⟩, ?_, fun j hj => (one.interface j hj).cons (by simp) (by simp), fun k hk => (one.library k hk).cons (by simp)⟩
          intro e he
          rcases List.mem_cons.1 he with rfl | he
          · exact hib
          · exact one.below e he
        cases r
        · simpa [hi] using two
        · simpa [hi] using one
        · simpa [hi] using two

theorem inv_run (l : List Op) : Inv (run l) := by
  have key : ∀ (l : List Op) (s : State), Inv s → Inv (l.foldl (fun s o => (step s o).1) s) := by
    intro l
    induction l with
    | nil => exact fun s h => h
    | cons o l ih => exact fun s h => ih _ (h.step o)
  exact key l _ inv_new

/-- **C106.** After any calls of the loader, in any order and whatever the linker and the library answer, an interface was used only between
its creation and its destruction and while the library that created it was open, no interface was destroyed twice and no handle closed
twice. -/
theorem C106_legal (l : List Op) : Legal (run l).log := (inv_run l).legal

/-! ### The iterations -/

/-- **C106.** Nothing is called while the graph is stopped, whatever is loaded; a new loader is stopped. -/
theorem C106_stopped {s : State} (h : s.stopped = true) (r : Run) : oneIteration r s = (s, .done) ∧ State.new.stopped = true := by
  simp [oneIteration, h, State.new]

/-- **C106.** While it runs, an iteration gives the sensors to the interface and then asks it for the control, once each; when the sensors
raise an exception the control is not asked for; the exception reaches the caller. -/
theorem C106_running {s : State} (h : s.stopped = false) {i : Nat} (hi : s.interface = some i) :
    oneIteration .returns s = ({ s with log := .control i :: .sensors i :: s.log }, .done) ∧
      oneIteration .throwsSensors s = ({ s with log := .sensors i :: s.log }, .thrown) ∧
      (oneIteration .throwsControl s).2 = .thrown := by
  simp [oneIteration, h, hi]

/-- **C106.** Starting the graph before the initialisation, or after a failed one, makes the next iteration dereference a null pointer. -/
theorem C106_not_loaded_counterexample (r : Run) (b c : Bool) (hb : (b && c) = false) :
    (step (run [.start]) (.iterate r)).2 = .ub ∧ (step (run [.init b c, .start]) (.iterate r)).2 = .ub := by
  cases b <;> cases c <;> simp_all [run, step, initialization, oneIteration, State.new]

/-- **C106.** The clean-up does not stop the graph: an iteration after it dereferences a null pointer. -/
theorem C106_clean_up_running_counterexample {s : State} (h : s.stopped = false) {k i : Nat} (hk : s.library = some k) (hi : s.interface = some i)
    (r : Run) : (oneIteration r (cleanUp true s)).2 = .ub := by
  obtain ⟨e1, e2, e3, -, -⟩ := deregister_fields s
  simp [cleanUp, e1, e2, hk, hi, oneIteration, e3, h]

/-! ### The resources -/

/-- The interfaces that are left. -/
def Leaked (s : State) : Prop := (∃ i h, .created i h ∈ s.log ∧ ∀ h', .destroyed i h' ∉ s.log) ∨ ∃ h, .opened h ∈ s.log ∧ .closed h ∉ s.log

/-- The histories in which the library opens, both functions are found, and nothing is initialised twice without a clean-up. -/
def Disciplined : Bool → List Op → Prop
  | _, [] => True
  | loaded, .init o f :: l => loaded = false ∧ o = true ∧ f = true ∧ Disciplined true l
  | _, .cleanUp f :: l => f = true ∧ Disciplined false l
  | loaded, _ :: l => Disciplined loaded l

/-- Everything that was created and is not held any more was given back to the handle that created it. -/
structure Clean (s : State) : Prop where
  pair : (s.interface = none ∧ s.library = none) ∨ ∃ i h, s.interface = some i ∧ s.library = some h ∧ .created i h ∈ s.log
  interfaces : ∀ i h, .created i h ∈ s.log → s.interface = some i ∨ .destroyed i h ∈ s.log
  handles : ∀ h, .opened h ∈ s.log → s.library = some h ∨ .closed h ∈ s.log

theorem clean_foldl (l : List Op) : ∀ (s : State) (loaded : Bool), Inv s → Clean s → (loaded = false → s.interface = none) →
    Disciplined loaded l → Clean (l.foldl (fun s o => (step s o).1) s) := by
  induction l with
  | nil => exact fun s _ _ h _ _ => h
  | cons o l ih =>
    intro s loaded hI hC hl hd
    have hI' := hI.step o
    cases o with
    | start => exact ih _ loaded hI' ⟨hC.pair, hC.interfaces, hC.handles⟩ hl hd
    | stop => exact ih _ loaded hI' ⟨hC.pair, hC.interfaces, hC.handles⟩ hl hd
    | loadDevice n => exact ih _ loaded hI' ⟨hC.pair, hC.interfaces, hC.handles⟩ hl hd
    | init o f =>
      obtain ⟨rfl, rfl, rfl, hd⟩ := hd
      have hn := hl rfl
      have hlib : s.library = none := by
        rcases hC.pair with h | ⟨i, h, h1, -⟩
        · exact h.2
        · simp [hn] at h1
      refine ih _ true hI' ?_ (by simp) hd
      simp only [step, initialization, if_true]
      refine ⟨.inr ⟨_, _, rfl, rfl, List.mem_cons_self⟩, ?_, ?_⟩
      · intro i h hm
        rcases List.mem_cons.1 hm with e | hm
        · cases e
          exact .inl rfl
        · rcases List.mem_cons.1 hm with e | hm
          · cases e
          · rcases hC.interfaces i h hm with h1 | h1
            · simp [hn] at h1
            · exact .inr (List.mem_cons_of_mem _ (List.mem_cons_of_mem _ h1))
      · intro h hm
        rcases List.mem_cons.1 hm with e | hm
        · cases e
        · rcases List.mem_cons.1 hm with e | hm
          · cases e
            exact .inl rfl
          · rcases hC.handles h hm with h1 | h1
            · simp [hlib] at h1
            · exact .inr (List.mem_cons_of_mem _ (List.mem_cons_of_mem _ h1))
    | cleanUp f =>
      obtain ⟨rfl, hd⟩ := hd
      obtain ⟨e1, e2, -, -, -⟩ := deregister_fields s
      have hlog : ∀ e, (∀ n, e ≠ .deregistered n) → (e ∈ (deregister s).log ↔ e ∈ s.log) := by
        intro e he
        rw [deregister]
        split_ifs
        · simp [he]
        · rfl
      refine ih _ false hI' ?_ ?_ hd
      · rcases hC.pair with ⟨h1, h2⟩ | ⟨i, h, h1, h2, h3⟩
        · have hc : (step s (.cleanUp true)).1 = deregister s := by simp [step, cleanUp, e1, e2, h1, h2]
          show Clean (step s (.cleanUp true)).1
          rw [hc]
          refine ⟨.inl ⟨by rw [e1, h1], by rw [e2, h2]⟩, ?_, ?_⟩
          · intro i h hm
            rw [hlog _ (by simp)] at hm
            rw [hlog _ (by simp), e1]
            exact hC.interfaces i h hm
          · intro h hm
            rw [hlog _ (by simp)] at hm
            rw [hlog _ (by simp), e2]
            exact hC.handles h hm
        · have hc : (step s (.cleanUp true)).1 =
              { deregister s with interface := none, library := none, log := .closed h :: .destroyed i h :: (deregister s).log } := by
            simp [step, cleanUp, e1, e2, h1, h2]
          show Clean (step s (.cleanUp true)).1
          rw [hc]
          refine ⟨.inl ⟨rfl, rfl⟩, ?_, ?_⟩
          · intro j k hm
            refine .inr ?_
            simp only [List.mem_cons, reduceCtorEq, false_or] at hm ⊢
            rw [hlog _ (by simp)] at hm
            rcases hC.interfaces j k hm with h4 | h4
            · rw [h1] at h4
              cases h4
              -- the handle of an interface is unique
              have : k = h := by
                have key : ∀ l, Legal l → ∀ {k h}, .created i k ∈ l → .created i h ∈ l → k = h := by
                  intro l
                  induction l with
                  | nil => intro _ k h hk; cases hk
                  | cons e l ih' =>
                    intro hL k h hk hh
                    have hLl : Legal l := by cases e <;> first | exact hL.1 | exact hL
                    rcases List.mem_cons.1 hk with ek | hk
                    · rcases List.mem_cons.1 hh with eh | hh
                      · rw [← ek] at eh
                        cases eh
                        rfl
                      · rw [← ek] at hL
                        exact absurd hh (hL.2.2 h)
                    · rcases List.mem_cons.1 hh with eh | hh
                      · rw [← eh] at hL
                        exact absurd hk (hL.2.2 k)
                      · exact ih' hLl hk hh
                exact key _ hI.legal hm h3
              subst this
              exact .inl rfl
            · exact .inr ((hlog _ (by simp)).2 h4)
          · intro k hm
            refine .inr ?_
            simp only [List.mem_cons, reduceCtorEq, false_or] at hm ⊢
            rw [hlog _ (by simp)] at hm
            rcases hC.handles k hm with h4 | h4
            · rw [h2] at h4
              cases h4
              exact .inl rfl
            · exact .inr ((hlog _ (by simp)).2 h4)
      · intro _
        rcases hC.pair with ⟨h1, h2⟩ | ⟨i, h, h1, h2, -⟩ <;> simp [step, cleanUp, e1, e2, h1, h2]
    | iterate r =>
      refine ih _ loaded hI' ?_ ?_ hd
      · simp only [step, oneIteration]
        split_ifs
        · exact hC
        · cases hi : s.interface with
          | none => simpa [hi] using hC
          | some i =>
            have grow : ∀ m : List Ev, (∀ e ∈ m, e = .sensors i ∨ e = .control i) → Clean { s with log := m ++ s.log } := by
              intro m hm
              have hin : ∀ e, e ∈ s.log → e ∈ m ++ s.log := fun e he => List.mem_append_right _ he
              refine ⟨?_, ?_, ?_⟩
              · rcases hC.pair with h | ⟨a, b, h1, h2, h3⟩
                · exact .inl h
                · exact .inr ⟨a, b, h1, h2, hin _ h3⟩
              · intro a b hab
                rcases List.mem_append.1 hab with h | h
                · rcases hm _ h with h | h <;> cases h
                · exact (hC.interfaces a b h).imp id (hin _)
              · intro a ha
                rcases List.mem_append.1 ha with h | h
                · rcases hm _ h with h | h <;> cases h
                · exact (hC.handles a h).imp id (hin _)
            cases r
            · simpa [hi] using grow [.control i, .sensors i] (by simp)
            · simpa [hi] using grow [.sensors i] (by simp)
            · simpa [hi] using grow [.control i, .sensors i] (by simp)
      · intro h
        have := hl h
        simp only [step, oneIteration, this]
        split_ifs <;> simp [this]

/-- **C106.** After a history in which each initialisation succeeds and is cleaned up before the next one, everything that was created
and is not held any more was given back to the handle that created it. -/
theorem C106_disciplined {l : List Op} (hl : Disciplined false l) : Clean (run l) :=
  clean_foldl l _ false inv_new ⟨.inl ⟨rfl, rfl⟩, by simp [State.new], by simp [State.new]⟩ (fun _ => rfl) hl

theorem disciplined_append {l : List Op} {b : Bool} (hl : Disciplined b l) : Disciplined b (l ++ [.cleanUp true]) := by
  induction l generalizing b with
  | nil => simp [Disciplined]
  | cons o l ih =>
    cases o with
    | init o f => exact ⟨hl.1, hl.2.1, hl.2.2.1, ih hl.2.2.2⟩
    | cleanUp f => exact ⟨hl.1, ih hl.2⟩
    | start => exact ih (b := b) hl
    | stop => exact ih (b := b) hl
    | iterate r => exact ih (b := b) hl
    | loadDevice n => exact ih (b := b) hl

theorem cleanUp_interface (s : State) (hC : Clean s) : (cleanUp true s).interface = none ∧ (cleanUp true s).library = none := by
  obtain ⟨e1, e2, -, -, -⟩ := deregister_fields s
  rcases hC.pair with ⟨h1, h2⟩ | ⟨i, h, h1, h2, -⟩ <;> simp [cleanUp, e1, e2, h1, h2]

/-- **C106.** In particular nothing is left after a last clean-up, which the destructor does. -/
theorem C106_no_leak {l : List Op} (hl : Disciplined false l) : ¬Leaked (run (l ++ [.cleanUp true])) := by
  have h := C106_disciplined (disciplined_append hl)
  have hn : (run (l ++ [.cleanUp true])).interface = none ∧ (run (l ++ [.cleanUp true])).library = none := by
    rw [run, List.foldl_append]
    exact cleanUp_interface _ (C106_disciplined hl)
  rintro (⟨i, k, hc, hd⟩ | ⟨k, ho, hc⟩)
  · rcases h.interfaces i k hc with h1 | h1
    · simp [hn.1] at h1
    · exact hd k h1
  · rcases h.handles k ho with h1 | h1
    · simp [hn.2] at h1
    · exact hc h1

/-- **C106.** Two initialisations without a clean-up between them lose the first interface and the first handle for ever. -/
theorem C106_twice_counterexample : ∀ l : List Op, (∀ o ∈ l, ∃ f, o = .cleanUp f) → Leaked (run ([.init true true, .init true true] ++ l)) := by
  intro l hl
  have key : ∀ (l : List Op) (s : State), (∀ o ∈ l, ∃ f, o = .cleanUp f) → Ev.created 1 0 ∈ s.log → s.interface ≠ some 1 →
      (∀ h', Ev.destroyed 1 h' ∉ s.log) → Ev.created 1 0 ∈ (l.foldl (fun s o => (step s o).1) s).log ∧
        ∀ h', Ev.destroyed 1 h' ∉ (l.foldl (fun s o => (step s o).1) s).log := by
    intro l
    induction l with
    | nil => exact fun s _ h1 _ h3 => ⟨h1, h3⟩
    | cons o l ih =>
      intro s hl h1 h2 h3
      obtain ⟨f, rfl⟩ := hl o List.mem_cons_self
      have hd : Ev.created 1 0 ∈ (deregister s).log ∧ (deregister s).interface ≠ some 1 ∧ ∀ h', Ev.destroyed 1 h' ∉ (deregister s).log := by
        rw [deregister]
        split_ifs
        · exact ⟨List.mem_cons_of_mem _ h1, h2, by simpa using h3⟩
        · exact ⟨h1, h2, h3⟩
      obtain ⟨d1, d2, d3⟩ := hd
      have hl' : ∀ o ∈ l, ∃ f, o = .cleanUp f := fun o ho => hl o (List.mem_cons_of_mem _ ho)
      have : Ev.created 1 0 ∈ (cleanUp f s).log ∧ (cleanUp f s).interface ≠ some 1 ∧ ∀ h', Ev.destroyed 1 h' ∉ (cleanUp f s).log := by
        rw [cleanUp]
        split
        · rename_i k i hk hi
          have hi1 : i ≠ 1 := fun e => d2 (by rw [hi, e])
          split_ifs
          · refine ⟨List.mem_cons_of_mem _ (List.mem_cons_of_mem _ d1), by simp, ?_⟩
            intro h' hm
            simp only [List.mem_cons, reduceCtorEq, false_or, Ev.destroyed.injEq] at hm
            rcases hm with hm | hm
            · exact hi1 hm.1.symm
            · exact d3 h' hm
          · exact ⟨d1, d2, d3⟩
        · exact ⟨d1, d2, d3⟩
      exact ih _ hl' this.1 this.2.1 this.2.2
  rw [run, List.foldl_append]
  have := key l (([.init true true, .init true true] : List Op).foldl (fun s o => (step s o).1) .new) hl
    (by simp [step, initialization, State.new]) (by simp [step, initialization, State.new]) (by simp [step, initialization, State.new])
  exact .inl ⟨1, 0, this.1, this.2⟩

/-- **C106.** When the function that creates the interface is missing, the handle is not closed by the clean-up. -/
theorem C106_missing_function_counterexample (f : Bool) : Leaked (run [.init true false, .cleanUp f]) := by
  refine .inr ⟨0, ?_⟩
  cases f <;> simp [run, step, initialization, cleanUp, deregister, State.new]

/-- **C106.** After a second initialisation that opens a library without that function, the clean-up destroys the first interface with the
function of the second library. -/
theorem C106_wrong_library_counterexample : Ev.created 1 0 ∈ (run [.init true true, .init true false, .cleanUp true]).log ∧
    Ev.destroyed 1 2 ∈ (run [.init true true, .init true false, .cleanUp true]).log := by
  simp [run, step, initialization, cleanUp, deregister, State.new]

/-- **C106.** The name of the device is kept by the clean-up: a second one, such as that of the destructor, deregisters it again. -/
theorem C106_deregistered_twice_counterexample {s : State} (h : s.device ≠ "") (f g : Bool) :
    (cleanUp g (cleanUp f s)).log.count (.deregistered s.device) = s.log.count (.deregistered s.device) + 2 := by
  have one : ∀ (s : State) (b : Bool), s.device ≠ "" → (cleanUp b s).log.count (.deregistered s.device) =
      s.log.count (.deregistered s.device) + 1 ∧ (cleanUp b s).device = s.device := by
    intro s b h
    rw [cleanUp]
    have hd : (deregister s).log = .deregistered s.device :: s.log ∧ (deregister s).device = s.device := by simp [deregister, h]
    split
    · split_ifs <;> simp [hd.1, hd.2]
    · simp [hd.1, hd.2]
  obtain ⟨h1, h2⟩ := one s f h
  obtain ⟨h3, -⟩ := one (cleanUp f s) g (by rw [h2]; exact h)
  rw [h2] at h3
  rw [h3, h1]

/-- A disciplined history with two lives of a library. -/
theorem C106_case : Disciplined false [.init true true, .start, .iterate .returns, .stop, .cleanUp true, .init true true, .cleanUp true] ∧
    (run [.init true true, .start, .iterate .returns, .stop, .cleanUp true]).log =
      [.closed 0, .destroyed 1 0, .control 1, .sensors 1, .created 1 0, .opened 0] := by
  simp [Disciplined, run, step, initialization, cleanUp, deregister, oneIteration, State.new]

end Verif.Loader
