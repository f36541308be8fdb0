import Verif.ThreadLoop.Model

/-!
# C113: the interruptible loop

What the methods guarantee whatever the interleaving of the two threads, and the races that lose a request.
-/

namespace Verif.ThreadLoop

theorem exec_append (s : S) (as bs : List Act) : exec s (as ++ bs) = exec (exec s as) bs := by simp [exec]

theorem alone_zero (s : S) : alone 0 s = s := rfl

theorem alone_succ (n : Nat) (s : S) : alone (n + 1) s = alone n (loopStep s) := rfl

theorem alone_add (m n : Nat) (s : S) : alone (m + n) s = alone n (alone m s) := by
  induction m generalizing s with
  | zero => rw [Nat.zero_add]; rfl
  | succ m ih => rw [show m + 1 + n = (m + n) + 1 by omega, alone_succ, alone_succ, ih]

/-- An invariant of the steps holds in all executions. -/
theorem exec_invariant {P : S → Prop} (h : ∀ s a, P s → P (act s a)) (s : S) (hs : P s) (as : List Act) : P (exec s as) := by
  induction as generalizing s with
  | nil => exact hs
  | cons a as ih => exact ih _ (h s a hs)

theorem alone_invariant {P : S → Prop} (h : ∀ s, P s → P (loopStep s)) (s : S) (hs : P s) (n : Nat) : P (alone n s) := by
  induction n generalizing s with
  | zero => exact hs
  | succ n ih => exact ih _ (h s hs)

/-- **C113.** In all executions the counter of iterations is the number of calls of the body that ended, whatever the script does. -/
theorem C113_count (as : List Act) :
    (exec {} as).bodies = (exec {} as).iter + (if (exec {} as).pc = .count then 1 else 0) := by
  apply exec_invariant (P := fun s => s.bodies = s.iter + (if s.pc = .count then 1 else 0))
  · intro s a h
    obtain ⟨isQuit, isPlay, isOnce, isRunning, iter, bodies, pc, sc, failed⟩ := s
    simp only at h
    cases a
    · cases pc <;> cases isQuit <;> cases isPlay <;> cases isOnce <;> simp_all [act, loopStep]
    · cases sc <;> simp only [act, scriptStep] <;> try exact h
      by_cases hp : pc = .notStarted
      · rw [if_pos hp]; simp_all
      · rw [if_neg hp]; exact h
    · simp only [act, quit]; split <;> exact h
    · simp only [act, pause]; split <;> exact h
    · simp only [act, once]; split <;> exact h
    · simp only [act, play]; split <;> exact h
  · rfl

/-- **C113.** After a pause, and until the script asks for something else, the body is called at most once more, and only if the loop had
already tested the flag. -/
theorem C113_pause (s : S) (hs : s.sc = .idle) (n : Nat) :
    (alone n (pause s)).isPlay = false ∧
    (alone n (pause s)).bodies = s.bodies + (if s.pc = .body ∧ 0 < n then 1 else 0) := by
  have key : ∀ (n : Nat) (s : S), s.isPlay = false → s.pc ≠ .body → (alone n s).isPlay = false ∧ (alone n s).bodies = s.bodies := by
    intro n
    induction n with
    | zero => intro s h1 _; exact ⟨h1, rfl⟩
    | succ n ih =>
      intro s h1 h2
      rw [alone_succ]
      have hb : (loopStep s).bodies = s.bodies ∧ (loopStep s).isPlay = false ∧ (loopStep s).pc ≠ .body := by
        simp only [loopStep]
        split <;> rename_i hp <;> simp_all
        · split <;> simp
        · split <;> simp
      obtain ⟨b1, b2, b3⟩ := hb
      rw [← b1]
      exact ih _ b2 b3
  have hp : pause s = { s with isPlay := false } := by simp [pause, hs]
  rw [hp]
  cases n with
  | zero => exact ⟨rfl, by simp [alone_zero]⟩
  | succ n =>
    by_cases h : s.pc = .body
    · rw [alone_succ]
      have e : loopStep { s with isPlay := false } = { s with isPlay := false, bodies := s.bodies + 1, pc := .count } := by
        simp [loopStep, h]
      rw [e]
      obtain ⟨k1, k2⟩ := key n { s with isPlay := false, bodies := s.bodies + 1, pc := .count } rfl (by simp)
      exact ⟨k1, by rw [k2]; simp [h]⟩
    · obtain ⟨k1, k2⟩ := key (n + 1) { s with isPlay := false } rfl h
      exact ⟨k1, by rw [k2]; simp [h]⟩

/-- Bound on the number of steps of the loop before the end, once the flag is set. -/
def toEnd : Pc → Nat
  | .notStarted => 0
  | .clearQuit => 0
  | .setRunning => 3
  | .testQuit => 2
  | .testPlay => 8
  | .body => 7
  | .count => 6
  | .testOnce => 5
  | .undoPlay => 4
  | .sleep => 3
  | .clearRunning => 1
  | .ended => 0

/-- **C113.** A quit asked after the loop has begun ends the loop, whatever the script does after it: the body is called at most once more,
and after eight steps of the loop its thread is over. -/
theorem C113_quit (s : S) (hs : s.sc = .idle) (h1 : s.pc ≠ .notStarted) (h2 : s.pc ≠ .clearQuit) (as : List Act) :
    (exec (quit s) as).bodies ≤ s.bodies + 1 ∧ (8 ≤ as.count .loop → (exec (quit s) as).pc = .ended) := by
  have inv : ∀ (as : List Act) (s : S) (b : Nat), s.isQuit = true → s.pc ≠ .notStarted → s.pc ≠ .clearQuit →
      s.bodies + (if s.pc = .body ∨ s.pc = .testPlay then 1 else 0) ≤ b →
      (exec s as).bodies ≤ b ∧ (toEnd s.pc ≤ as.count .loop → (exec s as).pc = .ended) := by
    intro as
    induction as with
    | nil =>
      intro s b h1 h2 h3 h4
      refine ⟨by simp only [exec, List.foldl_nil]; omega, ?_⟩
      intro h
      simp only [List.count_nil] at h
      show s.pc = .ended
      revert h h2 h3
      cases s.pc <;> simp [toEnd]
    | cons a as ih =>
      intro s b h1 h2 h3 h4
      show (exec (act s a) as).bodies ≤ b ∧ (_ → (exec (act s a) as).pc = .ended)
      cases a with
      | loop =>
        have hs : (loopStep s).isQuit = true ∧ (loopStep s).pc ≠ .notStarted ∧ (loopStep s).pc ≠ .clearQuit ∧
            (loopStep s).bodies + (if (loopStep s).pc = .body ∨ (loopStep s).pc = .testPlay then 1 else 0) ≤ b ∧
            toEnd (loopStep s).pc ≤ toEnd s.pc - 1 := by
          clear ih
          obtain ⟨isQuit, isPlay, isOnce, isRunning, iter, bodies, pc, sc, failed⟩ := s
          simp only at h1 h2 h3 h4
          subst h1
          cases pc <;> cases isPlay <;> cases isOnce <;> simp_all [loopStep, toEnd] <;> omega
        obtain ⟨g1, g2, g3, g4, g5⟩ := hs
        obtain ⟨k1, k2⟩ := ih _ b g1 g2 g3 g4
        refine ⟨k1, fun h => k2 ?_⟩
        rw [List.count_cons_self] at h
        omega
      | script =>
        have hs : (scriptStep s).isQuit = true ∧ (scriptStep s).pc = s.pc ∧ (scriptStep s).bodies = s.bodies := by
          simp only [scriptStep]
          split <;> try exact ⟨h1, rfl, rfl⟩
          rw [if_neg h2]
          exact ⟨h1, rfl, rfl⟩
        obtain ⟨g1, g2, g3⟩ := hs
        have := ih (scriptStep s) b g1 (by rw [g2]; exact h2) (by rw [g2]; exact h3) (by rw [g2, g3]; exact h4)
        rw [g2] at this
        exact ⟨this.1, fun h => this.2 (by simpa using h)⟩
      | quit =>
        have hs : (quit s).isQuit = true ∧ (quit s).pc = s.pc ∧ (quit s).bodies = s.bodies := by
          simp only [quit]; split <;> simp_all
        obtain ⟨g1, g2, g3⟩ := hs
        have := ih (quit s) b g1 (by rw [g2]; exact h2) (by rw [g2]; exact h3) (by rw [g2, g3]; exact h4)
        rw [g2] at this
        exact ⟨this.1, fun h => this.2 (by simpa using h)⟩
      | pause =>
        have hs : (pause s).isQuit = true ∧ (pause s).pc = s.pc ∧ (pause s).bodies = s.bodies := by
          simp only [pause]; split <;> simp_all
        obtain ⟨g1, g2, g3⟩ := hs
        have := ih (pause s) b g1 (by rw [g2]; exact h2) (by rw [g2]; exact h3) (by rw [g2, g3]; exact h4)
        rw [g2] at this
        exact ⟨this.1, fun h => this.2 (by simpa using h)⟩
      | once =>
        have hs : (once s).isQuit = true ∧ (once s).pc = s.pc ∧ (once s).bodies = s.bodies := by
          simp only [once]; split <;> simp_all
        obtain ⟨g1, g2, g3⟩ := hs
        have := ih (once s) b g1 (by rw [g2]; exact h2) (by rw [g2]; exact h3) (by rw [g2, g3]; exact h4)
        rw [g2] at this
        exact ⟨this.1, fun h => this.2 (by simpa using h)⟩
      | play =>
        have hs : (play s).isQuit = true ∧ (play s).pc = s.pc ∧ (play s).bodies = s.bodies := by
          simp only [play]; split <;> simp_all
        obtain ⟨g1, g2, g3⟩ := hs
        have := ih (play s) b g1 (by rw [g2]; exact h2) (by rw [g2]; exact h3) (by rw [g2, g3]; exact h4)
        rw [g2] at this
        exact ⟨this.1, fun h => this.2 (by simpa using h)⟩
  have hq : quit s = { s with isQuit := true } := by simp [quit, hs]
  rw [hq]
  obtain ⟨k1, k2⟩ := inv as { s with isQuit := true } (s.bodies + 1) rfl h1 h2 (by simp only; split <;> omega)
  refine ⟨k1, fun h => k2 ?_⟩
  have : ∀ p, toEnd p ≤ 8 := by intro p; cases p <;> decide
  exact Nat.le_trans (this _) h

/-- The loop waits: it was started, is not asked to end, and is paused at one of the three places of the turns without a body. -/
structure Waiting (s : S) : Prop where
  notQuit : s.isQuit = false
  notPlay : s.isPlay = false
  place : s.pc = .testQuit ∨ s.pc = .testPlay ∨ s.pc = .sleep

theorem waiting_step {s : S} (h : Waiting s) : Waiting (loopStep s) ∧ (loopStep s).bodies = s.bodies ∧ (loopStep s).sc = s.sc ∧
    (loopStep s).isOnce = s.isOnce := by
  obtain ⟨h1, h2, h3⟩ := h
  obtain ⟨isQuit, isPlay, isOnce, isRunning, iter, bodies, pc, sc, failed⟩ := s
  simp only at h1 h2 h3
  subst h1 h2
  rcases h3 with rfl | rfl | rfl
  · exact ⟨⟨rfl, rfl, Or.inr (Or.inl rfl)⟩, rfl, rfl, rfl⟩
  · exact ⟨⟨rfl, rfl, Or.inr (Or.inr rfl)⟩, rfl, rfl, rfl⟩
  · exact ⟨⟨rfl, rfl, Or.inl rfl⟩, rfl, rfl, rfl⟩

theorem waiting_alone {s : S} (h : Waiting s) (n : Nat) : Waiting (alone n s) ∧ (alone n s).bodies = s.bodies ∧ (alone n s).sc = s.sc ∧
    (alone n s).isOnce = s.isOnce := by
  induction n generalizing s with
  | zero => exact ⟨h, rfl, rfl, rfl⟩
  | succ n ih =>
    obtain ⟨a1, a2, a3, a4⟩ := waiting_step h
    obtain ⟨b1, b2, b3, b4⟩ := ih a1
    rw [alone_succ]
    exact ⟨b1, by rw [b2, a2], by rw [b3, a3], by rw [b4, a4]⟩

/-- The turn with one body that `once` asks for: the number of steps before its end. -/
def rest : Pc → Nat
  | .sleep => 8
  | .testQuit => 7
  | .testPlay => 6
  | .body => 5
  | .count => 4
  | .testOnce => 3
  | .undoPlay => 2
  | _ => 0

/-- **C113.** On a loop that waits, `once` makes exactly one call of the body, whatever the steps of the loop between and after its two
assignments, and the loop waits again. -/
theorem C113_once (s : S) (hs : s.sc = .idle) (hw : Waiting s) (m n : Nat) :
    let s' := alone n (scriptStep (alone m (once s)))
    s'.bodies ≤ s.bodies + 1 ∧ (8 ≤ n → s'.bodies = s.bodies + 1 ∧ Waiting s') := by
  have ho : once s = { s with isOnce := true, sc := .once1 } := by simp [once, hs]
  have hw' : Waiting (once s) := by rw [ho]; exact ⟨hw.notQuit, hw.notPlay, hw.place⟩
  obtain ⟨w1, w2, w3, w4⟩ := waiting_alone hw' m
  have hsc : (alone m (once s)).sc = .once1 := by rw [w3, ho]
  have hon : (alone m (once s)).isOnce = true := by rw [w4, ho]
  have hb : (alone m (once s)).bodies = s.bodies := by rw [w2, ho]
  generalize alone m (once s) = u at *
  have hu : scriptStep u = { u with isPlay := true, sc := .idle } := by simp [scriptStep, hsc]
  rw [hu]
  have key : ∀ (n : Nat) (v : S) (b : Nat), v.isQuit = false → v.isOnce = true →
      ((v.isPlay = true ∧ v.bodies = b ∧ (v.pc = .testQuit ∨ v.pc = .testPlay ∨ v.pc = .sleep ∨ v.pc = .body)) ∨
        (v.bodies = b + 1 ∧ v.isPlay = true ∧ (v.pc = .count ∨ v.pc = .testOnce ∨ v.pc = .undoPlay)) ∨
        (v.bodies = b + 1 ∧ Waiting v)) →
      (alone n v).bodies ≤ b + 1 ∧ (rest v.pc ≤ n ∨ (v.bodies = b + 1 ∧ Waiting v) → (alone n v).bodies = b + 1 ∧ Waiting (alone n v)) := by
    intro n
    induction n with
    | zero =>
      intro v b h1 h2 h3
      rw [alone_zero]
      rcases h3 with ⟨a1, a2, a3⟩ | ⟨a1, a2, a3⟩ | ⟨a1, a2⟩
      · refine ⟨by omega, ?_⟩
        rintro (h | h)
        · rcases a3 with hp | hp | hp | hp <;> rw [hp] at h <;> simp [rest] at h
        · exact h
      · refine ⟨by omega, ?_⟩
        rintro (h | h)
        · rcases a3 with hp | hp | hp <;> rw [hp] at h <;> simp [rest] at h
        · exact h
      · exact ⟨by omega, fun _ => ⟨a1, a2⟩⟩
    | succ n ih =>
      intro v b h1 h2 h3
      rw [alone_succ]
      rcases h3 with ⟨a1, a2, a3⟩ | ⟨a1, a2, a3⟩ | ⟨a1, a2⟩
      · have hnw : ¬ (v.bodies = b + 1 ∧ Waiting v) := by rintro ⟨e, _⟩; omega
        have hv : (loopStep v).isQuit = false ∧ (loopStep v).isOnce = true ∧ rest (loopStep v).pc = rest v.pc - 1 ∧
            (((loopStep v).isPlay = true ∧ (loopStep v).bodies = b ∧ ((loopStep v).pc = .testQuit ∨ (loopStep v).pc = .testPlay ∨
              (loopStep v).pc = .sleep ∨ (loopStep v).pc = .body)) ∨
            ((loopStep v).bodies = b + 1 ∧ (loopStep v).isPlay = true ∧ ((loopStep v).pc = .count ∨ (loopStep v).pc = .testOnce ∨
              (loopStep v).pc = .undoPlay)) ∨ ((loopStep v).bodies = b + 1 ∧ Waiting (loopStep v))) := by
          rcases a3 with hp | hp | hp | hp <;> simp [loopStep, hp, h1, h2, a1, a2, rest]
        obtain ⟨g1, g2, g3, g4⟩ := hv
        obtain ⟨k1, k2⟩ := ih _ b g1 g2 g4
        refine ⟨k1, ?_⟩
        rintro (h | h)
        · exact k2 (Or.inl (by omega))
        · exact absurd h hnw
      · have hnw : ¬ Waiting v := by
          intro hh; rw [hh.notPlay] at a2; exact absurd a2 (by decide)
        rcases a3 with hp | hp | hp
        · have e : loopStep v = { v with iter := v.iter + 1, pc := .testOnce } := by simp [loopStep, hp]
          rw [e]
          obtain ⟨k1, k2⟩ := ih { v with iter := v.iter + 1, pc := .testOnce } b h1 h2 (Or.inr (Or.inl ⟨a1, a2, Or.inr (Or.inl rfl)⟩))
          refine ⟨k1, ?_⟩
          rintro (h | h)
          · rw [hp] at h; exact k2 (Or.inl (by simp only [rest] at h ⊢; omega))
          · exact absurd h.2 hnw
        · have e : loopStep v = { v with pc := .undoPlay } := by simp [loopStep, hp, h2]
          rw [e]
          obtain ⟨k1, k2⟩ := ih { v with pc := .undoPlay } b h1 h2 (Or.inr (Or.inl ⟨a1, a2, Or.inr (Or.inr rfl)⟩))
          refine ⟨k1, ?_⟩
          rintro (h | h)
          · rw [hp] at h; exact k2 (Or.inl (by simp only [rest] at h ⊢; omega))
          · exact absurd h.2 hnw
        · have e : loopStep v = { v with isPlay := false, pc := .sleep } := by simp [loopStep, hp]
          rw [e]
          have hwv : Waiting { v with isPlay := false, pc := .sleep } := ⟨h1, rfl, Or.inr (Or.inr rfl)⟩
          obtain ⟨k1, k2⟩ := ih { v with isPlay := false, pc := .sleep } b h1 h2 (Or.inr (Or.inr ⟨a1, hwv⟩))
          exact ⟨k1, fun _ => k2 (Or.inr ⟨a1, hwv⟩)⟩
      · obtain ⟨g1, g2, g3, g4⟩ := waiting_step a2
        obtain ⟨k1, k2⟩ := ih (loopStep v) b g1.notQuit (by rw [g4]; exact h2) (Or.inr (Or.inr ⟨by rw [g2]; exact a1, g1⟩))
        exact ⟨k1, fun _ => k2 (Or.inr ⟨by rw [g2]; exact a1, g1⟩)⟩
  have hpl : u.pc = .testQuit ∨ u.pc = .testPlay ∨ u.pc = .sleep ∨ u.pc = .body := by
    rcases w1.place with h | h | h
    · exact Or.inl h
    · exact Or.inr (Or.inl h)
    · exact Or.inr (Or.inr (Or.inl h))
  obtain ⟨k1, k2⟩ := key n { u with isPlay := true, sc := .idle } s.bodies w1.notQuit hon (Or.inl ⟨rfl, hb, hpl⟩)
  refine ⟨k1, fun hn => k2 (Or.inl ?_)⟩
  have : rest u.pc ≤ 8 := by cases u.pc <;> decide
  exact Nat.le_trans this hn

/-- **C113.** A loop that plays calls the body once every six steps, as long as nothing is asked. -/
theorem C113_play (s : S) (h1 : s.isQuit = false) (h2 : s.isPlay = true) (h3 : s.isOnce = false) (h4 : s.pc = .testQuit) (n : Nat) :
    (alone (6 * n) s).bodies = s.bodies + n ∧ (alone (6 * n) s).iter = s.iter + n ∧ (alone (6 * n) s).pc = .testQuit := by
  induction n generalizing s with
  | zero => exact ⟨rfl, rfl, h4⟩
  | succ n ih =>
    have e : alone (6 * (n + 1)) s = alone (6 * n) (alone 6 s) := by
      rw [show 6 * (n + 1) = 6 + 6 * n by omega, alone_add]
    have e6 : alone 6 s = { s with bodies := s.bodies + 1, iter := s.iter + 1, pc := .testQuit } := by
      simp [alone_succ, alone_zero, loopStep, h1, h2, h3, h4]
    rw [e, e6]
    obtain ⟨k1, k2, k3⟩ := ih { s with bodies := s.bodies + 1, iter := s.iter + 1, pc := .testQuit } h1 h2 h3 rfl
    refine ⟨?_, ?_, k3⟩
    · rw [k1]; show s.bodies + 1 + n = s.bodies + (n + 1); omega
    · rw [k2]; show s.iter + 1 + n = s.iter + (n + 1); omega

/-- **C113.** When the loop runs, `play` never raises, and at its end the loop is asked to play and not to stop after one turn, unless the loop
changes it at the same time. -/
theorem C113_play_running (s : S) (hs : s.sc = .idle) (hr : s.isRunning = true) :
    exec s [.play, .script, .script] = { s with isOnce := false, isPlay := true } := by
  obtain ⟨isQuit, isPlay, isOnce, isRunning, iter, bodies, pc, sc, failed⟩ := s
  subst hs hr
  rfl

/-! ### Races -/

/-- **C113, counterexample.** A quit asked after the first `play`, before the thread has begun, is lost: the loop never ends. -/
theorem C113_quit_lost_counterexample (n : Nat) :
    let s := exec {} [.play, .script, .script, .script, .script, .quit]
    s.isQuit = true ∧ s.sc = .idle ∧ s.failed = false ∧ (alone (6 * n + 2) s).pc = .testQuit ∧ (alone (6 * n + 2) s).bodies = n := by
  refine ⟨rfl, rfl, rfl, ?_⟩
  rw [show 6 * n + 2 = 2 + 6 * n by omega, alone_add]
  obtain ⟨k1, _, k3⟩ := C113_play (alone 2 (exec {} [.play, .script, .script, .script, .script, .quit])) rfl rfl rfl rfl n
  refine ⟨k3, ?_⟩
  rw [k1]
  exact Nat.zero_add n

/-- **C113, counterexample.** A request for one turn made while the body runs, after a pause, is lost: no body is called after it. -/
theorem C113_once_lost_counterexample (s : S) (hs : s.sc = .idle) (hp : s.pc = .count) (hq : s.isQuit = false) (n : Nat) :
    (alone (n + 3) (scriptStep (once s))).bodies = s.bodies ∧ Waiting (alone (n + 3) (scriptStep (once s))) := by
  obtain ⟨isQuit, isPlay, isOnce, isRunning, iter, bodies, pc, sc, failed⟩ := s
  subst hs hp hq
  rw [show n + 3 = 3 + n by omega, alone_add]
  have e : alone 3 (scriptStep (once ⟨false, isPlay, isOnce, isRunning, iter, bodies, .count, .idle, failed⟩)) =
      ⟨false, false, true, isRunning, iter + 1, bodies, .sleep, .idle, failed⟩ := rfl
  rw [e]
  have hw : Waiting ⟨false, false, true, isRunning, iter + 1, bodies, .sleep, .idle, failed⟩ := ⟨rfl, rfl, Or.inr (Or.inr rfl)⟩
  obtain ⟨k1, k2, _, _⟩ := waiting_alone hw n
  exact ⟨k2, k1⟩

/-- **C113, counterexample.** A `play` that ends while the loop is about to undo an earlier `once` is undone: no body is called after it. -/
theorem C113_play_undone_counterexample (s : S) (hs : s.sc = .idle) (hr : s.isRunning = true) (hp : s.pc = .undoPlay)
    (hq : s.isQuit = false) (n : Nat) :
    (alone (n + 1) (exec s [.play, .script, .script])).bodies = s.bodies ∧ Waiting (alone (n + 1) (exec s [.play, .script, .script])) := by
  rw [C113_play_running s hs hr]
  rw [alone_succ]
  have e : loopStep { s with isOnce := false, isPlay := true } = { s with isOnce := false, isPlay := false, pc := .sleep } := by
    simp [loopStep, hp]
  rw [e]
  have hw : Waiting { s with isOnce := false, isPlay := false, pc := .sleep } := ⟨hq, rfl, Or.inr (Or.inr rfl)⟩
  obtain ⟨k1, k2, _, _⟩ := waiting_alone hw n
  exact ⟨k2, k1⟩

/-- **C113, counterexample.** A second `play` before the thread has begun raises, and so does a `play` after the loop has ended: the loop
cannot be started again. -/
theorem C113_start_twice_counterexample :
    (exec {} [.play, .script, .script, .script, .script, .play, .script, .script]).failed = true ∧
    ∀ s : S, s.sc = .idle → s.pc = .ended → s.isRunning = false → (exec s [.play, .script, .script]).failed = true := by
  refine ⟨rfl, ?_⟩
  intro s hs hp hr
  obtain ⟨isQuit, isPlay, isOnce, isRunning, iter, bodies, pc, sc, failed⟩ := s
  subst hs hp hr
  rfl

/-- After the end of the thread of the loop, nothing runs any more. -/
theorem ended_exec (as : List Act) (s : S) (h : s.pc = .ended) : (exec s as).pc = .ended ∧ (exec s as).bodies = s.bodies := by
  induction as generalizing s with
  | nil => exact ⟨h, rfl⟩
  | cons a as ih =>
    have h1 : (act s a).pc = .ended ∧ (act s a).bodies = s.bodies := by
      obtain ⟨isQuit, isPlay, isOnce, isRunning, iter, bodies, pc, sc, failed⟩ := s
      simp only at h
      subst h
      cases a
      · exact ⟨rfl, rfl⟩
      · cases sc <;> exact ⟨rfl, rfl⟩
      · simp only [act, quit]; split <;> exact ⟨rfl, rfl⟩
      · simp only [act, pause]; split <;> exact ⟨rfl, rfl⟩
      · simp only [act, once]; split <;> exact ⟨rfl, rfl⟩
      · simp only [act, play]; split <;> exact ⟨rfl, rfl⟩
    obtain ⟨h2, h3⟩ := ih (act s a) h1.1
    exact ⟨h2, h3.trans h1.2⟩

/-- The attribute of a thread that ended says that it does not run. -/
theorem ended_running (as : List Act) : (exec {} as).pc = .ended → (exec {} as).isRunning = false := by
  apply exec_invariant (P := fun s => s.pc = .ended → s.isRunning = false)
  · intro s a h
    obtain ⟨isQuit, isPlay, isOnce, isRunning, iter, bodies, pc, sc, failed⟩ := s
    simp only at h
    cases a
    · cases pc <;> simp_all [act, loopStep] <;> (split <;> simp)
    · cases sc <;> simp only [act, scriptStep] <;> try exact h
      split
      · simp
      · exact h
    · simp only [act, quit]; split <;> exact h
    · simp only [act, pause]; split <;> exact h
    · simp only [act, once]; split <;> exact h
    · simp only [act, play]; split <;> exact h
  · simp

/-- **C113.** Counterexample: `restart` never restarts. After any history it waits for the end of the thread, and then raises an exception; the
body is never called again. -/
theorem C113_restart_counterexample (as : List Act) (n : Nat) {s' : S} (hs : (exec {} as).sc = .idle)
    (h : restart n (exec {} as) = some s') :
    s'.failed = true ∧ ((exec {} as).pc ≠ .notStarted → ∀ bs, (exec s' bs).bodies = (alone n (exec {} as)).bodies) := by
  unfold restart at h
  by_cases h1 : (exec {} as).pc = .notStarted
  · rw [if_pos h1] at h
    cases h
    exact ⟨rfl, fun h => absurd h1 h⟩
  rw [if_neg h1] at h
  by_cases h2 : (alone n (exec {} as)).pc = .ended
  · rw [if_pos h2] at h
    cases h
    have e : alone n (exec {} as) = exec {} (as ++ List.replicate n .loop) := by rw [exec_append]; rfl
    have hr : (alone n (exec {} as)).isRunning = false := by
      rw [e] at h2 ⊢
      exact ended_running _ h2
    have hi : (alone n (exec {} as)).sc = .idle := by
      have key : ∀ (n : Nat) (s : S), (alone n s).sc = s.sc := by
        intro n
        induction n with
        | zero => intro s; rfl
        | succ n ih =>
          intro s
          rw [alone_succ, ih]
          obtain ⟨isQuit, isPlay, isOnce, isRunning, iter, bodies, pc, sc, failed⟩ := s
          cases pc <;> rfl
      rw [key, hs]
    refine ⟨?_, fun _ bs => ?_⟩
    · have h3 := (C113_start_twice_counterexample).2 _ hi h2 hr
      generalize alone n (exec {} as) = s at *
      obtain ⟨isQuit, isPlay, isOnce, isRunning, iter, bodies, pc, sc, failed⟩ := s
      simp only at h2 hr hi
      subst h2 hr hi
      rfl
    · rw [← exec_append]
      exact (ended_exec _ _ h2).2
  · rw [if_neg h2] at h
    cases h

/-- **C113.** Counterexample: the calls of the body by the shortcuts `next` and `n + x` are not counted. -/
theorem C113_next_counterexample (x : Nat) (s : S) : (next x s).bodies = s.bodies + x ∧ (next x s).iter = s.iter := by
  induction x generalizing s with
  | zero => exact ⟨rfl, rfl⟩
  | succ x ih =>
    obtain ⟨h1, h2⟩ := ih { s with bodies := s.bodies + 1 }
    exact ⟨by show (next x _).bodies = _; rw [h1]; simp only; omega, h2⟩

/-- A loop that runs, is asked to stop, and is restarted: an exception. -/
theorem C113_restart_case : ∃ s', restart 8 (exec {} [.play, .script, .script, .script, .script, .loop, .loop, .quit]) = some s' ∧
    s'.failed = true := ⟨_, rfl, rfl⟩

/-- A loop that was started, has begun and was paused waits. -/
theorem C113_case : Waiting (exec {} [.play, .script, .script, .script, .script, .loop, .loop, .pause]) := ⟨rfl, rfl, Or.inl rfl⟩

end Verif.ThreadLoop
