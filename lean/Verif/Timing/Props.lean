import Verif.Timing.Model
import Mathlib.Tactic.Linarith
import Mathlib.Tactic.FieldSimp
import Mathlib.Tactic.Ring
import Mathlib.Tactic.NormNum
import Mathlib.Tactic.Positivity
import Mathlib.Algebra.Order.Ring.Rat

/-!
# Properties of the time stamps and timers (C104)
-/

namespace Verif.Timing

variable {K : Type} [Field K] [LinearOrder K] [IsStrictOrderedRing K]

/-- The microseconds since the origin. -/
def Timeval.micros (c : Timeval) : Int := c.sec * 1000000 + c.usec

/-- **C104.** The time as a double is the time of the clock in milliseconds. -/
theorem C104_milliseconds (c : Timeval) : (timeDouble c : K) = (c.micros : K) / 1000 := by
  simp only [timeDouble, stampDouble, offset, stamp, Timeval.micros]
  push_cast
  field_simp
  ring

/-- **C104.** The double tells earlier from later exactly. -/
theorem C104_order (c d : Timeval) : (timeDouble c : K) < timeDouble d ↔ c.micros < d.micros := by
  rw [C104_milliseconds, C104_milliseconds, div_lt_div_iff_of_pos_right (by norm_num), Int.cast_lt]

/-- **C104.** The vector and the double of the same reading agree. -/
theorem C104_vector (c : Timeval) : (timeDouble c : K) = (stamp c : K × K).1 * 1000 + (stamp c : K × K).2 / 1000 := rfl

/-! ### The synchronised signals -/

omit [LinearOrder K] [IsStrictOrderedRing K] in
/-- The cache of `synchro` after some uses at times that do not go back. -/
theorem vec_kept {l : List Read} {time : Int} {v : K × K} {s : Once K} (hs : s.vec = some (time, v))
    (hl : ∀ r ∈ l, match r with | .vec t _ => t = time | .dbl _ _ => True) : (l.foldl Once.step s).vec = some (time, v) := by
  induction l generalizing s with
  | nil => exact hs
  | cons r l ih =>
    simp only [List.foldl_cons]
    refine ih ?_ fun r' hr' => hl r' (List.mem_cons_of_mem _ hr')
    have := hl r List.mem_cons_self
    cases r with
    | vec t c =>
      simp only at this
      subst this
      simp [Once.step, synchro, cached, hs]
    | dbl t c => simp [Once.step, synchroDouble, hs]

omit [LinearOrder K] [IsStrictOrderedRing K] in
/-- The cache of `synchroDouble`. -/
theorem dbl_kept {l : List Read} {time : Int} {v : K} {s : Once K} (hs : s.dbl = some (time, v))
    (hl : ∀ r ∈ l, match r with | .dbl t _ => t = time | .vec _ _ => True) : (l.foldl Once.step s).dbl = some (time, v) := by
  induction l generalizing s with
  | nil => exact hs
  | cons r l ih =>
    simp only [List.foldl_cons]
    refine ih ?_ fun r' hr' => hl r' (List.mem_cons_of_mem _ hr')
    have := hl r List.mem_cons_self
    cases r with
    | dbl t c =>
      simp only at this
      subst this
      simp [Once.step, synchroDouble, cached, hs]
    | vec t c => simp [Once.step, synchro, hs]

omit [LinearOrder K] [IsStrictOrderedRing K] in
/-- **C104.** At a later time than the last computation, the synchronised signals give what the clock reads. -/
theorem C104_fresh {s : Once K} {time : Int} (hv : ∀ t v, s.vec = some (t, v) → t < time) (hd : ∀ t v, s.dbl = some (t, v) → t < time)
    (c : Timeval) : (synchro s time c).2 = stamp c ∧ (synchroDouble s time c).2 = timeDouble c := by
  constructor
  · simp only [synchro, cached]
    cases h : s.vec with
    | none => rfl
    | some p => simp [hv p.1 p.2 h]
  · simp only [synchroDouble, cached]
    cases h : s.dbl with
    | none => rfl
    | some p => simp [hd p.1 p.2 h]

omit [LinearOrder K] [IsStrictOrderedRing K] in
/-- **C104.** Within one time, whatever else is read and whatever the clock reads then, `synchro` gives the same value again. -/
theorem C104_synchro (s : Once K) (time : Int) (c c' : Timeval) {l : List Read} (hl : ∀ r ∈ l, match r with | .vec t _ => t = time | .dbl _ _ => True)
    (hs : ∀ t v, s.vec = some (t, v) → t ≤ time) :
    (synchro (l.foldl Once.step (synchro s time c).1) time c').2 = (synchro s time c).2 := by
  have h1 : (synchro s time c).1.vec = some (time, (synchro s time c).2) := by
    simp only [synchro, cached]
    cases h : s.vec with
    | none => rfl
    | some p =>
      have := hs p.1 p.2 h
      by_cases hp : p.1 < time
      · simp [hp]
      · simp only [hp, if_false, Option.some.injEq, Prod.mk.injEq, and_true]
        omega
  have h2 := vec_kept h1 hl
  simp [synchro, cached, h2] at *

omit [LinearOrder K] [IsStrictOrderedRing K] in
/-- **C104.** So does `synchroDouble`. -/
theorem C104_synchroDouble (s : Once K) (time : Int) (c c' : Timeval) {l : List Read}
    (hl : ∀ r ∈ l, match r with | .dbl t _ => t = time | .vec _ _ => True) (hs : ∀ t v, s.dbl = some (t, v) → t ≤ time) :
    (synchroDouble (l.foldl Once.step (synchroDouble s time c).1) time c').2 = (synchroDouble s time c).2 := by
  have h1 : (synchroDouble s time c).1.dbl = some (time, (synchroDouble s time c).2) := by
    simp only [synchroDouble, cached]
    cases h : s.dbl with
    | none => rfl
    | some p =>
      have := hs p.1 p.2 h
      by_cases hp : p.1 < time
      · simp [hp]
      · simp only [hp, if_false, Option.some.injEq, Prod.mk.injEq, and_true]
        omega
  have h2 := dbl_kept h1 hl
  simp [synchroDouble, cached, h2] at *

/-- **C104.** But within one time the two signals are not the same stamp: the second one to be read reads the clock again. -/
theorem C104_two_stamps_counterexample {s : Once K} {time : Int} (hd : ∀ t v, s.dbl = some (t, v) → t < time)
    (hv : ∀ t v, s.vec = some (t, v) → t < time) {c d : Timeval} (hcd : c.micros ≠ d.micros) :
    (synchroDouble (synchro s time c).1 time d).2 ≠ (synchro s time c).2.1 * 1000 + (synchro s time c).2.2 / 1000 := by
  have h1 := (C104_fresh hv hd c).1
  have h2 : (synchroDouble (synchro s time c).1 time d).2 = timeDouble d := by
    refine (C104_fresh (s := ⟨none, s.dbl⟩) (by simp) hd d).2
  rw [h1, h2, ← C104_vector, C104_milliseconds, C104_milliseconds, Ne, div_left_inj' (by norm_num), Int.cast_inj]
  exact fun h => hcd h.symm

/-! ### The timer -/

omit [LinearOrder K] [IsStrictOrderedRing K] in
/-- **C104.** The timer gives its input unchanged, and its output `timer` is the duration of the last computation, through either output,
after any history. -/
theorem C104_timer {T : Type} (s : Timer K) (l : List (Clock × T)) (clk : Clock) (x : T) :
    (Timer.compute (l.foldl (fun s p => (s.compute p.1 p.2).1) s) clk x).2 = x ∧
      (Timer.compute (l.foldl (fun s p => (s.compute p.1 p.2).1) s) clk x).1.dt = duration clk := ⟨rfl, rfl⟩

/-- **C104.** Durations in milliseconds, for both clocks. -/
theorem C104_duration (t0 t1 : Timeval) (c0 c1 : Int) :
    (duration (.wall t0 t1) : K) = ((t1.micros - t0.micros : Int) : K) / 1000 ∧ (duration (.cpu c0 c1) : K) = ((c1 - c0 : Int) : K) / 1000 := by
  constructor
  · simp only [duration, Timeval.micros]
    push_cast
    field_simp
    ring
  · simp only [duration, clocksPerSec]
    push_cast
    field_simp
    ring

/-- **C104.** A duration is not negative when the clock does not go back, and durations that follow one another add up. -/
theorem C104_duration_add (t0 t1 t2 : Timeval) :
    (t0.micros ≤ t1.micros → (0 : K) ≤ duration (.wall t0 t1)) ∧
      (duration (.wall t0 t1) + duration (.wall t1 t2) : K) = duration (.wall t0 t2) := by
  simp only [(C104_duration _ _ 0 0).1]
  constructor
  · intro h
    have : (0 : K) ≤ ((t1.micros - t0.micros : Int) : K) := by exact_mod_cast sub_nonneg.2 h
    positivity
  · push_cast
    ring

omit [LinearOrder K] [IsStrictOrderedRing K] in
/-- **C104.** The command chrono measures nothing: the command given to it is not run, and the duration does not depend on it. -/
theorem C104_chrono_counterexample {W : Type} (cmd cmd' : String) (t0 t1 : Timeval) (w : W) :
    (chrono cmd t0 t1 w : K × W).2 = w ∧ (chrono cmd t0 t1 w : K × W).1 = (chrono cmd' t0 t1 w : K × W).1 := ⟨rfl, rfl⟩

/-! ### Cases -/

/-- Two readings of 1.5 s and 2.25 s. -/
theorem C104_case : (timeDouble ⟨1, 500000⟩ : ℚ) = 1500 ∧ (duration (.wall ⟨1, 500000⟩ ⟨2, 250000⟩) : ℚ) = 750 ∧
    (duration (.cpu 1000 3500) : ℚ) = 5 / 2 ∧
    (synchroDouble (synchro (Once.new : Once ℚ) 1 ⟨1, 500000⟩).1 1 ⟨2, 250000⟩).2 = 2250 := by
  norm_num [timeDouble, stampDouble, offset, stamp, duration, clocksPerSec, synchroDouble, synchro, cached, Once.new]

end Verif.Timing
