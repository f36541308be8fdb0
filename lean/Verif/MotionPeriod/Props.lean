import Verif.MotionPeriod.Model
import Mathlib.Analysis.SpecialFunctions.Trigonometric.Deriv

/-!
# Properties of the periodic motion (C101)
-/

namespace Verif.MotionPeriod

/-- **C101.** The entity, which offers no way to set its parameters, gives the empty motion at any time. -/
theorem C101_empty_counterexample (time : Int) : motion time init = .ok [] := rfl

/-- **C101.** After a resize the motion is zero. -/
theorem C101_resized (n : Nat) (time : Int) : motion time (resize n) = .ok (List.replicate n 0) := by
  rw [resize]
  induction n with
  | zero => rfl
  | succ n ih => rw [List.replicate_succ, motion, ih]; simp [component, List.replicate_succ]

/-- **C101.** The motion is computed if and only if no period is zero; each component depends only on its parameters. -/
theorem C101_defined (time : Int) (ps : List Param) :
    (∃ l, motion time ps = .ok l) ↔ ∀ p ∈ ps, p.period ≠ 0 := by
  induction ps with
  | nil => simp [motion]
  | cons p ps ih =>
    simp only [List.mem_cons, forall_eq_or_imp, ← ih]
    rw [motion]
    by_cases hp : p.period = 0
    · simp [component, hp]
    · simp only [component, hp, if_false, Outcome.bind_ok, ne_eq, not_false_eq_true, true_and]
      constructor
      · rintro ⟨l, h⟩
        obtain ⟨l', h', -⟩ := Outcome.map_eq_ok.1 h
        exact ⟨l', h'⟩
      · rintro ⟨l, h⟩
        rw [h]
        exact ⟨_, rfl⟩

/-- **C101.** The components of the motion are those of the parameters, in order. -/
theorem C101_components {time : Int} {ps : List Param} {l : List ℝ} (h : motion time ps = .ok l) :
    l.length = ps.length ∧ ∀ i (h1 : i < ps.length) (h2 : i < l.length), component time ps[i] = .ok l[i] := by
  induction ps generalizing l with
  | nil =>
    cases h
    simp
  | cons p ps ih =>
    rw [motion] at h
    obtain ⟨v, hv, h⟩ := Outcome.bind_eq_ok.1 h
    obtain ⟨l', hl, rfl⟩ := Outcome.map_eq_ok.1 h
    obtain ⟨e, hi⟩ := ih hl
    refine ⟨by simp [e], ?_⟩
    intro i h1 h2
    cases i with
    | zero => exact hv
    | succ i =>
      simp at h1 h2
      exact hi i h1 h2

/-- The elapsed time after the initial one. -/
theorem elapsed_of_le {time : Int} {i : Nat} (h1 : (i : Int) ≤ time) (h2 : time < 2147483648) : (elapsed time i : Int) = time - i := by
  rw [elapsed]
  omega

/-- The phase is that of the elapsed time, up to whole turns. -/
theorem phase_eq {p : Param} (hp : p.period ≠ 0) {time : Int} (h1 : (p.initPeriod : Int) ≤ time) (h2 : time < 2147483648) :
    ∃ k : ℕ, Real.pi * 2 * (((elapsed time p.initPeriod % p.period : Nat) : ℝ) / (p.period : ℝ)) =
      2 * Real.pi * ((time - p.initPeriod : Int) : ℝ) / p.period - k * (2 * Real.pi) := by
  refine ⟨elapsed time p.initPeriod / p.period, ?_⟩
  have hp' : (p.period : ℝ) ≠ 0 := by exact_mod_cast hp
  have e : ((time - p.initPeriod : Int) : ℝ) = (elapsed time p.initPeriod : ℝ) := by
    rw [← elapsed_of_le h1 h2]
    push_cast
    rfl
  have d : ((elapsed time p.initPeriod : Nat) : ℝ) =
      (p.period : ℝ) * (elapsed time p.initPeriod / p.period : Nat) + (elapsed time p.initPeriod % p.period : Nat) := by
    exact_mod_cast (Nat.div_add_mod _ _).symm
  rw [e, d]
  field_simp
  ring

/-- **C101.** The component of a sine at a time that is not before the initial one. -/
theorem C101_sin {p : Param} (hk : p.kind = .sin) (hp : p.period ≠ 0) {time : Int} (h1 : (p.initPeriod : Int) ≤ time)
    (h2 : time < 2147483648) :
    component time p = .ok (p.initAmplitude + p.amplitude * Real.sin (2 * Real.pi * ((time - p.initPeriod : Int) : ℝ) / p.period)) := by
  obtain ⟨k, hk'⟩ := phase_eq hp h1 h2
  simp only [component, hp, if_false, hk, hk']
  rw [Real.sin_sub_nat_mul_two_pi]

/-- **C101.** The component of a cosine at a time that is not before the initial one. -/
theorem C101_cos {p : Param} (hk : p.kind = .cos) (hp : p.period ≠ 0) {time : Int} (h1 : (p.initPeriod : Int) ≤ time)
    (h2 : time < 2147483648) :
    component time p = .ok (p.initAmplitude + p.amplitude * Real.cos (2 * Real.pi * ((time - p.initPeriod : Int) : ℝ) / p.period)) := by
  obtain ⟨k, hk'⟩ := phase_eq hp h1 h2
  simp only [component, hp, if_false, hk, hk']
  rw [Real.cos_sub_nat_mul_two_pi]

/-- **C101.** A constant component. -/
theorem C101_constant {p : Param} (hk : p.kind = .constant) (hp : p.period ≠ 0) (time : Int) :
    component time p = .ok (p.initAmplitude + p.amplitude) := by
  simp [component, hp, hk]

/-- **C101.** The component repeats after its period, from the initial time on. -/
theorem C101_periodic (p : Param) {time : Int} (h1 : (p.initPeriod : Int) ≤ time) (h2 : time + p.period < 2147483648) :
    component (time + p.period) p = component time p := by
  have e1 := elapsed_of_le (time := time + p.period) (i := p.initPeriod) (by omega) h2
  have e2 := elapsed_of_le (time := time) (i := p.initPeriod) h1 (by omega)
  have e : elapsed (time + p.period) p.initPeriod = elapsed time p.initPeriod + p.period := by omega
  rw [component, component, e, Nat.add_mod_right]

/-- **C101.** Before the initial time it repeats too if the period divides 2^32. -/
theorem C101_periodic_before (p : Param) (hd : p.period ∣ 4294967296) (time : Int) : component (time + p.period) p = component time p := by
  have e : elapsed (time + p.period) p.initPeriod % p.period = elapsed time p.initPeriod % p.period := by
    have key : ∀ x : Int, (((x % 4294967296).toNat % p.period : Nat) : Int) = x % p.period := by
      intro x
      have h0 : 0 ≤ x % 4294967296 := by omega
      push_cast
      rw [Int.toNat_of_nonneg h0]
      exact Int.emod_emod_of_dvd x (by exact_mod_cast hd)
    have h := (key (time + p.period - p.initPeriod)).trans
      ((show (time + p.period - p.initPeriod) % p.period = (time - p.initPeriod) % p.period by
        rw [show time + p.period - p.initPeriod = time - p.initPeriod + p.period by ring, Int.add_emod_right]).trans (key _).symm)
    rw [elapsed, elapsed]
    exact_mod_cast h
  rw [component, component, e]

/-- **C101.** Otherwise it can jump at the initial time: with the period 3 the cosine differs between the times -1 and 2. -/
theorem C101_wrap_counterexample : component (-1) ⟨.cos, 3, 0, 1, 0⟩ ≠ component (-1 + 3) ⟨.cos, 3, 0, 1, 0⟩ := by
  have h : Real.cos (Real.pi * 2 * (2 / 3)) = -(1 / 2) := by
    rw [show Real.pi * 2 * (2 / 3) = Real.pi / 3 + Real.pi by ring, Real.cos_add_pi, Real.cos_pi_div_three]
  simp [component, elapsed]
  rw [h]
  norm_num

/-- **C101.** Whatever the time, a component stays within its amplitude of its initial amplitude. -/
theorem C101_bounded {p : Param} {time : Int} {v : ℝ} (h : component time p = .ok v) : |v - p.initAmplitude| ≤ |p.amplitude| := by
  rw [component] at h
  split at h
  · cases h
  · simp only [Outcome.ok.injEq] at h
    rw [← h]
    cases p.kind with
    | constant => simp
    | sin =>
      simp only [add_sub_cancel_left, abs_mul]
      exact mul_le_of_le_one_right (abs_nonneg _) (Real.abs_sin_le_one _)
    | cos =>
      simp only [add_sub_cancel_left, abs_mul]
      exact mul_le_of_le_one_right (abs_nonneg _) (Real.abs_cos_le_one _)

/-- A sine of period 4: at the times 0, 1 and 5. -/
theorem C101_case : component 1 ⟨.sin, 4, 0, 2, 1⟩ = .ok 3 ∧ component 5 ⟨.sin, 4, 0, 2, 1⟩ = .ok 3 ∧
    component 0 ⟨.sin, 4, 0, 2, 1⟩ = .ok 1 := by
  have h : Real.sin (Real.pi * 2 * (1 / 4)) = 1 := by
    rw [show Real.pi * 2 * (1 / 4) = Real.pi / 2 by ring, Real.sin_pi_div_two]
  refine ⟨?_, ?_, ?_⟩
  · simp [component, elapsed]
    norm_num at h ⊢
    rw [h]
    norm_num
  · simp [component, elapsed]
    norm_num at h ⊢
    rw [h]
    norm_num
  · simp [component, elapsed]

end Verif.MotionPeriod
