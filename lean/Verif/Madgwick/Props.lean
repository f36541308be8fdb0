import Verif.Madgwick.Model
import Mathlib.Analysis.Calculus.Deriv.Add
import Mathlib.Analysis.Calculus.Deriv.Mul
import Mathlib.Analysis.Calculus.Deriv.Pow
import Mathlib.Tactic.FieldSimp
import Mathlib.Tactic.FinCases
import Mathlib.Tactic.Linarith
import Mathlib.Tactic.LinearCombination
import Mathlib.Tactic.NormNum
import Mathlib.Tactic.Positivity

/-!
# C59 and C89: the attitude filter of Madgwick
-/

namespace Verif.Madgwick

open Verif.Geometry

/-! ### Statements -/

/-- Squared norm of a quaternion. -/
def sq (q : Quat ℝ) : ℝ := q.w ^ 2 + q.x ^ 2 + q.y ^ 2 + q.z ^ 2

/-- Commands which leave the filter in working order: a period less than one second, a unit quaternion. -/
def Sound : Op → Prop
  | .init dt => dt < 1
  | .setQuat q => sq q = 1
  | _ => True

/-- As `Sound`, the quaternion given being of any norm not less than one. -/
def Workable : Op → Prop
  | .init dt => dt < 1
  | .setQuat q => 1 ≤ sq q
  | _ => True

/-- Direction of the measured acceleration. -/
noncomputable def unit3 (a : Fin 3 → ℝ) (i : Fin 3) : ℝ := a i / √(a 0 ^ 2 + a 1 ^ 2 + a 2 ^ 2)

/-- Half the squared distance between the direction `a` and the vertical seen from the frame of attitude `q`. -/
noncomputable def misalignment (a : Fin 3 → ℝ) (w x y z : ℝ) : ℝ :=
  ((2 * (x * z - w * y) - a 0) ^ 2 + (2 * (w * x + y * z) - a 1) ^ 2 + (1 - 2 * (x ^ 2 + y ^ 2) - a 2) ^ 2) / 2

/-- Unit quaternion along a quaternion. -/
noncomputable def normalised (q : Quat ℝ) : Quat ℝ := ⟨q.w / √(sq q), q.x / √(sq q), q.y / √(sq q), q.z / √(sq q)⟩

/-- `q + r d`. -/
def along (q : Quat ℝ) (r : ℝ) (d : Quat ℝ) : Quat ℝ := ⟨q.w + r * d.w, q.x + r * d.x, q.y + r * d.y, q.z + r * d.z⟩

/-! ### Lemmas -/

theorem invSqrt_pos {x : ℝ} (h : 0 < x) : invSqrt x = some (1 / √x) := by simp [invSqrt, not_le.mpr h]

theorem mul_inv_sqrt_sq {x : ℝ} (h : 0 < x) : x * (1 / √x) ^ 2 = 1 := by
  rw [div_pow, one_pow, Real.sq_sqrt h.le]
  field_simp

theorem sq_nonneg' (q : Quat ℝ) : 0 ≤ sq q := by unfold sq; positivity

theorem sq_pos_of {q : Quat ℝ} (h : ¬ (q.w = 0 ∧ q.x = 0 ∧ q.y = 0 ∧ q.z = 0)) : 0 < sq q := by
  rcases (sq_nonneg' q).lt_or_eq with h' | h'
  · exact h'
  · refine absurd ?_ h
    unfold sq at h'
    have a := sq_nonneg q.w
    have b := sq_nonneg q.x
    have c := sq_nonneg q.y
    have d := sq_nonneg q.z
    exact ⟨pow_eq_zero_iff (two_ne_zero) |>.mp (by linarith), pow_eq_zero_iff (two_ne_zero) |>.mp (by linarith),
      pow_eq_zero_iff (two_ne_zero) |>.mp (by linarith), pow_eq_zero_iff (two_ne_zero) |>.mp (by linarith)⟩

theorem applyFeedback_spec (beta : ℝ) (d s : Quat ℝ) :
    applyFeedback beta d s = some (if sq s = 0 then d else along d (-beta) (normalised s)) := by
  unfold applyFeedback
  by_cases h : s.w = 0 ∧ s.x = 0 ∧ s.y = 0 ∧ s.z = 0
  · have : sq s = 0 := by simp [sq, h.1, h.2.1, h.2.2.1, h.2.2.2]
    simp [h, this]
  · have hp := sq_pos_of h
    have e : s.w * s.w + s.x * s.x + s.y * s.y + s.z * s.z = sq s := by unfold sq; ring
    rw [if_pos h, e, invSqrt_pos hp, if_neg hp.ne']
    simp only [Option.map_some, along, normalised, Option.some.injEq, Quat.mk.injEq]
    refine ⟨?_, ?_, ?_, ?_⟩ <;> ring

theorem sq_normalised {q : Quat ℝ} (h : 0 < sq q) : sq (normalised q) = 1 := by
  have := mul_inv_sqrt_sq h
  have e : sq (normalised q) = sq q * (1 / √(sq q)) ^ 2 := by
    conv_lhs => unfold sq normalised
    conv_rhs => lhs; unfold sq
    ring
  rw [e, this]

theorem sq3_pos {a : Fin 3 → ℝ} (h : ¬ (a 0 = 0 ∧ a 1 = 0 ∧ a 2 = 0)) : 0 < a 0 ^ 2 + a 1 ^ 2 + a 2 ^ 2 := by
  have h0 := sq_nonneg (a 0)
  have h1 := sq_nonneg (a 1)
  have h2 := sq_nonneg (a 2)
  rcases (show 0 ≤ a 0 ^ 2 + a 1 ^ 2 + a 2 ^ 2 by positivity).lt_or_eq with h' | h'
  · exact h'
  · exact absurd ⟨pow_eq_zero_iff (two_ne_zero) |>.mp (by linarith), pow_eq_zero_iff (two_ne_zero) |>.mp (by linarith),
      pow_eq_zero_iff (two_ne_zero) |>.mp (by linarith)⟩ h

/-- The rate applied by a step. -/
noncomputable def rateOf (beta : ℝ) (q : Quat ℝ) (g a : Fin 3 → ℝ) : Quat ℝ :=
  let d := gyroRate q (g 0) (g 1) (g 2)
  if a 0 = 0 ∧ a 1 = 0 ∧ a 2 = 0 then d
  else
    let s := feedback q (unit3 a 0) (unit3 a 1) (unit3 a 2)
    if sq s = 0 then d else along d (-beta) (normalised s)

theorem rate_eq (beta : ℝ) (q : Quat ℝ) (g a : Fin 3 → ℝ) :
    rate beta q (g 0) (g 1) (g 2) (a 0) (a 1) (a 2) = some (rateOf beta q g a) := by
  unfold rate rateOf
  by_cases h : a 0 = 0 ∧ a 1 = 0 ∧ a 2 = 0
  · simp [h]
  · have hp := sq3_pos h
    have e : a 0 * a 0 + a 1 * a 1 + a 2 * a 2 = a 0 ^ 2 + a 1 ^ 2 + a 2 ^ 2 := by ring
    simp only [h, not_false_eq_true, if_true, if_false]
    rw [e, invSqrt_pos hp, Option.bind_some, applyFeedback_spec]
    simp only [unit3, div_eq_mul_one_div (a _)]

/-- The rate is orthogonal to the quaternion up to a part of norm at most `beta`. -/
theorem rateOf_split (beta : ℝ) (q : Quat ℝ) (g a : Fin 3 → ℝ) :
    ∃ u : Quat ℝ, sq u ≤ 1 ∧ rateOf beta q g a = along (gyroRate q (g 0) (g 1) (g 2)) (-beta) u := by
  unfold rateOf
  have z : ∀ d : Quat ℝ, ∃ u : Quat ℝ, sq u ≤ 1 ∧ d = along d (-beta) u := fun d => ⟨⟨0, 0, 0, 0⟩, by simp [sq], by simp [along]⟩
  split
  · exact z _
  · dsimp only
    split
    · exact z _
    · rename_i h
      exact ⟨_, (sq_normalised ((sq_nonneg' _).lt_of_ne (Ne.symm h))).le, rfl⟩

theorem gyroRate_orth (q : Quat ℝ) (gx gy gz : ℝ) :
    q.w * (gyroRate q gx gy gz).w + q.x * (gyroRate q gx gy gz).x + q.y * (gyroRate q gx gy gz).y
      + q.z * (gyroRate q gx gy gz).z = 0 := by
  simp only [gyroRate]; ring

theorem integrated_pos {beta dt : ℝ} {q : Quat ℝ} (hq : (beta * dt) ^ 2 < sq q) (g a : Fin 3 → ℝ) :
    0 < sq (along q dt (rateOf beta q g a)) := by
  obtain ⟨u, hu, he⟩ := rateOf_split beta q g a
  rw [he]
  have ho := gyroRate_orth q (g 0) (g 1) (g 2)
  generalize gyroRate q (g 0) (g 1) (g 2) = d at *
  refine sq_pos_of fun h => ?_
  simp only [along] at h
  obtain ⟨h0, h1, h2, h3⟩ := h
  have e0 : q.w + dt * d.w = beta * dt * u.w := by linarith
  have e1 : q.x + dt * d.x = beta * dt * u.x := by linarith
  have e2 : q.y + dt * d.y = beta * dt * u.y := by linarith
  have e3 : q.z + dt * d.z = beta * dt * u.z := by linarith
  have k : sq q + dt ^ 2 * sq d = (beta * dt) ^ 2 * sq u := by
    have : (q.w + dt * d.w) ^ 2 + (q.x + dt * d.x) ^ 2 + (q.y + dt * d.y) ^ 2 + (q.z + dt * d.z) ^ 2
        = (beta * dt) ^ 2 * sq u := by rw [e0, e1, e2, e3, sq]; ring
    rw [← this]
    simp only [sq]
    linear_combination (-2 * dt) * ho
  have p1 : 0 ≤ dt ^ 2 * sq d := mul_nonneg (sq_nonneg _) (sq_nonneg' _)
  have p2 : (beta * dt) ^ 2 * sq u ≤ (beta * dt) ^ 2 := by
    have := mul_le_mul_of_nonneg_left hu (sq_nonneg (beta * dt))
    linarith
  linarith

theorem update_eq {beta f : ℝ} {q : Quat ℝ} (hq : (beta * (1 / f)) ^ 2 < sq q) (g a : Fin 3 → ℝ) :
    update beta f q (g 0) (g 1) (g 2) (a 0) (a 1) (a 2) = some (normalised (along q (1 / f) (rateOf beta q g a))) := by
  have hp := integrated_pos hq g a
  unfold update
  rw [rate_eq, Option.bind_some]
  generalize rateOf beta q g a = d at *
  have e : (q.w + d.w * (1 / f)) * (q.w + d.w * (1 / f)) + (q.x + d.x * (1 / f)) * (q.x + d.x * (1 / f))
      + (q.y + d.y * (1 / f)) * (q.y + d.y * (1 / f)) + (q.z + d.z * (1 / f)) * (q.z + d.z * (1 / f))
      = sq (along q (1 / f) d) := by simp only [sq, along]; ring
  dsimp only
  rw [e, invSqrt_pos hp, Option.map_some]
  simp only [normalised, Option.some.injEq, Quat.mk.injEq]
  refine ⟨?_, ?_, ?_, ?_⟩ <;> simp only [along] <;> ring

theorem measure_eq {s : State} (hi : s.initSucceeded = true) (hq : (s.beta * (1 / s.sampleFreq)) ^ 2 < sq s.q)
    (g a : Fin 3 → ℝ) :
    measure s g a
      = some { s with q := normalised (along s.q (1 / s.sampleFreq) (rateOf s.beta s.q g a)) } := by
  simp [measure, hi, update_eq hq]

/-! ### C59 -/

/-- One step from a quaternion of norm greater than `beta` times the period: nothing is divided by zero, and the new
quaternion is of unit norm. -/
theorem C59_step (s : State) (hi : s.initSucceeded = true) (hq : (s.beta * (1 / s.sampleFreq)) ^ 2 < sq s.q)
    (g a : Fin 3 → ℝ) :
    ∃ s', measure s g a = some s' ∧ sq s'.q = 1 ∧ s'.beta = s.beta ∧ s'.sampleFreq = s.sampleFreq := by
  exact ⟨_, measure_eq hi hq g a, sq_normalised (integrated_pos hq g a), rfl, rfl⟩

/-- What every history of workable commands keeps. -/
def Good (c : ℝ → Prop) (s : State) : Prop :=
  0 ≤ s.beta ∧ s.beta ≤ 1 ∧ 0 < s.sampleFreq ∧ 1 / s.sampleFreq < 1 ∧ c (sq s.q)

theorem Good.lt {s : State} (h : Good (fun r => 1 ≤ r) s) : (s.beta * (1 / s.sampleFreq)) ^ 2 < sq s.q := by
  obtain ⟨h1, h2, h3, h4, h5⟩ := h
  have p : 0 ≤ s.beta * (1 / s.sampleFreq) := mul_nonneg h1 (by positivity)
  have l : s.beta * (1 / s.sampleFreq) < 1 := by
    calc s.beta * (1 / s.sampleFreq) ≤ 1 * (1 / s.sampleFreq) := mul_le_mul_of_nonneg_right h2 (by positivity)
      _ < 1 := by rwa [one_mul]
  have : (s.beta * (1 / s.sampleFreq)) ^ 2 < 1 := by nlinarith
  linarith

theorem good_step (c : ℝ → Prop) (hc : ∀ r, c r → 1 ≤ r) (h1 : c 1) {s : State} (hs : Good c s) (o : Op)
    (ho : ∀ q, o = .setQuat q → c (sq q)) (hd : ∀ dt, o = .init dt → dt < 1) :
    ∃ s', step s o = some s' ∧ Good c s' ∧ (∀ g a, o = .measure g a → s.initSucceeded = true → sq s'.q = 1) := by
  obtain ⟨g1, g2, g3, g4, g5⟩ := hs
  cases o with
  | init dt =>
    refine ⟨_, rfl, ?_, by simp⟩
    unfold init
    split
    · exact ⟨g1, g2, g3, g4, g5⟩
    · rename_i h
      have := hd dt rfl
      have p : 0 < dt := not_le.mp h
      exact ⟨g1, g2, by simpa using p, by simpa using this, g5⟩
  | setBeta b =>
    refine ⟨_, rfl, ?_, by simp⟩
    unfold setBeta
    split
    · exact ⟨g1, g2, g3, g4, g5⟩
    · rename_i h
      rw [not_or, not_lt, not_lt] at h
      exact ⟨h.1, h.2, g3, g4, g5⟩
  | setQuat q => exact ⟨_, rfl, ⟨g1, g2, g3, g4, ho q rfl⟩, by simp⟩
  | measure g a =>
    by_cases hi : s.initSucceeded = true
    · have hl : Good (fun r => 1 ≤ r) s := ⟨g1, g2, g3, g4, hc _ g5⟩
      obtain ⟨s', e, n, b, f⟩ := C59_step s hi hl.lt g a
      refine ⟨s', e, ⟨b ▸ g1, b ▸ g2, f ▸ g3, f ▸ g4, n ▸ h1⟩, fun _ _ _ _ => n⟩
    · refine ⟨s, by simp [step, measure, hi], ⟨g1, g2, g3, g4, g5⟩, fun _ _ _ h => absurd h hi⟩

theorem good_run (c : ℝ → Prop) (hc : ∀ r, c r → 1 ≤ r) (h1 : c 1) (h : List Op) :
    ∀ s, Good c s → (∀ o ∈ h, (∀ q, o = .setQuat q → c (sq q)) ∧ ∀ dt, o = .init dt → dt < 1) →
      ∃ s', run s h = some s' ∧ Good c s' := by
  induction h with
  | nil => exact fun s hs _ => ⟨s, rfl, hs⟩
  | cons o h ih =>
    intro s hs hh
    obtain ⟨s1, e1, hs1, -⟩ := good_step c hc h1 hs o (hh o (List.mem_cons_self ..)).1 (hh o (List.mem_cons_self ..)).2
    obtain ⟨s2, e2, hs2⟩ := ih s1 hs1 fun o' ho' => hh o' (List.mem_cons_of_mem _ ho')
    exact ⟨s2, by simp only [run, List.foldlM_cons, e1] at e2 ⊢; exact e2, hs2⟩

theorem good_create (c : ℝ → Prop) (h1 : c 1) : Good c State.create := by
  refine ⟨by norm_num [State.create], by norm_num [State.create], by norm_num [State.create], by norm_num [State.create], ?_⟩
  have : sq State.create.q = 1 := by simp [sq, State.create]
  rwa [this]

/-- Whatever the history of measurements and of commands (periods less than one second, unit quaternions), nothing is ever
divided by zero and the quaternion is of unit norm. -/
theorem C59_unit (h : List Op) (hh : ∀ o ∈ h, Sound o) : ∃ s, run State.create h = some s ∧ sq s.q = 1 := by
  obtain ⟨s, e, g⟩ := good_run (fun r => r = 1) (fun r hr => hr.ge) rfl h State.create (good_create _ rfl) (by
    intro o ho
    refine ⟨fun q hq => ?_, fun dt hd => ?_⟩
    · subst hq; exact hh _ ho
    · subst hd; exact hh _ ho)
  exact ⟨s, e, g.2.2.2.2⟩

/-- The same when the quaternions given are of norm at least one: nothing is divided by zero, and a measurement makes the
quaternion a unit one again. -/
theorem C59_recovers (h : List Op) (hh : ∀ o ∈ h, Workable o) (g a : Fin 3 → ℝ) :
    ∃ s s', run State.create h = some s ∧ measure s g a = some s' ∧ (s.initSucceeded = true → sq s'.q = 1) := by
  obtain ⟨s, e, gd⟩ := good_run (fun r => 1 ≤ r) (fun r hr => hr) le_rfl h State.create (good_create _ le_rfl) (by
    intro o ho
    refine ⟨fun q hq => ?_, fun dt hd => ?_⟩
    · subst hq; exact hh _ ho
    · subst hd; exact hh _ ho)
  obtain ⟨s', e', -, k⟩ := good_step (fun r => 1 ≤ r) (fun r hr => hr) le_rfl gd (.measure g a) (by simp) (by simp)
  exact ⟨s, s', e, e', k g a rfl⟩

/-- The bound is tight: with the greatest gain and a period of one second, an attitude upside down and a measurement of the
vertical, the filter divides by zero. -/
theorem C59_period_one_counterexample :
    run State.create [.init 1, .setBeta 1, .setQuat ⟨0, 1, 0, 0⟩, .measure (fun _ => 0) ![0, 0, 1]] = none := by
  have h : update 1 1 ⟨0, 1, 0, 0⟩ 0 0 0 0 0 1 = none := by
    have e8 : √(64 : ℝ) = 8 := by
      rw [show (64 : ℝ) = 8 ^ 2 by norm_num]
      exact Real.sqrt_sq (by norm_num)
    norm_num [update, rate, applyFeedback, feedback, gyroRate, invSqrt, e8]
  simp [run, step, init, setBeta, setQuat, measure, State.create, not_le.mpr (zero_lt_one' ℝ), not_lt.mpr (zero_le_one' ℝ), h]

/-- `set_imu_quat` takes any quaternion: after the null one the filter divides by zero, whatever it measures. -/
theorem C59_null_quaternion_counterexample (dt : ℝ) (hdt : 0 < dt) (g a : Fin 3 → ℝ) :
    run State.create [.init dt, .setQuat ⟨0, 0, 0, 0⟩, .measure g a] = none := by
  have h : ∀ b f, update b f ⟨0, 0, 0, 0⟩ (g 0) (g 1) (g 2) (a 0) (a 1) (a 2) = none := by
    intro b f
    have z : rateOf b ⟨0, 0, 0, 0⟩ g a = ⟨0, 0, 0, 0⟩ := by
      simp [rateOf, gyroRate, feedback, sq]
    rw [update, rate_eq, z]
    simp [invSqrt]
  simp [run, step, init, setQuat, measure, State.create, not_le.mpr hdt, h]

/-- Between a command which sets a quaternion that is not unit and the next measurement, the filter holds that quaternion. -/
theorem C59_not_normalised_counterexample :
    ∃ s, run State.create [.setQuat ⟨2, 0, 0, 0⟩] = some s ∧ sq s.q ≠ 1 :=
  ⟨_, rfl, by norm_num [setQuat, sq]⟩

/-- Refused commands change nothing: a period which is not positive, a gain outside of [0, 1]. -/
theorem C59_refused (s : State) (dt b : ℝ) :
    (dt ≤ 0 → step s (.init dt) = some s) ∧ (b < 0 ∨ 1 < b → step s (.setBeta b) = some s) := by
  constructor
  · intro h; simp [step, init, h]
  · intro h; simp [step, setBeta, h]

/-- Before `init` a measurement changes nothing. -/
theorem C59_before_init (s : State) (h : s.initSucceeded = false) (g a : Fin 3 → ℝ) : measure s g a = some s := by
  simp [measure, h]

/-! ### C89 -/

/-- Without acceleration, a step follows the gyroscope: half the product of the quaternion by the angular velocity,
integrated over the period and normalised. -/
theorem C89_gyroscope (s : State) (hi : s.initSucceeded = true) (hq : (s.beta * (1 / s.sampleFreq)) ^ 2 < sq s.q)
    (g : Fin 3 → ℝ) :
    ∃ s', measure s g (fun _ => 0) = some s' ∧
      s'.q = normalised (along s.q (1 / s.sampleFreq / 2) (s.q.mul ⟨0, g 0, g 1, g 2⟩)) := by
  refine ⟨_, measure_eq hi hq g _, ?_⟩
  simp only
  congr 1
  simp only [along, rateOf, and_self, if_true, gyroRate, Quat.mul, Quat.mk.injEq]
  refine ⟨?_, ?_, ?_, ?_⟩ <;> ring

/-- The feedback is the gradient, with respect to the four components of the quaternion, of the misalignment between the
direction of the acceleration and the vertical. -/
theorem C89_gradient (q : Quat ℝ) (a : Fin 3 → ℝ) :
    HasDerivAt (fun w => misalignment a w q.x q.y q.z) (feedback q (a 0) (a 1) (a 2)).w q.w ∧
      HasDerivAt (fun x => misalignment a q.w x q.y q.z) (feedback q (a 0) (a 1) (a 2)).x q.x ∧
      HasDerivAt (fun y => misalignment a q.w q.x y q.z) (feedback q (a 0) (a 1) (a 2)).y q.y ∧
      HasDerivAt (fun z => misalignment a q.w q.x q.y z) (feedback q (a 0) (a 1) (a 2)).z q.z := by
  have quart : ∀ (c0 c1 c2 c3 c4 t : ℝ), HasDerivAt (fun t : ℝ => c0 + c1 * t + c2 * t ^ 2 + c3 * t ^ 3 + c4 * t ^ 4)
      (c1 + 2 * c2 * t + 3 * c3 * t ^ 2 + 4 * c4 * t ^ 3) t := by
    intro c0 c1 c2 c3 c4 t
    have h1 := (hasDerivAt_id' t).const_mul c1
    have h2 := (hasDerivAt_pow 2 t).const_mul c2
    have h3 := (hasDerivAt_pow 3 t).const_mul c3
    have h4 := (hasDerivAt_pow 4 t).const_mul c4
    refine ((((h1.const_add c0).add h2).add h3).add h4).congr_deriv ?_
    norm_num
    ring
  refine ⟨?_, ?_, ?_, ?_⟩
  · refine ((quart (((2 * (q.x * q.z) - a 0) ^ 2 + (2 * (q.y * q.z) - a 1) ^ 2 + (1 - 2 * (q.x ^ 2 + q.y ^ 2) - a 2) ^ 2) / 2)
      (-2 * q.y * (2 * (q.x * q.z) - a 0) + 2 * q.x * (2 * (q.y * q.z) - a 1)) (2 * q.y ^ 2 + 2 * q.x ^ 2) 0 0 q.w).congr_deriv
      ?_).congr_of_eventuallyEq (.of_forall fun w => ?_)
    · simp only [feedback]; ring
    · simp only [misalignment]; ring
  · refine ((quart (((-2 * (q.w * q.y) - a 0) ^ 2 + (2 * (q.y * q.z) - a 1) ^ 2 + (1 - 2 * q.y ^ 2 - a 2) ^ 2) / 2)
      (2 * q.z * (-2 * (q.w * q.y) - a 0) + 2 * q.w * (2 * (q.y * q.z) - a 1))
      (2 * q.z ^ 2 + 2 * q.w ^ 2 - 2 * (1 - 2 * q.y ^ 2 - a 2)) 0 2 q.x).congr_deriv
      ?_).congr_of_eventuallyEq (.of_forall fun w => ?_)
    · simp only [feedback]; ring
    · simp only [misalignment]; ring
  · refine ((quart (((2 * (q.x * q.z) - a 0) ^ 2 + (2 * (q.w * q.x) - a 1) ^ 2 + (1 - 2 * q.x ^ 2 - a 2) ^ 2) / 2)
      (-2 * q.w * (2 * (q.x * q.z) - a 0) + 2 * q.z * (2 * (q.w * q.x) - a 1))
      (2 * q.w ^ 2 + 2 * q.z ^ 2 - 2 * (1 - 2 * q.x ^ 2 - a 2)) 0 2 q.y).congr_deriv
      ?_).congr_of_eventuallyEq (.of_forall fun w => ?_)
    · simp only [feedback]; ring
    · simp only [misalignment]; ring
  · refine ((quart (((-2 * (q.w * q.y) - a 0) ^ 2 + (2 * (q.w * q.x) - a 1) ^ 2 + (1 - 2 * (q.x ^ 2 + q.y ^ 2) - a 2) ^ 2) / 2)
      (2 * q.x * (-2 * (q.w * q.y) - a 0) + 2 * q.y * (2 * (q.w * q.x) - a 1)) (2 * q.x ^ 2 + 2 * q.y ^ 2) 0 0 q.z).congr_deriv
      ?_).congr_of_eventuallyEq (.of_forall fun w => ?_)
    · simp only [feedback]; ring
    · simp only [misalignment]; ring

/-- The misalignment is measured against the last row of its rotation matrix: the vertical, seen from
the frame of the sensor. -/
theorem C89_misalignment (q : Quat ℝ) (a : Fin 3 → ℝ) :
    misalignment a q.w q.x q.y q.z
      = ((q.toRot 2 0 - a 0) ^ 2 + (q.toRot 2 1 - a 1) ^ 2 + (q.toRot 2 2 - a 2) ^ 2) / 2 := by
  simp only [misalignment, Quat.toRot]
  simp
  ring

/-- With an acceleration, a step descends the gradient of the misalignment with the direction of the acceleration, of a
length given by the gain and the period, and adds the rate of the gyroscope. -/
theorem C89_step (s : State) (hi : s.initSucceeded = true) (hq : (s.beta * (1 / s.sampleFreq)) ^ 2 < sq s.q)
    (g a : Fin 3 → ℝ) (ha : ∃ i, a i ≠ 0) (d : Quat ℝ) (hd : d ≠ ⟨0, 0, 0, 0⟩)
    (h0 : HasDerivAt (fun w => misalignment (unit3 a) w s.q.x s.q.y s.q.z) d.w s.q.w)
    (h1 : HasDerivAt (fun x => misalignment (unit3 a) s.q.w x s.q.y s.q.z) d.x s.q.x)
    (h2 : HasDerivAt (fun y => misalignment (unit3 a) s.q.w s.q.x y s.q.z) d.y s.q.y)
    (h3 : HasDerivAt (fun z => misalignment (unit3 a) s.q.w s.q.x s.q.y z) d.z s.q.z) :
    ∃ s', measure s g a = some s' ∧
      s'.q = normalised (along (along s.q (1 / s.sampleFreq / 2) (s.q.mul ⟨0, g 0, g 1, g 2⟩))
        (-(s.beta / s.sampleFreq)) (normalised d)) := by
  have hg := C89_gradient s.q (unit3 a)
  have e : d = feedback s.q (unit3 a 0) (unit3 a 1) (unit3 a 2) := by
    ext
    · exact h0.unique hg.1
    · exact h1.unique hg.2.1
    · exact h2.unique hg.2.2.1
    · exact h3.unique hg.2.2.2
  have ha' : ¬ (a 0 = 0 ∧ a 1 = 0 ∧ a 2 = 0) := by
    rintro ⟨x, y, z⟩
    obtain ⟨i, hi⟩ := ha
    fin_cases i <;> simp_all
  have hs : sq d ≠ 0 := by
    refine (sq_pos_of fun h => hd ?_).ne'
    ext
    exacts [h.1, h.2.1, h.2.2.1, h.2.2.2]
  refine ⟨_, measure_eq hi hq g a, ?_⟩
  simp only
  congr 1
  simp only [rateOf, if_neg ha', ← e, if_neg hs]
  generalize normalised d = u
  simp only [along, gyroRate, Quat.mul, Quat.mk.injEq]
  refine ⟨?_, ?_, ?_, ?_⟩ <;> ring

/-- At rest and aligned with the acceleration, the filter stays where it is. -/
theorem C89_rest (s : State) (hi : s.initSucceeded = true) (hq : sq s.q = 1) (hb : (s.beta * (1 / s.sampleFreq)) ^ 2 < 1)
    (a : Fin 3 → ℝ) (ha : ∀ i, unit3 a i = s.q.toRot 2 i) :
    measure s (fun _ => 0) a = some s := by
  have hq' : (s.beta * (1 / s.sampleFreq)) ^ 2 < sq s.q := by rwa [hq]
  have r0 : rateOf s.beta s.q (fun _ => 0) a = ⟨0, 0, 0, 0⟩ := by
    have gz : gyroRate s.q 0 0 0 = ⟨0, 0, 0, 0⟩ := by simp [gyroRate]
    have fz : sq (feedback s.q (unit3 a 0) (unit3 a 1) (unit3 a 2)) = 0 := by
      rw [ha 0, ha 1, ha 2]
      unfold sq at hq
      have e0 : (feedback s.q (s.q.toRot 2 0) (s.q.toRot 2 1) (s.q.toRot 2 2)).w = 0 := by
        simp [feedback, Quat.toRot]; ring
      have e1 : (feedback s.q (s.q.toRot 2 0) (s.q.toRot 2 1) (s.q.toRot 2 2)).x = 0 := by
        simp [feedback, Quat.toRot]; ring
      have e2 : (feedback s.q (s.q.toRot 2 0) (s.q.toRot 2 1) (s.q.toRot 2 2)).y = 0 := by
        simp [feedback, Quat.toRot]; ring
      have e3 : (feedback s.q (s.q.toRot 2 0) (s.q.toRot 2 1) (s.q.toRot 2 2)).z = 0 := by
        simp [feedback, Quat.toRot]; ring
      rw [sq, e0, e1, e2, e3]
      norm_num
    unfold rateOf
    dsimp only
    rw [gz]
    rw [if_pos fz]
    split <;> rfl
  have u := measure_eq hi hq' (fun _ => 0) a
  rw [r0] at u
  have e : normalised (along s.q (1 / s.sampleFreq) ⟨0, 0, 0, 0⟩) = s.q := by
    have : along s.q (1 / s.sampleFreq) ⟨0, 0, 0, 0⟩ = s.q := by simp [along]
    rw [this]
    simp [normalised, hq]
  rw [e] at u
  exact u

/-! ### Examples -/

example : ∀ o ∈ [Op.init 0.005, .measure ![0.1, 0, 0] ![0, 0, 9.8], .setBeta 0.3, .setQuat ⟨0.6, 0.8, 0, 0⟩,
    .measure ![0.1, 0, 0] ![0, 0, 9.8]], Sound o := by
  intro o ho
  simp only [List.mem_cons, List.not_mem_nil, or_false] at ho
  rcases ho with rfl | rfl | rfl | rfl | rfl <;> norm_num [Sound, sq]

example : ∀ i, unit3 ![0, 0, 2] i = (⟨1, 0, 0, 0⟩ : Quat ℝ).toRot 2 i := by
  intro i
  have : √(4 : ℝ) = 2 := by
    rw [show (4 : ℝ) = 2 ^ 2 by norm_num]
    exact Real.sqrt_sq (by norm_num)
  have h : (![0, 0, 2] : Fin 3 → ℝ) 2 = 2 := rfl
  fin_cases i <;> simp [unit3, Quat.toRot, h] <;> norm_num [this]

example : feedback ⟨1, 0, 0, 0⟩ 1 0 0 ≠ ⟨0, 0, 0, 0⟩ := by
  intro h
  have := congrArg Quat.y h
  norm_num [feedback] at this

end Verif.Madgwick
