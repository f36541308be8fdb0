import Verif.Admittance.Model
import Mathlib.Algebra.Order.Ring.Abs
import Mathlib.Algebra.Order.Field.Rat
import Mathlib.Tactic.FieldSimp
import Mathlib.Tactic.FinCases
import Mathlib.Tactic.Linarith
import Mathlib.Tactic.LinearCombination
import Mathlib.Tactic.NormNum

/-!
# C60 and C90: admittance control at an operational point
-/

namespace Verif.Admittance

open Matrix Verif.Geometry

variable {F : Type} [Field F] [LinearOrder F] [IsStrictOrderedRing F]

theorem cross_zero (a b : Fin 3 → F) : cross a b 0 = a 1 * b 2 - a 2 * b 1 := rfl

theorem cross_one (a b : Fin 3 → F) : cross a b 1 = a 2 * b 0 - a 0 * b 2 := rfl

theorem cross_two (a b : Fin 3 → F) : cross a b 2 = a 0 * b 1 - a 1 * b 0 := rfl

/-! ### Saturation -/

theorem saturate_eq {sat : F} (h : 0 ≤ sat) (w : F) : saturate sat w = max (-sat) (min sat w) := by
  unfold saturate
  by_cases h1 : w > sat
  · rw [if_pos h1, min_eq_left h1.le, if_neg (by linarith), max_eq_right (by linarith)]
  · rw [if_neg h1, min_eq_right (not_lt.mp h1)]
    dsimp only
    split
    · rename_i h2
      rw [max_eq_left h2.le]
    · rename_i h2
      rw [max_eq_right (not_lt.mp h2)]

theorem saturate_abs {sat : F} (h : 0 ≤ sat) (w : F) : |saturate sat w| ≤ sat := by
  rw [saturate_eq h, abs_le]
  exact ⟨le_max_left _ _, max_le (by linarith) (min_le_left _ _)⟩

theorem saturate_self {sat w : F} (h : |w| ≤ sat) : saturate sat w = w := by
  rw [abs_le] at h
  rw [saturate_eq (by linarith), min_eq_right h.2, max_eq_right h.1]

theorem saturate_neg {sat : F} (h : sat < 0) (w : F) : saturate sat w = -sat := by
  unfold saturate
  by_cases h1 : w > sat
  · simp only [if_pos h1]; rw [if_pos (by linarith)]
  · simp only [if_neg h1]
    rw [if_pos]
    have := not_lt.mp h1
    linarith

/-! ### C60 -/

/-- Whatever the history, whatever the forces and the gains: each component of the velocity of the world frame computed at
a time lies within the saturation of that time, when that one is not negative. -/
theorem C60_saturated (s0 : State F) (h : List (Op F)) (s : State F) (_hr : run s0 h = .ok s) (i : Inputs F)
    (w dq : V6 F) (ht : (tick s i).2 = some (w, dq)) (k : Fin 3 ⊕ Fin 3) (hk : 0 ≤ i.dqSaturation k) :
    |w k| ≤ i.dqSaturation k := by
  unfold tick at ht
  split at ht
  · simp at ht
  · simp only [Option.some.injEq, Prod.mk.injEq] at ht
    rw [← ht.1]
    exact saturate_abs hk _

/-- What is remembered between two times obeys the bound `B` in every history whose saturations are between zero and `B`. -/
theorem C60_bounded (B : V6 F) (hB : ∀ k, 0 ≤ B k) (h : List (Op F))
    (hh : ∀ i, Op.tick i ∈ h → ∀ k, 0 ≤ i.dqSaturation k ∧ i.dqSaturation k ≤ B k) (s : State F)
    (hr : run State.create h = .ok s) (dt : F) (w : V6 F) (hw : s.inner = some (dt, w)) (k : Fin 3 ⊕ Fin 3) :
    |w k| ≤ B k := by
  suffices H : ∀ (h : List (Op F)) (s0 : State F), (∀ dt w, s0.inner = some (dt, w) → ∀ k, |w k| ≤ B k) →
      (∀ i, Op.tick i ∈ h → ∀ k, 0 ≤ i.dqSaturation k ∧ i.dqSaturation k ≤ B k) → ∀ s, run s0 h = .ok s →
      ∀ dt w, s.inner = some (dt, w) → ∀ k, |w k| ≤ B k by
    exact H h State.create (by simp [State.create]) hh s hr dt w hw k
  clear hr hw hh h s w dt k
  intro h
  induction h with
  | nil =>
    intro s0 h0 _ s hs
    simp only [run, Outcome.ok.injEq] at hs
    exact hs ▸ h0
  | cons o h ih =>
    intro s0 h0 hh s hs
    simp only [run, Outcome.bind_eq_ok] at hs
    obtain ⟨s1, e1, e2⟩ := hs
    refine ih s1 ?_ (fun i hi => hh i (List.mem_cons_of_mem _ hi)) s e2
    intro dt w hw k
    have z : |(0 : V6 F) k| ≤ B k := by simpa using hB k
    cases o with
    | plug =>
      simp only [step, Outcome.ok.injEq] at e1
      subst e1
      exact h0 dt w hw k
    | init d =>
      simp only [step, init, Outcome.ok.injEq] at e1
      subst e1
      split at hw
      · exact h0 dt w hw k
      · simp only [Option.some.injEq, Prod.mk.injEq] at hw
        rw [← hw.2]
        exact z
    | resetDq =>
      simp only [step, resetDq] at e1
      split at e1
      · simp at e1
      · simp only [Outcome.ok.injEq] at e1
        subst e1
        simp only [Option.some.injEq, Prod.mk.injEq] at hw
        rw [← hw.2]
        exact z
    | tick i =>
      simp only [step, tick, Outcome.ok.injEq] at e1
      subst e1
      split at hw
      · exact h0 dt w hw k
      · simp only [Option.some.injEq, Prod.mk.injEq] at hw
        rw [← hw.2]
        have := hh i (List.mem_cons_self ..) k
        exact (saturate_abs this.1 _).trans this.2

/-- A negative saturation is not refused: the component is then the opposite of the saturation, whatever the forces. -/
theorem C60_negative_saturation_counterexample (s : State F) (i : Inputs F) (w dq : V6 F)
    (ht : (tick s i).2 = some (w, dq)) (k : Fin 3 ⊕ Fin 3) (hk : i.dqSaturation k < 0) :
    w k = -i.dqSaturation k ∧ i.dqSaturation k < |w k| := by
  unfold tick at ht
  split at ht
  · simp at ht
  · simp only [Option.some.injEq, Prod.mk.injEq] at ht
    have : w k = -i.dqSaturation k := by
      rw [← ht.1]
      exact saturate_neg hk _
    refine ⟨this, ?_⟩
    rw [this, abs_of_pos (by linarith)]
    linarith

/-- Before `init` nothing is computed, and `resetDq` then reads a size which is not initialised. -/
theorem C60_before_init (s : State F) (hs : s.inner = none) (i : Inputs F) :
    tick s i = (s, none) ∧ resetDq s = .ub := by
  simp [tick, resetDq, hs]

/-- `init` is refused unless the inputs are plugged; accepted, it takes any period and the velocity starts from zero. -/
theorem C60_init (s : State F) (dt : F) :
    (s.plugged = false → init s dt = s) ∧ (s.plugged = true → (init s dt).inner = some (dt, 0)) := by
  constructor <;> intro h <;> simp [init, h]

/-! ### C90 -/

/-- Within the saturation, one step integrates the error of force over the period and loses the part `Kd` of the velocity,
the latter whatever the period. -/
theorem C90_step (s : State F) (dt : F) (w0 : V6 F) (hs : s.inner = some (dt, w0)) (i : Inputs F) (k : Fin 3 ⊕ Fin 3)
    (hk : |(1 - i.Kd k) * w0 k + dt * i.Kp k * (i.wForceDes k - actForce i.sensorPose i.force k)| ≤ i.dqSaturation k) :
    ∃ w dq, (tick s i).2 = some (w, dq) ∧
      w k = (1 - i.Kd k) * w0 k + dt * i.Kp k * (i.wForceDes k - actForce i.sensorPose i.force k) := by
  refine ⟨wDq dt w0 i, actInvMotion i.opPose (wDq dt w0 i), by simp only [tick, hs], ?_⟩
  have e : w0 k + dt * (i.Kp k * (i.wForceDes k - wForce i k)) - i.Kd k * w0 k
      = (1 - i.Kd k) * w0 k + dt * i.Kp k * (i.wForceDes k - actForce i.sensorPose i.force k) := by
    simp only [wForce]; ring
  rw [wDq, dqComp, e]
  exact saturate_self hk

/-- The inputs at successive times, all computed from the state `s`. -/
def ticks (s : State F) : List (Inputs F) → State F
  | [] => s
  | i :: l => ticks (tick s i).1 l

/-- With the force at its desired value the velocity decays geometrically. -/
theorem C90_decay (l : List (Inputs F)) (dt : F) (w0 : V6 F) (k : Fin 3 ⊕ Fin 3) (kd : F) (h0 : 0 ≤ kd) (h1 : kd ≤ 1)
    (s : State F) (hs : s.inner = some (dt, w0))
    (hl : ∀ i ∈ l, i.Kd k = kd ∧ i.wForceDes k = actForce i.sensorPose i.force k ∧ |w0 k| ≤ i.dqSaturation k) :
    ∃ w, (ticks s l).inner = some (dt, w) ∧ w k = (1 - kd) ^ l.length * w0 k := by
  have bound : ∀ n : ℕ, |(1 - kd) ^ n * w0 k| ≤ |w0 k| := by
    intro n
    rw [abs_mul]
    have a1 : |(1 - kd) ^ n| ≤ 1 := by
      rw [abs_pow]
      exact pow_le_one₀ (abs_nonneg _) (abs_le.mpr ⟨by linarith, by linarith⟩)
    calc _ ≤ 1 * |w0 k| := mul_le_mul_of_nonneg_right a1 (abs_nonneg _)
      _ = _ := one_mul _
  suffices H : ∀ (l : List (Inputs F)) (n : ℕ) (s : State F) (w : V6 F), s.inner = some (dt, w) →
      w k = (1 - kd) ^ n * w0 k →
      (∀ i ∈ l, i.Kd k = kd ∧ i.wForceDes k = actForce i.sensorPose i.force k ∧ |w0 k| ≤ i.dqSaturation k) →
      ∃ w', (ticks s l).inner = some (dt, w') ∧ w' k = (1 - kd) ^ (n + l.length) * w0 k by
    simpa using H l 0 s w0 hs (by simp) hl
  intro l
  induction l with
  | nil => exact fun n s w h e _ => ⟨w, h, by simpa using e⟩
  | cons i l ih =>
    intro n s w h e hl
    obtain ⟨c1, c2, c3⟩ := hl i (List.mem_cons_self ..)
    have hv : (1 - i.Kd k) * w k + dt * i.Kp k * (i.wForceDes k - actForce i.sensorPose i.force k)
        = (1 - kd) ^ (n + 1) * w0 k := by rw [c1, c2, e]; ring
    have ht : (tick s i).1.inner = some (dt, wDq dt w i) := by simp [tick, h]
    obtain ⟨w', dq', hw', hk'⟩ := C90_step s dt w h i k (by rw [hv]; exact (bound _).trans c3)
    have hw'' : w' = wDq dt w i := by
      simp only [tick, h, Option.some.injEq, Prod.mk.injEq] at hw'
      exact hw'.1.symm
    subst hw''
    obtain ⟨w2, a, b⟩ := ih (n + 1) (tick s i).1 (wDq dt w i) ht (by rw [hk', hv])
      (fun j hj => hl j (List.mem_cons_of_mem _ hj))
    exact ⟨w2, a, by rw [b, List.length_cons, add_assoc, add_comm 1]⟩

/-- The steady velocity under a constant error of force: `dt Kp / Kd` times the error, which a step does not change. -/
theorem C90_steady (s : State F) (dt : F) (w0 : V6 F) (hs : s.inner = some (dt, w0)) (i : Inputs F) (k : Fin 3 ⊕ Fin 3)
    (hd : i.Kd k ≠ 0)
    (hw : w0 k = dt * i.Kp k / i.Kd k * (i.wForceDes k - actForce i.sensorPose i.force k))
    (hk : |w0 k| ≤ i.dqSaturation k) :
    ∃ w dq, (tick s i).2 = some (w, dq) ∧ w k = w0 k := by
  have e : (1 - i.Kd k) * w0 k + dt * i.Kp k * (i.wForceDes k - actForce i.sensorPose i.force k) = w0 k := by
    have : i.Kd k * w0 k = dt * i.Kp k * (i.wForceDes k - actForce i.sensorPose i.force k) := by
      rw [hw]; field_simp
    linear_combination -this
  obtain ⟨w, dq, h1, h2⟩ := C90_step s dt w0 hs i k (by rwa [e])
  exact ⟨w, dq, h1, by rw [h2, e]⟩

/-- The change of frame of the output keeps powers: the power of any force of the operational point along `dq` is the power
of that force, expressed in the world, along the velocity of the world frame. -/
theorem C90_power (s : State F) (i : Inputs F) (w dq : V6 F) (ht : (tick s i).2 = some (w, dq)) (f : V6 F) :
    dq ⬝ᵥ f = w ⬝ᵥ actForce i.opPose f := by
  unfold tick at ht
  split at ht
  · simp at ht
  · simp only [Option.some.injEq, Prod.mk.injEq] at ht
    obtain ⟨h1, h2⟩ := ht
    rw [← h2, h1]
    simp only [dotProduct, actInvMotion, actForce, Fintype.sum_sum_type, Sum.elim_inl, Sum.elim_inr, Fin.sum_univ_three,
      Matrix.mulVec, Matrix.transpose_apply, Pi.sub_apply, Pi.add_apply, cross_zero, cross_one, cross_two]
    ring

/-- The angular part of the output is the one of the world frame, turned: it keeps its norm. -/
theorem C90_angular_norm (s : State F) (i : Inputs F) (w dq : V6 F) (ht : (tick s i).2 = some (w, dq))
    (hR : i.opPose.R * i.opPose.Rᵀ = 1) :
    (fun k => dq (.inr k)) ⬝ᵥ (fun k => dq (.inr k)) = (fun k => w (.inr k)) ⬝ᵥ fun k => w (.inr k) := by
  unfold tick at ht
  split at ht
  · simp at ht
  · simp only [Option.some.injEq, Prod.mk.injEq] at ht
    obtain ⟨h1, h2⟩ := ht
    have e : (fun k => dq (.inr k)) = i.opPose.Rᵀ *ᵥ fun k => w (.inr k) := by
      rw [← h2, h1]
      rfl
    rw [e, dotProduct_mulVec, ← mulVec_transpose, transpose_transpose, mulVec_mulVec, hR, one_mulVec]

/-- An operational point two metres away along the first axis, a torque error about the last one. -/
def exInputs : Inputs ℚ where
  Kp := fun _ => 1
  Kd := fun _ => 1 / 2
  dqSaturation := fun _ => 1
  force := 0
  wForceDes := Sum.elim 0 ![0, 0, 3]
  opPose := ⟨1, ![2, 0, 0]⟩
  sensorPose := ⟨1, 0⟩

/-- The saturation, said in the header to be applied to the output, bounds the velocity of the world frame only: a component
of the output `dq` can exceed it. -/
theorem C90_output_not_saturated_counterexample :
    ∃ s : State ℚ, run State.create [.plug, .init 1] = .ok s ∧
      ∃ w dq, (tick s exInputs).2 = some (w, dq) ∧ (∀ k, 0 ≤ exInputs.dqSaturation k) ∧
        exInputs.dqSaturation (.inl 1) < |dq (.inl 1)| := by
  refine ⟨_, rfl, _, _, rfl, fun k => by norm_num [exInputs], ?_⟩
  decide +kernel

/-! ### Examples -/

example : ∃ w dq, (tick (⟨true, some (1, 0)⟩ : State ℚ) exInputs).2 = some (w, dq) ∧ w (.inr 2) = 1 :=
  ⟨_, _, rfl, by decide +kernel⟩

example : (0 : ℚ) ≤ exInputs.dqSaturation (.inr 2) := by norm_num [exInputs]

example : exInputs.opPose.R * exInputs.opPose.Rᵀ = 1 := by simp [exInputs]

end Verif.Admittance
