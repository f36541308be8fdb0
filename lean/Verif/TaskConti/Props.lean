import Verif.TaskConti.Model
import Mathlib.Analysis.SpecialFunctions.ExpDeriv
import Mathlib.Analysis.Calculus.MeanValue
import Mathlib.Analysis.SpecialFunctions.Pow.Asymptotics

/-!
# Properties of the task with a smooth beginning (C100)
-/

namespace Verif.TaskConti

open Verif.MultiBound Filter Topology

/-! ### As the entity can be used -/

/-- No history sets the rate or the initial velocity. -/
theorem reached_fixed {s : State} (h : Reached s) : s.mu = 0 ∧ s.q0 = [] := by
  induction h with
  | init => exact ⟨rfl, rfl⟩
  | @step s op s' _ hs ih =>
    cases hs with
    | setTime => exact ih
    | @eval err gain jac time _ v h =>
      cases jac with
      | none =>
        simp only [desiredVelocity, handler] at h
        cases h
        exact ih
      | some J =>
        simp only [desiredVelocity, handler] at h
        split_ifs at h <;> cases h <;> exact ih

/-- **C100.** In every reachable state the evaluation with a Jacobian that does not have six columns ends the program. -/
theorem C100_terminates {s : State} (h : Reached s) (err : List ℝ) (gain : ℝ) {J : Jac} (hJ : J.cols ≠ 6) (time : Int) :
    desiredVelocity s err gain (some J) time = .terminate := by
  have hq := (reached_fixed h).2
  rw [desiredVelocity]
  simp only
  rw [if_pos]
  simp [hq]
  omega

/-- **C100.** In general the evaluation ends the program exactly when the initial velocity does not have the size of the actuated part. -/
theorem C100_terminates_iff (s : State) (err : List ℝ) (gain : ℝ) (J : Jac) (time : Int) :
    desiredVelocity s err gain (some J) time = .terminate ↔ s.q0.length + 6 ≠ J.cols := by
  rw [desiredVelocity]
  simp only [handler]
  split
  · rename_i h
    simp only [true_iff]
    omega
  · rename_i h
    have h' : ¬s.q0.length + 6 ≠ J.cols := by omega
    simp only [h', iff_false]
    split_ifs <;> simp

/-- **C100.** When the Jacobian cannot be computed, the desired velocity is that of an ordinary task. -/
theorem C100_no_jacobian (s : State) (err : List ℝ) (gain : ℝ) (time : Int) (dots : List (List ℝ)) :
    ∃ v, desiredVelocity s err gain none time = .ok s v ∧ Task.computeTask gain false err dots = .ok v := by
  refine ⟨err.map fun e => ofSingle 0 (-gain * e), rfl, ?_⟩
  rw [Task.computeTask]
  simp only [Bool.false_eq_true, if_false]
  congr 1
  apply List.map_congr_left
  intro e _
  congr 1
  ring

/-- **C100.** Without reference time, the desired velocity is that of an ordinary task. -/
theorem C100_no_time {s : State} (hs : s.timeRef < 0) (hs' : s.timeRef ≠ -2) (err : List ℝ) (gain : ℝ) {J : Jac}
    (hJ : s.q0.length + 6 = J.cols) (time : Int) (dots : List (List ℝ)) :
    ∃ v, desiredVelocity s err gain (some J) time = .ok s v ∧ Task.computeTask gain false err dots = .ok v := by
  obtain ⟨v, h1, h2⟩ := C100_no_jacobian s err gain time dots
  refine ⟨v, ?_, h2⟩
  rw [← h1, desiredVelocity, desiredVelocity]
  simp only
  rw [if_neg (by omega)]
  simp [hs', hs]

/-- **C100.** In every reachable state with a reference time, the desired velocity is zero whatever the error: the task does nothing. -/
theorem C100_inert_counterexample {s : State} (h : Reached s) (hs : 0 ≤ s.timeRef) {err : List ℝ} (gain : ℝ) {J : Jac} (hJ : J.cols = 6)
    (hr : J.rows.length = err.length) {time : Int} (ht : -2147483648 ≤ s.timeRef - time ∧ s.timeRef - time ≤ 2147483647) :
    desiredVelocity s err gain (some J) time = .ok s (err.map fun _ => ofSingle 0 0) := by
  obtain ⟨hm, hq⟩ := reached_fixed h
  rw [desiredVelocity]
  simp only [hq]
  have h2 : s.timeRef ≠ -2 := by omega
  rw [if_neg (by simp [hJ])]
  simp only [h2, if_false]
  rw [if_neg (by omega), if_neg (by omega), if_neg (by simp [hr])]
  congr 1
  apply List.ext_getElem
  · simp [hr]
  · intro i h1 h2
    simp [hm, derefRow]

/-- A reachable state with a reference time, and an evaluation of it: the hypotheses of the previous theorem can be met. -/
theorem C100_inert_case : ∃ s, Reached s ∧ 0 ≤ s.timeRef ∧
    desiredVelocity s [5] 2 (some ⟨[[1, 2, 3, 4, 5, 6]], 6⟩) 20 = .ok s [ofSingle 0 0] := by
  have h : Reached (setReferenceTime init 10) := .step .init (.setTime init 10)
  refine ⟨_, h, by decide, ?_⟩
  exact C100_inert_counterexample h (by decide) (err := [5]) 2 (J := ⟨[[1, 2, 3, 4, 5, 6]], 6⟩) rfl rfl (by decide)

/-! ### The formula, with any rate and initial velocity -/

/-- The value with a reference time. -/
theorem desiredVelocity_ok {s : State} (hs : 0 ≤ s.timeRef) {err : List ℝ} (gain : ℝ) {J : Jac} (hJ : s.q0.length + 6 = J.cols)
    (hr : J.rows.length = err.length) {time : Int} (ht : -2147483648 ≤ s.timeRef - time ∧ s.timeRef - time ≤ 2147483647) :
    desiredVelocity s err gain (some J) time = .ok s (List.zipWith (fun e row => ofSingle 0
      (e * ((Real.exp (((s.timeRef - time : Int) : ℝ) * (s.mu / 200)) - 1) * gain) +
        derefRow row s.q0 * Real.exp (((s.timeRef - time : Int) : ℝ) * (s.mu / 200)))) err J.rows) := by
  rw [desiredVelocity]
  simp only
  have h2 : s.timeRef ≠ -2 := by omega
  rw [if_neg (by omega)]
  simp only [h2, if_false]
  rw [if_neg (by omega), if_neg (by omega), if_neg (by simp [hr]), List.zipWith_map_right]

/-- The velocity that the initial joint velocity gives: the columns of the Jacobian after the six of the free flyer times it. -/
theorem derefRow_eq {row q0 : List ℝ} (h : row.length = q0.length + 6) :
    derefRow row q0 = ∑ j : Fin q0.length, row[6 + j.1]'(by omega) * q0[j] := by
  rw [derefRow, ← Fin.sum_ofFn]
  congr 1
  apply List.ext_getElem
  · simp [h]
  · intro i h1 h2
    simp

/-- **C100.** At the reference time the desired velocity is the one that the initial joint velocity gives: there is no jump. -/
theorem C100_start {s : State} (hs : 0 ≤ s.timeRef) {err : List ℝ} (gain : ℝ) {J : Jac} (hJ : s.q0.length + 6 = J.cols)
    (hr : J.rows.length = err.length) (hc : ∀ row ∈ J.rows, row.length = J.cols) :
    desiredVelocity s err gain (some J) s.timeRef = .ok s (J.rows.attach.map fun row => ofSingle 0
        (∑ j : Fin s.q0.length, row.1[6 + j.1]'(by have := hc row.1 row.2; omega) * s.q0[j])) := by
  rw [desiredVelocity_ok hs gain hJ hr (by omega)]
  congr 1
  apply List.ext_getElem
  · simp [hr]
  · intro i h1 h2
    have hi : i < J.rows.length := by simpa using h2
    have := derefRow_eq (row := J.rows[i]) (q0 := s.q0) (by rw [hc _ (List.getElem_mem _), hJ])
    simp at this
    simp [this]

/-- **C100.** The first evaluation after the request of a reference time takes its time for it, and gives the velocity of the initial joint
velocity. -/
theorem C100_to_be_set {s : State} (hs : s.timeRef = -2) {err : List ℝ} (gain : ℝ) {J : Jac} (hJ : s.q0.length + 6 = J.cols)
    (hr : J.rows.length = err.length) (hc : ∀ row ∈ J.rows, row.length = J.cols) {time : Int} (ht : 0 ≤ time) :
    desiredVelocity s err gain (some J) time =
      .ok { s with timeRef := time } (J.rows.attach.map fun row => ofSingle 0
        (∑ j : Fin s.q0.length, row.1[6 + j.1]'(by have := hc row.1 row.2; omega) * s.q0[j])) := by
  have h := C100_start (s := { s with timeRef := time }) ht gain hJ hr hc
  rw [← h, desiredVelocity, desiredVelocity]
  have h2 : time ≠ -2 := by omega
  simp [hs, h2]

/-- **C100.** Long after the reference time the desired velocity tends to that of an ordinary task. -/
theorem C100_limit (tref : Int) {mu : ℝ} (hmu : 0 < mu) (e r gain : ℝ) :
    Tendsto (fun k : ℕ => e * ((Real.exp (((tref - (tref + k) : Int) : ℝ) * (mu / 200)) - 1) * gain) +
      r * Real.exp (((tref - (tref + k) : Int) : ℝ) * (mu / 200))) atTop (𝓝 (-gain * e)) := by
  have h0 : Tendsto (fun k : ℕ => Real.exp (((tref - (tref + k) : Int) : ℝ) * (mu / 200))) atTop (𝓝 0) := by
    have h1 : Tendsto (fun k : ℕ => (k : ℝ) * (mu / 200)) atTop atTop :=
      tendsto_natCast_atTop_atTop.atTop_mul_const (by positivity)
    refine (Real.tendsto_exp_neg_atTop_nhds_zero.comp h1).congr ?_
    intro k
    simp only [Function.comp]
    congr 1
    push_cast
    ring
  have h := ((h0.sub_const 1).mul_const gain).const_mul e |>.add (h0.const_mul r)
  convert h using 2
  ring

/-- The error of a component that follows the desired velocity: `e' = (c - 1) λ e + c r` with `c = exp (-a t)`. -/
def Follows (lam a r : ℝ) (e : ℝ → ℝ) : Prop :=
  ∀ t, HasDerivAt e ((Real.exp (-(a * t)) - 1) * lam * e t + Real.exp (-(a * t)) * r) t

/-- **C100.** An error that follows the desired velocity exactly, with a positive gain and a positive rate, is bounded after the reference
time by a decreasing exponential, hence tends to zero, whatever the initial velocity. -/
theorem C100_converges {lam a r : ℝ} (hl : 0 < lam) (ha : 0 < a) {e : ℝ → ℝ} (he : Follows lam a r e) {b : ℝ} (hb : 0 < b) (hba : b ≤ a)
    (hbl : b < lam) {t : ℝ} (ht : 0 ≤ t) :
    |e t| ≤ Real.exp (lam / a) * (|e 0| + |r| / (lam - b)) * Real.exp (-(b * t)) := by
  have hE : ∀ x, HasDerivAt (fun x => Real.exp (-(a * x))) (-(a * Real.exp (-(a * x)))) x := by
    intro x
    have := ((hasDerivAt_id x).const_mul a).neg.exp
    refine this.congr_deriv ?_
    simp only [Pi.neg_apply, id, mul_one]
    ring
  have hG : ∀ x, HasDerivAt (fun x => Real.exp (lam * x + lam / a * Real.exp (-(a * x))))
      (Real.exp (lam * x + lam / a * Real.exp (-(a * x))) * (lam - lam * Real.exp (-(a * x)))) x := by
    intro x
    have := (((hasDerivAt_id x).const_mul lam).add ((hE x).const_mul (lam / a))).exp
    refine this.congr_deriv ?_
    simp only [Pi.add_apply, id, mul_one]
    rw [show lam / a * -(a * Real.exp (-(a * x))) = -(lam * Real.exp (-(a * x))) by field_simp]
    ring
  have hF : ∀ x, HasDerivAt (fun x => e x * Real.exp (lam * x + lam / a * Real.exp (-(a * x))) - e 0 * Real.exp (lam / a))
      (Real.exp (-(a * x)) * r * Real.exp (lam * x + lam / a * Real.exp (-(a * x)))) x := by
    intro x
    have := ((he x).mul (hG x)).sub_const (e 0 * Real.exp (lam / a))
    refine this.congr_deriv ?_
    ring
  have hlb : 0 < lam - b := by linarith
  have hB : ∀ x, HasDerivAt (fun x => |r| * Real.exp (lam / a) / (lam - b) * Real.exp ((lam - b) * x))
      (|r| * Real.exp (lam / a) * Real.exp ((lam - b) * x)) x := by
    intro x
    have := (((hasDerivAt_id x).const_mul (lam - b)).exp).const_mul (|r| * Real.exp (lam / a) / (lam - b))
    refine this.congr_deriv ?_
    simp only [id, mul_one]
    field_simp
  have hc1 : ∀ x : ℝ, 0 ≤ x → Real.exp (-(a * x)) ≤ 1 := fun x hx => Real.exp_le_one_iff.2 (by nlinarith)
  have hbound : ∀ x ∈ Set.Ico 0 t, ‖Real.exp (-(a * x)) * r * Real.exp (lam * x + lam / a * Real.exp (-(a * x)))‖ ≤
      |r| * Real.exp (lam / a) * Real.exp ((lam - b) * x) := by
    intro x hx
    have hx0 : 0 ≤ x := hx.1
    rw [Real.norm_eq_abs, abs_mul, abs_mul, Real.abs_exp, Real.abs_exp]
    have h1 : Real.exp (-(a * x)) ≤ Real.exp (-(b * x)) := Real.exp_le_exp.2 (by nlinarith)
    have h2 : Real.exp (lam * x + lam / a * Real.exp (-(a * x))) ≤ Real.exp (lam * x) * Real.exp (lam / a) := by
      rw [← Real.exp_add]
      apply Real.exp_le_exp.2
      have := mul_le_mul_of_nonneg_left (hc1 x hx0) (le_of_lt (div_pos hl ha))
      linarith
    have h3 : Real.exp ((lam - b) * x) = Real.exp (-(b * x)) * Real.exp (lam * x) := by
      rw [← Real.exp_add]
      congr 1
      ring
    rw [h3]
    calc Real.exp (-(a * x)) * |r| * Real.exp (lam * x + lam / a * Real.exp (-(a * x)))
        ≤ Real.exp (-(b * x)) * |r| * (Real.exp (lam * x) * Real.exp (lam / a)) := by gcongr
      _ = |r| * Real.exp (lam / a) * (Real.exp (-(b * x)) * Real.exp (lam * x)) := by ring
  have key := image_norm_le_of_norm_deriv_right_le_deriv_boundary (a := 0) (b := t)
    (f := fun x => e x * Real.exp (lam * x + lam / a * Real.exp (-(a * x))) - e 0 * Real.exp (lam / a))
    (fun x _ => (hF x).continuousAt.continuousWithinAt) (fun x _ => (hF x).hasDerivWithinAt)
    (B := fun x => |r| * Real.exp (lam / a) / (lam - b) * Real.exp ((lam - b) * x)) (B' := fun x => |r| * Real.exp (lam / a) * Real.exp ((lam - b) * x))
    (by simp; positivity) hB hbound (x := t) ⟨ht, le_refl t⟩
  simp only [Real.norm_eq_abs] at key
  have hg : Real.exp (lam * t) ≤ Real.exp (lam * t + lam / a * Real.exp (-(a * t))) := by
    apply Real.exp_le_exp.2
    have : 0 ≤ lam / a * Real.exp (-(a * t)) := by positivity
    linarith
  have h1 : |e t| * Real.exp (lam * t) ≤ |e 0| * Real.exp (lam / a) + |r| * Real.exp (lam / a) / (lam - b) * Real.exp ((lam - b) * t) := by
    have h2 : |e t * Real.exp (lam * t + lam / a * Real.exp (-(a * t)))| = |e t| * Real.exp (lam * t + lam / a * Real.exp (-(a * t))) := by
      rw [abs_mul, Real.abs_exp]
    have h3 : |e 0 * Real.exp (lam / a)| = |e 0| * Real.exp (lam / a) := by rw [abs_mul, Real.abs_exp]
    have h4 := abs_sub_abs_le_abs_sub (e t * Real.exp (lam * t + lam / a * Real.exp (-(a * t)))) (e 0 * Real.exp (lam / a))
    have h5 := mul_le_mul_of_nonneg_left hg (abs_nonneg (e t))
    rw [h2, h3] at h4
    linarith
  have h6 : |e t| = |e t| * Real.exp (lam * t) * Real.exp (-(lam * t)) := by
    rw [mul_assoc, ← Real.exp_add]
    simp
  have h7 : Real.exp (-(lam * t)) ≤ Real.exp (-(b * t)) := Real.exp_le_exp.2 (by nlinarith)
  have h8 : Real.exp ((lam - b) * t) * Real.exp (-(lam * t)) = Real.exp (-(b * t)) := by
    rw [← Real.exp_add]
    congr 1
    ring
  rw [h6]
  calc |e t| * Real.exp (lam * t) * Real.exp (-(lam * t))
      ≤ (|e 0| * Real.exp (lam / a) + |r| * Real.exp (lam / a) / (lam - b) * Real.exp ((lam - b) * t)) * Real.exp (-(lam * t)) := by gcongr
    _ = |e 0| * Real.exp (lam / a) * Real.exp (-(lam * t)) +
        |r| * Real.exp (lam / a) / (lam - b) * (Real.exp ((lam - b) * t) * Real.exp (-(lam * t))) := by ring
    _ ≤ |e 0| * Real.exp (lam / a) * Real.exp (-(b * t)) + |r| * Real.exp (lam / a) / (lam - b) * Real.exp (-(b * t)) := by
        rw [h8]; gcongr
    _ = Real.exp (lam / a) * (|e 0| + |r| / (lam - b)) * Real.exp (-(b * t)) := by ring

/-- **C100.** The same error tends to zero. -/
theorem C100_tends {lam a r : ℝ} (hl : 0 < lam) (ha : 0 < a) {e : ℝ → ℝ} (he : Follows lam a r e) : Tendsto e atTop (𝓝 0) := by
  have hb : 0 < min a (lam / 2) := lt_min ha (by linarith)
  have hbl : min a (lam / 2) < lam := (min_le_right _ _).trans_lt (by linarith)
  rw [tendsto_zero_iff_abs_tendsto_zero]
  refine squeeze_zero' (Eventually.of_forall fun t => abs_nonneg (e t))
    (Filter.eventually_atTop.2 ⟨0, fun t ht => C100_converges hl ha he hb (min_le_left _ _) hbl ht⟩) ?_
  have h1 : Tendsto (fun t : ℝ => min a (lam / 2) * t) atTop atTop := tendsto_id.const_mul_atTop hb
  have h2 := (Real.tendsto_exp_neg_atTop_nhds_zero.comp h1).const_mul (Real.exp (lam / a) * (|e 0| + |r| / (lam - min a (lam / 2))))
  simpa using h2

/-- An error that follows the desired velocity: with the initial velocity zero and a zero error, and with a rate of one and a gain of one,
a solution that is not zero. -/
theorem Follows_case : Follows 1 1 0 fun t => Real.exp (-t - Real.exp (-t)) := by
  intro t
  have h1 : HasDerivAt (fun x : ℝ => Real.exp (-x)) (-Real.exp (-t)) t := by
    have := (hasDerivAt_id t).neg.exp
    refine this.congr_deriv ?_
    simp
  have := ((hasDerivAt_id t).neg.sub h1).exp
  refine this.congr_deriv ?_
  simp
  ring

end Verif.TaskConti
