import Mathlib.Analysis.SpecificLimits.Normed
import Mathlib.Analysis.SpecialFunctions.Pow.Real

/-!
# Linear recurrences of the second order

`x (k + 2) = a * x (k + 1) + b * x k`: when the sequences tend to zero, and when they are not bounded.
-/

namespace Verif.Loop

open Filter Topology

/-- With two numbers whose sum is `a` and whose product is `-b`, the terms of the sequence. -/
theorem second_split {K : Type*} [Field K] {x : Nat → K} {a b u v : K} (hx : ∀ k, x (k + 2) = a * x (k + 1) + b * x k) (hs : u + v = a)
    (hp : u * v = -b) (k : Nat) : x (k + 1) - u * x k = v ^ k * (x 1 - u * x 0) := by
  induction k with
  | zero => simp
  | succ k ih =>
    rw [hx, pow_succ, mul_assoc, mul_comm v, ← mul_assoc, ← ih, ← hs]
    have : b = -(u * v) := by rw [hp, neg_neg]
    rw [this]
    ring

/-- A sequence with `x (k + 1) = u * x k + y k`, where `|u| < 1` and `y` is at most a geometric sequence that tends to zero. -/
theorem first_tendsto {x y : Nat → ℂ} {u : ℂ} {r : ℝ} (hu : ‖u‖ ≤ r) (hr : r < 1) {C : ℝ} (hy : ∀ k, ‖y k‖ ≤ C * r ^ k)
    (hx : ∀ k, x (k + 1) = u * x k + y k) : Tendsto (fun k => ‖x k‖) atTop (𝓝 0) := by
  have h0 : 0 ≤ r := le_trans (norm_nonneg _) hu
  -- a little room
  obtain ⟨ρ, h1, h2⟩ := exists_between hr
  have hρ : 0 < ρ := lt_of_le_of_lt h0 h1
  have key : ∀ k, ‖x k‖ ≤ (‖x 0‖ + |C| / (ρ - r)) * ρ ^ k := by
    intro k
    have hD : 0 ≤ |C| / (ρ - r) := div_nonneg (abs_nonneg _) (by linarith)
    have : ‖x k‖ ≤ ‖x 0‖ * ρ ^ k + |C| / (ρ - r) * (ρ ^ k - r ^ k) := by
      induction k with
      | zero => simp
      | succ k ih =>
        have hxk : ‖x (k + 1)‖ ≤ r * ‖x k‖ + |C| * r ^ k := by
          rw [hx]
          calc ‖u * x k + y k‖ ≤ ‖u * x k‖ + ‖y k‖ := norm_add_le _ _
            _ = ‖u‖ * ‖x k‖ + ‖y k‖ := by rw [norm_mul]
            _ ≤ r * ‖x k‖ + C * r ^ k := add_le_add (mul_le_mul_of_nonneg_right hu (norm_nonneg _)) (hy k)
            _ ≤ r * ‖x k‖ + |C| * r ^ k := by
                have := mul_le_mul_of_nonneg_right (le_abs_self C) (pow_nonneg h0 k)
                linarith
        have hrr : r * ‖x k‖ ≤ r * (‖x 0‖ * ρ ^ k + |C| / (ρ - r) * (ρ ^ k - r ^ k)) := mul_le_mul_of_nonneg_left ih h0
        have e1 : |C| * r ^ k = |C| / (ρ - r) * ((ρ - r) * r ^ k) := by
          have : ρ - r ≠ 0 := by linarith
          field_simp
        have hle : r ^ k ≤ ρ ^ k := pow_le_pow_left₀ h0 h1.le k
        have e2 : 0 ≤ ‖x 0‖ * ((ρ - r) * ρ ^ k) := mul_nonneg (norm_nonneg _) (mul_nonneg (by linarith) (pow_nonneg hρ.le k))
        have e3 : 0 ≤ |C| / (ρ - r) * ((ρ - r) * (ρ ^ k - r ^ k)) := mul_nonneg hD (mul_nonneg (by linarith) (by linarith))
        rw [pow_succ, pow_succ]
        nlinarith
    have hle : ρ ^ k - r ^ k ≤ ρ ^ k := by have := pow_nonneg h0 k; linarith
    calc _ ≤ _ := this
      _ ≤ ‖x 0‖ * ρ ^ k + |C| / (ρ - r) * ρ ^ k := by
          have := mul_le_mul_of_nonneg_left hle hD
          linarith
      _ = _ := by ring
  have hlim : Tendsto (fun k : Nat => (‖x 0‖ + |C| / (ρ - r)) * ρ ^ k) atTop (𝓝 ((‖x 0‖ + |C| / (ρ - r)) * 0)) :=
    (tendsto_pow_atTop_nhds_zero_of_lt_one hρ.le h2).const_mul _
  rw [mul_zero] at hlim
  exact squeeze_zero (fun _ => norm_nonneg _) key hlim

/-- Two complex numbers with the given sum and product. -/
theorem exists_roots (a b : ℝ) : ∃ u v : ℂ, u + v = a ∧ u * v = -b := by
  obtain ⟨w, hw⟩ : ∃ w : ℂ, w ^ 2 = (a : ℂ) ^ 2 + 4 * b := by
    rcases le_total 0 (a ^ 2 + 4 * b) with h | h
    · refine ⟨(Real.sqrt (a ^ 2 + 4 * b) : ℝ), ?_⟩
      rw [← Complex.ofReal_pow, Real.sq_sqrt h]; push_cast; ring
    · refine ⟨Complex.I * (Real.sqrt (-(a ^ 2 + 4 * b)) : ℝ), ?_⟩
      rw [mul_pow, Complex.I_sq, ← Complex.ofReal_pow, Real.sq_sqrt (by linarith)]; push_cast; ring
  refine ⟨(a + w) / 2, (a - w) / 2, by ring, ?_⟩
  have : (a + w) / 2 * ((a - w) / 2) = ((a : ℂ) ^ 2 - w ^ 2) / 4 := by ring
  rw [this, hw]; ring

/-- Both have a modulus below one exactly in the triangle. -/
theorem roots_small {a b : ℝ} {u v : ℂ} (hs : u + v = a) (hp : u * v = -b) (h1 : |b| < 1) (h2 : |a| < 1 - b) : ‖u‖ < 1 := by
  have hre := congrArg Complex.re hs
  have him := congrArg Complex.im hs
  have pre := congrArg Complex.re hp
  have pim := congrArg Complex.im hp
  simp only [Complex.add_re, Complex.add_im, Complex.mul_re, Complex.mul_im, Complex.ofReal_re, Complex.ofReal_im, Complex.neg_re,
    Complex.neg_im, neg_zero] at hre him pre pim
  obtain ⟨b1, b2⟩ := abs_lt.mp h1
  obtain ⟨a1, a2⟩ := abs_lt.mp h2
  have hv : v.im = -u.im := by linarith
  rw [hv] at pre pim
  have hsq : ‖u‖ ^ 2 < 1 := by
    rw [← Complex.normSq_eq_norm_sq, Complex.normSq_apply]
    by_cases hi : u.im = 0
    · -- real numbers
      rw [hi] at pre ⊢
      have hv' : v.re = a - u.re := by linarith
      rw [hv'] at pre
      have q : u.re * u.re = a * u.re + b := by nlinarith
      have f1 : u.re < 1 := by
        by_contra h
        push Not at h
        -- the other one is at most b in modulus
        rcases le_or_gt 1 (a - u.re) with h' | h' <;> nlinarith
      have f2 : -1 < u.re := by
        by_contra h
        push Not at h
        rcases le_or_gt (a - u.re) (-1) with h' | h' <;> nlinarith
      nlinarith
    · have hv' : v.re = u.re := by
        have : u.im * (v.re - u.re) = 0 := by nlinarith
        rcases mul_eq_zero.mp this with h | h
        · exact absurd h hi
        · linarith
      rw [hv'] at pre
      nlinarith
  nlinarith [norm_nonneg u]

/-- In the triangle the sequences tend to zero. -/
theorem second_tendsto {x : Nat → ℝ} {a b : ℝ} (hx : ∀ k, x (k + 2) = a * x (k + 1) + b * x k) (h1 : |b| < 1) (h2 : |a| < 1 - b) :
    Tendsto x atTop (𝓝 0) := by
  obtain ⟨u, v, hs, hp⟩ := exists_roots a b
  have hu := roots_small hs hp h1 h2
  have hv := roots_small (u := v) (v := u) (by rw [add_comm]; exact hs) (by rw [mul_comm]; exact hp) h1 h2
  have hc : ∀ k, ((x (k + 2) : ℝ) : ℂ) = a * (x (k + 1) : ℝ) + b * (x k : ℝ) := fun k => by rw [hx]; push_cast; ring
  have hsplit := second_split (x := fun k => ((x k : ℝ) : ℂ)) hc hs hp
  have hlim := first_tendsto (x := fun k => ((x k : ℝ) : ℂ)) (y := fun k => v ^ k * ((x 1 : ℝ) - u * (x 0 : ℝ))) (u := u) (r := max ‖u‖ ‖v‖)
    (le_max_left _ _) (max_lt hu hv) (C := ‖((x 1 : ℝ) : ℂ) - u * (x 0 : ℝ)‖) (fun k => by
      rw [norm_mul, norm_pow, mul_comm]
      exact mul_le_mul_of_nonneg_left (pow_le_pow_left₀ (norm_nonneg _) (le_max_right _ _) k) (norm_nonneg _))
    (fun k => by rw [← hsplit k]; ring)
  rw [tendsto_zero_iff_norm_tendsto_zero]
  refine hlim.congr fun k => ?_
  rw [Complex.norm_real]

/-- Beyond the edge where a root is below minus one, a sequence that starts from rest (`x 1 = a * x 0 + b * x 0`) away from zero makes
larger and larger moves. -/
theorem second_unbounded {x : Nat → ℝ} {a b : ℝ} (hx : ∀ k, x (k + 2) = a * x (k + 1) + b * x k) (hst : x 1 = a * x 0 + b * x 0)
    (h0 : x 0 ≠ 0) (hne : a + b ≠ 1) (h : a < -1 + b) (M : ℝ) : ∃ k, M < |x (k + 1) - x k| := by
  -- the discriminant is positive
  have hdisc : 0 < a ^ 2 + 4 * b := by
    rcases le_or_gt 0 b with hb | hb
    · rcases lt_or_ge b 1 with h1 | h1 <;> nlinarith
    · nlinarith [sq_nonneg (1 + b), mul_pos (show 0 < -a - (1 - b) by linarith) (show 0 < -a + (1 - b) by linarith)]
  set w := Real.sqrt (a ^ 2 + 4 * b) with hw
  have hw2 : w ^ 2 = a ^ 2 + 4 * b := Real.sq_sqrt hdisc.le
  have hwp : 0 < w := Real.sqrt_pos.mpr hdisc
  set v := (a - w) / 2 with hv
  set u := (a + w) / 2 with hu
  have hs : u + v = a := by rw [hu, hv]; ring
  have hp : u * v = -b := by rw [hu, hv]; nlinarith
  have hv1 : v < -1 := by
    by_contra hc
    push Not at hc
    have : w ≤ a + 2 := by rw [hv] at hc; linarith
    have h2 : 0 ≤ a + 2 := by linarith
    nlinarith
  have hu1 : u ≠ 1 := by
    intro hu1
    rw [hu1] at hs hp
    apply hne
    linarith
  have hsplit := second_split hx hs hp
  have hy0 : x 1 - u * x 0 = (a + b - u) * x 0 := by rw [hst]; ring
  have hval : a + b - u = v * (1 - u) := by
    have : b = -(u * v) := by rw [hp, neg_neg]
    rw [this, ← hs]; ring
  have hyne : x 1 - u * x 0 ≠ 0 := by
    rw [hy0, hval]
    exact mul_ne_zero (mul_ne_zero (by linarith) (sub_ne_zero.mpr hu1.symm)) h0
  by_contra hcon
  push Not at hcon
  have hM : 0 ≤ M := le_trans (abs_nonneg _) (hcon 0)
  have hbd : ∀ k, |v| ^ k * (|v - 1| * |x 1 - u * x 0|) ≤ M + |u| * M := by
    intro k
    have e : (x (k + 2) - x (k + 1)) - u * (x (k + 1) - x k) = v ^ k * ((v - 1) * (x 1 - u * x 0)) := by
      have e1 := hsplit (k + 1)
      have e2 := hsplit k
      have : (x (k + 2) - x (k + 1)) - u * (x (k + 1) - x k) = (x (k + 1 + 1) - u * x (k + 1)) - (x (k + 1) - u * x k) := by ring
      rw [this, e1, e2, pow_succ]; ring
    calc |v| ^ k * (|v - 1| * |x 1 - u * x 0|) = |v ^ k * ((v - 1) * (x 1 - u * x 0))| := by rw [abs_mul, abs_pow, abs_mul]
      _ = |(x (k + 2) - x (k + 1)) - u * (x (k + 1) - x k)| := by rw [e]
      _ ≤ |x (k + 2) - x (k + 1)| + |u * (x (k + 1) - x k)| := abs_sub _ _
      _ ≤ M + |u| * M := by
          rw [abs_mul]
          exact add_le_add (hcon (k + 1)) (mul_le_mul_of_nonneg_left (hcon k) (abs_nonneg _))
  have hpos : 0 < |v - 1| * |x 1 - u * x 0| := mul_pos (abs_pos.mpr (by linarith)) (abs_pos.mpr hyne)
  obtain ⟨k, hk⟩ := pow_unbounded_of_one_lt ((M + |u| * M) / (|v - 1| * |x 1 - u * x 0|)) (show 1 < |v| by
    rw [abs_of_neg (by linarith)]; linarith)
  have := (div_lt_iff₀ hpos).mp hk
  exact absurd (hbd k) (not_le.mpr this)

end Verif.Loop
