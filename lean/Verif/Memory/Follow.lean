import Verif.Memory.Props
import Verif.Causal.Stability

/-!
# C160: the exponential moving average and its input over many samples

`ExpMovingAvg` (src/tools/exp-moving-avg.cpp:61-79) with a weight set once, from its first input on.
-/

set_option autoImplicit false

namespace Verif.Memory

open Finset _root_.Filter Topology

section
variable {F : Type} [Field F] [DecidableEq F]

/-- The average after `N + 1` inputs of a sequence, by components. -/
theorem average_seq (α : F) (n : Nat) (u : Nat → List F) (hu : ∀ k, (u k).length = n) (N : Nat) :
    ∃ e, Ema.run Ema.new (.setAlpha α :: ((List.range (N + 1)).map u).map .update) = .ok e ∧ e.average.length = n ∧
      ∀ i, i < n → e.average[i]? = some (weightedSum α ((List.range (N + 1)).map fun k => (u k).getD i 0)) := by
  obtain ⟨e, h1, h2, h3⟩ := C33_average_is_weighted_sum α n ((List.range (N + 1)).map u)
    (by intro v hv; obtain ⟨k, -, rfl⟩ := List.mem_map.mp hv; exact hu k) (by simp)
  refine ⟨e, h1, h2, fun i hi => ?_⟩
  rw [h3 i hi, List.map_map]
  rfl

theorem weightedSum_range (α : F) (x : Nat → F) (N : Nat) :
    weightedSum α ((List.range (N + 1)).map x) = α * weightedSum α ((List.range N).map x) + (1 - α) * x N := by
  rw [List.range_succ, List.map_append, List.map_singleton, weightedSum_snoc]

theorem weightedSum_nil (α : F) : weightedSum α [] = 0 := rfl

/-- C160. When the same input comes again and again, the average after `N + 1` inputs misses it by the power `N + 1` of the weight, times the input:
exactly, whatever the weight. -/
theorem C160_constant (α : F) (u : List F) (N : Nat) :
    ∃ e, Ema.run Ema.new (.setAlpha α :: (List.replicate (N + 1) u).map .update) = .ok e ∧
      e.average = u.map fun x => x - α ^ (N + 1) * x := by
  have hrep : List.replicate (N + 1) u = (List.range (N + 1)).map fun _ => u := by
    rw [List.map_const', List.length_range]
  have hw : ∀ (x : F) (M : Nat), weightedSum α ((List.range M).map fun _ => x) = x - α ^ M * x := by
    intro x M
    induction M with
    | zero => simp [weightedSum_nil]
    | succ M ih => rw [weightedSum_range, ih, pow_succ]; ring
  obtain ⟨e, h1, h2, h3⟩ := average_seq α u.length (fun _ => u) (fun _ => rfl) N
  refine ⟨e, by rw [hrep]; exact h1, ?_⟩
  apply List.ext_getElem?
  intro i
  by_cases hi : i < u.length
  · rw [h3 i hi, hw, List.getElem?_map, List.getElem?_eq_getElem hi, List.getD_eq_getElem?_getD, List.getElem?_eq_getElem hi]
    rfl
  · rw [List.getElem?_eq_none (by omega), List.getElem?_eq_none (by simp; omega)]

/-- C160. When the input grows by the same step each time, from zero, the average after `N + 1` inputs: it lags behind the latest input, `N` steps, by
nearly the weight over one minus the weight, in steps, whatever the weight but one. -/
theorem C160_ramp (α : F) (hα : α ≠ 1) (v : List F) (N : Nat) :
    ∃ e, Ema.run Ema.new (.setAlpha α :: ((List.range (N + 1)).map fun k : Nat => v.map fun x => (k : F) * x).map .update) = .ok e ∧
      e.average = v.map fun x => ((N : F) - (α - α ^ (N + 1)) / (1 - α)) * x := by
  have h1α : (1 : F) - α ≠ 0 := sub_ne_zero.mpr (Ne.symm hα)
  have hw : ∀ (x : F) (M : Nat), weightedSum α ((List.range M).map fun k : Nat => (k : F) * x) = ((M : F) - (1 - α ^ M) / (1 - α)) * x := by
    intro x M
    induction M with
    | zero => simp [weightedSum_nil]
    | succ M ih =>
      rw [weightedSum_range, ih, pow_succ]
      push_cast
      field_simp
      ring
  obtain ⟨e, h1, h2, h3⟩ := average_seq α v.length (fun k => v.map fun x => (k : F) * x) (fun _ => by simp) N
  refine ⟨e, h1, ?_⟩
  apply List.ext_getElem?
  intro i
  by_cases hi : i < v.length
  · have hx : (fun k : Nat => (v.map fun x => (k : F) * x).getD i 0) = fun k : Nat => (k : F) * v[i] := by
      funext k
      rw [List.getD_eq_getElem?_getD, List.getElem?_map, List.getElem?_eq_getElem hi]
      rfl
    rw [h3 i hi, hx, hw, List.getElem?_map, List.getElem?_eq_getElem hi]
    simp only [Option.map_some, Option.some.injEq]
    congr 1
    push_cast
    field_simp
    ring
  · rw [List.getElem?_eq_none (by omega), List.getElem?_eq_none (by simp; omega)]

end

/-- C160. With a weight below one in absolute value, when a component of the inputs converges the same component of the average converges to the same
limit. The sequence is infinite: each history gives one of its values. -/
theorem C160_converges (α : ℝ) (hα : |α| < 1) (n : Nat) (u : Nat → List ℝ) (hu : ∀ k, (u k).length = n) :
    ∃ y : Nat → List ℝ, (∀ N, ∃ e, Ema.run Ema.new (.setAlpha α :: ((List.range (N + 1)).map u).map .update) = .ok e ∧ e.average = y N) ∧
      ∀ i, i < n → ∀ c, Tendsto (fun k => (u k).getD i 0) atTop (𝓝 c) → Tendsto (fun k => (y k).getD i 0) atTop (𝓝 c) := by
  choose e h1 h2 h3 using average_seq α n u hu
  refine ⟨fun N => (e N).average, fun N => ⟨e N, h1 N, rfl⟩, fun i hi c hc => ?_⟩
  have hy : ∀ N, ((e N).average).getD i 0 = weightedSum α ((List.range (N + 1)).map fun k => (u k).getD i 0) := by
    intro N
    rw [List.getD_eq_getElem?_getD, h3 N i hi]
    rfl
  simp only [hy]
  set x := fun k => (u k).getD i 0 with hx
  set w := fun M => weightedSum α ((List.range M).map x) with hw
  have hrec : ∀ M, w (M + 1) - c = α * (w M - c) + (1 - α) * (x M - c) := by
    intro M
    rw [hw]
    simp only [weightedSum_range]
    ring
  have hδ : Tendsto (fun k => |1 - α| * |x k - c|) atTop (𝓝 0) := by
    have := ((hc.sub_const c).abs).const_mul |1 - α|
    simpa using this
  obtain ⟨D, hD⟩ := (Metric.isBounded_range_of_tendsto _ hδ).exists_norm_le
  have hD' : ∀ k, |1 - α| * |x k - c| ≤ D := fun k => (le_abs_self _).trans (hD _ ⟨k, rfl⟩)
  have hstep : ∀ M, |w (M + 1) - c| ≤ |α| * |w M - c| + |1 - α| * |x M - c| := by
    intro M
    rw [hrec, ← abs_mul, ← abs_mul]
    exact abs_add_le _ _
  have hpos : 0 < 1 - |α| := by linarith
  have hbound : ∀ M, |w M - c| ≤ max |w 0 - c| (D / (1 - |α|)) := by
    intro M
    induction M with
    | zero => exact le_max_left _ _
    | succ M ih =>
      refine (hstep M).trans ?_
      have h5 := mul_le_mul_of_nonneg_left ih (abs_nonneg α)
      have h6 : D ≤ (1 - |α|) * max |w 0 - c| (D / (1 - |α|)) := by
        have := mul_le_mul_of_nonneg_left (le_max_right |w 0 - c| (D / (1 - |α|))) hpos.le
        rwa [mul_div_cancel₀ _ hpos.ne'] at this
      have h7 := hD' M
      linarith
  have hlim : Tendsto (fun M => |w M - c|) atTop (𝓝 0) := by
    refine Causal.window_tendsto 1 (fun _ => |α|) (fun _ => abs_nonneg α) (by simpa using hα) _ (fun k => |1 - α| * |x (k - 1) - c|)
      (fun _ => abs_nonneg _) _ hbound (hδ.comp (tendsto_sub_atTop_nat 1)) ?_
    filter_upwards [eventually_ge_atTop 1] with k hk
    obtain ⟨M, rfl⟩ : ∃ M, k = M + 1 := ⟨k - 1, by omega⟩
    simpa using hstep M
  have hwc : Tendsto w atTop (𝓝 c) := tendsto_iff_norm_sub_tendsto_zero.mpr hlim
  exact (tendsto_add_atTop_iff_nat 1).mpr hwc

/-- C160. With a weight of absolute value at least one, which the command accepts, the average of an input that does not change never comes nearer to
it than zero is. -/
theorem C160_weight_counterexample (α : ℝ) (hα : 1 ≤ |α|) (x : ℝ) (N : Nat) :
    ∃ e y, Ema.run Ema.new (.setAlpha α :: (List.replicate (N + 1) [x]).map .update) = .ok e ∧ e.average = [y] ∧ |x| ≤ |y - x| := by
  obtain ⟨e, h1, h2⟩ := C160_constant α [x] N
  refine ⟨e, x - α ^ (N + 1) * x, h1, h2, ?_⟩
  rw [show x - α ^ (N + 1) * x - x = -(α ^ (N + 1) * x) by ring, abs_neg, abs_mul, abs_pow]
  exact le_mul_of_one_le_left (abs_nonneg x) (one_le_pow₀ hα)

/-- C160. A weight of one half: inputs 8, 8, 8 give 7, and inputs 0, 4, 8 give 5. -/
theorem C160_case : |(1 / 2 : ℝ)| < 1 ∧ (1 / 2 : ℚ) ≠ 1 ∧ (8 : ℚ) - (1 / 2) ^ 3 * 8 = 7 ∧
    (((2 : ℕ) : ℚ) - (1 / 2 - (1 / 2) ^ 3) / (1 - 1 / 2)) * 4 = 5 ∧ weightedSum (1 / 2 : ℚ) [8, 8, 8] = 7 ∧ weightedSum (1 / 2 : ℚ) [0, 4, 8] = 5 := by
  refine ⟨by rw [abs_of_pos] <;> norm_num, by norm_num, by norm_num, by norm_num, ?_, ?_⟩ <;> norm_num [weightedSum, List.zipIdx]

end Verif.Memory
