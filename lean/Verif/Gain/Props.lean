import Verif.Gain.Model
import Mathlib.Analysis.SpecialFunctions.ExpDeriv
import Mathlib.Order.Filter.AtTopBot.Field
import Mathlib.Tactic.Linarith
import Mathlib.Tactic.FieldSimp
import Mathlib.Tactic.Positivity

/-!
# Properties of the gains (C19, C20)

The specification is made of the value at zero, the value at infinity and the slope given by the user;
an error matters only by its Euclidean norm.
-/

namespace Verif.Gain

open Filter Topology

theorem norm_nonneg (e : List ℝ) : 0 ≤ norm e := Real.sqrt_nonneg _

theorem norm_singleton (x : ℝ) : norm [x] = |x| := by
  simp [norm, Real.sqrt_mul_self_eq_abs]

/-- The norm is null exactly for the null vectors. -/
theorem norm_eq_zero (e : List ℝ) : norm e = 0 ↔ ∀ x ∈ e, x = 0 := by
  unfold norm
  have hs : ∀ l : List ℝ, 0 ≤ (l.map fun x => x * x).sum := by
    intro l
    induction l with
    | nil => simp
    | cons a l ih => simp only [List.map_cons, List.sum_cons]; nlinarith [mul_self_nonneg a]
  rw [Real.sqrt_eq_zero (hs e)]
  induction e with
  | nil => simp
  | cons a e ih =>
    simp only [List.map_cons, List.sum_cons, List.forall_mem_cons]
    constructor
    · intro h
      have h1 := hs e
      have h2 := mul_self_nonneg a
      exact ⟨mul_self_eq_zero.mp (by linarith), ih.mp (by linarith)⟩
    · rintro ⟨rfl, h⟩
      have := ih.mpr h
      linarith

namespace Adaptive

/-! ## C19 -/

/-- C19. For a null error the gain is the value at zero. -/
theorem C19_value_at_zero (v0 vinf tan : ℝ) (e : List ℝ) (he : ∀ x ∈ e, x = 0) :
    gain (init v0 vinf tan) e = v0 := by
  simp [gain, adaptiveValue, init, (norm_eq_zero e).mpr he]

example : ∀ x ∈ [(0 : ℝ), 0], x = 0 := by simp

theorem b_nonneg (v0 vinf tan : ℝ) (h : 0 ≤ tan * (v0 - vinf)) : 0 ≤ (init v0 vinf tan).b := by
  simp only [init]
  split
  · exact le_refl 0
  · rename_i hne
    have hne' : v0 - vinf ≠ 0 := fun h => hne h.symm
    rw [div_eq_mul_inv]
    rcases lt_or_gt_of_ne hne' with hn | hp
    · have : tan ≤ 0 := by
        by_contra hc
        push Not at hc
        nlinarith
      exact mul_nonneg_of_nonpos_of_nonpos this (inv_nonpos.mpr hn.le)
    · have : 0 ≤ tan := by
        by_contra hc
        push Not at hc
        nlinarith
      exact mul_nonneg this (inv_nonneg.mpr hp.le)

theorem gain_init (v0 vinf tan : ℝ) (e : List ℝ) :
    gain (init v0 vinf tan) e =
      (v0 - vinf) * Real.exp (-(init v0 vinf tan).b * norm e) + vinf := rfl

theorem weight (b : ℝ) (hb : 0 ≤ b) (e : List ℝ) :
    0 < Real.exp (-b * norm e) ∧ Real.exp (-b * norm e) ≤ 1 := by
  refine ⟨Real.exp_pos _, ?_⟩
  rw [Real.exp_le_one_iff]
  nlinarith [norm_nonneg e]

/-- C19. When the slope has the sign of `v0 - vinf` (in particular for a slope that is not negative and a
value at zero at least the value at infinity), the gain of every error is between the value at
infinity and the value at zero. -/
theorem C19_between (v0 vinf tan : ℝ) (h : 0 ≤ tan * (v0 - vinf)) (e : List ℝ) :
    min v0 vinf ≤ gain (init v0 vinf tan) e ∧ gain (init v0 vinf tan) e ≤ max v0 vinf := by
  obtain ⟨h1, h2⟩ := weight _ (b_nonneg v0 vinf tan h) e
  rw [gain_init]
  set w := Real.exp (-(init v0 vinf tan).b * norm e)
  rcases le_total v0 vinf with hle | hle
  · rw [min_eq_left hle, max_eq_right hle]
    constructor <;> nlinarith
  · rw [min_eq_right hle, max_eq_left hle]
    constructor <;> nlinarith

example : (0 : ℝ) ≤ 3 * (4 - 1) := by norm_num

/-- C19. With a value at zero at least the value at infinity and a slope that is not negative, a larger
error never has a larger gain. -/
theorem C19_antitone (v0 vinf tan : ℝ) (hv : vinf ≤ v0) (ht : 0 ≤ tan) (e e' : List ℝ)
    (he : norm e ≤ norm e') : gain (init v0 vinf tan) e' ≤ gain (init v0 vinf tan) e := by
  have hb := b_nonneg v0 vinf tan (mul_nonneg ht (by linarith))
  rw [gain_init, gain_init]
  have : Real.exp (-(init v0 vinf tan).b * norm e') ≤ Real.exp (-(init v0 vinf tan).b * norm e) := by
    rw [Real.exp_le_exp]; nlinarith
  nlinarith

example : (1 : ℝ) ≤ 4 ∧ (0 : ℝ) ≤ 3 ∧ norm [1] ≤ norm [-2] := by
  rw [norm_singleton, norm_singleton]; norm_num

/-- C19. When the slope has strictly the sign of `v0 - vinf`, the gain tends to the value at infinity as
the norm of the error grows. -/
theorem C19_limit (v0 vinf tan : ℝ) (h : 0 < tan * (v0 - vinf)) (err : ℕ → List ℝ)
    (herr : Tendsto (fun k => norm (err k)) atTop atTop) :
    Tendsto (fun k => gain (init v0 vinf tan) (err k)) atTop (𝓝 vinf) := by
  have hne : v0 - vinf ≠ 0 := by rintro h0; rw [h0] at h; simp at h
  have hb : 0 < (init v0 vinf tan).b := by
    refine lt_of_le_of_ne (b_nonneg _ _ _ h.le) ?_
    intro h0
    have htan : tan ≠ 0 := by rintro h0; rw [h0] at h; simp at h
    have : (init v0 vinf tan).b = tan / (v0 - vinf) := by
      simp only [init]; rw [if_neg (fun h => hne h.symm)]
    rw [this] at h0
    exact (div_ne_zero htan hne) h0.symm
  have h1 : Tendsto (fun k => -(init v0 vinf tan).b * norm (err k)) atTop atBot :=
    Tendsto.const_mul_atTop_of_neg (by linarith) herr
  have h2 := (Real.tendsto_exp_atBot.comp h1).const_mul (v0 - vinf)
  have h3 := h2.add_const vinf
  simpa [gain_init, Function.comp] using h3

example : Tendsto (fun k : ℕ => norm [(k : ℝ)]) atTop atTop := by
  simp only [norm_singleton, Nat.abs_cast]
  exact tendsto_natCast_atTop_atTop

/-- C19. The slope at zero of the gain, as a function of the size of a one-dimensional error, is the
opposite of the slope given by the user. -/
theorem C19_slope (v0 vinf tan : ℝ) (hne : v0 ≠ vinf) :
    HasDerivWithinAt (fun x : ℝ => gain (init v0 vinf tan) [x]) (-tan) (Set.Ici 0) 0 := by
  have hb : (init v0 vinf tan).b = tan / (v0 - vinf) := by
    simp only [init]; rw [if_neg (fun h => hne (by linarith))]
  have h0 : v0 - vinf ≠ 0 := sub_ne_zero.mpr hne
  have h1 : HasDerivAt (fun x : ℝ => (v0 - vinf) * Real.exp (-(tan / (v0 - vinf)) * x) + vinf)
      ((v0 - vinf) * (Real.exp (-(tan / (v0 - vinf)) * 0) * (-(tan / (v0 - vinf)) * 1))) 0 :=
    ((((hasDerivAt_id (0 : ℝ)).const_mul (-(tan / (v0 - vinf)))).exp).const_mul (v0 - vinf)).add_const vinf
  have h2 : (v0 - vinf) * (Real.exp (-(tan / (v0 - vinf)) * 0) * (-(tan / (v0 - vinf)) * 1)) = -tan := by
    simp; field_simp
  rw [h2] at h1
  refine h1.hasDerivWithinAt.congr ?_ ?_
  · intro x hx
    rw [gain_init, hb, norm_singleton, abs_of_nonneg hx]
  · rw [gain_init, hb, norm_singleton]; simp

/-- C19. With a slope of the wrong sign the gain is not bounded by the two values, it is unbounded. -/
theorem C19_wrong_slope_unbounded (v0 vinf tan : ℝ) (h : tan * (v0 - vinf) < 0) (M : ℝ) :
    ∃ e, M < |gain (init v0 vinf tan) e| := by
  have hne : v0 - vinf ≠ 0 := by rintro h0; rw [h0] at h; simp at h
  have hb : (init v0 vinf tan).b = tan / (v0 - vinf) := by
    simp only [init]; rw [if_neg (fun h => hne h.symm)]
  set b := tan / (v0 - vinf) with hbdef
  have hbneg : b < 0 := by
    have : b = tan * (v0 - vinf) / (v0 - vinf) ^ 2 := by rw [hbdef]; field_simp
    rw [this]
    exact div_neg_of_neg_of_pos h (by positivity)
  have hapos : 0 < |v0 - vinf| := abs_pos.mpr hne
  set x := (|M| + |vinf| + 1) / (|v0 - vinf| * (-b)) with hx
  have hden : 0 < |v0 - vinf| * (-b) := mul_pos hapos (by linarith)
  have hx0 : 0 ≤ x := by rw [hx]; positivity
  refine ⟨[x], ?_⟩
  rw [gain_init, hb, norm_singleton, abs_of_nonneg hx0]
  have h1 : -b * x + 1 ≤ Real.exp (-b * x) := Real.add_one_le_exp _
  have h2 : |v0 - vinf| * (-b * x) = |M| + |vinf| + 1 := by
    have : |v0 - vinf| * (-b * x) = (|v0 - vinf| * (-b)) * x := by ring
    rw [this, hx, mul_div_cancel₀]
    exact hden.ne'
  have h3 : |M| + |vinf| + 1 ≤ |v0 - vinf| * Real.exp (-b * x) := by nlinarith
  have h4 : |(v0 - vinf) * Real.exp (-b * x)| = |v0 - vinf| * Real.exp (-b * x) := by
    rw [abs_mul, abs_of_pos (Real.exp_pos _)]
  have h5 : |(v0 - vinf) * Real.exp (-b * x)| - |vinf| ≤
      |(v0 - vinf) * Real.exp (-b * x) + vinf| := by
    have := abs_sub_abs_le_abs_sub ((v0 - vinf) * Real.exp (-b * x)) (-vinf)
    rw [abs_neg, sub_neg_eq_add] at this
    exact this
  have h6 := le_abs_self M
  linarith

example : (1 : ℝ) * (1 - 4) < 0 := by norm_num

/-- C19. A gain set by a passing point takes, for an error of norm `xref`, the value at infinity plus the
fraction `p` of the way to the value at zero. -/
theorem C19_passing_point (v0 vinf xref p : ℝ) (hx : xref ≠ 0) (hp : 0 < p) (e : List ℝ)
    (he : norm e = xref) :
    gain (initFromPassingPoint v0 vinf xref p) e = vinf + p * (v0 - vinf) := by
  simp only [gain, adaptiveValue, initFromPassingPoint, he]
  by_cases h : 0 = v0 - vinf
  · rw [← h]; simp
  · rw [if_neg h]
    have : -(-1 / xref * Real.log p) * xref = Real.log p := by field_simp
    rw [this, Real.exp_log hp]; ring

example : norm [(3 : ℝ), 4] = 5 := by
  simp only [norm, List.map_cons, List.map_nil, List.sum_cons, List.sum_nil]
  rw [show (3 * 3 + (4 * 4 + 0) : ℝ) = 5 * 5 by norm_num]
  exact Real.sqrt_mul_self (by norm_num)

/-- C19. A gain set by a passing point with `0 < xref` and `0 < p ≤ 1` has the value at zero for a null
error and stays between the two values. -/
theorem C19_passing_point_between (v0 vinf xref p : ℝ) (hx : 0 < xref) (hp : 0 < p) (hp1 : p ≤ 1)
    (e : List ℝ) :
    min v0 vinf ≤ gain (initFromPassingPoint v0 vinf xref p) e ∧
      gain (initFromPassingPoint v0 vinf xref p) e ≤ max v0 vinf ∧
      ((∀ x ∈ e, x = 0) → gain (initFromPassingPoint v0 vinf xref p) e = v0) := by
  have hb : 0 ≤ (initFromPassingPoint v0 vinf xref p).b := by
    simp only [initFromPassingPoint]
    split
    · exact le_refl 0
    · have : Real.log p ≤ 0 := Real.log_nonpos hp.le hp1
      have h2 : -1 / xref ≤ 0 := div_nonpos_of_nonpos_of_nonneg (by norm_num) hx.le
      exact mul_nonneg_of_nonpos_of_nonpos h2 this
  obtain ⟨h1, h2⟩ := weight _ hb e
  have hg : gain (initFromPassingPoint v0 vinf xref p) e =
      (v0 - vinf) * Real.exp (-(initFromPassingPoint v0 vinf xref p).b * norm e) + vinf := rfl
  refine ⟨?_, ?_, ?_⟩
  · rw [hg]
    set w := Real.exp (-(initFromPassingPoint v0 vinf xref p).b * norm e)
    rcases le_total v0 vinf with hle | hle
    · rw [min_eq_left hle]; nlinarith
    · rw [min_eq_right hle]; nlinarith
  · rw [hg]
    set w := Real.exp (-(initFromPassingPoint v0 vinf xref p).b * norm e)
    rcases le_total v0 vinf with hle | hle
    · rw [max_eq_right hle]; nlinarith
    · rw [max_eq_left hle]; nlinarith
  · intro he
    rw [hg, (norm_eq_zero e).mpr he]; simp

/-- C19. A constant gain is constant, and forcing a gain to be constant gives its value at infinity. -/
theorem C19_constant (lambda v0 vinf tan : ℝ) (e : List ℝ) :
    gain (initConstant lambda) e = lambda ∧ gain initDefault e = 1 / 10 ∧
      gain (forceConstant (init v0 vinf tan)) e = vinf := by
  refine ⟨?_, ?_, ?_⟩ <;> simp [gain, adaptiveValue, initConstant, initDefault, forceConstant, init]

end Adaptive

namespace Hyperbolic

/-! ## C20 -/

/-- `(tanh y + 1) / 2` is the logistic function. -/
theorem half_tanh (y : ℝ) : (1 / 2) * (Real.tanh y + 1) = 1 / (1 + Real.exp (-2 * y)) := by
  rw [Real.tanh_eq_sinh_div_cosh, Real.sinh_eq, Real.cosh_eq]
  have h1 := Real.exp_pos y
  have h2 := Real.exp_pos (-y)
  have h3 : Real.exp (-2 * y) = Real.exp (-y) / Real.exp y := by
    rw [← Real.exp_sub]; congr 1; ring
  rw [h3]
  have h4 : Real.exp y + Real.exp (-y) ≠ 0 := by positivity
  field_simp
  ring

theorem gain_init (v0 vinf tan d : ℝ) (e : List ℝ) :
    gain (init v0 vinf tan d) e =
      (v0 - vinf) * (1 / (1 + Real.exp (2 * (init v0 vinf tan d).b * (norm e - d)))) + vinf := by
  have := half_tanh (-(init v0 vinf tan d).b * (norm e - d))
  have e1 : -2 * (-(init v0 vinf tan d).b * (norm e - d)) =
      2 * (init v0 vinf tan d).b * (norm e - d) := by ring
  rw [e1] at this
  rw [← this]
  show (v0 - vinf) * (1 / 2) * (Real.tanh (-(init v0 vinf tan d).b * (norm e - d)) + 1) + vinf = _
  ring

theorem weight (y : ℝ) : 0 < 1 / (1 + Real.exp y) ∧ 1 / (1 + Real.exp y) < 1 := by
  have := Real.exp_pos y
  refine ⟨by positivity, ?_⟩
  rw [div_lt_one (by positivity)]; linarith

/-- C20. When the two values differ, the gain of every error is strictly between them, whatever the slope
and the displacement. -/
theorem C20_strictly_between (v0 vinf tan d : ℝ) (hne : v0 ≠ vinf) (e : List ℝ) :
    min v0 vinf < gain (init v0 vinf tan d) e ∧ gain (init v0 vinf tan d) e < max v0 vinf := by
  rw [gain_init]
  obtain ⟨h1, h2⟩ := weight (2 * (init v0 vinf tan d).b * (norm e - d))
  set w := 1 / (1 + Real.exp (2 * (init v0 vinf tan d).b * (norm e - d)))
  rcases lt_or_gt_of_ne hne with hle | hle
  · rw [min_eq_left hle.le, max_eq_right hle.le]
    constructor <;> nlinarith
  · rw [min_eq_right hle.le, max_eq_left hle.le]
    constructor <;> nlinarith

/-- C20. When the two values are equal the gain is this value. -/
theorem C20_constant (v tan d lambda v0 vinf : ℝ) (e : List ℝ) :
    gain (init v v tan d) e = v ∧ gain (initConstant lambda) e = lambda ∧
      gain (forceConstant (init v0 vinf tan d)) e = vinf := by
  refine ⟨?_, ?_, ?_⟩ <;> simp [gain, hyperbolicValue, initConstant, forceConstant, init]

/-- C20. With a value at zero at least the value at infinity and a slope that is not negative, a larger
error never has a larger gain. -/
theorem C20_antitone (v0 vinf tan d : ℝ) (hv : vinf ≤ v0) (ht : 0 ≤ tan) (e e' : List ℝ)
    (he : norm e ≤ norm e') : gain (init v0 vinf tan d) e' ≤ gain (init v0 vinf tan d) e := by
  have hb : 0 ≤ (init v0 vinf tan d).b := by
    simp only [init]
    split
    · exact le_refl 0
    · exact div_nonneg (div_nonneg ht (by linarith)) (by norm_num)
  rw [gain_init, gain_init]
  have h1 : 1 / (1 + Real.exp (2 * (init v0 vinf tan d).b * (norm e' - d))) ≤
      1 / (1 + Real.exp (2 * (init v0 vinf tan d).b * (norm e - d))) := by
    apply one_div_le_one_div_of_le
    · have := Real.exp_pos (2 * (init v0 vinf tan d).b * (norm e - d)); linarith
    · have : Real.exp (2 * (init v0 vinf tan d).b * (norm e - d)) ≤
          Real.exp (2 * (init v0 vinf tan d).b * (norm e' - d)) := by
        rw [Real.exp_le_exp]
        nlinarith
      linarith
  nlinarith

example : (1 : ℝ) ≤ 4 ∧ (0 : ℝ) ≤ 3 ∧ norm [1] ≤ norm [-2] := by
  rw [norm_singleton, norm_singleton]; norm_num

/-- C20. At the displacement distance the gain is the mean of the two values. -/
theorem C20_mean_at_displacement (v0 vinf tan d : ℝ) (e : List ℝ) (he : norm e = d) :
    gain (init v0 vinf tan d) e = (v0 + vinf) / 2 := by
  rw [gain_init, he]; simp; ring

example : norm [(-2 : ℝ)] = 2 := by rw [norm_singleton]; norm_num

/-- C20. When the slope has strictly the sign of `v0 - vinf`, the gain tends to the value at infinity as
the norm of the error grows. -/
theorem C20_limit (v0 vinf tan d : ℝ) (h : 0 < tan * (v0 - vinf)) (err : ℕ → List ℝ)
    (herr : Tendsto (fun k => norm (err k)) atTop atTop) :
    Tendsto (fun k => gain (init v0 vinf tan d) (err k)) atTop (𝓝 vinf) := by
  have hne : v0 - vinf ≠ 0 := by rintro h0; rw [h0] at h; simp at h
  have hb : (init v0 vinf tan d).b = tan / (v0 - vinf) / 2 := by
    simp only [init]; rw [if_neg (fun h => hne h.symm)]
  have hbpos : 0 < 2 * (init v0 vinf tan d).b := by
    rw [hb]
    have : 2 * (tan / (v0 - vinf) / 2) = tan * (v0 - vinf) / (v0 - vinf) ^ 2 := by field_simp
    rw [this]
    exact div_pos h (by positivity)
  have h1 : Tendsto (fun k => 2 * (init v0 vinf tan d).b * (norm (err k) - d)) atTop atTop :=
    Tendsto.const_mul_atTop hbpos (tendsto_atTop_add_const_right _ (-d) herr)
  have h2 := Real.tendsto_exp_atTop.comp h1
  have h3 : Tendsto (fun k => 1 + Real.exp (2 * (init v0 vinf tan d).b * (norm (err k) - d)))
      atTop atTop := tendsto_atTop_add_const_left _ 1 h2
  have h4 := (h3.inv_tendsto_atTop).const_mul (v0 - vinf)
  have h5 := h4.add_const vinf
  simp only [mul_zero, zero_add] at h5
  refine h5.congr ?_
  intro k
  rw [gain_init]
  simp

example : (0 : ℝ) < 3 * (4 - 1) := by norm_num

/-- C20, remark: the value at zero is an upper limit, never reached (not even by a null error). -/
theorem C20_value_at_zero_not_reached (v0 vinf tan d : ℝ) (hne : v0 ≠ vinf) (e : List ℝ) :
    gain (init v0 vinf tan d) e ≠ v0 := by
  obtain ⟨h1, h2⟩ := C20_strictly_between v0 vinf tan d hne e
  intro h
  rw [h] at h1 h2
  rcases le_total v0 vinf with hle | hle
  · rw [min_eq_left hle] at h1; exact lt_irrefl _ h1
  · rw [max_eq_left hle] at h2; exact lt_irrefl _ h2

end Hyperbolic

end Verif.Gain
