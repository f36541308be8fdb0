import Verif.Rounding.Model

/-!
# A rounding to the nearest number keeps the order
-/

namespace Verif.Rounding

/-- The rounding keeps the order. -/
def Rounding.Mono (r : Rounding) : Prop := ∀ x y, x ≤ y → r.rnd x ≤ r.rnd y

theorem exact_mono : exact.Mono := fun _ _ h => h

/-- A number of `double` that is not smaller than the power of two under a positive `x` is a multiple of the last digit of `x`. -/
theorem Binary64.multiple {x z : ℝ} (hx : 0 < x) (hz : Binary64 z) (h : (2 : ℝ) ^ Int.log 2 x ≤ z ∨ Int.log 2 x - 52 ≤ -1074) :
    ∃ m : ℤ, z = m * (2 : ℝ) ^ ulpExp x := by
  obtain ⟨m, e, h1, h2, rfl⟩ := hz
  have he : ulpExp x ≤ e := by
    rw [ulpExp, abs_of_pos hx]
    rcases h with h | h
    · refine max_le ?_ h2
      have hm : (m : ℝ) < 2 ^ (53 : ℤ) := by
        have : (m : ℤ) < 2 ^ 53 := lt_of_le_of_lt (le_abs_self m) h1
        exact_mod_cast this
      have hp : (0 : ℝ) < 2 ^ e := zpow_pos (by norm_num) e
      have h3 : (2 : ℝ) ^ Int.log 2 x < 2 ^ (53 + e) := by
        rw [zpow_add₀ (by norm_num)]
        exact h.trans_lt (mul_lt_mul_of_pos_right hm hp)
      have := (zpow_lt_zpow_iff_right₀ (by norm_num : (1 : ℝ) < 2)).mp h3
      omega
    · exact max_le (by omega) h2
  obtain ⟨k, hk⟩ := Int.eq_ofNat_of_zero_le (sub_nonneg.mpr he)
  refine ⟨m * 2 ^ k, ?_⟩
  have : e = k + ulpExp x := by omega
  rw [this, zpow_add₀ (by norm_num), zpow_natCast]
  push_cast
  ring

theorem round_nearest {x : ℝ} (hx : 0 < x) {z : ℝ} (hz : Binary64 z) :
    |(round (x / (2 : ℝ) ^ ulpExp x) : ℝ) * (2 : ℝ) ^ ulpExp x - x| ≤ |z - x| := by
  set k := ulpExp x with hk
  have hp : (0 : ℝ) < 2 ^ k := zpow_pos (by norm_num) k
  have key : ∀ m : ℤ, |(round (x / (2 : ℝ) ^ k) : ℝ) * (2 : ℝ) ^ k - x| ≤ |(m : ℝ) * 2 ^ k - x| := by
    intro m
    have h1 := round_le (x / (2 : ℝ) ^ k) m
    have h2 : ∀ a : ℝ, |a * (2 : ℝ) ^ k - x| = |x / 2 ^ k - a| * 2 ^ k := by
      intro a
      rw [← abs_of_pos hp, ← abs_mul, abs_of_pos hp, abs_sub_comm (a * 2 ^ k)]
      congr 1
      field_simp
    rw [h2, h2]
    exact mul_le_mul_of_nonneg_right h1 hp.le
  by_cases h : (2 : ℝ) ^ Int.log 2 x ≤ z ∨ Int.log 2 x - 52 ≤ -1074
  · obtain ⟨m, rfl⟩ := hz.multiple hx h
    exact key m
  · obtain ⟨h1, h2⟩ := not_or.mp h
    have h3 : k = Int.log 2 x - 52 := by
      rw [hk, ulpExp, abs_of_pos hx, max_eq_left (by omega)]
    have h4 : (2 : ℝ) ^ Int.log 2 x ≤ x := by
      have := Int.zpow_log_le_self (b := 2) (r := x) (by norm_num) hx
      simpa using this
    have h5 := key (2 ^ 52)
    have h6 : ((2 ^ 52 : ℤ) : ℝ) * 2 ^ k = 2 ^ Int.log 2 x := by
      rw [h3, zpow_sub₀ (by norm_num)]
      push_cast
      norm_num
      ring
    rw [h6, abs_of_nonpos (by linarith : (2 : ℝ) ^ Int.log 2 x - x ≤ 0)] at h5
    rw [abs_of_nonpos (by linarith : z - x ≤ 0)]
    linarith

/-- **The rounding of `double` gives a nearest number.** -/
theorem near_nearest (x : ℝ) {z : ℝ} (hz : Binary64 z) : |near x - x| ≤ |z - x| := by
  unfold near
  split_ifs with h1 h2
  · simp
  · exact round_nearest (h2.lt_of_ne fun h0 => h1 (h0 ▸ ⟨0, 0, by norm_num, by norm_num, by simp⟩)) hz
  · have h3 : ulpExp x = ulpExp (-x) := by simp [ulpExp]
    have := round_nearest (by linarith : 0 < -x) hz.neg
    rw [h3, show ∀ a : ℝ, -a - x = -(a - -x) from fun a => by ring, abs_neg]
    refine this.trans ?_
    rw [show -z - -x = -(z - x) by ring, abs_neg]

/-- A rounding to the nearest number of `double`, whatever it does with the ties (IEEE 754: the even one). -/
structure Nearest (r : Rounding) : Prop where
  num : ∀ x, Binary64 (r.rnd x)
  nearest : ∀ x z, Binary64 z → |r.rnd x - x| ≤ |z - x|

theorem binary64_nearest : Nearest binary64 := ⟨binary64_near, fun x _ hz => near_nearest x hz⟩

theorem Nearest.keeps {r : Rounding} (h : Nearest r) {x : ℝ} (hx : Binary64 x) : r.rnd x = x := by
  have := h.nearest x x hx
  rw [sub_self, abs_zero] at this
  linarith [abs_nonpos_iff.mp this]

theorem Nearest.err {r : Rounding} (h : Nearest r) (x : ℝ) : |r.rnd x - x| ≤ 2⁻¹ ^ 53 * |x| + 2⁻¹ ^ 1075 :=
  (h.nearest x _ (binary64_near x)).trans (near_err x)

theorem Nearest.mono {r : Rounding} (h : Nearest r) : r.Mono := by
  intro x y hxy
  by_contra hlt
  push Not at hlt
  have h1 := h.nearest x _ (h.num y)
  have h2 := h.nearest y _ (h.num x)
  have h3 : r.rnd x + r.rnd y ≤ 2 * x := by
    rcases abs_cases (r.rnd y - x) with ⟨e, _⟩ | ⟨e, _⟩
    · have := (le_abs_self (r.rnd x - x)).trans h1
      rw [e] at this
      linarith
    · have := (le_abs_self (r.rnd x - x)).trans h1
      rw [e] at this
      linarith
  have h4 : 2 * y ≤ r.rnd x + r.rnd y := by
    rcases abs_cases (r.rnd x - y) with ⟨e, _⟩ | ⟨e, _⟩
    · have := (neg_abs_le (r.rnd y - y))
      rw [e] at h2
      linarith
    · have := (neg_abs_le (r.rnd y - y))
      rw [e] at h2
      linarith
  have hxy' : x = y := by linarith
  subst hxy'
  exact lt_irrefl _ hlt

theorem binary64_mono : binary64.Mono := binary64_nearest.mono

theorem Nearest.of_val {r : Rounding} (h : Nearest r) (x : Fl r) : Binary64 x.val := by
  have := h.num x.val
  rwa [Fl.rnd_val] at this

namespace Rounding

variable {r : Rounding}

theorem Mono.nonneg (h : r.Mono) {x : ℝ} (hx : 0 ≤ x) : 0 ≤ r.rnd x := by
  have := h 0 x hx
  rwa [r.zero] at this

theorem Mono.nonpos (h : r.Mono) {x : ℝ} (hx : x ≤ 0) : r.rnd x ≤ 0 := by
  have := h x 0 hx
  rwa [r.zero] at this

theorem Mono.le_val (h : r.Mono) {x : ℝ} {y : Fl r} (hx : x ≤ y.val) : r.rnd x ≤ y.val := by
  have := h x y.val hx
  rwa [Fl.rnd_val] at this

theorem Mono.val_le (h : r.Mono) {x : ℝ} {y : Fl r} (hx : y.val ≤ x) : y.val ≤ r.rnd x := by
  have := h y.val x hx
  rwa [Fl.rnd_val] at this

end Rounding

end Verif.Rounding
