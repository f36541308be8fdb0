import Mathlib.Data.Real.Basic
import Mathlib.Data.Int.Log
import Mathlib.Algebra.Order.Round
import Mathlib.Data.Real.Archimedean
import Mathlib.Tactic.Linarith
import Mathlib.Tactic.Positivity
import Mathlib.Tactic.FieldSimp
import Mathlib.Tactic.Ring

/-!
# Numbers with rounding

Most of the models take doubles for exact numbers. Here the numbers are those that a rounding keeps, and every operation gives the
rounded value of the exact result, as IEEE 754 asks of the operations of `double`. The same definitions of the models, which ask only
for the operations that the code does, are read with these numbers.

Simplifications: no infinity, hence no overflow (the exponents have no upper bound), NaN only where a model has it, and one zero.
A constant of the code that is not an integer is the rounded quotient of two integers. The property asked of a rounding is the usual
one: the error is at most `u` times the number, plus `η` for the numbers so small that they lose digits. It holds of the rounding of
`double` to the nearest number (`binary64` below), with `u = 2⁻⁵³` and `η = 2⁻¹⁰⁷⁵`.
-/

namespace Verif.Rounding

/-- A rounding of the reals: it changes nothing to what is rounded already, it keeps signs, 0, 1 and 2, and its error is bounded. -/
structure Rounding where
  rnd : ℝ → ℝ
  u : ℝ
  η : ℝ
  u_nonneg : 0 ≤ u
  η_nonneg : 0 ≤ η
  idem : ∀ x, rnd (rnd x) = rnd x
  neg : ∀ x, rnd (-x) = -rnd x
  one : rnd 1 = 1
  two : rnd 2 = 2
  err : ∀ x, |rnd x - x| ≤ u * |x| + η

theorem Rounding.zero (r : Rounding) : r.rnd 0 = 0 := by
  have := r.neg 0
  rw [neg_zero] at this
  linarith

/-- The numbers that the rounding keeps. -/
def Fl (r : Rounding) : Type := { x : ℝ // r.rnd x = x }

namespace Fl

variable {r : Rounding}

/-- The real number. -/
def val (x : Fl r) : ℝ := x.1

/-- The number nearest to a real. -/
def of (r : Rounding) (x : ℝ) : Fl r := ⟨r.rnd x, r.idem x⟩

noncomputable instance : LinearOrder (Fl r) := inferInstanceAs (LinearOrder { x : ℝ // r.rnd x = x })
noncomputable instance : Zero (Fl r) := ⟨of r 0⟩
noncomputable instance : One (Fl r) := ⟨of r 1⟩
noncomputable instance {n : ℕ} [n.AtLeastTwo] : OfNat (Fl r) n := ⟨of r (OfNat.ofNat n)⟩
noncomputable instance : NatCast (Fl r) := ⟨fun n => of r n⟩
noncomputable instance : IntCast (Fl r) := ⟨fun n => of r n⟩
noncomputable instance : Add (Fl r) := ⟨fun x y => of r (x.val + y.val)⟩
noncomputable instance : Sub (Fl r) := ⟨fun x y => of r (x.val - y.val)⟩
noncomputable instance : Mul (Fl r) := ⟨fun x y => of r (x.val * y.val)⟩
noncomputable instance : Div (Fl r) := ⟨fun x y => of r (x.val / y.val)⟩
noncomputable instance : Neg (Fl r) := ⟨fun x => ⟨-x.1, by rw [r.neg, x.2]⟩⟩

@[simp] theorem of_val (x : ℝ) : (of r x).val = r.rnd x := rfl
@[simp] theorem rnd_val (x : Fl r) : r.rnd x.val = x.val := x.2
@[simp] theorem val_zero : (0 : Fl r).val = 0 := r.zero
@[simp] theorem val_one : (1 : Fl r).val = 1 := r.one
theorem val_ofNat (n : ℕ) [n.AtLeastTwo] : (OfNat.ofNat n : Fl r).val = r.rnd (OfNat.ofNat n) := rfl
@[simp] theorem val_two : (2 : Fl r).val = 2 := r.two
@[simp] theorem val_natCast (n : ℕ) : (n : Fl r).val = r.rnd n := rfl
@[simp] theorem val_intCast (n : ℤ) : (n : Fl r).val = r.rnd n := rfl
@[simp] theorem val_add (x y : Fl r) : (x + y).val = r.rnd (x.val + y.val) := rfl
@[simp] theorem val_sub (x y : Fl r) : (x - y).val = r.rnd (x.val - y.val) := rfl
@[simp] theorem val_mul (x y : Fl r) : (x * y).val = r.rnd (x.val * y.val) := rfl
@[simp] theorem val_div (x y : Fl r) : (x / y).val = r.rnd (x.val / y.val) := rfl
@[simp] theorem val_neg (x : Fl r) : (-x).val = -x.val := rfl
theorem val_le {x y : Fl r} : x ≤ y ↔ x.val ≤ y.val := Iff.rfl
theorem val_lt {x y : Fl r} : x < y ↔ x.val < y.val := Iff.rfl
theorem val_inj {x y : Fl r} : x.val = y.val ↔ x = y := ⟨Subtype.ext, congrArg _⟩
theorem val_max (x y : Fl r) : (max x y).val = max x.val y.val := by
  rcases le_total x y with h | h
  · rw [max_eq_right h, max_eq_right (val_le.mp h)]
  · rw [max_eq_left h, max_eq_left (val_le.mp h)]
theorem val_min (x y : Fl r) : (min x y).val = min x.val y.val := by
  rcases le_total x y with h | h
  · rw [min_eq_left h, min_eq_left (val_le.mp h)]
  · rw [min_eq_right h, min_eq_right (val_le.mp h)]

end Fl

/-! ## Two roundings -/

/-- No rounding. -/
noncomputable def exact : Rounding where
  rnd := id
  u := 0
  η := 0
  u_nonneg := le_rfl
  η_nonneg := le_rfl
  idem _ := rfl
  neg _ := rfl
  one := rfl
  two := rfl
  err x := by simp

/-- The numbers of `double`, without the upper bound of the exponents. -/
def Binary64 (x : ℝ) : Prop := ∃ m e : ℤ, |m| < 2 ^ 53 ∧ -1074 ≤ e ∧ x = m * (2 : ℝ) ^ e

/-- The exponent of the last digit of a number. -/
noncomputable def ulpExp (x : ℝ) : ℤ := max (Int.log 2 |x| - 52) (-1074)

open Classical in
/-- The nearest number of `double`. -/
noncomputable def near (x : ℝ) : ℝ :=
  if Binary64 x then x
  else if 0 ≤ x then round (x / (2 : ℝ) ^ ulpExp x) * (2 : ℝ) ^ ulpExp x
  else -(round (-x / (2 : ℝ) ^ ulpExp x) * (2 : ℝ) ^ ulpExp x)

theorem Binary64.neg {x : ℝ} (h : Binary64 x) : Binary64 (-x) := by
  obtain ⟨m, e, h1, h2, rfl⟩ := h
  exact ⟨-m, e, by rwa [abs_neg], h2, by push_cast; ring⟩

theorem binary64_round {x : ℝ} (hx : 0 ≤ x) : Binary64 (round (x / (2 : ℝ) ^ ulpExp x) * (2 : ℝ) ^ ulpExp x) := by
  set k := ulpExp x with hk
  have hk' : -1074 ≤ k := le_max_right _ _
  have hp : (0 : ℝ) < 2 ^ k := zpow_pos (by norm_num) k
  have hlt : x / (2 : ℝ) ^ k < 2 ^ 53 := by
    rw [div_lt_iff₀ hp]
    have h1 : |x| < (2 : ℝ) ^ (Int.log 2 |x| + 1) := by
      have := Int.lt_zpow_succ_log_self (b := 2) (by norm_num) |x|
      simpa using this
    rw [abs_of_nonneg hx] at h1
    have h2 : Int.log 2 x + 1 ≤ 53 + k := by
      have : Int.log 2 |x| - 52 ≤ k := le_max_left _ _
      rw [abs_of_nonneg hx] at this
      omega
    calc x < (2 : ℝ) ^ (Int.log 2 x + 1) := h1
      _ ≤ (2 : ℝ) ^ (53 + k) := zpow_le_zpow_right₀ (by norm_num) h2
      _ = 2 ^ 53 * 2 ^ k := by rw [zpow_add₀ (by norm_num)]; norm_num
  have h0 : 0 ≤ x / (2 : ℝ) ^ k := by positivity
  have hm0 : 0 ≤ round (x / (2 : ℝ) ^ k) := by
    rw [round_eq]
    exact Int.floor_nonneg.mpr (by linarith)
  have hm1 : round (x / (2 : ℝ) ^ k) ≤ 2 ^ 53 := by
    rw [round_eq]
    have : ⌊x / (2 : ℝ) ^ k + 1 / 2⌋ < 2 ^ 53 + 1 := by
      rw [Int.floor_lt]
      push_cast
      linarith
    omega
  rcases hm1.lt_or_eq with h | h
  · exact ⟨_, k, by rwa [abs_of_nonneg hm0], hk', rfl⟩
  · refine ⟨2 ^ 52, k + 1, by norm_num, by omega, ?_⟩
    rw [h, zpow_add₀ (by norm_num)]
    push_cast
    ring

theorem binary64_near (x : ℝ) : Binary64 (near x) := by
  unfold near
  split_ifs with h1 h2
  · exact h1
  · exact binary64_round h2
  · have h3 : ulpExp x = ulpExp (-x) := by simp [ulpExp]
    rw [h3]
    exact (binary64_round (by linarith)).neg

theorem near_err (x : ℝ) : |near x - x| ≤ 2⁻¹ ^ 53 * |x| + 2⁻¹ ^ 1075 := by
  have key : ∀ y : ℝ, 0 < y → |(round (y / (2 : ℝ) ^ ulpExp y) : ℝ) * (2 : ℝ) ^ ulpExp y - y| ≤ 2⁻¹ ^ 53 * |y| + 2⁻¹ ^ 1075 := by
    intro y hy
    set k := ulpExp y with hk
    have hp : (0 : ℝ) < 2 ^ k := zpow_pos (by norm_num) k
    have h1 : |(round (y / (2 : ℝ) ^ k) : ℝ) * (2 : ℝ) ^ k - y| ≤ 1 / 2 * 2 ^ k := by
      have := abs_sub_round (y / (2 : ℝ) ^ k)
      have h2 : (round (y / (2 : ℝ) ^ k) : ℝ) * (2 : ℝ) ^ k - y = -((y / (2 : ℝ) ^ k - round (y / (2 : ℝ) ^ k)) * 2 ^ k) := by
        field_simp
        ring
      rw [h2, abs_neg, abs_mul, abs_of_pos hp]
      exact mul_le_mul_of_nonneg_right this hp.le
    have h3 : 1 / 2 * (2 : ℝ) ^ k ≤ 2⁻¹ ^ 53 * |y| + 2⁻¹ ^ 1075 := by
      rcases max_choice (Int.log 2 |y| - 52) (-1074) with h | h
      · have hk2 : k = Int.log 2 |y| - 52 := by rw [hk, ulpExp, h]
        have h4 := Int.zpow_log_le_self (b := 2) (by norm_num) (abs_pos.mpr hy.ne')
        have h5 : 1 / 2 * (2 : ℝ) ^ k = 2⁻¹ ^ 53 * 2 ^ Int.log 2 |y| := by
          rw [hk2, zpow_sub₀ (by norm_num)]
          norm_num
          ring
        rw [h5]
        have : (0 : ℝ) ≤ 2⁻¹ ^ 1075 := by positivity
        have h6 : (2 : ℝ) ^ Int.log 2 |y| ≤ |y| := by simpa using h4
        exact le_add_of_le_of_nonneg (mul_le_mul_of_nonneg_left h6 (by positivity)) this
      · have hk2 : k = -1074 := by rw [hk, ulpExp, h]
        have : 1 / 2 * (2 : ℝ) ^ k = 2⁻¹ ^ 1075 := by
          rw [hk2, zpow_neg, show (1074 : ℤ) = ((1074 : ℕ) : ℤ) from rfl, zpow_natCast, pow_succ (2⁻¹ : ℝ) 1074, inv_pow]
          ring
        rw [this]
        exact le_add_of_nonneg_left (by positivity)
    exact h1.trans h3
  unfold near
  split_ifs with h1 h2
  · rw [sub_self, abs_zero]
    positivity
  · exact key x (h2.lt_of_ne fun h0 => h1 (h0 ▸ ⟨0, 0, by norm_num, by norm_num, by simp⟩))
  · have h3 : ulpExp x = ulpExp (-x) := by simp [ulpExp]
    have := key (-x) (by linarith)
    rw [abs_neg x, ← h3] at this
    rw [show ∀ a : ℝ, -a - x = -(a - -x) from fun a => by ring, abs_neg]
    exact this

/-- The rounding of `double` to the nearest number, without the upper bound of the exponents (a tie goes away from zero). -/
noncomputable def binary64 : Rounding where
  rnd := near
  u := 2⁻¹ ^ 53
  η := 2⁻¹ ^ 1075
  u_nonneg := by positivity
  η_nonneg := by positivity
  idem x := if_pos (binary64_near x)
  neg x := by
    have hb : Binary64 (-x) ↔ Binary64 x := ⟨fun h => by simpa using h.neg, Binary64.neg⟩
    have h3 : ulpExp (-x) = ulpExp x := by simp [ulpExp]
    unfold near
    rw [h3]
    by_cases h : Binary64 x
    · rw [if_pos h, if_pos (hb.mpr h)]
    · rw [if_neg h, if_neg (fun k => h (hb.mp k))]
      have hx : x ≠ 0 := by
        rintro rfl
        exact h ⟨0, 0, by norm_num, by norm_num, by simp⟩
      rcases lt_or_gt_of_ne hx with hx | hx
      · rw [if_pos (by linarith), if_neg (by linarith), neg_neg]
      · rw [if_neg (by linarith), if_pos hx.le, neg_neg]
  one := by
    unfold near
    rw [if_pos ⟨1, 0, by norm_num, by norm_num, by norm_num⟩]
  two := by
    unfold near
    rw [if_pos ⟨2, 0, by norm_num, by norm_num, by norm_num⟩]
  err := near_err

end Verif.Rounding
