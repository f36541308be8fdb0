import Verif.Rounding.Model
import Verif.Timing.Model
import Mathlib.Tactic.NormNum

/-!
# C133: the time stamps and the timers with rounding
-/

namespace Verif.Rounding

open Verif.Timing

/-- A rounding as precise as that of `double`, which keeps the integers up to `2⁵³`. -/
structure AsDouble (r : Rounding) : Prop where
  u_le : r.u ≤ 2⁻¹ ^ 53
  η_le : r.η ≤ 2⁻¹ ^ 1075
  int : ∀ n : ℤ, |n| ≤ 2 ^ 53 → r.rnd n = n

theorem binary64_asDouble : AsDouble binary64 where
  u_le := le_rfl
  η_le := le_rfl
  int n hn := by
    refine if_pos ?_
    rcases hn.lt_or_eq with h | h
    · exact ⟨n, 0, h, by norm_num, by simp⟩
    · rcases (abs_eq (by norm_num)).mp h with h | h
      · exact ⟨2 ^ 52, 1, by norm_num, by norm_num, by rw [h]; norm_num⟩
      · exact ⟨-2 ^ 52, 1, by norm_num, by norm_num, by rw [h]; norm_num⟩

variable {r : Rounding}

theorem AsDouble.η_tiny (h : AsDouble r) : r.η ≤ 2⁻¹ ^ 60 :=
  h.η_le.trans (pow_le_pow_of_le_one (by norm_num) (by norm_num) (by norm_num))

theorem AsDouble.thousand (h : AsDouble r) : (1000 : Fl r).val = 1000 := by
  rw [Fl.val_ofNat]
  have := h.int 1000 (by norm_num)
  exact_mod_cast this

/-- A clock that gives a number of microseconds below one second, and at most 4·10⁹ seconds (the year 2096). -/
structure Dated (c : Timeval) : Prop where
  sec0 : 0 ≤ c.sec
  sec1 : c.sec ≤ 4000000000
  usec0 : 0 ≤ c.usec
  usec1 : c.usec < 1000000

/-- The number of microseconds of a clock. -/
def micros (c : Timeval) : ℤ := c.sec * 1000000 + c.usec

/-- **The time stamp in one number is right to less than half a microsecond**, in the arithmetic of `double`, for every date up to 2096. -/
theorem C133_stamp (h : AsDouble r) {c : Timeval} (hc : Dated c) :
    |(timeDouble c : Fl r).val - (micros c : ℝ) / 1000| < 1 / 2000 := by
  obtain ⟨s0, s1, u0, u1⟩ := hc
  have hu := r.u_nonneg
  have hη := r.η_nonneg
  have hu' := h.u_le
  have hη' := h.η_tiny
  have e : (timeDouble c : Fl r).val = r.rnd ((c.sec : ℝ) * 1000 + r.rnd ((c.usec : ℝ) / 1000)) := by
    have i1 : r.rnd (c.sec : ℝ) = c.sec := h.int _ (by rw [abs_of_nonneg s0]; omega)
    have i2 : r.rnd (c.usec : ℝ) = c.usec := h.int _ (by rw [abs_of_nonneg u0]; omega)
    have i3 : r.rnd ((c.sec : ℝ) * 1000) = (c.sec : ℝ) * 1000 := by
      have := h.int (c.sec * 1000) (by rw [abs_of_nonneg (by omega)]; omega)
      push_cast at this
      exact this
    simp only [timeDouble, stampDouble, offset, stamp, Fl.val_add, Fl.val_mul, Fl.val_div, Fl.val_intCast, h.thousand, i1, i2, i3]
  have s1' : (c.sec : ℝ) ≤ 4000000000 := by exact_mod_cast s1
  have s0' : (0 : ℝ) ≤ c.sec := by exact_mod_cast s0
  have u1' : (c.usec : ℝ) ≤ 1000000 := by exact_mod_cast u1.le
  have u0' : (0 : ℝ) ≤ c.usec := by exact_mod_cast u0
  rw [e, micros]
  push_cast
  set q := (c.usec : ℝ) / 1000 with hq
  have q0 : 0 ≤ q := by positivity
  have q1 : q ≤ 1000 := by rw [hq, div_le_iff₀ (by norm_num)]; linarith
  have e1 : |r.rnd q - q| ≤ 2⁻¹ ^ 53 * 1000 + 2⁻¹ ^ 60 := by
    refine (r.err q).trans (add_le_add ?_ hη')
    rw [abs_of_nonneg q0]
    exact mul_le_mul hu' q1 q0 (by positivity)
  set w := (c.sec : ℝ) * 1000 + r.rnd q with hw
  have e2 : |w| ≤ 4000000002000 := by
    rw [abs_le] at e1
    rw [abs_le, hw]
    norm_num at e1 ⊢
    constructor <;> linarith
  have e3 : |r.rnd w - w| ≤ 2⁻¹ ^ 53 * 4000000002000 + 2⁻¹ ^ 60 := by
    refine (r.err w).trans (add_le_add ?_ hη')
    exact mul_le_mul hu' e2 (abs_nonneg _) (by positivity)
  have e4 : ((c.sec : ℝ) * 1000000 + c.usec) / 1000 = c.sec * 1000 + q := by rw [hq]; ring
  rw [e4, show r.rnd w - ((c.sec : ℝ) * 1000 + q) = (r.rnd w - w) + (r.rnd q - q) by rw [hw]; ring]
  refine lt_of_le_of_lt ((abs_add_le _ _).trans (add_le_add e3 e1)) ?_
  norm_num

/-- **Two time stamps in one number are in the order of the clocks**: a later microsecond gives a greater number, and one microsecond gives
one number. -/
theorem C133_order (h : AsDouble r) {c d : Timeval} (hc : Dated c) (hd : Dated d) :
    (timeDouble c : Fl r) < timeDouble d ↔ micros c < micros d := by
  have key : ∀ {c d : Timeval}, Dated c → Dated d → micros c < micros d → (timeDouble c : Fl r) < timeDouble d := by
    intro c d hc hd hlt
    have h1 := abs_lt.mp (C133_stamp h hc)
    have h2 := abs_lt.mp (C133_stamp h hd)
    have h3 : (micros c : ℝ) + 1 ≤ micros d := by exact_mod_cast hlt
    rw [Fl.val_lt]
    linarith [h1.2, h2.1]
  refine ⟨fun hlt => ?_, key hc hd⟩
  rcases lt_trichotomy (micros c) (micros d) with h1 | h1 | h1
  · exact h1
  · have : c = d := by
      obtain ⟨a1, a2, a3, a4⟩ := hc
      obtain ⟨b1, b2, b3, b4⟩ := hd
      unfold micros at h1
      cases c
      cases d
      simp only [Timeval.mk.injEq] at *
      omega
    exact absurd hlt (by rw [this]; exact lt_irrefl _)
  · exact absurd (hlt.trans (key hd hc h1)) (lt_irrefl _)

/-- **A measured duration is exact but for the two roundings of a quotient and of a sum**, when the seconds are few enough to be kept. -/
theorem C133_duration (h : AsDouble r) {t0 t1 : Timeval} (h0 : Dated t0) (h1 : Dated t1) :
    |(duration (.wall t0 t1) : Fl r).val - ((micros t1 : ℝ) - micros t0) / 1000| ≤
      r.u * (|(micros t1 : ℝ) - micros t0| / 1000) + (1 + r.u) * (r.u * 1000 + r.η) + r.η := by
  obtain ⟨s0, s1, u0, u1⟩ := h0
  obtain ⟨s2, s3, u2, u3⟩ := h1
  have hu := r.u_nonneg
  have hη := r.η_nonneg
  have e : (duration (.wall t0 t1) : Fl r).val =
      r.rnd (((t1.sec - t0.sec : ℤ) : ℝ) * 1000 + r.rnd (((t1.usec - t0.usec : ℤ) : ℝ) / 1000)) := by
    have i1 : r.rnd (t0.sec : ℝ) = t0.sec := h.int _ (by rw [abs_of_nonneg s0]; omega)
    have i2 : r.rnd (t0.usec : ℝ) = t0.usec := h.int _ (by rw [abs_of_nonneg u0]; omega)
    have i3 : r.rnd (t1.sec : ℝ) = t1.sec := h.int _ (by rw [abs_of_nonneg s2]; omega)
    have i4 : r.rnd (t1.usec : ℝ) = t1.usec := h.int _ (by rw [abs_of_nonneg u2]; omega)
    have i5 : r.rnd ((t1.sec : ℝ) - t0.sec) = ((t1.sec - t0.sec : ℤ) : ℝ) := by
      have := h.int (t1.sec - t0.sec) (by rw [abs_le]; omega)
      rw [← this]
      push_cast
      rfl
    have i6 : r.rnd ((t1.usec : ℝ) - t0.usec) = ((t1.usec - t0.usec : ℤ) : ℝ) := by
      have := h.int (t1.usec - t0.usec) (by rw [abs_le]; omega)
      rw [← this]
      push_cast
      rfl
    have i7 : r.rnd (((t1.sec - t0.sec : ℤ) : ℝ) * 1000) = ((t1.sec - t0.sec : ℤ) : ℝ) * 1000 := by
      have := h.int ((t1.sec - t0.sec) * 1000) (by rw [abs_le]; omega)
      rw [Int.cast_mul, Int.cast_ofNat] at this
      exact this
    have i8 : r.rnd (((t1.usec - t0.usec : ℤ) : ℝ)) = ((t1.usec - t0.usec : ℤ) : ℝ) := h.int _ (by rw [abs_le]; omega)
    simp only [duration, Fl.val_add, Fl.val_mul, Fl.val_div, Fl.val_sub, Fl.val_intCast, h.thousand, i1, i2, i3, i4, i5, i6, i7, i8, Fl.val_zero, add_zero]
  have e1 : ((micros t1 : ℝ) - micros t0) / 1000 = ((t1.sec - t0.sec : ℤ) : ℝ) * 1000 + ((t1.usec - t0.usec : ℤ) : ℝ) / 1000 := by
    unfold micros
    push_cast
    ring
  have e2 : |(micros t1 : ℝ) - micros t0| / 1000 = |((t1.sec - t0.sec : ℤ) : ℝ) * 1000 + ((t1.usec - t0.usec : ℤ) : ℝ) / 1000| := by
    rw [← e1, abs_div, abs_of_pos (show (0 : ℝ) < 1000 by norm_num)]
  rw [e, e1, e2]
  set q := ((t1.usec - t0.usec : ℤ) : ℝ) / 1000 with hq
  set p := ((t1.sec - t0.sec : ℤ) : ℝ) * 1000 with hp
  have q1 : |q| ≤ 1000 := by
    have : |((t1.usec - t0.usec : ℤ) : ℝ)| ≤ 1000000 := by
      have : |t1.usec - t0.usec| ≤ 1000000 := by rw [abs_le]; omega
      exact_mod_cast this
    rw [hq, abs_div, abs_of_pos (show (0 : ℝ) < 1000 by norm_num), div_le_iff₀ (by norm_num)]
    linarith
  have e3 : |r.rnd q - q| ≤ r.u * 1000 + r.η := (r.err q).trans (add_le_add (mul_le_mul_of_nonneg_left q1 hu) le_rfl)
  have e4 := r.err (p + r.rnd q)
  have e5 : |p + r.rnd q| ≤ |p + q| + (r.u * 1000 + r.η) := by
    rw [show p + r.rnd q = p + q + (r.rnd q - q) by ring]
    exact (abs_add_le _ _).trans (add_le_add le_rfl e3)
  have e6 := mul_le_mul_of_nonneg_left e5 hu
  rw [show r.rnd (p + r.rnd q) - (p + q) = (r.rnd (p + r.rnd q) - (p + r.rnd q)) + (r.rnd q - q) by ring]
  refine (abs_add_le _ _).trans ?_
  linarith

/-- A date of 2026, and the one a microsecond later. -/
example : Dated ⟨1790000000, 999999⟩ ∧ Dated ⟨1790000001, 0⟩ ∧ micros ⟨1790000000, 999999⟩ < micros ⟨1790000001, 0⟩ :=
  ⟨⟨by decide, by decide, by decide, by decide⟩, ⟨by decide, by decide, by decide, by decide⟩, by decide⟩

end Verif.Rounding
