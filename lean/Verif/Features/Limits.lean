import Verif.Features.Lemmas
import Mathlib.Analysis.Calculus.Deriv.Mul
import Mathlib.Analysis.Calculus.Deriv.Add
import Mathlib.Analysis.Calculus.Deriv.Pow
import Mathlib.Tactic.FieldSimp
import Mathlib.Tactic.Linarith
import Mathlib.Tactic.NormNum

/-!
# C52: the joint-limit feature
-/

namespace Verif.Features

/-- Position of `x` between the limits `l` and `u`, on a scale from -1 to 1. -/
noncomputable def normalised (l u x : ℝ) : ℝ := (x - l) / (u - l) * 2 - 1

theorem widthLoop_ok {F : Type} [Sub F] [Zero F] (lower us : List F) (i : Nat) (h : i + us.length ≤ lower.length) :
    widthLoop lower us i = .ok ((List.range us.length).map fun k => us.getD k 0 - lower.getD (i + k) 0) := by
  induction us generalizing i with
  | nil => rfl
  | cons u us ih =>
    simp only [List.length_cons] at h
    rw [widthLoop, rd_getD _ _ 0 (by omega), Outcome.bind_ok, ih (i + 1) (by omega), Outcome.map_ok,
      List.length_cons, List.range_succ_eq_map]
    simp only [List.map_cons, List.map_map, Outcome.ok.injEq, List.cons.injEq]
    refine ⟨by simp, List.map_congr_left fun k _ => ?_⟩
    simp only [Function.comp, Nat.succ_eq_add_one, List.getD_cons_succ]
    rw [show i + 1 + k = i + (k + 1) by omega]

theorem limitsWidth_ok {F : Type} [Sub F] [Zero F] (upper lower : List F) (h : upper.length ≤ lower.length) :
    limitsWidth upper lower = .ok ((List.range upper.length).map fun k => upper.getD k 0 - lower.getD k 0) := by
  rw [limitsWidth, widthLoop_ok _ _ _ (by omega)]
  simp

theorem limitsError_ok {F : Type} [Sub F] [Mul F] [Div F] [OfNat F 2] [One F] [Zero F] (sel : Nat → Bool) (q upper lower res : List F)
    (hu : upper.length = q.length) (hl : lower.length = q.length) (hres : res.length = limitsDim sel upper.length) :
    limitsDim sel upper.length = (picked sel q.length).length ∧
    limitsError sel q upper lower res = .ok ((picked sel q.length).map fun i =>
      (q.getD i 0 - lower.getD i 0) / (upper.getD i 0 - lower.getD i 0) * 2 - 1) := by
  have hdim : limitsDim sel upper.length = (picked sel q.length).length := by rw [limitsDim, countLoop_zero, hu]
  refine ⟨hdim, ?_⟩
  have hle : (picked sel q.length).length ≤ q.length := by
    have := List.length_filter_le sel (List.range q.length)
    rw [List.length_range] at this; exact this
  rw [limitsError, limitsWidth_ok _ _ (by omega), Outcome.bind_ok, if_neg (by simp [hdim]; omega)]
  refine fillLoop_exact _ _ (fun k hk => ?_) (by omega)
  have hk' := (mem_picked.mp hk).1
  rw [rd_getD _ _ 0 hk', rd_getD _ _ 0 (by omega), rd_getD _ _ 0 (by simp; omega)]
  simp [List.getD, List.getElem?_range (show k < upper.length by omega)]

/-- For vectors of equal sizes the error lists the normalised positions of the selected joints, in order, as many as the
dimension. -/
theorem C52_error (sel : Nat → Bool) (q upper lower res : List ℝ) (hu : upper.length = q.length)
    (hl : lower.length = q.length) (hres : res.length = limitsDim sel upper.length) :
    limitsDim sel upper.length = (picked sel q.length).length ∧
    limitsError sel q upper lower res =
      .ok ((picked sel q.length).map fun i => normalised (lower.getD i 0) (upper.getD i 0) (q.getD i 0)) :=
  limitsError_ok sel q upper lower res hu hl hres

/-- Sizes that differ are refused by an assertion. -/
theorem C52_sizes (sel : Nat → Bool) (q upper lower res : List ℝ) (h : upper.length ≠ q.length ∨ lower.length ≠ q.length) :
    limitsError sel q upper lower res = .ub := by
  unfold limitsError
  cases hw : limitsWidth upper lower with
  | ub => rfl
  | ok w => rw [Outcome.bind_ok, if_pos]; tauto
  | throw =>
    exfalso
    have : ∀ (us : List ℝ) i, widthLoop lower us i ≠ .throw := by
      intro us
      induction us with
      | nil => intro i; simp [widthLoop]
      | cons u us ih =>
        intro i
        rw [widthLoop]
        have h1 := rd_ne_throw lower i
        have h2 := ih (i + 1)
        cases ha : rd lower i <;> cases hb : widthLoop lower us (i + 1) <;> simp_all
    exact this _ _ hw

/-- The error is in `[-1, 1]` exactly for the positions inside the limits, -1 exactly at the lower one and 1 exactly at the
upper one. -/
theorem C52_normalised (l u x : ℝ) (h : l < u) :
    (-1 ≤ normalised l u x ↔ l ≤ x) ∧ (normalised l u x ≤ 1 ↔ x ≤ u) ∧ (normalised l u x = -1 ↔ x = l) ∧
      (normalised l u x = 1 ↔ x = u) := by
  have hw : 0 < u - l := by linarith
  have hw' : u - l ≠ 0 := ne_of_gt hw
  have key : normalised l u x = 2 * ((x - l) / (u - l)) - 1 := by unfold normalised; ring
  refine ⟨?_, ?_, ?_, ?_⟩
  · rw [key]
    constructor
    · intro h1
      have : 0 ≤ (x - l) / (u - l) := by linarith
      rcases le_or_gt l x with h2 | h2
      · exact h2
      · exact absurd (div_neg_of_neg_of_pos (by linarith : x - l < 0) hw) (by linarith)
    · intro h1
      have : 0 ≤ (x - l) / (u - l) := div_nonneg (by linarith) hw.le
      linarith
  · rw [key]
    have : (x - l) / (u - l) ≤ 1 ↔ x - l ≤ u - l := div_le_one hw
    constructor
    · intro h1; have := this.mp (by linarith); linarith
    · intro h1; have := this.mpr (by linarith); linarith
  · rw [key]
    constructor
    · intro h1
      have h2 : (x - l) / (u - l) = 0 := by linarith
      rcases div_eq_zero_iff.mp h2 with h3 | h3
      · linarith
      · exact absurd h3 hw'
    · rintro rfl; simp
  · rw [key]
    constructor
    · intro h1
      have h2 : (x - l) / (u - l) = 1 := by linarith
      have := (div_eq_one_iff_eq hw').mp h2; linarith
    · rintro rfl; rw [div_self hw']; norm_num

/-- The error grows with the position. -/
theorem C52_monotone (l u x y : ℝ) (h : l < u) : normalised l u x < normalised l u y ↔ x < y := by
  have hw : 0 < u - l := by linarith
  unfold normalised
  rw [sub_lt_sub_iff_right, mul_lt_mul_iff_left₀ (by norm_num), div_lt_div_iff_of_pos_right hw]
  constructor <;> intro h <;> linarith

/-- The Jacobian has one row per selected joint, in order, with a single coefficient in the column of that joint. -/
theorem C52_jacobian_shape (tiny : ℝ) (sel : Nat → Bool) (n : Nat) (upper lower : List ℝ) (res : List (Nat × ℝ))
    (hu : upper.length = n) (hl : lower.length = n) (hres : res.length = limitsDim sel upper.length) :
    limitsJacobian tiny sel n upper lower res =
      .ok ((picked sel n).map fun i =>
        (i, if |upper.getD i 0 - lower.getD i 0| > tiny then 1 / (upper.getD i 0 - lower.getD i 0) else 1)) := by
  rw [limitsJacobian, limitsWidth_ok _ _ (by omega), Outcome.bind_ok]
  refine fillLoop_exact _ _ (fun k hk => ?_) (by rw [hres, limitsDim, countLoop_zero, hu])
  have hk' := (mem_picked.mp hk).1
  rw [rd_getD _ _ 0 (by simp; omega)]
  simp [List.getD, List.getElem?_range (show k < upper.length by omega)]

/-- The derivative of the error with respect to the position of the joint. -/
theorem C52_derivative (l u x : ℝ) : HasDerivAt (normalised l u) (2 / (u - l)) x := by
  have h := ((((hasDerivAt_id x).sub_const l).div_const (u - l)).mul_const 2).sub_const 1
  have e : 1 / (u - l) * 2 = 2 / (u - l) := by ring
  rw [e] at h
  exact h

/-- Expected: the coefficient of the Jacobian is the derivative of the error. What holds, for limits further apart than the
constant: the derivative is twice the coefficient. The missing part is false: see the next theorem. -/
theorem C52_jacobian_partial (tiny : ℝ) (sel : Nat → Bool) (n : Nat) (upper lower : List ℝ) (res : List (Nat × ℝ))
    (hu : upper.length = n) (hl : lower.length = n) (hres : res.length = limitsDim sel upper.length)
    (h : ∀ i ∈ picked sel n, |upper.getD i 0 - lower.getD i 0| > tiny) :
    ∃ J, limitsJacobian tiny sel n upper lower res = .ok J ∧ J.map Prod.fst = picked sel n ∧
      ∀ r ∈ J, ∀ x, HasDerivAt (normalised (lower.getD r.1 0) (upper.getD r.1 0)) (2 * r.2) x := by
  refine ⟨_, C52_jacobian_shape tiny sel n upper lower res hu hl hres, by simp [Function.comp_def], ?_⟩
  intro r hr x
  obtain ⟨i, hi, rfl⟩ := List.mem_map.mp hr
  simp only [if_pos (h i hi)]
  have := C52_derivative (lower.getD i 0) (upper.getD i 0) x
  rwa [show 2 * (1 / (upper.getD i 0 - lower.getD i 0)) = 2 / (upper.getD i 0 - lower.getD i 0) by ring]

/-- For no limits is a coefficient of the Jacobian the derivative of the error. -/
theorem C52_jacobian_counterexample (sel : Nat → Bool) (n : Nat) (upper lower : List ℝ) (res : List (Nat × ℝ))
    (hu : upper.length = n) (hl : lower.length = n) (hres : res.length = limitsDim sel upper.length)
    (h : ∀ i ∈ picked sel n, lower.getD i 0 < upper.getD i 0) :
    ∃ J, limitsJacobian (1 / 1000) sel n upper lower res = .ok J ∧
      ∀ r ∈ J, ∀ x, ¬ HasDerivAt (normalised (lower.getD r.1 0) (upper.getD r.1 0)) r.2 x := by
  refine ⟨_, C52_jacobian_shape _ sel n upper lower res hu hl hres, ?_⟩
  intro r hr x hd
  obtain ⟨i, hi, rfl⟩ := List.mem_map.mp hr
  have hi' := h i hi
  simp only at hd
  have := hd.unique (C52_derivative _ _ x)
  have hw : 0 < upper.getD i 0 - lower.getD i 0 := by linarith
  split_ifs at this with hc
  · rw [div_left_inj' (ne_of_gt hw)] at this; norm_num at this
  · rw [abs_of_pos hw] at hc
    rw [eq_div_iff (ne_of_gt hw)] at this
    linarith

/-- A concrete case: a joint in the middle of its range and one at its upper limit. -/
example : limitsError (fun _ => true) [(1 : ℝ), 3] [2, 3] [0, 1] [0, 0] = .ok [0, 1] := by
  rw [(C52_error (fun _ => true) [1, 3] [2, 3] [0, 1] [0, 0] rfl rfl rfl).2]
  simp [picked, List.range_succ, normalised]
  norm_num

end Verif.Features
