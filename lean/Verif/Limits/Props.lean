import Verif.Limits.Model
import Mathlib.Tactic.Linarith
import Mathlib.Tactic.NormNum
import Mathlib.Tactic.Ring
import Mathlib.Tactic.SplitIfs
import Mathlib.Tactic.Positivity
import Mathlib.Data.Rat.Defs
import Mathlib.Algebra.Order.Ring.Rat
import Mathlib.Algebra.Order.Ring.Abs

/-!
# Properties of the neck limitation (C37) and of the joint limitator (C38)
-/
set_option linter.unusedSectionVars false

namespace Verif.Limits

variable {F : Type} [Field F] [LinearOrder F] [IsStrictOrderedRing F]

/-! ## C37: neck limitation -/

/-- The roof-shaped constraint `tilt ≤ a |pan| + b`, written as the two linear ones. -/
def NeckOk (a b pan tilt : F) : Prop := tilt ≤ a * pan + b ∧ tilt ≤ -a * pan + b

/-- C37 (shape of the output). Whatever the joint vector long enough to hold both joints, the call
succeeds; only the tilt changes, and it never increases. -/
theorem C37_only_tilt_reduced (j : List F) (hj : 16 ≤ j.length) :
    ∃ r, neckLimit Neck.fresh j = .ok r ∧ r.length = j.length ∧
      (∀ i, i ≠ 15 → r[i]? = j[i]?) ∧
      ∀ t t', j[15]? = some t → r[15]? = some t' → t' ≤ t := by
  have h14 : 14 < j.length := by omega
  have h15 : 15 < j.length := by omega
  refine ⟨_, by simp [neckLimit, Neck.fresh, rd_of_lt j 14 h14, rd_of_lt j 15 h15]; rfl, by simp, ?_, ?_⟩
  · intro i hi
    by_cases h : i = 14
    · subst h
      simp [h14]
    · rw [List.getElem?_set_ne (by omega), List.getElem?_set_ne (by omega)]
  · intro t t' ht ht'
    rw [List.getElem?_eq_getElem h15] at ht
    rw [List.getElem?_set_ne (by omega), List.getElem?_set_self h15] at ht'
    simp only [Option.some.injEq] at ht ht'
    subst ht ht'
    unfold limitTilt
    simp only [mul_one, one_mul]
    split_ifs <;> linarith

/-- C37 (partial). For `|pan| ≥ 0.001` and for `pan = 0`, the output satisfies both linear constraints;
for any other pan it exceeds them by less than `25/42 × 0.001`. Missing: the exact constraint close to
`pan = 0`, which fails, see `C37_small_pan_counterexample`. -/
theorem C37_constraint_partial (j : List F) (hj : 16 ≤ j.length) (r : List F)
    (h : neckLimit Neck.fresh j = .ok r) (pan tilt : F) (hp : r[14]? = some pan)
    (ht : r[15]? = some tilt) :
    ((1 / 1000 ≤ |pan| ∨ pan = 0) → NeckOk (-25 / 42) (6981 / 10000) pan tilt) ∧
      NeckOk (-25 / 42) (6981 / 10000 + 25 / 42 * (1 / 1000)) pan tilt := by
  have h14 : 14 < j.length := by omega
  have h15 : 15 < j.length := by omega
  simp only [neckLimit, Neck.fresh, rd_of_lt j 14 h14, rd_of_lt j 15 h15, Outcome.bind_ok,
    Outcome.map_ok, Outcome.ok.injEq] at h
  subst h
  rw [List.getElem?_set_ne (by omega), List.getElem?_set_self h15] at ht
  rw [List.getElem?_set_self (by simpa using h14)] at hp
  simp only [Option.some.injEq] at ht hp
  rw [hp] at ht
  subst ht
  generalize j[15] = t
  unfold limitTilt NeckOk
  simp only [mul_one, one_mul]
  rcases abs_cases pan with ⟨e, h0⟩ | ⟨e, h0⟩
  · rw [e]
    refine ⟨?_, ?_⟩
    · rintro (hh | hh)
      · have : ¬ pan < 1 / 1000 := not_lt.mpr hh
        have h1 : 0 < pan := lt_of_lt_of_le (by norm_num) hh
        rw [if_neg this, if_pos h1]
        split_ifs <;> constructor <;> linarith
      · subst hh
        norm_num
        split_ifs <;> linarith
    · split_ifs <;> constructor <;> linarith
  · rw [e]
    refine ⟨?_, ?_⟩
    · rintro (hh | hh)
      · have : ¬ -pan < 1 / 1000 := not_lt.mpr hh
        rw [if_neg this, if_neg (by linarith)]
        split_ifs <;> constructor <;> linarith
      · subst hh
        exact absurd h0 (lt_irrefl _)
    · split_ifs <;> constructor <;> linarith

/-- C37. A joint vector that already satisfies both constraints comes out unchanged. -/
theorem C37_unchanged_when_ok (j : List F) (pan tilt : F) (hp : j[14]? = some pan)
    (ht : j[15]? = some tilt) (hok : NeckOk (-25 / 42) (6981 / 10000) pan tilt) :
    neckLimit Neck.fresh j = .ok j := by
  have hl : limitTilt (Neck.fresh : Neck F) pan tilt = tilt := by
    obtain ⟨h1, h2⟩ := hok
    unfold limitTilt Neck.fresh
    simp only [mul_one, one_mul]
    rcases abs_cases pan with ⟨e, h0⟩ | ⟨e, h0⟩ <;> rw [e] <;> split_ifs <;> linarith
  have a : rd j 14 = .ok pan := rd_eq_ok.mpr hp
  have b : rd j 15 = .ok tilt := rd_eq_ok.mpr ht
  simp only [neckLimit]
  rw [show (Neck.fresh : Neck F).panRank = 14 from rfl, show (Neck.fresh : Neck F).tiltRank = 15 from rfl,
    a, b]
  simp only [Outcome.bind_ok, Outcome.map_ok, hl, Outcome.ok.injEq]
  apply List.ext_getElem?
  intro i
  by_cases h14 : i = 14
  · subst h14
    rw [List.getElem?_set_self (by simpa using (List.getElem?_eq_some_iff.mp hp).1), hp]
  · rw [List.getElem?_set_ne (by omega)]
    by_cases h15 : i = 15
    · subst h15
      rw [List.getElem?_set_self ((List.getElem?_eq_some_iff.mp ht).1), ht]
    · rw [List.getElem?_set_ne (by omega)]

/-- C37, disagreement. For a small non-zero pan (`|pan| < 0.001`) the output can violate the constraint:
the flat limit `tilt ≤ 0.6981` is used there, so that the limited tilt jumps. -/
theorem C37_small_pan_counterexample : ∃ j r : List ℚ, neckLimit Neck.fresh j = .ok r ∧
    ∃ pan tilt : ℚ, r[14]? = some pan ∧ r[15]? = some tilt ∧
      ¬ NeckOk (-25 / 42) (6981 / 10000) pan tilt :=
  ⟨List.replicate 14 0 ++ [9 / 10000, 1], List.replicate 14 0 ++ [9 / 10000, 6981 / 10000],
    by decide +kernel, 9 / 10000, 6981 / 10000, by decide +kernel, by decide +kernel, by
      rintro ⟨h, -⟩
      norm_num at h⟩

/-- C37. A vector with fewer than 16 joints is read out of range: the ranks are not checked. -/
theorem C37_short_vector_ub (j : List F) (hj : j.length < 16) : neckLimit Neck.fresh j = .ub := by
  unfold neckLimit
  rw [show (Neck.fresh : Neck F).panRank = 14 from rfl, show (Neck.fresh : Neck F).tiltRank = 15 from rfl]
  by_cases h : j.length ≤ 14
  · rw [rd_eq_ub.mpr h]; rfl
  · rw [rd_of_lt j 14 (by omega), rd_eq_ub.mpr (by omega)]; rfl

/-- A vector that must be limited and one that must not. -/
example : neckLimit (Neck.fresh : Neck ℚ) (List.replicate 14 0 ++ [-42 / 100, 1, 7])
      = .ok (List.replicate 14 0 ++ [-42 / 100, 4481 / 10000, 7]) ∧
    neckLimit (Neck.fresh : Neck ℚ) (List.replicate 14 0 ++ [42 / 100, 4 / 10])
      = .ok (List.replicate 14 0 ++ [42 / 100, 4 / 10]) := by decide +kernel

/-! ## C38: joint limitator -/

section AnyNumbers

variable {F : Type} [Zero F] [OfNat F 5] [OfNat F 1000] [Add F] [Mul F] [Div F] [LT F] [DecidableLT F]

theorem limitOne_ok {q up lo : List F} {k : Nat} {u a b c : F} (hq : q[k]? = some a)
    (hu : up[k]? = some b) (hl : lo[k]? = some c) :
    limitOne q up lo k u = .ok (if k < 6 ∨ (c < a + u * (5 / 1000) ∧ a + u * (5 / 1000) < b)
      then u else 0) := by
  unfold limitOne
  rw [rd_eq_ok.mpr hq, rd_eq_ok.mpr hu, rd_eq_ok.mpr hl]
  simp only [Outcome.bind_ok, Outcome.map_ok]
  grind

theorem limitLoop_ok {q up lo : List F} : ∀ (us : List F) (k : Nat),
    k + us.length ≤ q.length → k + us.length ≤ up.length → k + us.length ≤ lo.length →
    ∃ r, limitLoop q up lo k us = .ok r ∧ r.length = us.length ∧
      ∀ (i : Nat) u a b c, us[i]? = some u → q[k + i]? = some a → up[k + i]? = some b →
        lo[k + i]? = some c → r[i]? = some (if k + i < 6 ∨
          (c < a + u * (5 / 1000) ∧ a + u * (5 / 1000) < b) then u else 0) := by
  intro us
  induction us with
  | nil => intro k _ _ _; exact ⟨[], rfl, rfl, by simp⟩
  | cons u us ih =>
    intro k h1 h2 h3
    simp only [List.length_cons] at h1 h2 h3
    obtain ⟨r, hr, hrl, hs⟩ := ih (k + 1) (by omega) (by omega) (by omega)
    have h0 := limitOne_ok (u := u) (List.getElem?_eq_getElem (show k < q.length by omega))
      (List.getElem?_eq_getElem (show k < up.length by omega))
      (List.getElem?_eq_getElem (show k < lo.length by omega))
    refine ⟨_ :: r, by rw [limitLoop, h0, hr]; rfl, by simp [hrl], ?_⟩
    intro i u' a b c e1 e2 e3 e4
    cases i with
    | zero =>
      simp only [Nat.add_zero, List.getElem?_cons_zero, Option.some.injEq] at e1 e2 e3 e4 ⊢
      rw [List.getElem?_eq_getElem (by omega)] at e2 e3 e4
      simp only [Option.some.injEq] at e2 e3 e4
      rw [e1, e2, e3, e4]
    | succ i =>
      simp only [List.getElem?_cons_succ] at e1 ⊢
      have := hs i u' a b c e1 (by rw [← e2]; congr 1; omega) (by rw [← e3]; congr 1; omega)
        (by rw [← e4]; congr 1; omega)
      rw [this]
      congr 2
      rw [show k + 1 + i = k + (i + 1) by omega]

/-- C38. For a state, bounds of the size of the state, and a control for its last components: the call
succeeds and each component of the output is the input velocity if the joint is one of the six of the
free flyer or if its position one period later (5 ms) is strictly inside its bounds, and zero otherwise. -/
theorem C38_limited_control (q up lo u : List F) (hu : u.length ≤ q.length)
    (h1 : up.length = q.length) (h2 : lo.length = q.length) :
    ∃ r, computeControl q up lo u = .ok r ∧ r.length = u.length ∧
      ∀ (i : Nat) ui qi upi loi, u[i]? = some ui →
        q[q.length - u.length + i]? = some qi → up[q.length - u.length + i]? = some upi →
        lo[q.length - u.length + i]? = some loi →
        r[i]? = some (if q.length - u.length + i < 6 ∨
          (loi < qi + ui * (5 / 1000) ∧ qi + ui * (5 / 1000) < upi) then ui else 0) := by
  obtain ⟨r, hr, hl, hs⟩ := limitLoop_ok (q := q) (up := up) (lo := lo) u (q.length - u.length)
    (by omega) (by omega) (by omega)
  exact ⟨r, by rw [computeControl, if_pos hu, hr], hl, hs⟩

end AnyNumbers

/-- C38. From a position strictly inside the bounds, applying the output for one period keeps every
limited joint strictly inside them. -/
theorem C38_stays_inside (q up lo u r : List F) (hu : u.length ≤ q.length)
    (h1 : up.length = q.length) (h2 : lo.length = q.length)
    (h : computeControl q up lo u = .ok r) (i : Nat) (ri qi upi loi : F)
    (hr : r[i]? = some ri) (hk : 6 ≤ q.length - u.length + i)
    (hq : q[q.length - u.length + i]? = some qi) (hup : up[q.length - u.length + i]? = some upi)
    (hlo : lo[q.length - u.length + i]? = some loi) (hin : loi < qi ∧ qi < upi) :
    loi < qi + ri * (5 / 1000) ∧ qi + ri * (5 / 1000) < upi := by
  obtain ⟨r', e, hl, hs⟩ := C38_limited_control q up lo u hu h1 h2
  rw [h] at e
  cases e
  have hi : i < u.length := by rw [← hl]; exact (List.getElem?_eq_some_iff.mp hr).1
  have := hs i u[i] qi upi loi (List.getElem?_eq_getElem hi) hq hup hlo
  rw [hr] at this
  simp only [Option.some.injEq] at this
  subst this
  split_ifs with hc
  · rcases hc with hc | hc
    · omega
    · exact hc
  · simpa using hin

/-- C38. The range width is the difference of the bounds, component by component. -/
theorem C38_width (up lo : List F) (h : up.length ≤ lo.length) :
    computeWidth up lo = .ok (List.zipWith (· - ·) up lo) := by
  have key : ∀ (us : List F) (i : Nat), i + us.length ≤ lo.length →
      widthLoop lo i us = .ok (List.zipWith (· - ·) us (lo.drop i)) := by
    intro us
    induction us with
    | nil => intro i _; simp [widthLoop]
    | cons u us ih =>
      intro i hi
      simp only [List.length_cons] at hi
      have hl : i < lo.length := by omega
      rw [widthLoop, rd_of_lt lo i hl, ih (i + 1) (by omega), List.drop_eq_getElem_cons hl]
      rfl
  simpa [computeWidth] using key up 0 (by omega)

/-- A state of 8 joints with a control for the last 3: a free-flyer joint passes, a joint about to leave
its range is stopped, the last one moves. -/
example : computeControl [0, 0, 0, 0, 0, 0, 1, (1 : ℚ)] [0, 0, 0, 0, 0, 0, 2, 2]
    [0, 0, 0, 0, 0, 0, 0, 0] [1000, 200, 199] = .ok [1000, 0, 199] ∧
    computeWidth [3, (2 : ℚ)] [1, 5, 9] = .ok [2, -3] := by decide +kernel

end Verif.Limits
