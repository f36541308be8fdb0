import Verif.Reach.Model
import Mathlib.Analysis.SpecialFunctions.Trigonometric.DerivHyp
import Mathlib.Tactic.Linarith
import Mathlib.Tactic.Ring
import Mathlib.Tactic.NormNum
import Mathlib.Tactic.FieldSimp
import Mathlib.Tactic.SplitIfs
import Mathlib.Tactic.Positivity
import Mathlib.Order.Interval.Set.Basic

/-!
# Properties of the smooth reach (C40)
-/

namespace Verif.Reach

theorem tanh_strictMono : StrictMono Real.tanh := by
  intro x y h
  rw [Real.tanh_eq_sinh_div_cosh, Real.tanh_eq_sinh_div_cosh,
    div_lt_div_iff₀ (Real.cosh_pos x) (Real.cosh_pos y)]
  have h1 : 0 < Real.sinh (y - x) := Real.sinh_pos_iff.mpr (by linarith)
  rw [Real.sinh_sub] at h1
  linarith

theorem arg_lt {p x y : ℝ} (hp : 0 < p) (hx : 0 < x) (hxy : x < y) (hy : y < 1) :
    -p / x + p / (1 - x) < -p / y + p / (1 - y) := by
  have h1 : p / y < p / x := div_lt_div_of_pos_left hp hx hxy
  have h2 : p / (1 - x) < p / (1 - y) := div_lt_div_of_pos_left hp (by linarith) (by linarith)
  rw [neg_div, neg_div]
  linarith

/-- The value of a successful squashing. -/
noncomputable def sq (f : ℝ → ℝ) (p x : ℝ) : ℝ :=
  if x = 0 then 0 else if x = 1 then 1 else f (-p / x + p / (1 - x))

theorem squash_eq {f : ℝ → ℝ} {p x : ℝ} (hp : 0 < p) : squash f p x = .ok (sq f p x) := by
  unfold squash sq
  split_ifs <;> rfl

theorem sq_strictMono {f : ℝ → ℝ} {p : ℝ} (hp : 0 < p) (hf : StrictMono f)
    (h0 : ∀ y, 0 < f y) (h1 : ∀ y, f y < 1) : StrictMonoOn (sq f p) (Set.Icc 0 1) := by
  intro x hx y hy hxy
  have hx0 := hx.1
  have hy1 := hy.2
  unfold sq
  by_cases ex : x = 0
  · subst ex
    rw [if_pos rfl, if_neg hxy.ne']
    split_ifs
    · exact one_pos
    · exact h0 _
  · rw [if_neg ex, if_neg (by linarith), if_neg (by
      intro h; rw [h] at hxy; exact absurd hx0 (not_le.mpr hxy))]
    split_ifs with ey
    · exact h1 _
    · exact hf (arg_lt hp (lt_of_le_of_ne hx0 (Ne.symm ex)) hxy (lt_of_le_of_ne hy1 ey))

/-- The smoothing modes the documentation offers. -/
def GoodMode (mode : Int) (param : ℝ) : Prop := mode = 0 ∨ ((mode = 1 ∨ mode = 2) ∧ 0 < param)

theorem smooth_shape {s : State} (h : GoodMode s.mode s.param) : ∃ f : ℝ → ℝ,
    (∀ x, smoothFunction s x = .ok (f x)) ∧ f 0 = 0 ∧ f 1 = 1 ∧ StrictMonoOn f (Set.Icc 0 1) := by
  rcases h with h | ⟨h | h, hp⟩
  · exact ⟨id, fun x => by simp [smoothFunction, h], rfl, rfl, fun x _ y _ hxy => hxy⟩
  · refine ⟨sq (fun y => Real.tanh y / 2 + 1 / 2) s.param, fun x => ?_, by simp [sq], by simp [sq], ?_⟩
    · simp [smoothFunction, h, squash_eq hp]
    · refine sq_strictMono hp ?_ ?_ ?_
      · intro x y hxy
        have := tanh_strictMono hxy
        show Real.tanh x / 2 + 1 / 2 < Real.tanh y / 2 + 1 / 2
        linarith
      · intro y
        have := Real.neg_one_lt_tanh y
        show 0 < Real.tanh y / 2 + 1 / 2
        linarith
      · intro y
        have := Real.tanh_lt_one y
        show Real.tanh y / 2 + 1 / 2 < 1
        linarith
  · refine ⟨sq (fun y => Real.arctan y / Real.pi + 1 / 2) s.param, fun x => ?_, by simp [sq],
      by simp [sq], ?_⟩
    · simp [smoothFunction, h, squash_eq hp]
    · have hpi := Real.pi_pos
      refine sq_strictMono hp ?_ ?_ ?_
      · intro x y hxy
        have := div_lt_div_of_pos_right (Real.arctan_strictMono hxy) hpi
        show Real.arctan x / Real.pi + 1 / 2 < Real.arctan y / Real.pi + 1 / 2
        linarith
      · intro y
        have h1 := Real.neg_pi_div_two_lt_arctan y
        have : -(1 / 2) < Real.arctan y / Real.pi := by
          rw [lt_div_iff₀ hpi]; linarith
        show 0 < Real.arctan y / Real.pi + 1 / 2
        linarith
      · intro y
        have h1 := Real.arctan_lt_pi_div_two y
        have : Real.arctan y / Real.pi < 1 / 2 := by
          rw [div_lt_iff₀ hpi]; linarith
        show Real.arctan y / Real.pi + 1 / 2 < 1
        linarith

/-- The point of the segment from `a` to `b` at fraction `r`, coordinate by coordinate. -/
noncomputable def onSegment (a b : List ℝ) (r : ℝ) : List ℝ :=
  List.zipWith (fun x y => x + r * (y - x)) a b

theorem onSegment_zero {a b : List ℝ} (h : a.length = b.length) : onSegment a b 0 = a := by
  unfold onSegment
  apply List.ext_getElem
  · simp [h]
  · intro i h1 h2; simp

theorem onSegment_one {a b : List ℝ} (h : a.length = b.length) : onSegment a b 1 = b := by
  unfold onSegment
  apply List.ext_getElem
  · simp [h]
  · intro i h1 h2; simp

/-- The motion under way: sampled at `t0` from `v`. -/
structure Moving (s : State) (v g : List ℝ) (t0 len : Int) (f : ℝ → ℝ) : Prop where
  start : s.start = v
  goal : s.goal = g
  t : s.startTime = t0
  l : s.lengthTime = len
  started : s.isStarted = true
  param : s.isParam = false
  fn : ∀ x, smoothFunction s x = .ok (f x)

/-- Progress at time `t`. -/
noncomputable def prog (f : ℝ → ℝ) (t0 len t : Int) : ℝ :=
  f (if ((t - t0 : Int) : ℝ) / (len : ℝ) > 1 then 1 else ((t - t0 : Int) : ℝ) / (len : ℝ))

theorem goalSOUT_moving {s : State} {v g : List ℝ} {t0 len : Int} {f : ℝ → ℝ}
    (h : Moving s v g t0 len f) (hl : len ≠ 0) (hs : v.length = g.length) (w : List ℝ) (t : Int) :
    goalSOUT s w t = .ok (s, some (onSegment v g (prog f t0 len t))) := by
  have e : sample s w t = s := by simp [sample, h.param]
  unfold goalSOUT
  simp only [e]
  rw [if_pos h.started]
  have ha : abscissa s t = .ok (if ((t - t0 : Int) : ℝ) / (len : ℝ) > 1 then 1
      else ((t - t0 : Int) : ℝ) / (len : ℝ)) := by
    unfold abscissa
    rw [h.l, if_neg hl, h.t]
  rw [ha]
  simp only [Outcome.bind_ok, h.fn]
  rw [if_pos (by rw [h.start, h.goal, hs]), h.start, h.goal]
  congr 3
  unfold onSegment prog
  congr 1
  funext x y
  ring

theorem evals_moving {s : State} {v g : List ℝ} {t0 len : Int} {f : ℝ → ℝ}
    (h : Moving s v g t0 len f) (hl : len ≠ 0) (hs : v.length = g.length) (es : List (Int × List ℝ)) :
    evals s es = .ok (s, es.map fun e => some (onSegment v g (prog f t0 len e.1))) := by
  induction es with
  | nil => rfl
  | cons e es ih =>
    obtain ⟨t, w⟩ := e
    rw [evals, goalSOUT_moving h hl hs, Outcome.bind_ok, ih]
    rfl

/-- C40. From any state of the entity, after `param` chose one of the three documented modes (the last
two with a positive parameter) and `set(goal, len)` with a positive duration, a sequence of evaluations
that starts at `t0` with a start `v` of the size of the goal succeeds; at time `t` the output is the point
of the segment from `v` to the goal at fraction `r t`, where `r` depends on the time only, is 0 at `t0`,
strictly increases until `t0 + len`, and is 1 at `t0 + len` and ever after. Later values of the start
input are ignored. -/
theorem C40_reach (s : State) (g v : List ℝ) (len t0 : Int) (es : List (Int × List ℝ))
    (hm : GoodMode s.mode s.param) (hlen : 0 < len) (hsz : v.length = g.length) :
    ∃ (s' : State) (r : Int → ℝ),
      evals (set s g len) ((t0, v) :: es) =
        .ok (s', ((t0, v) :: es).map fun e => some (onSegment v g (r e.1))) ∧
      r t0 = 0 ∧ (∀ a b, t0 ≤ a → a < b → b ≤ t0 + len → r a < r b) ∧ (∀ t, t0 + len ≤ t → r t = 1) := by
  obtain ⟨f, hf, f0, f1, fm⟩ := smooth_shape hm
  have hl' : (0 : ℝ) < (len : ℝ) := by exact_mod_cast hlen
  have hmv : Moving (sample (set s g len) v t0) v g t0 len f := by
    refine ⟨?_, ?_, ?_, ?_, ?_, ?_, ?_⟩ <;> try simp [sample, set]
    intro x
    rw [← hf x]
    rfl
  have hfirst : evals (set s g len) ((t0, v) :: es)
      = evals (sample (set s g len) v t0) ((t0, v) :: es) := by
    have : goalSOUT (set s g len) v t0 = goalSOUT (sample (set s g len) v t0) v t0 := by
      unfold goalSOUT
      simp [sample, set]
    rw [evals, evals, this]
  have hmid : ∀ t, t ≤ t0 + len → prog f t0 len t = f (((t - t0 : Int) : ℝ) / (len : ℝ)) := by
    intro t ht
    unfold prog
    rw [if_neg]
    rw [gt_iff_lt, not_lt, div_le_one hl']
    exact_mod_cast (by omega : t - t0 ≤ len)
  refine ⟨sample (set s g len) v t0, prog f t0 len, ?_, ?_, ?_, ?_⟩
  · rw [hfirst, evals_moving hmv hlen.ne' hsz]
  · rw [hmid t0 (by omega)]; simp [f0]
  · intro a b ha hab hb
    rw [hmid a (by omega), hmid b hb]
    have h1 : (0 : ℝ) ≤ ((a - t0 : Int) : ℝ) / (len : ℝ) := by
      apply div_nonneg _ hl'.le
      exact_mod_cast (by omega : (0 : Int) ≤ a - t0)
    have h2 : ((b - t0 : Int) : ℝ) / (len : ℝ) ≤ 1 := by
      rw [div_le_one hl']
      exact_mod_cast (by omega : b - t0 ≤ len)
    have h3 : ((a - t0 : Int) : ℝ) / (len : ℝ) < ((b - t0 : Int) : ℝ) / (len : ℝ) := by
      apply div_lt_div_of_pos_right _ hl'
      exact_mod_cast (by omega : a - t0 < b - t0)
    exact fm ⟨h1, by linarith⟩ ⟨by linarith, h2⟩ h3
  · intro t ht
    rcases eq_or_lt_of_le ht with h | h
    · rw [hmid t (by omega), ← h, show t0 + len - t0 = len by omega, div_self hl'.ne', f1]
    · unfold prog
      rw [if_pos, f1]
      rw [gt_iff_lt, one_lt_div hl']
      exact_mod_cast (by omega : len < t - t0)

/-- C40. The end points of the segment are the start and the goal themselves. -/
theorem C40_endpoints (v g : List ℝ) (h : v.length = g.length) :
    onSegment v g 0 = v ∧ onSegment v g 1 = g := ⟨onSegment_zero h, onSegment_one h⟩

/-- C40, precondition. A motion of zero duration has no finite output at its first evaluation. -/
theorem C40_zero_duration_undefined (s : State) (g v : List ℝ) (t0 : Int) :
    goalSOUT (set s g 0) v t0 = .ub := by
  simp [goalSOUT, sample, set, abscissa]

/-- C40, precondition. Any other mode stays at the start for ever: the goal is never reached. -/
theorem C40_other_mode_stays (s : State) (g v : List ℝ) (len t0 : Int) (es : List (Int × List ℝ))
    (hm : s.mode ≠ 0 ∧ s.mode ≠ 1 ∧ s.mode ≠ 2) (hlen : len ≠ 0) (hsz : v.length = g.length) :
    ∃ s', evals (set s g len) ((t0, v) :: es) = .ok (s', ((t0, v) :: es).map fun _ => some v) := by
  have hmv : Moving (sample (set s g len) v t0) v g t0 len (fun _ => 0) := by
    refine ⟨?_, ?_, ?_, ?_, ?_, ?_, ?_⟩ <;> try simp [sample, set]
    intro x
    simp [smoothFunction, hm.1, hm.2.1, hm.2.2]
  have hfirst : evals (set s g len) ((t0, v) :: es)
      = evals (sample (set s g len) v t0) ((t0, v) :: es) := by
    have : goalSOUT (set s g len) v t0 = goalSOUT (sample (set s g len) v t0) v t0 := by
      unfold goalSOUT
      simp [sample, set]
    rw [evals, evals, this]
  refine ⟨sample (set s g len) v t0, ?_⟩
  rw [hfirst, evals_moving hmv hlen hsz]
  congr 2
  apply List.map_congr_left
  intro e _
  rw [show prog (fun _ => 0) t0 len e.1 = 0 from rfl, onSegment_zero hsz]

/-- The default mode and parameter of the constructor meet the hypothesis of `C40_reach`. -/
example : GoodMode State.fresh.mode State.fresh.param := by
  refine Or.inr ⟨Or.inr rfl, ?_⟩
  norm_num [State.fresh]

/-- A linear motion from 0 to 4 in 4 ticks, read at ticks 7, 8 and 30. -/
example : ∃ s', evals (set (setSmoothing State.fresh 0 1) [4] 4) [(7, [0]), (8, [5]), (30, [6])]
    = .ok (s', [some [0], some [1], some [4]]) := by
  have hm : GoodMode (setSmoothing State.fresh 0 1).mode (setSmoothing State.fresh 0 1).param := Or.inl rfl
  have hmv : Moving (sample (set (setSmoothing State.fresh 0 1) [4] 4) [0] 7) [0] [4] 7 4 id := by
    refine ⟨?_, ?_, ?_, ?_, ?_, ?_, ?_⟩ <;> try simp [sample, set]
    intro x
    simp [smoothFunction, setSmoothing]
  have hfirst : evals (set (setSmoothing State.fresh 0 1) [4] 4) [(7, [0]), (8, [5]), (30, [6])]
      = evals (sample (set (setSmoothing State.fresh 0 1) [4] 4) [0] 7)
        [(7, [0]), (8, [5]), (30, [6])] := by
    rw [evals, evals]
    congr 1
  refine ⟨sample (set (setSmoothing State.fresh 0 1) [4] 4) [0] 7, ?_⟩
  rw [hfirst, evals_moving hmv (by norm_num) rfl]
  simp only [List.map_cons, List.map_nil, onSegment, prog, List.zipWith_cons_cons,
    List.zipWith_nil_left]
  norm_num

end Verif.Reach
