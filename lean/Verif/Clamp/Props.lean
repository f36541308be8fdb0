import Verif.Clamp.Model
import Verif.Geometry.Props

/-!
# Properties of the workspace clamp (C36)
-/

namespace Verif.Clamp

open Matrix Geometry

/-- Specification: the weight that selects the three translations. -/
def selectTranslation : Mat6 ℝ := fromBlocks 1 0 0 0

/-- Specification: the weight that selects the three rotations. -/
def selectRotation : Mat6 ℝ := fromBlocks 0 0 0 1

theorem conj_blocks {R : Matrix (Fin 3) (Fin 3) ℝ} (h : R⁻¹ * R = 1) (a b : ℝ) :
    twist (⟨R⁻¹, 0⟩ : Pose ℝ) * (Matrix.diagonal (Sum.elim (fun _ => a) (fun _ => b)) *
      twist ⟨R, 0⟩) = fromBlocks (a • 1) 0 0 (b • 1) := by
  have h0 : skew (0 : Fin 3 → ℝ) = 0 := by
    ext i j; fin_cases i <;> fin_cases j <;> simp [skew]
  have hd : (Matrix.diagonal (Sum.elim (fun _ : Fin 3 => a) (fun _ : Fin 3 => b)) : Mat6 ℝ)
      = fromBlocks (a • 1) 0 0 (b • 1) := by
    rw [← Matrix.fromBlocks_diagonal]
    congr 1 <;> ext i j <;> simp [Matrix.diagonal_apply, Matrix.one_apply]
  rw [hd]
  simp only [twist, h0, Matrix.zero_mul, Matrix.fromBlocks_multiply, Matrix.mul_zero, add_zero, zero_add,
    Matrix.smul_mul, Matrix.one_mul, Matrix.mul_smul, h, smul_zero]

/-- What the object looks like once updated. -/
structure Updated (s : State) (y : ℝ) : Prop where
  alpha : s.alpha = selectTranslation
  alphabar : s.alphabar = selectRotation
  hand : ∃ yaw, s.handref = some ⟨rpyToMatrix 0 (-(314159256 / 100000000) / 2) yaw,
      ![325 / 1000, -325 / 1000, 35 / 100]⟩ ∧
      (-(4 / 10) ≤ y ∧ y ≤ -(25 / 100) → -30 * (314159 / 100000) / 180 ≤ yaw ∧
        yaw ≤ 5 * (314159 / 100000) / 180)

/-- The parameters never change. -/
structure Params (s : State) : Prop where
  mode : s.mode = 1
  lo : s.lo = ![15 / 100, -4 / 10, 15 / 100]
  hi : s.hi = ![5 / 10, -25 / 100, 55 / 100]

theorem update_updated {s : State} {t : Int} {r p : Pose ℝ} (hs : Params s) (ht : s.timeUpdate < t)
    (hr : IsRot r.R) (hp : IsRot p.R) :
    Updated (update s t r p) ((r.inv.mul p).t 1) ∧ (update s t r p).timeUpdate = t := by
  have hrot : IsRot (r.inv.mul p).R := (hr.inv).mul hp
  have hinv : (r.inv.mul p).R⁻¹ * (r.inv.mul p).R = 1 := by rw [hrot.inv_eq]; exact hrot.1
  have hn : ¬ t ≤ s.timeUpdate := by omega
  unfold update
  rw [if_neg hn]
  refine ⟨⟨?_, ?_, ?_⟩, rfl⟩
  · have e : alphaDiag s (r.inv.mul p).t = Sum.elim (fun _ => 1) (fun _ => 0) := by
      funext i
      cases i <;> simp [alphaDiag, hs.mode]
    simp only [e, noTranslation]
    have := conj_blocks hinv 1 0
    simp only [one_smul, zero_smul] at this
    exact this
  · have e : alphabarDiag s (r.inv.mul p).t = Sum.elim (fun _ => 0) (fun _ => 1) := by
      funext i
      cases i <;> simp [alphabarDiag, hs.mode]
    simp only [e, noTranslation]
    have := conj_blocks hinv 0 1
    simp only [one_smul, zero_smul] at this
    exact this
  · refine ⟨-30 * (314159 / 100000) / 180 + (5 * (314159 / 100000) / 180 -
      -30 * (314159 / 100000) / 180) * ((r.inv.mul p).t 1 - s.lo 1) / (s.hi 1 - s.lo 1), ?_, ?_⟩
    · simp only [hs.lo, hs.hi]
      congr 2
      ext i
      fin_cases i <;> norm_num
    · rintro ⟨h1, h2⟩
      simp only [hs.lo, hs.hi]
      norm_num at *
      constructor <;> linarith

theorem update_params {s : State} {t : Int} {r p : Pose ℝ} (hs : Params s) : Params (update s t r p) := by
  unfold update
  split_ifs
  · exact hs
  · exact ⟨hs.mode, hs.lo, hs.hi⟩

theorem fresh_params : Params State.fresh := ⟨rfl, rfl, rfl⟩

theorem run_params {s : State} (es : List (Int × Pose ℝ × Pose ℝ)) (hs : Params s) :
    Params (run s es) := by
  induction es generalizing s with
  | nil => exact hs
  | cons e es ih => obtain ⟨t, r, p⟩ := e; exact ih (update_params hs)

theorem run_time (es : List (Int × Pose ℝ × Pose ℝ)) (s : State) (b : Int) (hb : s.timeUpdate ≤ b)
    (he : ∀ e ∈ es, e.1 ≤ b) : (run s es).timeUpdate ≤ b := by
  induction es generalizing s with
  | nil => exact hb
  | cons e es ih =>
    obtain ⟨t, r, p⟩ := e
    apply ih _ _ (fun e h => he e (by simp [h]))
    unfold update
    split_ifs
    · exact hb
    · exact he (t, r, p) (by simp)

theorem run_append (s : State) (a b : List (Int × Pose ℝ × Pose ℝ)) :
    run s (a ++ b) = run (run s a) b := by
  induction a generalizing s with
  | nil => rfl
  | cons e a ih => obtain ⟨t, r, p⟩ := e; exact ih _

/-- C36. Whatever the earlier evaluations, an evaluation at a positive time later than all of them, with
rigid poses, gives: a weight `alpha` that is the identity on translations and zero on rotations, a weight
`alphabar` that is zero on translations and the identity on rotations, whatever the relative orientation
of the two frames; and a reference pose that is rigid, located at the centre of the box, hence inside it. -/
theorem C36_outputs (es : List (Int × Pose ℝ × Pose ℝ)) (t : Int) (r p : Pose ℝ) (ht : 0 < t)
    (hlater : ∀ e ∈ es, e.1 < t) (hr : IsRot r.R) (hp : IsRot p.R) :
    let s := run State.fresh (es ++ [(t, r, p)])
    s.alpha = selectTranslation ∧ s.alphabar = selectRotation ∧
      ∃ m, s.handref = some m ∧ IsRot m.R ∧
        (15 / 100 ≤ m.t 0 ∧ m.t 0 ≤ 5 / 10) ∧ (-4 / 10 ≤ m.t 1 ∧ m.t 1 ≤ -25 / 100) ∧
        (15 / 100 ≤ m.t 2 ∧ m.t 2 ≤ 55 / 100) ∧
        m.t = fun i => (State.fresh.lo i + State.fresh.hi i) / 2 := by
  intro s
  have h1 : (run State.fresh es).timeUpdate < t := by
    have := run_time es State.fresh (t - 1) (by show (0 : Int) ≤ t - 1; omega)
      (fun e h => by have := hlater e h; omega)
    omega
  have h2 := (update_updated (run_params es fresh_params) h1 hr hp).1
  have hs : s = update (run State.fresh es) t r p := by
    show run State.fresh (es ++ [(t, r, p)]) = _
    rw [run_append]; rfl
  rw [hs]
  obtain ⟨yaw, hh, -⟩ := h2.hand
  refine ⟨h2.alpha, h2.alphabar, _, hh, (C71_rpy _ _ _).1, ?_⟩
  refine ⟨by norm_num, by norm_num, ⟨by simp; norm_num, by simp; norm_num⟩, ?_⟩
  funext i
  fin_cases i <;> norm_num [State.fresh]

/-- C36. The two weights are complementary projectors. -/
theorem C36_complementary :
    selectTranslation + selectRotation = 1 ∧ selectTranslation * selectRotation = 0 ∧
      selectTranslation * selectTranslation = selectTranslation ∧
      selectRotation * selectRotation = selectRotation := by
  simp [selectTranslation, selectRotation, Matrix.fromBlocks_add, Matrix.fromBlocks_multiply]

/-- C36. The yaw of the reference stays in its range `[-30°, 5°]` as long as the point is between the
bounds along `y`. -/
theorem C36_yaw_in_range (es : List (Int × Pose ℝ × Pose ℝ)) (t : Int) (r p : Pose ℝ) (ht : 0 < t)
    (hlater : ∀ e ∈ es, e.1 < t) (hr : IsRot r.R) (hp : IsRot p.R)
    (hy : -(4 / 10) ≤ (r.inv.mul p).t 1 ∧ (r.inv.mul p).t 1 ≤ -(25 / 100)) :
    ∃ yaw pd, (run State.fresh (es ++ [(t, r, p)])).handref =
        some ⟨rpyToMatrix 0 (-(314159256 / 100000000) / 2) yaw, pd⟩ ∧
      -30 * (314159 / 100000) / 180 ≤ yaw ∧ yaw ≤ 5 * (314159 / 100000) / 180 := by
  have h1 : (run State.fresh es).timeUpdate < t := by
    have := run_time es State.fresh (t - 1) (by show (0 : Int) ≤ t - 1; omega)
      (fun e h => by have := hlater e h; omega)
    omega
  have h2 := (update_updated (run_params es fresh_params) h1 hr hp).1
  obtain ⟨yaw, hh, hy'⟩ := h2.hand
  refine ⟨yaw, ![325 / 1000, -325 / 1000, 35 / 100], ?_, hy' hy⟩
  rw [run_append]
  exact hh

/-- C36, disagreement. At times up to 0 nothing is computed: `alpha` is zero, `alphabar` is filled with
ones (not the identity) and the reference is not initialised. -/
theorem C36_time_zero_counterexample (t : Int) (ht : t ≤ 0) (r p : Pose ℝ) :
    let s := run State.fresh [(t, r, p)]
    s.alpha = 0 ∧ s.alphabar (.inl 0) (.inr 2) = 1 ∧ s.alpha + s.alphabar ≠ 1 ∧ s.handref = none := by
  intro s
  have hs : s = State.fresh := by
    show update State.fresh t r p = _
    unfold update
    exact if_pos ht
  rw [hs]
  refine ⟨rfl, rfl, ?_, rfl⟩
  intro h
  have := congrFun (congrFun h (.inl 0)) (.inr 2)
  simp [State.fresh] at this

/-- C36, disagreement in code that no command can reach: in mode 2 the complement is computed from the
wrong coefficient, so that the two weights do not add up to the identity. -/
theorem C36_mode2_counterexample :
    let s := update { State.fresh with mode := 2 } 1 Pose.one Pose.one
    s.alpha (.inl 1) (.inl 1) = 1 ∧ s.alphabar (.inl 1) (.inl 1) = 1 := by
  intro s
  have hx : (Pose.one : Pose ℝ).mul Pose.one = Pose.one := by
    ext i j <;> simp [Pose.mul, Pose.one]
  have hi : (Pose.one : Pose ℝ).inv = Pose.one := by
    ext i j <;> simp [Pose.inv, Pose.one]
  have h0 : skew (0 : Fin 3 → ℝ) = 0 := by
    ext i j; fin_cases i <;> fin_cases j <;> simp [skew]
  have ht : twist (noTranslation (Pose.one : Pose ℝ)) = 1 := by
    simp [twist, noTranslation, Pose.one, h0]
  have hd : dist { State.fresh with mode := 2 } (Pose.one : Pose ℝ).t 1 = 0 := by
    norm_num [dist, Pose.one, State.fresh]
  have hrat : ratio 0 (19 / 1000) (25 / 1000) = 0 := by
    norm_num [ratio]
  have hu : s = { State.fresh with
      mode := 2, timeUpdate := 1
      alpha := Matrix.diagonal (alphaDiag { State.fresh with mode := 2 } (Pose.one : Pose ℝ).t)
      alphabar := Matrix.diagonal (alphabarDiag { State.fresh with mode := 2 } (Pose.one : Pose ℝ).t)
      handref := s.handref } := by
    show update _ _ _ _ = _
    have hh : s = update { State.fresh with mode := 2 } 1 Pose.one Pose.one := rfl
    rw [hh]
    unfold update
    rw [if_neg (by simp [State.fresh])]
    simp only [hx, hi, ht, Matrix.one_mul, Matrix.mul_one]
  rw [hu]
  simp only [Matrix.diagonal_apply_eq]
  refine ⟨?_, ?_⟩
  · simp only [alphaDiag, hd, hrat]
    simp [weight]
  · simp [alphabarDiag]

/-- The hypotheses are met: identity poses at tick 1, then a quarter turn at tick 2. -/
example : ∀ e ∈ [((1 : Int), (Pose.one : Pose ℝ), (Pose.one : Pose ℝ))], e.1 < 2 := by simp

example : IsRot (Pose.one : Pose ℝ).R := isRot_one

end Verif.Clamp
