import Verif.Loop.Pd

/-!
# C153: when a posture is reached by a task with a derivative term
-/

namespace Verif.Loop

open Matrix Verif.Sot Verif.Features Verif.Device Filter Topology

/-- The error and the one before, from rest. -/
def errs (a b e0 : ℝ) : Nat → ℝ × ℝ
  | 0 => (e0, e0)
  | k + 1 => (a * (errs a b e0 k).1 + b * (errs a b e0 k).2, (errs a b e0 k).1)

theorem errs_rec (a b e0 : ℝ) (k : Nat) : (errs a b e0 (k + 2)).1 = a * (errs a b e0 (k + 1)).1 + b * (errs a b e0 k).1 := rfl

theorem errs_snd (a b e0 : ℝ) (k : Nat) : (errs a b e0 k).2 = (errs a b e0 (k - 1)).1 := by cases k <;> rfl

theorem errs_le {a b : ℝ} (ha : 0 ≤ a) (hb : 0 ≤ b) (hab : a + b ≤ 1) (e0 : ℝ) (k : Nat) :
    |(errs a b e0 k).1| ≤ |e0| ∧ |(errs a b e0 k).2| ≤ |e0| := by
  induction k with
  | zero => exact ⟨le_refl _, le_refl _⟩
  | succ k ih =>
    refine ⟨?_, ih.1⟩
    show |a * _ + b * _| ≤ _
    calc _ ≤ |a * (errs a b e0 k).1| + |b * (errs a b e0 k).2| := abs_add_le _ _
      _ = a * |(errs a b e0 k).1| + b * |(errs a b e0 k).2| := by rw [abs_mul, abs_mul, abs_of_nonneg ha, abs_of_nonneg hb]
      _ ≤ a * |e0| + b * |e0| := add_le_add (mul_le_mul_of_nonneg_left ih.1 ha) (mul_le_mul_of_nonneg_left ih.2 hb)
      _ = (a + b) * |e0| := by ring
      _ ≤ 1 * |e0| := mul_le_mul_of_nonneg_right hab (abs_nonneg _)
      _ = |e0| := one_mul _

section
variable (svd : ∀ {m c : ℕ} (A : Matrix (Fin m) (Fin c) ℝ), Svd A) (maxSq : ℝ)
variable {N : Nat} {th : ℝ} {ff : List (Option ℝ) → List (Option ℝ) → ℝ → (Fin 6 → Option ℝ)} {hist : List (Nat × Bool)}
  {target : List ℝ} {gain beta : ℝ} {sel : Flags.Flags} {dt : ℝ} {d : Dev ℝ} {q : List ℝ}

theorem pd_between {i : Nat} {t x y a b : ℝ} (hx : Inside d i x) (hy : Inside d i y) (ht : Inside d i t) (ha : 0 ≤ a) (hb : 0 ≤ b)
    (hab : a + b ≤ 1) : Inside d i (t + a * (x - t) + b * (y - t)) := by
  intro hs l p hl hp
  obtain ⟨x1, x2⟩ := hx hs l p hl hp
  obtain ⟨y1, y2⟩ := hy hs l p hl hp
  obtain ⟨t1, t2⟩ := ht hs l p hl hp
  constructor
  · have := mul_nonneg ha (sub_nonneg.mpr x1)
    have := mul_nonneg hb (sub_nonneg.mpr y1)
    have := mul_nonneg (sub_nonneg.mpr hab) (sub_nonneg.mpr t1)
    nlinarith
  · have := mul_nonneg ha (sub_nonneg.mpr x2)
    have := mul_nonneg hb (sub_nonneg.mpr y2)
    have := mul_nonneg (sub_nonneg.mpr hab) (sub_nonneg.mpr t2)
    nlinarith

theorem reports_snoc {l : List (List Nat)} {x : List Nat} {k : Nat} (hl : l.length = k) (h : l ++ [x] = List.replicate (k + 1) []) :
    l = List.replicate k [] ∧ x = [] := by
  rw [List.replicate_succ'] at h
  obtain ⟨a, b⟩ := List.append_inj h (by simp [hl])
  exact ⟨a, by simpa using b⟩

theorem normSq_congr {w w' : Nat → ℝ} (h : ∀ j, j < N → Moved hist sel j → w j = w' j) : normSq N hist sel w = normSq N hist sel w' := by
  unfold normSq
  apply Finset.sum_congr rfl
  intro j _
  by_cases hm : Moved hist sel j.val
  · rw [if_pos hm, if_pos hm, h j.val j.isLt hm]
  · rw [if_neg hm, if_neg hm]

/-- The velocities that the closed form gives. -/
noncomputable def pdVel (gain beta dt : ℝ) (target q : List ℝ) (k j : Nat) : ℝ :=
  -gain * (errs (1 - gain * dt - beta * dt) (beta * dt) (q.getD j 0 - target.getD j 0) k).1 -
    beta * ((errs (1 - gain * dt - beta * dt) (beta * dt) (q.getD j 0 - target.getD j 0) k).1 -
      (errs (1 - gain * dt - beta * dt) (beta * dt) (q.getD j 0 - target.getD j 0) k).2)

theorem steps_pd (h : Setup N th ff hist target sel dt d q)
    (hc : d.sanity = true → 0 ≤ gain * dt ∧ 0 ≤ beta * dt ∧ gain * dt + beta * dt ≤ 1) (k : Nat) :
    ∃ s q' p, stepsP (pdSettings svd N th maxSq ff dt) (pdFeat N hist target) gain beta sel k (startP d) = .ok s ∧
      Inv N hist d s.st q' ∧ Keeps N hist target s.prev q' p ∧ s.st.reports.length = k ∧
      (∀ i, 6 ≤ i → i < N → Inside d i (q'.getD i 0)) ∧ (∀ i, 6 ≤ i → i < N → Inside d i (target.getD i 0 + p i)) ∧
      (s.st.reports = List.replicate k [] →
        (∀ i, 6 ≤ i → i < N →
          (Moved hist sel i → (q'.getD i 0 - target.getD i 0, p i) =
            errs (1 - gain * dt - beta * dt) (beta * dt) (q.getD i 0 - target.getD i 0) k) ∧
          (¬Moved hist sel i → q'.getD i 0 = q.getD i 0)) ∧
        ∀ j < k, normSq N hist sel (pdVel gain beta dt target q j) ≤ maxSq) ∧
      ((∀ j < k, normSq N hist sel (pdVel gain beta dt target q j) ≤ maxSq) → s.st.reports = List.replicate k []) := by
  classical
  induction k with
  | zero =>
    refine ⟨startP d, q, fun j => q.getD j 0 - target.getD j 0, rfl,
      ⟨.refl d, h.usable, h.state, h.shown, h.size, .new, rfl, good_new _ _⟩, .inr ⟨rfl, fun _ => rfl⟩, rfl, h.inside,
      fun i hi6 hiN => by rw [add_sub_cancel]; exact h.inside i hi6 hiN,
      fun _ => ⟨fun i _ _ => ⟨fun _ => rfl, fun _ => rfl⟩, fun j hj => absurd hj (by omega)⟩, fun _ => rfl⟩
  | succ k ih =>
    obtain ⟨s, q1, p, a1, a2, a6, a3, a4, a7, a5, a8⟩ := ih
    obtain ⟨s2, q2, b1, b2, b7, b3, b4⟩ := step_pd svd N th maxSq ff hist target gain beta sel dt h.joints h.threshold.1 h.threshold.2
      h.asked h.targetSize h.base h.mode a2 a6
    have hrun : stepsP (pdSettings svd N th maxSq ff dt) (pdFeat N hist target) gain beta sel (k + 1) (startP d) = .ok s2 := by
      show (stepsP _ _ _ _ _ k _).bind _ = _
      rw [a1]; exact b1
    have hin1 : ∀ i, 6 ≤ i → i < N → Inside d i (target.getD i 0 + (q1.getD i 0 - target.getD i 0)) := fun i hi6 hiN => by
      rw [add_sub_cancel]; exact a4 i hi6 hiN
    have hsame : s.st.reports = List.replicate k [] → normSq N hist sel (pdAsked target gain beta q1 p) =
        normSq N hist sel (pdVel gain beta dt target q k) := by
      intro hr
      apply normSq_congr
      intro j hjN hm
      have e := ((a5 hr).1 j (h.noBase j hm) hjN).1 hm
      unfold pdVel pdAsked
      rw [← e]
    rcases le_or_gt (normSq N hist sel (pdAsked target gain beta q1 p)) maxSq with hs | hs
    · obtain ⟨b5, b6⟩ := b3 hs
      have hform : ∀ i, q1.getD i 0 + dt * pdAsked target gain beta q1 p i = target.getD i 0 +
          (1 - gain * dt - beta * dt) * (q1.getD i 0 - target.getD i 0) + beta * dt * (target.getD i 0 + p i - target.getD i 0) := by
        intro i
        rw [pdAsked]; ring
      have hnew : ∀ i, 6 ≤ i → i < N → Inside d i (if Moved hist sel i then q1.getD i 0 + dt * pdAsked target gain beta q1 p i
          else q1.getD i 0) := by
        intro i hi6 hiN
        split_ifs with hmv
        · intro hsan
          obtain ⟨c1, c2, c3⟩ := hc hsan
          rw [hform]
          exact pd_between (a4 i hi6 hiN) (a7 i hi6 hiN) (h.targetInside i hiN hmv) (by linarith) c2 (by linarith) hsan
        · exact a4 i hi6 hiN
      have hq2 : ∀ i, 6 ≤ i → i < N → q2.getD i 0 = if Moved hist sel i then q1.getD i 0 + dt * pdAsked target gain beta q1 p i
          else q1.getD i 0 := fun i hi6 hiN => (b6 i hi6 hiN).inside (hnew i hi6 hiN)
      refine ⟨s2, q2, _, hrun, b2, b7, by rw [b5]; simp [a3], fun i hi6 hiN => by rw [hq2 i hi6 hiN]; exact hnew i hi6 hiN, hin1, ?_, ?_⟩
      · intro hrep
        rw [b5] at hrep
        obtain ⟨r1, -⟩ := reports_snoc a3 hrep
        obtain ⟨f, f3⟩ := a5 r1
        refine ⟨fun i hi6 hiN => ?_, fun j hj => ?_⟩
        · obtain ⟨f1, f2⟩ := f i hi6 hiN
          refine ⟨fun hmv => ?_, fun hmv => by rw [hq2 i hi6 hiN, if_neg hmv, f2 hmv]⟩
          rw [errs, ← f1 hmv, hq2 i hi6 hiN, if_pos hmv, hform]
          refine Prod.ext ?_ rfl
          simp only; ring
        · rcases Nat.lt_succ_iff_lt_or_eq.mp hj with hj | rfl
          · exact f3 j hj
          · rw [← hsame r1]; exact hs
      · intro hall
        rw [b5, a8 (fun j hj => hall j (by omega)), List.replicate_succ']
    · obtain ⟨b5, b6⟩ := b4 hs
      have hq2 : ∀ i, 6 ≤ i → i < N → q2.getD i 0 = q1.getD i 0 := fun i hi6 hiN => (b6 i hi6 hiN).inside (a4 i hi6 hiN)
      refine ⟨s2, q2, _, hrun, b2, b7, by rw [b5]; simp [a3], fun i hi6 hiN => by rw [hq2 i hi6 hiN]; exact a4 i hi6 hiN, hin1, ?_, ?_⟩
      · intro hrep
        rw [b5] at hrep
        obtain ⟨-, r2⟩ := reports_snoc a3 hrep
        cases r2
      · intro hall
        have hr := a8 (fun j hj => hall j (by omega))
        have := hall k (by omega)
        rw [← hsame hr] at this
        exact absurd this (not_le.mpr hs)

/-! ### Properties -/

/-- C153. The run never stops. As long as no task is reported, the distance of each joint that is moved to the posture is, at each step, the
one before times `1 - gain * dt`, minus `beta * dt` times its last variation (none at the first step); the other joints do not
move. -/
theorem C153_recurrence (h : Setup N th ff hist target sel dt d q)
    (hc : d.sanity = true → 0 ≤ gain * dt ∧ 0 ≤ beta * dt ∧ gain * dt + beta * dt ≤ 1) :
    ∃ traj : Nat → List ℝ, (∀ i, (traj 0).getD i 0 = q.getD i 0) ∧
      ∀ k, ∃ s, stepsP (pdSettings svd N th maxSq ff dt) (pdFeat N hist target) gain beta sel k (startP d) = .ok s ∧
        s.st.dev.state = nums (traj k) ∧ (traj k).length = N ∧ s.st.reports.length = k ∧
        (s.st.reports = List.replicate k [] → ∀ i, 6 ≤ i → i < N →
          (Moved hist sel i → ∀ j < k, (traj (j + 1)).getD i 0 - target.getD i 0 =
            (1 - gain * dt) * ((traj j).getD i 0 - target.getD i 0) - beta * dt * ((traj j).getD i 0 - (traj (j - 1)).getD i 0)) ∧
          (¬Moved hist sel i → (traj k).getD i 0 = q.getD i 0)) := by
  have hall := steps_pd svd maxSq h (gain := gain) (beta := beta) hc
  choose s traj p a1 a2 a6 a3 a4 a7 a5 a8 using hall
  have hreport : ∀ k j, j ≤ k → (s k).st.reports = List.replicate k [] → (s j).st.reports = List.replicate j [] := by
    intro k j hjk hr
    exact a8 j (fun l hl => ((a5 k hr).2 l (by omega)))
  refine ⟨traj, fun i => ?_, fun k => ⟨s k, a1 k, (a2 k).state, (a2 k).size, a3 k, fun hr i hi6 hiN => ⟨fun hm j hj => ?_, fun hm => ?_⟩⟩⟩
  · have e0 := a1 0
    have e4 : startP d = s 0 := by simpa [stepsP] using e0
    have e1 := (a2 0).state
    have e2 : nums q = nums (traj 0) := by rw [← h.state, ← e1, ← e4]; rfl
    have e3 : q = traj 0 := by
      have := congrArg numbers e2
      rw [numbers_nums, numbers_nums] at this
      simpa using this
    rw [← e3]
  · have e1 := ((a5 _ (hreport k (j + 1) (by omega) hr)).1 i hi6 hiN).1 hm
    have e2 := ((a5 _ (hreport k j (by omega) hr)).1 i hi6 hiN).1 hm
    have e3 := ((a5 _ (hreport k (j - 1) (by omega) hr)).1 i hi6 hiN).1 hm
    have e1' := congrArg Prod.fst e1
    have e2' := congrArg Prod.fst e2
    have e3' := congrArg Prod.fst e3
    simp only at e1' e2' e3'
    rw [errs] at e1'
    simp only at e1'
    rw [errs_snd, ← e2', ← e3'] at e1'
    rw [e1']; ring
  · exact ((a5 k hr).1 i hi6 hiN).2 hm

/-- C153. If no task is ever reported, the joints that are moved converge to the posture when the gain is positive, the derivative
coefficient times the period is between minus one and one, and the gain plus twice the coefficient, times the period, is below two. -/
theorem C153_converges (h : Setup N th ff hist target sel dt d q)
    (hc : d.sanity = true → 0 ≤ gain * dt ∧ 0 ≤ beta * dt ∧ gain * dt + beta * dt ≤ 1)
    (h0 : 0 < gain * dt) (hb : |beta * dt| < 1) (h2 : gain * dt + 2 * (beta * dt) < 2)
    (hquiet : ∀ k, ∃ s, stepsP (pdSettings svd N th maxSq ff dt) (pdFeat N hist target) gain beta sel k (startP d) = .ok s ∧
      s.st.reports = List.replicate k []) :
    ∃ traj : Nat → List ℝ, (∀ k, ∃ s, stepsP (pdSettings svd N th maxSq ff dt) (pdFeat N hist target) gain beta sel k (startP d) = .ok s ∧
        s.st.dev.state = nums (traj k)) ∧
      ∀ i, i < N → Moved hist sel i → Tendsto (fun k => (traj k).getD i 0) atTop (𝓝 (target.getD i 0)) := by
  have hall := steps_pd svd maxSq h (gain := gain) (beta := beta) hc
  choose s traj p a1 a2 a6 a3 a4 a7 a5 a8 using hall
  refine ⟨traj, fun k => ⟨s k, a1 k, (a2 k).state⟩, fun i hiN hm => ?_⟩
  have hlim := second_tendsto (x := fun k => (errs (1 - gain * dt - beta * dt) (beta * dt) (q.getD i 0 - target.getD i 0) k).1)
    (a := 1 - gain * dt - beta * dt) (b := beta * dt) (errs_rec _ _ _) hb
    (by rw [abs_lt]; constructor <;> linarith)
  have := hlim.add_const (target.getD i 0)
  rw [zero_add] at this
  refine this.congr fun k => ?_
  obtain ⟨s', b1, b2⟩ := hquiet k
  rw [a1 k] at b1
  obtain rfl : s k = s' := by simpa using b1
  have e := congrArg Prod.fst (((a5 k b2).1 i (h.noBase i hm) hiN).1 hm)
  simp only at e
  rw [← e]; ring

open scoped Classical in
/-- C153. Nothing is ever reported if the gain and the coefficient are not negative, their sum times the period is at most one, and the gain plus
twice the coefficient, times the first distance, is a velocity within the limit of the stack. -/
theorem C153_quiet (h : Setup N th ff hist target sel dt d q) (hdt : 0 ≤ dt) (hg : 0 ≤ gain) (hb : 0 ≤ beta)
    (hsum : gain * dt + beta * dt ≤ 1)
    (hsm : (∑ j : Fin N, if Moved hist sel j.val then ((gain + 2 * beta) * (q.getD j.val 0 - target.getD j.val 0)) ^ 2 else 0) ≤ maxSq)
    (k : Nat) :
    ∃ s, stepsP (pdSettings svd N th maxSq ff dt) (pdFeat N hist target) gain beta sel k (startP d) = .ok s ∧
      s.st.reports = List.replicate k [] := by
  have hgd := mul_nonneg hg hdt
  have hbd := mul_nonneg hb hdt
  obtain ⟨s, q', p, a1, -, -, -, -, -, -, a8⟩ := steps_pd svd maxSq h (gain := gain) (beta := beta) (fun _ => ⟨hgd, hbd, hsum⟩) k
  refine ⟨s, a1, a8 fun j _ => le_trans ?_ hsm⟩
  unfold normSq
  apply Finset.sum_le_sum
  intro i _
  by_cases hm : Moved hist sel i.val
  · rw [if_pos hm, if_pos hm, ← sq_abs, ← sq_abs ((gain + 2 * beta) * _)]
    apply pow_le_pow_left₀ (abs_nonneg _)
    obtain ⟨e1, e2⟩ := errs_le (a := 1 - gain * dt - beta * dt) (b := beta * dt) (by linarith) hbd (by linarith)
      (q.getD i.val 0 - target.getD i.val 0) j
    rw [abs_mul, abs_of_nonneg (by linarith : 0 ≤ gain + 2 * beta)]
    unfold pdVel
    set x := (errs (1 - gain * dt - beta * dt) (beta * dt) (q.getD i.val 0 - target.getD i.val 0) j).1
    set y := (errs (1 - gain * dt - beta * dt) (beta * dt) (q.getD i.val 0 - target.getD i.val 0) j).2
    set E := |q.getD i.val 0 - target.getD i.val 0|
    obtain ⟨x1, x2⟩ := abs_le.mp e1
    obtain ⟨y1, y2⟩ := abs_le.mp e2
    rw [abs_le]
    have m1 := mul_nonneg hg (show 0 ≤ E - x by linarith)
    have m2 := mul_nonneg hg (show 0 ≤ x + E by linarith)
    have m3 := mul_nonneg hb (show 0 ≤ 2 * E - (x - y) by linarith)
    have m4 := mul_nonneg hb (show 0 ≤ 2 * E + (x - y) by linarith)
    constructor <;> nlinarith
  · rw [if_neg hm, if_neg hm]

/-- C153. Without checks, when the gain plus twice the coefficient, times the period, is above two and some joint that is moved is not at its
posture, the task is reported at some step (whatever the limit of the stack). -/
theorem C153_unstable (h : Setup N th ff hist target sel dt d q) (hs : d.sanity = false) (h0 : gain * dt ≠ 0)
    (h2 : 2 < gain * dt + 2 * (beta * dt)) {i : Nat} (hiN : i < N) (hm : Moved hist sel i) (hne : q.getD i 0 ≠ target.getD i 0) :
    ∃ k s, stepsP (pdSettings svd N th maxSq ff dt) (pdFeat N hist target) gain beta sel k (startP d) = .ok s ∧
      s.st.reports ≠ List.replicate k [] := by
  by_contra hcon
  push Not at hcon
  set x : Nat → ℝ := fun k => (errs (1 - gain * dt - beta * dt) (beta * dt) (q.getD i 0 - target.getD i 0) k).1 with hx
  have hmv : ∀ k, |x (k + 1) - x k| ≤ |dt| * Real.sqrt maxSq := by
    intro k
    obtain ⟨s, q', p, a1, -, -, -, -, -, a5, -⟩ := steps_pd svd maxSq h (gain := gain) (beta := beta)
      (fun h => by rw [hs] at h; cases h) (k + 1)
    have hn := (a5 (hcon _ _ a1)).2 k (by omega)
    have hle : (pdVel gain beta dt target q k i) ^ 2 ≤ maxSq := by
      refine le_trans ?_ hn
      unfold normSq
      classical
      refine le_trans (le_of_eq ?_) (Finset.single_le_sum (f := fun j : Fin N => if Moved hist sel j.val then
        (pdVel gain beta dt target q k j.val) ^ 2 else 0) (fun j _ => by split_ifs <;> positivity) (Finset.mem_univ ⟨i, hiN⟩))
      simp only
      rw [if_pos hm]
    have habs : |pdVel gain beta dt target q k i| ≤ Real.sqrt maxSq := Real.abs_le_sqrt hle
    have e : x (k + 1) - x k = dt * pdVel gain beta dt target q k i := by
      simp only [hx, errs, pdVel]; ring
    rw [e, abs_mul]
    exact mul_le_mul_of_nonneg_left habs (abs_nonneg _)
  obtain ⟨k, hk⟩ := second_unbounded (x := x) (a := 1 - gain * dt - beta * dt) (b := beta * dt) (fun k => errs_rec _ _ _ k)
    (by simp only [hx, errs]) (by simp only [hx, errs]; exact sub_ne_zero.mpr hne) (by intro hh; apply h0; linarith) (by linarith)
    (|dt| * Real.sqrt maxSq)
  exact absurd (hmv k) (not_le.mpr hk)

end

/-! ### Cases -/

/-- With a gain of ten, a coefficient of twenty and a period of ten milliseconds, the last joint converges to one radian. -/
theorem C153_case (svd : ∀ {m c : ℕ} (A : Matrix (Fin m) (Fin c) ℝ), Svd A) :
    ∃ traj : Nat → List ℝ, (∀ k, ∃ s, stepsP (pdSettings svd 7 (1 / 10000) 10000 (fun _ _ _ _ => some 0) (1 / 100))
        (pdFeat 7 [(6, true)] [0, 0, 0, 0, 0, 0, 1]) 10 20 (Flags.ofBool true) k (startP demoDev) = .ok s ∧
        s.st.dev.state = nums (traj k)) ∧ Tendsto (fun k => (traj k).getD 6 0) atTop (𝓝 1) := by
  classical
  have hq := C153_quiet svd 10000 (gain := 10) (beta := 20) demo_setup (by norm_num) (by norm_num) (by norm_num) (by norm_num) (by
    calc _ ≤ ∑ j : Fin 7, ((10 + 2 * 20) * (([0, 0, 0, 0, 0, 0, 3] : List ℝ).getD j.val 0 - ([0, 0, 0, 0, 0, 0, 1] : List ℝ).getD j.val 0)) ^ 2 := by
          apply Finset.sum_le_sum
          intro j _
          split_ifs
          · exact le_refl _
          · exact sq_nonneg _
      _ ≤ 10000 := by simp [Fin.sum_univ_succ]; norm_num)
  obtain ⟨traj, h1, h2⟩ := C153_converges svd 10000 (gain := 10) (beta := 20) demo_setup (fun h => by cases h) (by norm_num)
    (by rw [abs_lt]; constructor <;> norm_num) (by norm_num) hq
  exact ⟨traj, h1, h2 6 (by decide) demo_moved⟩

/-- With a coefficient of one hundred (one over the period), the task is reported at some step. -/
theorem C153_unstable_case (svd : ∀ {m c : ℕ} (A : Matrix (Fin m) (Fin c) ℝ), Svd A) :
    ∃ k s, stepsP (pdSettings svd 7 (1 / 10000) 10000 (fun _ _ _ _ => some 0) (1 / 100))
        (pdFeat 7 [(6, true)] [0, 0, 0, 0, 0, 0, 1]) 10 100 (Flags.ofBool true) k (startP demoDev) = .ok s ∧
      s.st.reports ≠ List.replicate k [] :=
  C153_unstable svd 10000 demo_setup rfl (by norm_num) (by norm_num) (i := 6) (by decide) demo_moved (by norm_num)

end Verif.Loop
