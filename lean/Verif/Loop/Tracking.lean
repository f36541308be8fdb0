import Verif.Loop.Moving
import Mathlib.Algebra.Field.GeomSum

/-!
# C152: following a posture that moves, with and without the derivative of the error
-/

namespace Verif.Loop

open Matrix Verif.Sot Verif.Features Verif.Device Filter Topology

/-- What is left of the error after `k` steps: the first one reduced at each step by the factor `1 - c`, minus what was not anticipated
at each step, reduced by the steps after it. -/
noncomputable def left (c e0 : ℝ) (d : Nat → ℝ) (k : Nat) : ℝ :=
  (1 - c) ^ k * e0 - ∑ j ∈ Finset.range k, (1 - c) ^ (k - 1 - j) * d j

theorem left_zero (c e0 : ℝ) (d : Nat → ℝ) : left c e0 d 0 = e0 := by simp [left]

theorem left_succ (c e0 : ℝ) (d : Nat → ℝ) (k : Nat) : left c e0 d (k + 1) = (1 - c) * left c e0 d k - d k := by
  unfold left
  rw [Finset.sum_range_succ, mul_sub, Finset.mul_sum]
  have h : ∑ j ∈ Finset.range k, (1 - c) ^ (k + 1 - 1 - j) * d j = ∑ j ∈ Finset.range k, (1 - c) * ((1 - c) ^ (k - 1 - j) * d j) := by
    apply Finset.sum_congr rfl
    intro j hj
    have := Finset.mem_range.mp hj
    rw [show k + 1 - 1 - j = (k - 1 - j) + 1 by omega, pow_succ]
    ring
  rw [h, show k + 1 - 1 - k = 0 by omega, pow_succ]
  ring

theorem left_none (c e0 : ℝ) (d : Nat → ℝ) (k : Nat) (h : ∀ j < k, d j = 0) : left c e0 d k = (1 - c) ^ k * e0 := by
  unfold left
  rw [Finset.sum_eq_zero, sub_zero]
  intro j hj
  rw [h j (Finset.mem_range.mp hj), mul_zero]

theorem left_const (c e0 δ : ℝ) (hc : c ≠ 0) (d : Nat → ℝ) (k : Nat) (h : ∀ j < k, d j = δ) :
    left c e0 d k = -(δ / c) + (1 - c) ^ k * (e0 + δ / c) := by
  induction k with
  | zero => rw [left_zero]; ring
  | succ k ih =>
    rw [left_succ, ih (fun j hj => h j (by omega)), h k (by omega), pow_succ]
    field_simp
    ring

theorem left_bound (c e0 δ : ℝ) (hc : |1 - c| < 1) (d : Nat → ℝ) (k : Nat) (h : ∀ j < k, |d j| ≤ δ) :
    |left c e0 d k| ≤ |1 - c| ^ k * |e0| + (1 - |1 - c| ^ k) * (δ / (1 - |1 - c|)) := by
  have hp : 0 < 1 - |1 - c| := by linarith
  induction k with
  | zero => rw [left_zero]; simp
  | succ k ih =>
    have ih := ih (fun j hj => h j (by omega))
    rw [left_succ]
    calc |(1 - c) * left c e0 d k - d k| ≤ |(1 - c) * left c e0 d k| + |d k| := abs_sub _ _
      _ = |1 - c| * |left c e0 d k| + |d k| := by rw [abs_mul]
      _ ≤ |1 - c| * (|1 - c| ^ k * |e0| + (1 - |1 - c| ^ k) * (δ / (1 - |1 - c|))) + δ :=
          add_le_add (mul_le_mul_of_nonneg_left ih (abs_nonneg _)) (h k (by omega))
      _ = _ := by
          have e : δ = (1 - |1 - c|) * (δ / (1 - |1 - c|)) := by field_simp
          nth_rewrite 2 [e]
          ring

section
variable (svd : ∀ {m c : ℕ} (A : Matrix (Fin m) (Fin c) ℝ), Svd A) (maxSq : ℝ)

/-- The robot has at least six joints, the threshold of the stack is below one, some joint of the robot was asked for, and the task
moves joints after the first six only. The postures have a number for each joint, and so have their velocities if they are used. The
device is driven in velocity, its state is `q` and can be checked. If it checks its bounds: the velocity of the posture is not used,
the gain times the period is between zero and one, the joints are within the bounds, and so are the postures. -/
structure Tracks (N : Nat) (th : ℝ) (ff : List (Option ℝ) → List (Option ℝ) → ℝ → (Fin 6 → Option ℝ)) (hist : List (Nat × Bool))
    (gain : ℝ) (sel : Flags.Flags) (wd : Bool) (dt : ℝ) (ref : Nat → Ref) (d : Dev ℝ) (q : List ℝ) : Prop where
  joints : 6 ≤ N
  threshold : 0 ≤ th ∧ th < 1
  asked : ∃ r ∈ hist, r.1 < N
  posSize : ∀ k, (ref k).pos.length = N
  velSize : wd = true → ∀ k, (ref k).vel.length = N
  size : q.length = N
  base : BaseNumbers ff dt
  noBase : ∀ j, Moved hist sel j → 6 ≤ j
  mode : d.mode = .oneInteg
  usable : Usable d
  state : d.state = nums q
  shown : d.stateSOUT = nums q
  checks : d.sanity = true → wd = false ∧ 0 ≤ gain * dt ∧ gain * dt ≤ 1
  inside : ∀ i, 6 ≤ i → i < N → Inside d i (q.getD i 0)
  refInside : ∀ k i, i < N → Moved hist sel i → Inside d i ((ref k).pos.getD i 0)

variable {N : Nat} {th : ℝ} {ff : List (Option ℝ) → List (Option ℝ) → ℝ → (Fin 6 → Option ℝ)} {hist : List (Nat × Bool)}
  {gain : ℝ} {sel : Flags.Flags} {wd : Bool} {dt : ℝ} {ref : Nat → Ref} {d : Dev ℝ} {q : List ℝ}

/-- What the velocity given with the posture does not say of its next move. -/
noncomputable def unsaid (wd : Bool) (dt : ℝ) (ref : Nat → Ref) (i j : Nat) : ℝ :=
  (ref (j + 1)).pos.getD i 0 - (ref j).pos.getD i 0 - (if wd then dt * (ref j).vel.getD i 0 else 0)

/-- The loop at the beginning. -/
def startD (d : Dev ℝ) : St := ⟨d, [.new], []⟩

theorem replicate_snoc {l : List (List Nat)} {x : List Nat} {k : Nat} (hl : l.length = k) (h : l ++ [x] = List.replicate (k + 1) []) :
    l = List.replicate k [] ∧ x = [] := by
  rw [List.replicate_succ'] at h
  obtain ⟨a, b⟩ := List.append_inj h (by simp [hl])
  exact ⟨a, by simpa using b⟩

theorem steps_moving (h : Tracks N th ff hist gain sel wd dt ref d q) (k : Nat) :
    ∃ s q', stepsD (settings svd N th maxSq ff dt) (fun k => movingTask N hist gain sel wd (ref k)) k (startD d) = .ok s ∧
      Inv N hist d s q' ∧ s.reports.length = k ∧ (∀ i, 6 ≤ i → i < N → Inside d i (q'.getD i 0)) ∧
      (s.reports = List.replicate k [] → ∀ i, 6 ≤ i → i < N →
        (Moved hist sel i → q'.getD i 0 - (ref k).pos.getD i 0 =
          left (gain * dt) (q.getD i 0 - (ref 0).pos.getD i 0) (unsaid wd dt ref i) k) ∧
        (¬Moved hist sel i → q'.getD i 0 = q.getD i 0)) := by
  classical
  induction k with
  | zero =>
    exact ⟨startD d, q, rfl, ⟨.refl d, h.usable, h.state, h.shown, h.size, .new, rfl, good_new _ _⟩, rfl, h.inside,
      fun _ i _ _ => ⟨fun _ => (left_zero _ _ _).symm, fun _ => rfl⟩⟩
  | succ k ih =>
    obtain ⟨s, q1, a1, a2, a3, a4, a5⟩ := ih
    obtain ⟨s2, q2, b1, b2, b3, b4⟩ := step_moving svd N th maxSq ff hist gain sel wd dt h.joints h.threshold.1 h.threshold.2 h.asked
      (h.posSize k) (fun hw => h.velSize hw k) h.base h.mode a2
    have hrun : stepsD (settings svd N th maxSq ff dt) (fun k => movingTask N hist gain sel wd (ref k)) (k + 1) (startD d) = .ok s2 := by
      show (stepsD _ _ k _).bind _ = _
      rw [a1]; exact b1
    rcases le_or_gt (askedSq N hist gain sel wd (ref k) q1) maxSq with hs | hs
    · obtain ⟨b5, b6⟩ := b3 hs
      have hnew : ∀ i, 6 ≤ i → i < N → Inside d i (if Moved hist sel i then q1.getD i 0 + dt * Loop.asked gain wd (ref k) q1 i
          else q1.getD i 0) := by
        intro i hi6 hiN
        split_ifs with hmv
        · intro hsan
          obtain ⟨c1, c2, c3⟩ := h.checks hsan
          have e : q1.getD i 0 + dt * Loop.asked gain wd (ref k) q1 i =
              (ref k).pos.getD i 0 + (1 - gain * dt) * (q1.getD i 0 - (ref k).pos.getD i 0) := by
            rw [Loop.asked, c1]; simp only [Bool.false_eq_true, if_false]; ring
          rw [e]
          exact (a4 i hi6 hiN).between (h.refInside k i hiN hmv) (by linarith) (by linarith) hsan
        · exact a4 i hi6 hiN
      have hq2 : ∀ i, 6 ≤ i → i < N → q2.getD i 0 = if Moved hist sel i then q1.getD i 0 + dt * Loop.asked gain wd (ref k) q1 i
          else q1.getD i 0 := fun i hi6 hiN => (b6 i hi6 hiN).inside (hnew i hi6 hiN)
      refine ⟨s2, q2, hrun, b2, by rw [b5]; simp [a3], fun i hi6 hiN => by rw [hq2 i hi6 hiN]; exact hnew i hi6 hiN, ?_⟩
      intro hrep i hi6 hiN
      rw [b5] at hrep
      obtain ⟨r1, -⟩ := replicate_snoc a3 hrep
      obtain ⟨f1, f2⟩ := a5 r1 i hi6 hiN
      refine ⟨fun hmv => ?_, fun hmv => by rw [hq2 i hi6 hiN, if_neg hmv, f2 hmv]⟩
      rw [left_succ, ← f1 hmv, hq2 i hi6 hiN, if_pos hmv, Loop.asked, unsaid]
      cases wd <;> simp only [Bool.false_eq_true, if_false, if_true] <;> ring
    · obtain ⟨b5, b6⟩ := b4 hs
      have hq2 : ∀ i, 6 ≤ i → i < N → q2.getD i 0 = q1.getD i 0 := fun i hi6 hiN => (b6 i hi6 hiN).inside (a4 i hi6 hiN)
      refine ⟨s2, q2, hrun, b2, by rw [b5]; simp [a3], fun i hi6 hiN => by rw [hq2 i hi6 hiN]; exact a4 i hi6 hiN, ?_⟩
      intro hrep
      rw [b5] at hrep
      obtain ⟨-, r2⟩ := replicate_snoc a3 hrep
      cases r2

/-! ### Properties -/

/-- C152. The run never stops. As long as no task is reported, the distance of each joint that is moved to the posture of the instant is
the first one times `(1 - gain * dt) ^ k`, minus each move of the posture that was not announced by its velocity (each move, if the
option is not set) times the power of the same factor for the steps since that move. -/
theorem C152_error (h : Tracks N th ff hist gain sel wd dt ref d q) (k : Nat) :
    ∃ s q', stepsD (settings svd N th maxSq ff dt) (fun k => movingTask N hist gain sel wd (ref k)) k (startD d) = .ok s ∧
      s.dev.state = nums q' ∧ q'.length = N ∧ s.reports.length = k ∧
      (s.reports = List.replicate k [] → ∀ i, 6 ≤ i → i < N →
        (Moved hist sel i → q'.getD i 0 - (ref k).pos.getD i 0 = (1 - gain * dt) ^ k * (q.getD i 0 - (ref 0).pos.getD i 0) -
          ∑ j ∈ Finset.range k, (1 - gain * dt) ^ (k - 1 - j) *
            ((ref (j + 1)).pos.getD i 0 - (ref j).pos.getD i 0 - (if wd then dt * (ref j).vel.getD i 0 else 0))) ∧
        (¬Moved hist sel i → q'.getD i 0 = q.getD i 0)) := by
  obtain ⟨s, q', a1, a2, a3, -, a5⟩ := steps_moving svd maxSq h k
  exact ⟨s, q', a1, a2.state, a2.size, a3, a5⟩

/-- C152. With the option and a velocity that says exactly how the posture moves, the distance to the moving posture is reduced by the same
factor at each step as if the posture did not move. -/
theorem C152_exact (h : Tracks N th ff hist gain sel true dt ref d q)
    (hvel : ∀ k i, i < N → Moved hist sel i → (ref (k + 1)).pos.getD i 0 = (ref k).pos.getD i 0 + dt * (ref k).vel.getD i 0) (k : Nat) :
    ∃ s q', stepsD (settings svd N th maxSq ff dt) (fun k => movingTask N hist gain sel true (ref k)) k (startD d) = .ok s ∧
      s.dev.state = nums q' ∧
      (s.reports = List.replicate k [] → ∀ i, i < N → Moved hist sel i →
        q'.getD i 0 - (ref k).pos.getD i 0 = (1 - gain * dt) ^ k * (q.getD i 0 - (ref 0).pos.getD i 0)) := by
  obtain ⟨s, q', a1, a2, a3, -, a5⟩ := steps_moving svd maxSq h k
  refine ⟨s, q', a1, a2.state, fun hr i hiN hm => ?_⟩
  rw [(a5 hr i (h.noBase i hm) hiN).1 hm, left_none]
  intro j _
  rw [unsaid, hvel j i hiN hm, if_pos rfl]; ring

/-- C152. Without the option and for a joint whose reference makes the same move `δ` at each step, the distance to the posture is
`-δ / (gain * dt)` plus a part reduced at each step. -/
theorem C152_lag (h : Tracks N th ff hist gain sel false dt ref d q) (hc : gain * dt ≠ 0) (k : Nat) :
    ∃ s q', stepsD (settings svd N th maxSq ff dt) (fun k => movingTask N hist gain sel false (ref k)) k (startD d) = .ok s ∧
      s.dev.state = nums q' ∧
      (s.reports = List.replicate k [] → ∀ i, i < N → Moved hist sel i → ∀ δ,
        (∀ j < k, (ref (j + 1)).pos.getD i 0 = (ref j).pos.getD i 0 + δ) →
        q'.getD i 0 - (ref k).pos.getD i 0 = -(δ / (gain * dt)) +
          (1 - gain * dt) ^ k * (q.getD i 0 - (ref 0).pos.getD i 0 + δ / (gain * dt))) := by
  obtain ⟨s, q', a1, a2, a3, -, a5⟩ := steps_moving svd maxSq h k
  refine ⟨s, q', a1, a2.state, fun hr i hiN hm δ hδ => ?_⟩
  rw [(a5 hr i (h.noBase i hm) hiN).1 hm, left_const _ _ δ hc]
  intro j hj
  rw [unsaid, hδ j hj]; simp

/-- C152. With a gain times the period between zero and two, and moves of the posture that differ by at most `δ` from what its velocity
says (that are at most `δ`, without the option), the distance to the posture is at most the first one, reduced at each step, plus
`δ / (1 - |1 - gain * dt|)`. -/
theorem C152_bound (h : Tracks N th ff hist gain sel wd dt ref d q) (h0 : 0 < gain * dt) (h2 : gain * dt < 2) (k : Nat) :
    ∃ s q', stepsD (settings svd N th maxSq ff dt) (fun k => movingTask N hist gain sel wd (ref k)) k (startD d) = .ok s ∧
      s.dev.state = nums q' ∧
      (s.reports = List.replicate k [] → ∀ i, i < N → Moved hist sel i → ∀ δ,
        (∀ j < k, |(ref (j + 1)).pos.getD i 0 - (ref j).pos.getD i 0 - (if wd then dt * (ref j).vel.getD i 0 else 0)| ≤ δ) →
        |q'.getD i 0 - (ref k).pos.getD i 0| ≤ |1 - gain * dt| ^ k * |q.getD i 0 - (ref 0).pos.getD i 0| +
          (1 - |1 - gain * dt| ^ k) * (δ / (1 - |1 - gain * dt|))) := by
  obtain ⟨s, q', a1, a2, a3, -, a5⟩ := steps_moving svd maxSq h k
  refine ⟨s, q', a1, a2.state, fun hr i hiN hm δ hδ => ?_⟩
  rw [(a5 hr i (h.noBase i hm) hiN).1 hm]
  exact left_bound _ _ δ (by rw [abs_lt]; constructor <;> linarith) _ k hδ

/-- C152. With a gain times the period between zero and two, and a reference whose move at each step differs by `δ` from what its
velocity says (is `δ`, without the option), the distance to the posture tends to `-δ / (gain * dt)` if no task is ever reported. So it
vanishes with the option and the right velocity; without the option, it vanishes only for a reference that stays. -/
theorem C152_limit (h : Tracks N th ff hist gain sel wd dt ref d q) (h0 : 0 < gain * dt) (h2 : gain * dt < 2)
    (hquiet : ∀ k, ∃ s, stepsD (settings svd N th maxSq ff dt) (fun k => movingTask N hist gain sel wd (ref k)) k (startD d) = .ok s ∧
      s.reports = List.replicate k []) :
    ∃ traj : Nat → List ℝ, (∀ k, ∃ s, stepsD (settings svd N th maxSq ff dt) (fun k => movingTask N hist gain sel wd (ref k)) k (startD d) = .ok s ∧
        s.dev.state = nums (traj k)) ∧
      ∀ i, i < N → Moved hist sel i → ∀ δ,
        (∀ j, (ref (j + 1)).pos.getD i 0 - (ref j).pos.getD i 0 - (if wd then dt * (ref j).vel.getD i 0 else 0) = δ) →
        Tendsto (fun k => (traj k).getD i 0 - (ref k).pos.getD i 0) atTop (𝓝 (-(δ / (gain * dt)))) := by
  have hall : ∀ k, ∃ s q', stepsD (settings svd N th maxSq ff dt) (fun k => movingTask N hist gain sel wd (ref k)) k (startD d) = .ok s ∧
      s.dev.state = nums q' ∧ ∀ i, i < N → Moved hist sel i → q'.getD i 0 - (ref k).pos.getD i 0 =
          left (gain * dt) (q.getD i 0 - (ref 0).pos.getD i 0) (unsaid wd dt ref i) k := by
    intro k
    obtain ⟨s0, a0, r0⟩ := hquiet k
    obtain ⟨s, q', a1, a2, a3, -, a5⟩ := steps_moving svd maxSq h k
    rw [a0] at a1
    obtain rfl : s0 = s := by simpa using a1
    exact ⟨s0, q', a0, a2.state, fun i hiN hm => (a5 r0 i (h.noBase i hm) hiN).1 hm⟩
  choose s traj a1 a2 a3 using hall
  refine ⟨traj, fun k => ⟨s k, a1 k, a2 k⟩, fun i hiN hm δ hδ => ?_⟩
  have habs : |1 - gain * dt| < 1 := by rw [abs_lt]; constructor <;> linarith
  have hlim : Tendsto (fun k => -(δ / (gain * dt)) + (1 - gain * dt) ^ k * (q.getD i 0 - (ref 0).pos.getD i 0 + δ / (gain * dt))) atTop
      (𝓝 (-(δ / (gain * dt)) + 0 * (q.getD i 0 - (ref 0).pos.getD i 0 + δ / (gain * dt)))) :=
    ((tendsto_pow_atTop_nhds_zero_of_abs_lt_one habs).mul_const _).const_add _
  rw [zero_mul, add_zero] at hlim
  refine hlim.congr fun k => ?_
  rw [a3 k i hiN hm, left_const _ _ δ h0.ne' (unsaid wd dt ref i) _ (fun j _ => hδ j)]

open scoped Classical in
/-- C152. No task is reported as long as the velocities that the formula of the distance gives are within the limit of the stack. -/
theorem C152_quiet (h : Tracks N th ff hist gain sel wd dt ref d q) (k : Nat)
    (hsm : ∀ j < k, (∑ i : Fin N, if Moved hist sel i.val then
      (-gain * ((1 - gain * dt) ^ j * (q.getD i.val 0 - (ref 0).pos.getD i.val 0) - ∑ l ∈ Finset.range j, (1 - gain * dt) ^ (j - 1 - l) *
            ((ref (l + 1)).pos.getD i.val 0 - (ref l).pos.getD i.val 0 - (if wd then dt * (ref l).vel.getD i.val 0 else 0))) +
        (if wd then (ref j).vel.getD i.val 0 else 0)) ^ 2 else 0) ≤ maxSq) :
    ∃ s, stepsD (settings svd N th maxSq ff dt) (fun k => movingTask N hist gain sel wd (ref k)) k (startD d) = .ok s ∧
      s.reports = List.replicate k [] := by
  induction k with
  | zero => exact ⟨_, rfl, rfl⟩
  | succ k ih =>
    obtain ⟨s0, a0, r0⟩ := ih (fun j hj => hsm j (by omega))
    obtain ⟨s, q1, a1, a2, a3, a4, a5⟩ := steps_moving svd maxSq h k
    rw [a0] at a1
    obtain rfl : s0 = s := by simpa using a1
    obtain ⟨s2, q2, b1, b2, b3, -⟩ := step_moving svd N th maxSq ff hist gain sel wd dt h.joints h.threshold.1 h.threshold.2 h.asked
      (h.posSize k) (fun hw => h.velSize hw k) h.base h.mode a2
    have hle : askedSq N hist gain sel wd (ref k) q1 ≤ maxSq := by
      refine le_trans (le_of_eq ?_) (hsm k (by omega))
      unfold askedSq
      apply Finset.sum_congr rfl
      intro i _
      by_cases hm : Moved hist sel i.val
      · rw [if_pos hm, if_pos hm, Loop.asked, (a5 r0 i.val (h.noBase _ hm) i.isLt).1 hm]
        rfl
      · rw [if_neg hm, if_neg hm]
    refine ⟨s2, ?_, by rw [(b3 hle).1, r0, List.replicate_succ']⟩
    show (stepsD _ _ k _).bind _ = _
    rw [a0]; exact b1

open scoped Classical in
/-- C152. A posture that stays too far from where the robot is, at each instant, does not move the robot: the task is reported at each
step. -/
theorem C152_lost (h : Tracks N th ff hist gain sel wd dt ref d q) (k : Nat)
    (hbig : ∀ j < k, maxSq < ∑ i : Fin N, if Moved hist sel i.val then
      (-gain * (q.getD i.val 0 - (ref j).pos.getD i.val 0) + (if wd then (ref j).vel.getD i.val 0 else 0)) ^ 2 else 0) :
    ∃ s q', stepsD (settings svd N th maxSq ff dt) (fun k => movingTask N hist gain sel wd (ref k)) k (startD d) = .ok s ∧
      s.dev.state = nums q' ∧ q'.length = N ∧ s.reports = List.replicate k [0] ∧ ∀ i, 6 ≤ i → i < N → q'.getD i 0 = q.getD i 0 := by
  have key : ∃ s q', stepsD (settings svd N th maxSq ff dt) (fun k => movingTask N hist gain sel wd (ref k)) k (startD d) = .ok s ∧
      Inv N hist d s q' ∧ s.reports = List.replicate k [0] ∧ ∀ i, 6 ≤ i → i < N → q'.getD i 0 = q.getD i 0 := by
    induction k with
    | zero => exact ⟨startD d, q, rfl, ⟨.refl d, h.usable, h.state, h.shown, h.size, .new, rfl, good_new _ _⟩, rfl, fun _ _ _ => rfl⟩
    | succ k ih =>
      obtain ⟨s, q1, a1, a2, a3, a4⟩ := ih (fun j hj => hbig j (by omega))
      obtain ⟨s2, q2, b1, b2, -, b4⟩ := step_moving svd N th maxSq ff hist gain sel wd dt h.joints h.threshold.1 h.threshold.2 h.asked
        (h.posSize k) (fun hw => h.velSize hw k) h.base h.mode a2
      obtain ⟨b5, b6⟩ := b4 (by
        refine lt_of_lt_of_eq (hbig k (by omega)) ?_
        unfold askedSq
        apply Finset.sum_congr rfl
        intro i _
        by_cases hm : Moved hist sel i.val
        · rw [if_pos hm, if_pos hm, Loop.asked, a4 i.val (h.noBase _ hm) i.isLt]
        · rw [if_neg hm, if_neg hm])
      refine ⟨s2, q2, ?_, b2, by rw [b5, a3, List.replicate_succ'], fun i hi6 hiN => ?_⟩
      · show (stepsD _ _ k _).bind _ = _
        rw [a1]; exact b1
      · rw [(b6 i hi6 hiN).inside (by rw [a4 i hi6 hiN]; exact h.inside i hi6 hiN), a4 i hi6 hiN]
  obtain ⟨s, q', a1, a2, a3, a4⟩ := key
  exact ⟨s, q', a1, a2.state, a2.size, a3, a4⟩

end

/-! ### A case -/

/-- A reference for the last joint of seven that starts from one radian at a speed of two radians per second, every ten milliseconds. -/
noncomputable def demoRef (k : Nat) : Ref := ⟨[0, 0, 0, 0, 0, 0, 1 + k * (1 / 50)], [0, 0, 0, 0, 0, 0, 2]⟩

theorem demo_tracks (wd : Bool) : Tracks 7 (1 / 10000) (fun _ _ _ _ => some 0) [(6, true)] 10 (Flags.ofBool true) wd (1 / 100) demoRef
    demoDev [0, 0, 0, 0, 0, 0, 3] where
  joints := by decide
  threshold := by norm_num
  asked := ⟨(6, true), by simp, by decide⟩
  posSize := fun _ => rfl
  velSize := fun _ _ => rfl
  size := rfl
  base := fun _ _ _ => by simp
  noBase := demo_setup.noBase
  mode := rfl
  usable := .inl rfl
  state := rfl
  shown := rfl
  checks := fun h => by cases h
  inside := fun _ _ _ h => by cases h
  refInside := fun _ _ _ _ h => by cases h

theorem demo_moved_iff (j : Nat) : Moved [(6, true)] (Flags.ofBool true) j ↔ j = 6 := by
  constructor
  · rintro ⟨h, -⟩
    by_contra hj
    have : (6 == j) = false := by simp; omega
    simp [wanted, this] at h
  · rintro rfl
    exact demo_moved

open scoped Classical in
/-- With the derivative, from two radians away, no task is reported and after `k` steps the joint is at `2 * 0.9 ^ k` of the reference. Without
it, the lag tends to a fifth of a radian. -/
theorem C152_case (svd : ∀ {m c : ℕ} (A : Matrix (Fin m) (Fin c) ℝ), Svd A) (k : Nat) :
    (∃ s q', stepsD (settings svd 7 (1 / 10000) 10000 (fun _ _ _ _ => some 0) (1 / 100))
        (fun k => movingTask 7 [(6, true)] 10 (Flags.ofBool true) true (demoRef k)) k (startD demoDev) = .ok s ∧ s.dev.state = nums q' ∧
      s.reports = List.replicate k [] ∧ q'.getD 6 0 - (1 + k * (1 / 50)) = (9 / 10) ^ k * 2) ∧
    (∃ s q', stepsD (settings svd 7 (1 / 10000) 10000 (fun _ _ _ _ => some 0) (1 / 100))
        (fun k => movingTask 7 [(6, true)] 10 (Flags.ofBool true) false (demoRef k)) k (startD demoDev) = .ok s ∧ s.dev.state = nums q' ∧
      s.reports = List.replicate k [] ∧ q'.getD 6 0 - (1 + k * (1 / 50)) = -(1 / 5) + (9 / 10) ^ k * (2 + 1 / 5)) := by
  have hsix : ∀ f : Nat → ℝ, (∑ i : Fin 7, if Moved [(6, true)] (Flags.ofBool true) i.val then (f i.val) ^ 2 else 0) = (f 6) ^ 2 := by
    intro f
    simp [demo_moved_iff, Fin.sum_univ_succ]
  have h3 : ([0, 0, 0, 0, 0, 0, 3] : List ℝ).getD 6 0 = 3 := rfl
  have hr : ∀ k, (demoRef k).pos.getD 6 0 = 1 + k * (1 / 50) := fun _ => rfl
  have hv : ∀ k, (demoRef k).vel.getD 6 0 = 2 := fun _ => rfl
  have hpow : ∀ j : Nat, 0 ≤ (9 / 10 : ℝ) ^ j ∧ (9 / 10 : ℝ) ^ j ≤ 1 := fun j => ⟨by positivity, pow_le_one₀ (by norm_num) (by norm_num)⟩
  have hc : (10 : ℝ) * (1 / 100) = 1 / 10 := by norm_num
  constructor
  · obtain ⟨s, a1, a2⟩ := C152_quiet svd 10000 (demo_tracks true) k (fun j _ => by
      refine le_trans (le_of_eq (hsix (fun i => -10 * left (10 * (1 / 100)) (([0, 0, 0, 0, 0, 0, 3] : List ℝ).getD i 0 -
        (demoRef 0).pos.getD i 0) (unsaid true (1 / 100) demoRef i) j + (demoRef j).vel.getD i 0))) ?_
      have : left (10 * (1 / 100)) (([0, 0, 0, 0, 0, 0, 3] : List ℝ).getD 6 0 - (demoRef 0).pos.getD 6 0)
          (unsaid true (1 / 100) demoRef 6) j = (9 / 10) ^ j * 2 := by
        rw [left_none _ _ _ _ (fun l _ => by rw [unsaid, hr, hr, hv]; push_cast; simp; ring), h3, hr, hc]; norm_num
      have h4 := hpow j
      show (-10 * left (10 * (1 / 100)) (([0, 0, 0, 0, 0, 0, 3] : List ℝ).getD 6 0 - (demoRef 0).pos.getD 6 0)
          (unsaid true (1 / 100) demoRef 6) j + (demoRef j).vel.getD 6 0) ^ 2 ≤ 10000
      rw [this, hv]
      nlinarith [h4.1, h4.2])
    obtain ⟨s', q', b1, b2, b3⟩ := C152_exact svd 10000 (demo_tracks true) (fun k i _ hm => by
      obtain rfl := (demo_moved_iff i).mp hm
      rw [hr, hr, hv]; push_cast; ring) k
    rw [a1] at b1
    obtain rfl : s = s' := by simpa using b1
    refine ⟨s, q', a1, b2, a2, ?_⟩
    have := b3 a2 6 (by decide) demo_moved
    rw [h3, hr, hr, hc] at this
    rw [this]; norm_num
  · obtain ⟨s, a1, a2⟩ := C152_quiet svd 10000 (demo_tracks false) k (fun j _ => by
      refine le_trans (le_of_eq (hsix (fun i => -10 * left (10 * (1 / 100)) (([0, 0, 0, 0, 0, 0, 3] : List ℝ).getD i 0 -
        (demoRef 0).pos.getD i 0) (unsaid false (1 / 100) demoRef i) j + 0))) ?_
      have : left (10 * (1 / 100)) (([0, 0, 0, 0, 0, 0, 3] : List ℝ).getD 6 0 - (demoRef 0).pos.getD 6 0)
          (unsaid false (1 / 100) demoRef 6) j = -(1 / 5) + (9 / 10) ^ j * (2 + 1 / 5) := by
        rw [left_const _ _ (1 / 50) (by norm_num) _ _ (fun l _ => by rw [unsaid, hr, hr]; push_cast; simp; ring), h3, hr, hc]; norm_num
      have h4 := hpow j
      show (-10 * left (10 * (1 / 100)) (([0, 0, 0, 0, 0, 0, 3] : List ℝ).getD 6 0 - (demoRef 0).pos.getD 6 0)
          (unsaid false (1 / 100) demoRef 6) j + 0) ^ 2 ≤ 10000
      rw [this]
      nlinarith [h4.1, h4.2])
    obtain ⟨s', q', b1, b2, b3⟩ := C152_lag svd 10000 (demo_tracks false) (by norm_num) k
    rw [a1] at b1
    obtain rfl : s = s' := by simpa using b1
    refine ⟨s, q', a1, b2, a2, ?_⟩
    have := b3 a2 6 (by decide) demo_moved (1 / 50) (fun j _ => by rw [hr, hr]; push_cast; ring)
    rw [h3, hr, hr, hc] at this
    rw [this]; norm_num

end Verif.Loop
