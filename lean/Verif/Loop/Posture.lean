import Verif.Loop.Eval
import Mathlib.Analysis.SpecificLimits.Basic

/-!
# C124: a posture task drives the robot to the posture
-/

namespace Verif.Loop

open Matrix Verif.Sot Verif.Features Verif.Device Filter Topology

/-- A robot of `N` joints driven by a stack with one task, which has one posture: the joints asked by `hist`, the posture `target`,
the gain `gain` and the joints selected in the task. -/
noncomputable def postureLoop (svd : ∀ {m c : ℕ} (A : Matrix (Fin m) (Fin c) ℝ), Svd A) (N : Nat) (th maxSq : ℝ)
    (ff : List (Option ℝ) → List (Option ℝ) → ℝ → (Fin 6 → Option ℝ)) (hist : List (Nat × Bool)) (target : List ℝ) (gain : ℝ)
    (sel : Flags.Flags) (dt : ℝ) : Params where
  svd := svd
  n := N
  th := th
  maxSq := maxSq
  ff := ff
  tasks := [⟨[postureFeat ((Posture.new : Posture ℝ).requests N hist) target], gain, sel⟩]
  dt := dt

/-- The joint is moved by the task: it is active in the posture and selected in the task. -/
def Moved (hist : List (Nat × Bool)) (sel : Flags.Flags) (j : Nat) : Prop :=
  wanted hist j = true ∧ Flags.call sel (j : Int) = .ok true

open scoped Classical in
/-- The square of the norm of the velocity that the task asks for. -/
noncomputable def speedSq (N : Nat) (hist : List (Nat × Bool)) (sel : Flags.Flags) (gain : ℝ) (q target : List ℝ) : ℝ :=
  ∑ j : Fin N, if Moved hist sel j.val then (gain * (q.getD j.val 0 - target.getD j.val 0)) ^ 2 else 0

section
variable (svd : ∀ {m c : ℕ} (A : Matrix (Fin m) (Fin c) ℝ), Svd A) (N : Nat) (th maxSq : ℝ)
    (ff : List (Option ℝ) → List (Option ℝ) → ℝ → (Fin 6 → Option ℝ)) (hist : List (Nat × Bool)) (target : List ℝ) (gain : ℝ)
    (sel : Flags.Flags) (dt : ℝ)

/-- What holds at each step: the numbers of the device are `q`, its settings are those of `d0`. -/
structure Inv (d0 : Dev ℝ) (s : St) (q : List ℝ) : Prop where
  settings : SameSettings d0 s.dev
  usable : Usable s.dev
  state : s.dev.state = nums q
  shown : s.dev.stateSOUT = nums q
  size : q.length = N
  buf : ∃ b, s.bufs = [b] ∧ Good N (picked (wanted hist) N).length b

open scoped Classical in
theorem control_posture (hN : 0 < N) (h0 : 0 ≤ th) (h1 : th < 1) (hh : ∃ r ∈ hist, r.1 < N) (ht : target.length = N)
    {d0 : Dev ℝ} {s : St} {q : List ℝ} (hi : Inv N hist d0 s q) :
    ∃ b, Good N (picked (wanted hist) N).length b ∧
      (speedSq N hist sel gain q target ≤ maxSq →
        control (postureLoop svd N th maxSq ff hist target gain sel dt) s =
          .ok (fun j => if Moved hist sel j.val then -(q.getD j.val 0 - target.getD j.val 0) * gain else 0, [], [b])) ∧
      (maxSq < speedSq N hist sel gain q target →
        control (postureLoop svd N th maxSq ff hist target gain sel dt) s = .ok (0, [0], [b])) := by
  obtain ⟨b, hb, hgood⟩ := hi.buf
  obtain ⟨lv, b', f, g1, g2, g3, g4, g5, g6, g7⟩ := posture_level N hN hist hh q target hi.size ht gain sel b hgood
  have hu : (effJac lv)ᵀ *ᵥ (fun i => -(q.getD (f i).val 0 - target.getD (f i).val 0) * gain) =
      fun j => if Moved hist sel j.val then -(q.getD j.val 0 - target.getD j.val 0) * gain else 0 := by
    funext j
    rw [g7, selMat_transpose_mulVec f _ g4 _ (fun j => -(q.getD j.val 0 - target.getD j.val 0) * gain) (fun i => rfl) j]
    have hiff : ((∃ i, f i = j) ∧ Flags.call sel ((j.val : ℕ) : Int) = .ok true) ↔ Moved hist sel j.val := by rw [g5 j]; rfl
    exact if_congr hiff rfl rfl
  have hsq : (fun j : Fin N => if Moved hist sel j.val then -(q.getD j.val 0 - target.getD j.val 0) * gain else 0) ⬝ᵥ
      (fun j : Fin N => if Moved hist sel j.val then -(q.getD j.val 0 - target.getD j.val 0) * gain else 0) =
      speedSq N hist sel gain q target := by
    unfold dotProduct speedSq
    apply Finset.sum_congr rfl
    intro j _
    by_cases hmv : Moved hist sel j.val
    · simp only [hmv, if_true]; ring
    · simp only [hmv, if_false]; ring
  obtain ⟨k1, k2⟩ := single_level svd (th := th) (maxSq := maxSq) h0 h1 lv _ g6 (fun s hs => (g3 s hs).1)
    (by rw [g7]; exact selMat_isometry f _ g4)
  rw [hu, hsq] at k1 k2
  have hev : evalTasks N q (postureLoop svd N th maxSq ff hist target gain sel dt).tasks s.bufs = .ok [(lv, b')] := by
    rw [hb]
    show (evalTask N q _ b).bind _ = _
    rw [g1]; rfl
  refine ⟨b', g2, fun h => ?_, fun h => ?_⟩
  · unfold control
    rw [hi.shown, numbers_nums, Outcome.bind_ok]
    show (evalTasks N q _ s.bufs).bind _ = _
    rw [hev]
    show (computeControlLaw svd N th maxSq false none none [lv]).map _ = _
    rw [k1 h]; rfl
  · unfold control
    rw [hi.shown, numbers_nums, Outcome.bind_ok]
    show (evalTasks N q _ s.bufs).bind _ = _
    rw [hev]
    show (computeControlLaw svd N th maxSq false none none [lv]).map _ = _
    rw [k2 h]; rfl

/-- The integration of the base gives numbers when it is given numbers, for a state and a control of the same size with a base. -/
def BaseNumbers (ff : List (Option ℝ) → List (Option ℝ) → ℝ → (Fin 6 → Option ℝ)) (dt : ℝ) : Prop :=
  ∀ q u : List ℝ, 6 ≤ q.length → u.length = q.length → ∀ i, ff (nums q) (nums u) dt i ≠ none

theorem ofFn_nums {N : Nat} (u : Fin N → ℝ) : (List.ofFn fun i => some (u i)) = nums (List.ofFn u) := by
  simp [nums, List.map_ofFn, Function.comp_def]

open scoped Classical in
/-- One step of the loop. -/
theorem step_posture (hN : 6 ≤ N) (h0 : 0 ≤ th) (h1 : th < 1) (hh : ∃ r ∈ hist, r.1 < N) (ht : target.length = N)
    (hff : BaseNumbers ff dt) {d0 : Dev ℝ} (hm : d0.mode = .oneInteg) {s : St} {q : List ℝ} (hi : Inv N hist d0 s q) :
    ∃ s' q', step (postureLoop svd N th maxSq ff hist target gain sel dt) s = .ok s' ∧ Inv N hist d0 s' q' ∧
      (speedSq N hist sel gain q target ≤ maxSq → s'.reports = s.reports ++ [[]] ∧
        ∀ i, 6 ≤ i → i < N → Kept d0 i (if Moved hist sel i then q.getD i 0 + dt * (-(q.getD i 0 - target.getD i 0) * gain)
          else q.getD i 0) (q'.getD i 0)) ∧
      (maxSq < speedSq N hist sel gain q target → s'.reports = s.reports ++ [[0]] ∧
        ∀ i, 6 ≤ i → i < N → Kept d0 i (q.getD i 0) (q'.getD i 0)) := by
  obtain ⟨b, hb, c1, c2⟩ := control_posture svd N th maxSq ff hist target gain sel dt (by omega) h0 h1 hh ht hi
  have key : ∀ (u : Fin N → ℝ) (dis : List Nat),
      control (postureLoop svd N th maxSq ff hist target gain sel dt) s = .ok (u, dis, [b]) →
      ∃ s' q', step (postureLoop svd N th maxSq ff hist target gain sel dt) s = .ok s' ∧ Inv N hist d0 s' q' ∧
        s'.reports = s.reports ++ [dis] ∧
        ∀ (i : Nat) (h : i < N), 6 ≤ i → Kept d0 i (q.getD i 0 + dt * u ⟨i, h⟩) (q'.getD i 0) := by
    intro u dis hc
    have hlen : (List.ofFn u).length = q.length := by simp [hi.size]
    obtain ⟨d', q', e1, e2, e3, e4, e5, e6, -, e8⟩ := device_step ff s.dev q (List.ofFn u) dt
      (by rw [hi.settings.2.1, hm]) hi.state (by omega) (fun _ => by have := hi.size; omega)
      (fun he i => by rw [hi.state]; exact hff q _ (by have := hi.size; omega) he i) hi.usable
    refine ⟨⟨d', [b], s.reports ++ [dis]⟩, q', ?_, ⟨hi.settings.trans e5, e6, e2, e3, by rw [e4, hi.size], b, rfl, hb⟩, rfl, ?_⟩
    · unfold step
      rw [hc, Outcome.bind_ok]
      show (increment ff s.dev (List.ofFn fun i => some (u i)) dt).map _ = _
      rw [ofFn_nums, e1]; rfl
    · intro i h hi6
      have hiq : i < q.length := by rw [hi.size]; exact h
      obtain ⟨y, y1, y2⟩ := e8 i q[i] (u ⟨i, h⟩) (fun _ => hi6) (by
        rw [hlen, Nat.sub_self, Nat.zero_add, List.getElem?_eq_getElem hiq]) (by
        rw [List.getElem?_ofFn, dif_pos h])
      rw [hlen, Nat.sub_self, Nat.zero_add] at y1 y2
      have hq : q.getD i 0 = q[i] := by rw [List.getD, List.getElem?_eq_getElem hiq]; rfl
      have hy : q'.getD i 0 = y := by rw [List.getD, y1]; rfl
      rw [hq, hy]
      exact y2.settings hi.settings
  by_cases hs : speedSq N hist sel gain q target ≤ maxSq
  · obtain ⟨s', q', k1, k2, k3, k4⟩ := key _ _ (c1 hs)
    refine ⟨s', q', k1, k2, fun _ => ⟨k3, fun i hi6 hiN => ?_⟩, fun h => absurd hs (not_le.mpr h)⟩
    have := k4 i hiN hi6
    by_cases hmv : Moved hist sel i
    · simpa [hmv] using this
    · simpa [hmv] using this
  · obtain ⟨s', q', k1, k2, k3, k4⟩ := key _ _ (c2 (not_le.mp hs))
    refine ⟨s', q', k1, k2, fun h => absurd h hs, fun _ => ⟨k3, fun i hi6 hiN => ?_⟩⟩
    have : Kept d0 i (q.getD i 0 + dt * 0) (q'.getD i 0) := k4 i hiN hi6
    rwa [mul_zero, add_zero] at this

/-- The number `x` is within the bounds of the position `i`, if the device checks them. -/
def Inside (d : Dev ℝ) (i : Nat) (x : ℝ) : Prop :=
  d.sanity = true → ∀ l p, d.lowerPosition[i]? = some (some l) → d.upperPosition[i]? = some (some p) → l ≤ x ∧ x ≤ p

theorem Kept.inside {d : Dev ℝ} {i : Nat} {x y : ℝ} (h : Kept d i x y) (hx : Inside d i x) : y = x := by
  rcases h with ⟨-, h⟩ | ⟨hs, l, p, h1, h2, h⟩
  · exact h
  · obtain ⟨a, b⟩ := hx hs l p h1 h2
    rw [h, min_eq_left b, max_eq_right a]

theorem Inside.between {d : Dev ℝ} {i : Nat} {x t c : ℝ} (hx : Inside d i x) (ht : Inside d i t) (h0 : 0 ≤ c) (h1 : c ≤ 1) :
    Inside d i (t + c * (x - t)) := by
  intro hs l p hl hp
  obtain ⟨a1, a2⟩ := hx hs l p hl hp
  obtain ⟨b1, b2⟩ := ht hs l p hl hp
  constructor <;> nlinarith

open scoped Classical in
/-- Where the joint `i` is after `k` steps. -/
noncomputable def reached (c : ℝ) (k : Nat) (x t : ℝ) (mv : Prop) : ℝ := if mv then t + c ^ k * (x - t) else x

theorem steps_add (P : Params) (a b : Nat) (s : St) : steps P (a + b) s = (steps P a s).bind (steps P b) := by
  induction b with
  | zero => cases h : steps P a s <;> simp [steps, h]
  | succ b ih =>
    rw [← Nat.add_assoc]
    show (steps P (a + b) s).bind (step P) = _
    rw [ih]
    cases h : steps P a s with
    | ok x => rfl
    | throw => rfl
    | ub => rfl

theorem speedSq_reached (c : ℝ) (k : Nat) (q q' : List ℝ) (h6 : ∀ j, Moved hist sel j → 6 ≤ j)
    (h : ∀ i, 6 ≤ i → i < N → q'.getD i 0 = reached c k (q.getD i 0) (target.getD i 0) (Moved hist sel i)) :
    speedSq N hist sel gain q' target = (c ^ 2) ^ k * speedSq N hist sel gain q target := by
  unfold speedSq
  rw [Finset.mul_sum]
  apply Finset.sum_congr rfl
  intro j _
  by_cases hm : Moved hist sel j.val
  · rw [if_pos hm, if_pos hm, h j.val (h6 _ hm) j.isLt, reached, if_pos hm, add_sub_cancel_left, ← pow_mul, Nat.mul_comm 2 k, pow_mul]
    ring
  · rw [if_neg hm, if_neg hm, mul_zero]

open scoped Classical in
/-- From any state met by the loop: as long as the velocity asked for stays within the limit of the stack, each step reduces the distance to the
posture of the joints that are moved, the others stay, and nothing is reported. -/
theorem steps_posture (hN : 6 ≤ N) (h0 : 0 ≤ th) (h1 : th < 1) (hh : ∃ r ∈ hist, r.1 < N) (ht : target.length = N)
    (hff : BaseNumbers ff dt) (h6 : ∀ j, Moved hist sel j → 6 ≤ j) {d0 : Dev ℝ} (hm : d0.mode = .oneInteg) {s : St} {q : List ℝ}
    (hi : Inv N hist d0 s q) (hin : ∀ i, 6 ≤ i → i < N → Inside d0 i (q.getD i 0))
    (htin : ∀ i, i < N → Moved hist sel i → Inside d0 i (target.getD i 0))
    (hc : d0.sanity = true → 0 ≤ gain * dt ∧ gain * dt ≤ 1) (k : Nat)
    (hsm : ∀ j < k, ((1 - gain * dt) ^ 2) ^ j * speedSq N hist sel gain q target ≤ maxSq) :
    ∃ s' q', steps (postureLoop svd N th maxSq ff hist target gain sel dt) k s = .ok s' ∧ Inv N hist d0 s' q' ∧
      s'.reports = s.reports ++ List.replicate k [] ∧
      ∀ i, 6 ≤ i → i < N → q'.getD i 0 = reached (1 - gain * dt) k (q.getD i 0) (target.getD i 0) (Moved hist sel i) := by
  induction k with
  | zero => exact ⟨s, q, rfl, hi, by simp, fun i _ _ => by unfold reached; split_ifs <;> ring⟩
  | succ k ih =>
    obtain ⟨s1, q1, a1, a2, a3, a4⟩ := ih (fun j hj => hsm j (by omega))
    obtain ⟨s2, q2, b1, b2, b3, -⟩ := step_posture svd N th maxSq ff hist target gain sel dt hN h0 h1 hh ht hff hm a2
    have hsp := speedSq_reached N hist target gain sel _ k q q1 h6 a4
    obtain ⟨b4, b5⟩ := b3 (by rw [hsp]; exact hsm k (by omega))
    refine ⟨s2, q2, ?_, b2, ?_, ?_⟩
    · show (steps _ k s).bind _ = _
      rw [a1]; exact b1
    · rw [b4, a3, List.append_assoc, List.replicate_succ']
    · intro i hi6 hiN
      have h := b5 i hi6 hiN
      rw [a4 i hi6 hiN] at h
      have e : (if Moved hist sel i then reached (1 - gain * dt) k (q.getD i 0) (target.getD i 0) (Moved hist sel i) +
          dt * (-(reached (1 - gain * dt) k (q.getD i 0) (target.getD i 0) (Moved hist sel i) - target.getD i 0) * gain)
          else reached (1 - gain * dt) k (q.getD i 0) (target.getD i 0) (Moved hist sel i)) =
          reached (1 - gain * dt) (k + 1) (q.getD i 0) (target.getD i 0) (Moved hist sel i) := by
        by_cases hmv : Moved hist sel i
        · simp only [reached, hmv, if_true]; ring
        · simp only [reached, hmv, if_false]
      rw [e] at h
      apply h.inside
      intro hs
      obtain ⟨c1, c2⟩ := hc hs
      unfold reached
      split_ifs with hmv
      · exact (hin i hi6 hiN).between (htin i hiN hmv) (pow_nonneg (by linarith) _) (pow_le_one₀ (by linarith) (by linarith)) hs
      · exact hin i hi6 hiN hs

/-- From any state met by the loop at which the velocity asked for is above the limit: the robot stays there for ever and the task is
reported at each step. -/
theorem steps_stuck (hN : 6 ≤ N) (h0 : 0 ≤ th) (h1 : th < 1) (hh : ∃ r ∈ hist, r.1 < N) (ht : target.length = N)
    (hff : BaseNumbers ff dt) (h6 : ∀ j, Moved hist sel j → 6 ≤ j) {d0 : Dev ℝ} (hm : d0.mode = .oneInteg) {s : St} {q : List ℝ}
    (hi : Inv N hist d0 s q) (hin : ∀ i, 6 ≤ i → i < N → Inside d0 i (q.getD i 0))
    (hbig : maxSq < speedSq N hist sel gain q target) (k : Nat) :
    ∃ s' q', steps (postureLoop svd N th maxSq ff hist target gain sel dt) k s = .ok s' ∧ Inv N hist d0 s' q' ∧
      s'.reports = s.reports ++ List.replicate k [0] ∧ ∀ i, 6 ≤ i → i < N → q'.getD i 0 = q.getD i 0 := by
  induction k with
  | zero => exact ⟨s, q, rfl, hi, by simp, fun _ _ _ => rfl⟩
  | succ k ih =>
    obtain ⟨s1, q1, a1, a2, a3, a4⟩ := ih
    obtain ⟨s2, q2, b1, b2, -, b3⟩ := step_posture svd N th maxSq ff hist target gain sel dt hN h0 h1 hh ht hff hm a2
    have hsp := speedSq_reached N hist target gain sel 1 0 q q1 h6 (fun i hi6 hiN => by
      rw [a4 i hi6 hiN]; unfold reached; split_ifs <;> ring)
    obtain ⟨b4, b5⟩ := b3 (by rw [hsp]; simpa using hbig)
    refine ⟨s2, q2, ?_, b2, ?_, ?_⟩
    · show (steps _ k s).bind _ = _
      rw [a1]; exact b1
    · rw [b4, a3, List.append_assoc, List.replicate_succ']
    · intro i hi6 hiN
      have h := b5 i hi6 hiN
      rw [a4 i hi6 hiN] at h
      exact h.inside (hin i hi6 hiN)

/-! ### Properties -/

/-- The robot has at least six joints, the threshold of the stack is below one, some joint of the robot was asked for, and the task
moves joints after the first six only. The device is driven in velocity, its state is `q` and can be checked; its joints are within
its bounds, and so is the posture for the joints that are moved. -/
structure Setup (d : Dev ℝ) (q : List ℝ) : Prop where
  joints : 6 ≤ N
  threshold : 0 ≤ th ∧ th < 1
  asked : ∃ r ∈ hist, r.1 < N
  targetSize : target.length = N
  size : q.length = N
  base : BaseNumbers ff dt
  noBase : ∀ j, Moved hist sel j → 6 ≤ j
  mode : d.mode = .oneInteg
  usable : Usable d
  state : d.state = nums q
  shown : d.stateSOUT = nums q
  inside : ∀ i, 6 ≤ i → i < N → Inside d i (q.getD i 0)
  targetInside : ∀ i, i < N → Moved hist sel i → Inside d i (target.getD i 0)

variable {N th ff hist target gain sel dt}

theorem Setup.inv {d : Dev ℝ} {q : List ℝ} (h : Setup N th ff hist target sel dt d q) :
    Inv N hist d (start (postureLoop svd N th maxSq ff hist target gain sel dt) d) q :=
  ⟨.refl d, h.usable, h.state, h.shown, h.size, .new, rfl, good_new _ _⟩

/-- C124. As long as the velocity asked for stays within the limit of the stack, after `k` steps the distance to the posture of each
joint that is moved is the first one times `(1 - gain * dt) ^ k`, the other joints (after the base) have not moved, and no task is
reported. With checks, the gain times the period has to be between zero and one. -/
theorem C124_approach {d : Dev ℝ} {q : List ℝ} (h : Setup N th ff hist target sel dt d q)
    (hc : d.sanity = true → 0 ≤ gain * dt ∧ gain * dt ≤ 1) (k : Nat)
    (hsm : ∀ j < k, ((1 - gain * dt) ^ 2) ^ j * speedSq N hist sel gain q target ≤ maxSq) :
    ∃ s q', steps (postureLoop svd N th maxSq ff hist target gain sel dt) k
        (start (postureLoop svd N th maxSq ff hist target gain sel dt) d) = .ok s ∧
      s.dev.state = nums q' ∧ s.dev.stateSOUT = nums q' ∧ q'.length = N ∧ s.reports = List.replicate k [] ∧
      ∀ i, 6 ≤ i → i < N →
        (Moved hist sel i → q'.getD i 0 - target.getD i 0 = (1 - gain * dt) ^ k * (q.getD i 0 - target.getD i 0)) ∧
        (¬Moved hist sel i → q'.getD i 0 = q.getD i 0) := by
  obtain ⟨s', q', a1, a2, a3, a4⟩ := steps_posture svd N th maxSq ff hist target gain sel dt h.joints h.threshold.1 h.threshold.2 h.asked
    h.targetSize h.base h.noBase h.mode (h.inv svd maxSq) h.inside h.targetInside hc k hsm
  refine ⟨s', q', a1, a2.state, a2.shown, a2.size, by rw [a3]; simp [start], fun i hi6 hiN => ?_⟩
  rw [a4 i hi6 hiN]
  unfold reached
  exact ⟨fun hm => by rw [if_pos hm]; ring, fun hm => by rw [if_neg hm]⟩

/-- C124. With a gain times the period between zero and two (one with checks), and a first velocity within the limit, the joints that
are moved converge to the posture; no task is ever reported. -/
theorem C124_converges {d : Dev ℝ} {q : List ℝ} (h : Setup N th ff hist target sel dt d q) (h0 : 0 < gain * dt) (h2 : gain * dt < 2)
    (hc : d.sanity = true → gain * dt ≤ 1) (hsm : speedSq N hist sel gain q target ≤ maxSq) :
    ∃ traj : Nat → List ℝ, (∀ k, ∃ s, steps (postureLoop svd N th maxSq ff hist target gain sel dt) k
        (start (postureLoop svd N th maxSq ff hist target gain sel dt) d) = .ok s ∧ s.dev.state = nums (traj k) ∧
        s.reports = List.replicate k []) ∧
      ∀ i, i < N → Moved hist sel i → Tendsto (fun k => (traj k).getD i 0) atTop (𝓝 (target.getD i 0)) := by
  have habs : |1 - gain * dt| < 1 := by rw [abs_lt]; constructor <;> linarith
  have hnn : 0 ≤ speedSq N hist sel gain q target := by
    unfold speedSq
    apply Finset.sum_nonneg
    intro j _
    split_ifs
    · exact sq_nonneg _
    · exact le_refl _
  have hall : ∀ k, ∃ s q', steps (postureLoop svd N th maxSq ff hist target gain sel dt) k
        (start (postureLoop svd N th maxSq ff hist target gain sel dt) d) = .ok s ∧
      s.dev.state = nums q' ∧ s.reports = List.replicate k [] ∧
      ∀ i, 6 ≤ i → i < N → Moved hist sel i →
        q'.getD i 0 - target.getD i 0 = (1 - gain * dt) ^ k * (q.getD i 0 - target.getD i 0) := by
    intro k
    obtain ⟨s, q', a1, a2, -, -, a5, a6⟩ := C124_approach svd maxSq h (gain := gain) (fun hs => ⟨h0.le, hc hs⟩) k (fun j _ => by
      have hle : ((1 - gain * dt) ^ 2) ^ j ≤ 1 := pow_le_one₀ (sq_nonneg _) (by
        rw [← sq_abs]; exact pow_le_one₀ (abs_nonneg _) habs.le)
      calc _ ≤ 1 * speedSq N hist sel gain q target := mul_le_mul_of_nonneg_right hle hnn
        _ ≤ maxSq := by rw [one_mul]; exact hsm)
    exact ⟨s, q', a1, a2, a5, fun i h6 hN hm => (a6 i h6 hN).1 hm⟩
  choose s traj a1 a2 a3 a4 using hall
  refine ⟨traj, fun k => ⟨s k, a1 k, a2 k, a3 k⟩, fun i hiN hm => ?_⟩
  have hlim : Tendsto (fun k => target.getD i 0 + (1 - gain * dt) ^ k * (q.getD i 0 - target.getD i 0)) atTop
      (𝓝 (target.getD i 0 + 0 * (q.getD i 0 - target.getD i 0))) :=
    ((tendsto_pow_atTop_nhds_zero_of_abs_lt_one habs).mul_const _).const_add _
  rw [zero_mul, add_zero] at hlim
  refine hlim.congr fun k => ?_
  have := a4 k i (h.noBase i hm) hiN hm
  linarith

/-- C124. With a first velocity above the limit of the stack the robot never moves, and the task is reported at each step. -/
theorem C124_too_fast {d : Dev ℝ} {q : List ℝ} (h : Setup N th ff hist target sel dt d q)
    (hbig : maxSq < speedSq N hist sel gain q target) (k : Nat) :
    ∃ s q', steps (postureLoop svd N th maxSq ff hist target gain sel dt) k
        (start (postureLoop svd N th maxSq ff hist target gain sel dt) d) = .ok s ∧
      s.dev.state = nums q' ∧ q'.length = N ∧ s.reports = List.replicate k [0] ∧
      ∀ i, 6 ≤ i → i < N → q'.getD i 0 = q.getD i 0 := by
  obtain ⟨s', q', a1, a2, a3, a4⟩ := steps_stuck svd N th maxSq ff hist target gain sel dt h.joints h.threshold.1 h.threshold.2 h.asked
    h.targetSize h.base h.noBase h.mode (h.inv svd maxSq) h.inside hbig k
  exact ⟨s', q', a1, a2.state, a2.size, by rw [a3]; simp [start], a4⟩

/-- C124. Without checks, with a gain times the period above two (or negative) and a robot that is not at the posture, the distance grows
until the velocity is above the limit; from then on the robot does not move any more and the task is reported at each step. -/
theorem C124_unstable {d : Dev ℝ} {q : List ℝ} (h : Setup N th ff hist target sel dt d q) (hs : d.sanity = false)
    (hg : gain * dt < 0 ∨ 2 < gain * dt) (hpos : 0 < speedSq N hist sel gain q target) :
    ∃ K, ∀ k, ∃ s q', steps (postureLoop svd N th maxSq ff hist target gain sel dt) (K + k)
        (start (postureLoop svd N th maxSq ff hist target gain sel dt) d) = .ok s ∧
      s.dev.state = nums q' ∧ q'.length = N ∧ s.reports = List.replicate K [] ++ List.replicate k [0] ∧
      ∀ i, 6 ≤ i → i < N → Moved hist sel i →
        q'.getD i 0 - target.getD i 0 = (1 - gain * dt) ^ K * (q.getD i 0 - target.getD i 0) := by
  classical
  have h1 : 1 < (1 - gain * dt) ^ 2 := by rcases hg with hg | hg <;> nlinarith
  have hex : ∃ K, maxSq < ((1 - gain * dt) ^ 2) ^ K * speedSq N hist sel gain q target := by
    obtain ⟨K, hK⟩ := pow_unbounded_of_one_lt (maxSq / speedSq N hist sel gain q target) h1
    exact ⟨K, (div_lt_iff₀ hpos).mp hK⟩
  refine ⟨Nat.find hex, fun k => ?_⟩
  obtain ⟨s1, q1, a1, a2, a3, a4⟩ := steps_posture svd N th maxSq ff hist target gain sel dt h.joints h.threshold.1 h.threshold.2 h.asked
    h.targetSize h.base h.noBase h.mode (h.inv svd maxSq) h.inside h.targetInside (fun h => by rw [hs] at h; cases h) (Nat.find hex)
    (fun j hj => not_lt.mp (Nat.find_min hex hj))
  obtain ⟨s2, q2, b1, b2, b3, b4⟩ := steps_stuck svd N th maxSq ff hist target gain sel dt h.joints h.threshold.1 h.threshold.2 h.asked
    h.targetSize h.base h.noBase h.mode a2 (fun i _ _ h => by rw [hs] at h; cases h)
    (by rw [speedSq_reached N hist target gain sel _ _ q q1 h.noBase a4]; exact Nat.find_spec hex) k
  refine ⟨s2, q2, ?_, b2.state, b2.size, ?_, fun i hi6 hiN hm => ?_⟩
  · rw [steps_add, a1]; exact b1
  · rw [b3, a3]; simp [start]
  · rw [b4 i hi6 hiN, a4 i hi6 hiN, reached, if_pos hm]; ring

end

/-- A robot with seven joints whose posture has the last one only, three radians away from it. -/
noncomputable def demoDev : Dev ℝ := { init with sanity := false, state := nums [0, 0, 0, 0, 0, 0, 3], stateSOUT := nums [0, 0, 0, 0, 0, 0, 3] }

theorem demo_setup : Setup 7 (1 / 10000) (fun _ _ _ _ => some 0) [(6, true)] [0, 0, 0, 0, 0, 0, 1] (Flags.ofBool true) (1 / 100)
    demoDev [0, 0, 0, 0, 0, 0, 3] where
  joints := by decide
  threshold := by norm_num
  asked := ⟨(6, true), by simp, by decide⟩
  targetSize := rfl
  size := rfl
  base := fun _ _ _ => by simp
  noBase := by
    rintro j ⟨hj, -⟩
    by_contra h
    have : (6 == j) = false := by simp; omega
    simp [wanted, this] at hj
  mode := rfl
  usable := .inl rfl
  state := rfl
  shown := rfl
  inside := fun _ _ _ h => by cases h
  targetInside := fun _ _ _ h => by cases h

theorem demo_moved : Moved [(6, true)] (Flags.ofBool true) 6 := by
  refine ⟨by simp [wanted], ?_⟩
  decide

/-- With a gain of ten and a period of ten milliseconds, the last joint converges to one radian. -/
example (svd : ∀ {m c : ℕ} (A : Matrix (Fin m) (Fin c) ℝ), Svd A) :
    ∃ traj : Nat → List ℝ, (∀ k, ∃ s, steps (postureLoop svd 7 (1 / 10000) 10000 (fun _ _ _ _ => some 0) [(6, true)]
        [0, 0, 0, 0, 0, 0, 1] 10 (Flags.ofBool true) (1 / 100)) k (start (postureLoop svd 7 (1 / 10000) 10000 (fun _ _ _ _ => some 0)
        [(6, true)] [0, 0, 0, 0, 0, 0, 1] 10 (Flags.ofBool true) (1 / 100)) demoDev) = .ok s ∧ s.dev.state = nums (traj k) ∧
        s.reports = List.replicate k []) ∧
      Tendsto (fun k => (traj k).getD 6 0) atTop (𝓝 1) := by
  classical
  obtain ⟨traj, h1, h2⟩ := C124_converges svd 10000 (gain := 10) demo_setup (by norm_num) (by norm_num) (fun h => by cases h) (by
    unfold speedSq
    calc _ ≤ ∑ j : Fin 7, (10 * (([0, 0, 0, 0, 0, 0, 3] : List ℝ).getD j.val 0 - ([0, 0, 0, 0, 0, 0, 1] : List ℝ).getD j.val 0)) ^ 2 := by
          apply Finset.sum_le_sum
          intro j _
          split_ifs
          · exact le_refl _
          · exact sq_nonneg _
      _ ≤ 10000 := by simp [Fin.sum_univ_succ]; norm_num)
  exact ⟨traj, h1, h2 6 (by decide) demo_moved⟩

end Verif.Loop
