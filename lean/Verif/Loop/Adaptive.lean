import Verif.Loop.Posture
import Verif.Gain.Props
import Mathlib.Analysis.Complex.ExponentialBounds

/-!
# C135: a posture task with a gain that depends on its error, in closed loop

The scripts plug the error of the task on a gain entity and the gain of this entity on the task
(src/dynamic_graph/sot/core/meta_task_posture.py:47-51, src/dynamic_graph/sot/core/meta_task_6d.py:66-67).
-/

namespace Verif.Loop

open Matrix Verif.Sot Verif.Features Verif.Device Filter Topology

/-- The gains of the tasks at a state, each given by the entity plugged on the error of the task: the entity reads the error
(src/task/gain-adaptive.cpp:166-174, src/task/gain-hyperbolic.cpp:96-104), the task reads the gain (src/task/task.cpp:232-239). -/
noncomputable def regain (q : List ℝ) : List TaskDef → List (List ℝ → ℝ) → List Buf → Outcome (List TaskDef)
  | t :: ts, g :: gs, b :: bs =>
    (collect (fun f : Feat => f.err q) t.feats).bind fun es =>
    (Task.computeError b.err es).bind fun e =>
    (regain q ts gs bs).map ({ t with gain := g e } :: ·)
  | _, _, _ => .ok []

/-- One step of the loop with a gain entity per task. -/
noncomputable def gainStep (P : Params) (laws : List (List ℝ → ℝ)) (s : St) : Outcome St :=
  (numbers s.dev.stateSOUT).bind fun q =>
  (regain q P.tasks laws s.bufs).bind fun ts => step { P with tasks := ts } s

/-- Several steps. -/
noncomputable def gainSteps (P : Params) (laws : List (List ℝ → ℝ)) : Nat → St → Outcome St
  | 0, s => .ok s
  | k + 1, s => (gainSteps P laws k s).bind (gainStep P laws)

/-- The error of the posture: the distances of the joints asked for, in order. -/
def apart (N : Nat) (hist : List (Nat × Bool)) (q target : List ℝ) : List ℝ :=
  ((List.range N).filter fun i => wanted hist i).map fun i => q.getD i 0 - target.getD i 0

section
variable (svd : ∀ {m c : ℕ} (A : Matrix (Fin m) (Fin c) ℝ), Svd A) (N : Nat) (th maxSq : ℝ)
    (ff : List (Option ℝ) → List (Option ℝ) → ℝ → (Fin 6 → Option ℝ)) (hist : List (Nat × Bool)) (target : List ℝ)
    (law : List ℝ → ℝ) (sel : Flags.Flags) (dt : ℝ)

theorem posture_err (q : List ℝ) (hh : ∃ r ∈ hist, r.1 < N) (hq : q.length = N) (ht : target.length = N) :
    (postureFeat ((Posture.new : Posture ℝ).requests N hist) target).err q = .ok (apart N hist q target) := by
  set p := (Posture.new : Posture ℝ).requests N hist with hp
  obtain ⟨p1, p2, p3, p4⟩ := C51_history (F := ℝ) N hist
  rw [← hp] at p1 p2 p3 p4
  have hal : p.active.length = N := p4 (by rintro rfl; simp at hh)
  have hpick : picked (fun i => p.active.getD i false) p.active.length = picked (wanted hist) N := by
    rw [hal]
    apply List.filter_congr
    intro i hi
    exact p1 i (List.mem_range.mp hi)
  show p.error q target (List.replicate p.nb 0) = _
  rw [C51_error p q target _ (by omega) (by omega) (by rw [hpick, List.length_replicate, p3]), hpick]
  rfl

/-- One step of the loop with the gain entity is one step of the loop with the gain that the entity answers. -/
theorem gainStep_posture (hh : ∃ r ∈ hist, r.1 < N) (ht : target.length = N) {d0 : Dev ℝ} {s : St} {q : List ℝ}
    (hi : Inv N hist d0 s q) (g0 : ℝ) :
    gainStep (postureLoop svd N th maxSq ff hist target g0 sel dt) [law] s =
      step (postureLoop svd N th maxSq ff hist target (law (apart N hist q target)) sel dt) s := by
  obtain ⟨b, hb, -⟩ := hi.buf
  have hr : regain q (postureLoop svd N th maxSq ff hist target g0 sel dt).tasks [law] s.bufs =
      .ok [⟨[postureFeat ((Posture.new : Posture ℝ).requests N hist) target], law (apart N hist q target), sel⟩] := by
    rw [hb]
    show (collect _ _).bind _ = _
    simp only [collect, posture_err N hist target q hh hi.size ht, Outcome.bind_ok, Outcome.map_ok, Task.C14_single_feature, regain]
  unfold gainStep
  rw [hi.shown, numbers_nums, Outcome.bind_ok, hr]
  rfl

/-- Some step of the loop. -/
theorem gainSteps_succ (g0 : ℝ) (k : Nat) (s : St) :
    gainSteps (postureLoop svd N th maxSq ff hist target g0 sel dt) [law] (k + 1) s =
      (gainSteps (postureLoop svd N th maxSq ff hist target g0 sel dt) [law] k s).bind
        (gainStep (postureLoop svd N th maxSq ff hist target g0 sel dt) [law]) := rfl

theorem gainSteps_add (P : Params) (laws : List (List ℝ → ℝ)) (a b : Nat) (s : St) :
    gainSteps P laws (a + b) s = (gainSteps P laws a s).bind (gainSteps P laws b) := by
  induction b with
  | zero => cases h : gainSteps P laws a s <;> simp [gainSteps, h]
  | succ b ih =>
    rw [← Nat.add_assoc]
    show (gainSteps P laws (a + b) s).bind (gainStep P laws) = _
    rw [ih]
    cases h : gainSteps P laws a s with
    | ok x => rfl
    | throw => rfl
    | ub => rfl

open scoped Classical in
/-- The joints on the way to the posture: those that are moved are at `c` times their first distance. -/
noncomputable def onWay (q : List ℝ) (c : ℝ) : List ℝ :=
  (List.range N).map fun i => if Moved hist sel i then target.getD i 0 + c * (q.getD i 0 - target.getD i 0) else q.getD i 0

theorem onWay_getD (q : List ℝ) (c : ℝ) (i : Nat) (hi : i < N) :
    (onWay N hist target sel q c).getD i 0 = reached c 1 (q.getD i 0) (target.getD i 0) (Moved hist sel i) := by
  classical
  unfold onWay reached
  rw [List.getD, List.getElem?_map, List.getElem?_range hi]
  simp only [Option.map_some, Option.getD_some, pow_one]

theorem apart_congr {q q' : List ℝ} (hb : ∀ j, wanted hist j = true → 6 ≤ j)
    (h : ∀ i, 6 ≤ i → i < N → q'.getD i 0 = q.getD i 0) : apart N hist q' target = apart N hist q target := by
  unfold apart
  apply List.map_congr_left
  intro i hi
  obtain ⟨h1, h2⟩ := List.mem_filter.mp hi
  rw [h i (hb i h2) (List.mem_range.mp h1)]

theorem speedSq_congr {q q' : List ℝ} (g : ℝ) (h6 : ∀ j, Moved hist sel j → 6 ≤ j)
    (h : ∀ i, 6 ≤ i → i < N → q'.getD i 0 = q.getD i 0) :
    speedSq N hist sel g q' target = speedSq N hist sel g q target := by
  unfold speedSq
  apply Finset.sum_congr rfl
  intro j _
  by_cases hm : Moved hist sel j.val
  · rw [if_pos hm, if_pos hm, h j.val (h6 _ hm) j.isLt]
  · rw [if_neg hm, if_neg hm]

/-- One step from a place on the way, with the velocity within the limit. -/
theorem onWay_step (hN : 6 ≤ N) (h0 : 0 ≤ th) (h1 : th < 1) (hh : ∃ r ∈ hist, r.1 < N) (ht : target.length = N)
    (hff : BaseNumbers ff dt) (hb : ∀ j, wanted hist j = true → 6 ≤ j) {d0 : Dev ℝ} (hm : d0.mode = .oneInteg) {s : St} {q q1 : List ℝ}
    (hi : Inv N hist d0 s q1) (hin : ∀ i, 6 ≤ i → i < N → Inside d0 i (q.getD i 0))
    (htin : ∀ i, i < N → Moved hist sel i → Inside d0 i (target.getD i 0)) (g0 c : ℝ)
    (hw : ∀ i, 6 ≤ i → i < N → q1.getD i 0 = (onWay N hist target sel q c).getD i 0)
    (hc : d0.sanity = true → 0 ≤ (1 - law (apart N hist (onWay N hist target sel q c) target) * dt) * c ∧
      (1 - law (apart N hist (onWay N hist target sel q c) target) * dt) * c ≤ 1)
    (hsp : speedSq N hist sel (law (apart N hist (onWay N hist target sel q c) target)) (onWay N hist target sel q c) target ≤ maxSq) :
    ∃ s' q', gainStep (postureLoop svd N th maxSq ff hist target g0 sel dt) [law] s = .ok s' ∧ Inv N hist d0 s' q' ∧
      s'.reports = s.reports ++ [[]] ∧
      ∀ i, 6 ≤ i → i < N → q'.getD i 0 =
        (onWay N hist target sel q ((1 - law (apart N hist (onWay N hist target sel q c) target) * dt) * c)).getD i 0 := by
  have ha := apart_congr N hist target (q := onWay N hist target sel q c) hb hw
  set g := law (apart N hist (onWay N hist target sel q c) target) with hg
  obtain ⟨s', q', b1, b2, b3, -⟩ := step_posture svd N th maxSq ff hist target g sel dt hN h0 h1 hh ht hff hm hi
  have h6 : ∀ j, Moved hist sel j → 6 ≤ j := fun j hj => hb j hj.1
  obtain ⟨b4, b5⟩ := b3 (by rw [speedSq_congr N hist target sel g h6 hw]; exact hsp)
  refine ⟨s', q', ?_, b2, b4, fun i hi6 hiN => ?_⟩
  · rw [gainStep_posture svd N th maxSq ff hist target law sel dt hh ht hi, ha, ← hg]; exact b1
  · have h := b5 i hi6 hiN
    rw [onWay_getD N hist target sel q _ i hiN]
    rw [hw i hi6 hiN, onWay_getD N hist target sel q _ i hiN] at h
    unfold reached at h ⊢
    rw [pow_one] at h ⊢
    by_cases hmv : Moved hist sel i
    · simp only [hmv, if_true] at h ⊢
      have e : target.getD i 0 + c * (q.getD i 0 - target.getD i 0) +
          dt * (-(target.getD i 0 + c * (q.getD i 0 - target.getD i 0) - target.getD i 0) * g) =
          target.getD i 0 + (1 - g * dt) * c * (q.getD i 0 - target.getD i 0) := by ring
      rw [e] at h
      apply h.inside
      intro hs
      exact (hin i hi6 hiN).between (htin i hiN hmv) (hc hs).1 (hc hs).2 hs
    · simp only [hmv, if_false] at h ⊢
      exact h.inside (hin i hi6 hiN)

/-- One step with the velocity above the limit. -/
theorem stuck_step (hN : 6 ≤ N) (h0 : 0 ≤ th) (h1 : th < 1) (hh : ∃ r ∈ hist, r.1 < N) (ht : target.length = N)
    (hff : BaseNumbers ff dt) (hb : ∀ j, wanted hist j = true → 6 ≤ j) {d0 : Dev ℝ} (hm : d0.mode = .oneInteg) {s : St} {q q1 : List ℝ}
    (hi : Inv N hist d0 s q1) (hin : ∀ i, 6 ≤ i → i < N → Inside d0 i (q.getD i 0)) (g0 : ℝ)
    (hw : ∀ i, 6 ≤ i → i < N → q1.getD i 0 = q.getD i 0)
    (hsp : maxSq < speedSq N hist sel (law (apart N hist q target)) q target) :
    ∃ s' q', gainStep (postureLoop svd N th maxSq ff hist target g0 sel dt) [law] s = .ok s' ∧ Inv N hist d0 s' q' ∧
      s'.reports = s.reports ++ [[0]] ∧ ∀ i, 6 ≤ i → i < N → q'.getD i 0 = q.getD i 0 := by
  have ha := apart_congr N hist target (q := q) hb hw
  set g := law (apart N hist q target) with hg
  obtain ⟨s', q', b1, b2, -, b3⟩ := step_posture svd N th maxSq ff hist target g sel dt hN h0 h1 hh ht hff hm hi
  obtain ⟨b4, b5⟩ := b3 (by rw [speedSq_congr N hist target sel g (fun j hj => hb j hj.1) hw]; exact hsp)
  refine ⟨s', q', ?_, b2, b4, fun i hi6 hiN => ?_⟩
  · rw [gainStep_posture svd N th maxSq ff hist target law sel dt hh ht hi, ha, ← hg]; exact b1
  · have h := b5 i hi6 hiN
    rw [hw i hi6 hiN] at h
    exact h.inside (hin i hi6 hiN)

/-- The factors of the distances: at each step, one minus the period times the gain at the place reached. -/
noncomputable def factor (q : List ℝ) : Nat → ℝ
  | 0 => 1
  | k + 1 => (1 - law (apart N hist (onWay N hist target sel q (factor q k)) target) * dt) * factor q k

theorem gainSteps_way (hN : 6 ≤ N) (h0 : 0 ≤ th) (h1 : th < 1) (hh : ∃ r ∈ hist, r.1 < N) (ht : target.length = N)
    (hff : BaseNumbers ff dt) (hb : ∀ j, wanted hist j = true → 6 ≤ j) {d0 : Dev ℝ} (hm : d0.mode = .oneInteg) {s : St} {q : List ℝ}
    (hi : Inv N hist d0 s q) (hin : ∀ i, 6 ≤ i → i < N → Inside d0 i (q.getD i 0))
    (htin : ∀ i, i < N → Moved hist sel i → Inside d0 i (target.getD i 0)) (g0 : ℝ) (k : Nat)
    (hc : d0.sanity = true → ∀ j < k, 0 ≤ factor N hist target law sel dt q (j + 1) ∧ factor N hist target law sel dt q (j + 1) ≤ 1)
    (hsp : ∀ j < k, speedSq N hist sel (law (apart N hist (onWay N hist target sel q (factor N hist target law sel dt q j)) target))
      (onWay N hist target sel q (factor N hist target law sel dt q j)) target ≤ maxSq) :
    ∃ s' q', gainSteps (postureLoop svd N th maxSq ff hist target g0 sel dt) [law] k s = .ok s' ∧ Inv N hist d0 s' q' ∧
      s'.reports = s.reports ++ List.replicate k [] ∧
      ∀ i, 6 ≤ i → i < N → q'.getD i 0 = (onWay N hist target sel q (factor N hist target law sel dt q k)).getD i 0 := by
  induction k with
  | zero =>
    refine ⟨s, q, rfl, hi, by simp, fun i _ hiN => ?_⟩
    rw [onWay_getD N hist target sel q _ i hiN]
    unfold reached factor
    split_ifs <;> ring
  | succ k ih =>
    obtain ⟨s1, q1, a1, a2, a3, a4⟩ := ih (fun h j hj => hc h j (by omega)) (fun j hj => hsp j (by omega))
    obtain ⟨s2, q2, b1, b2, b3, b4⟩ := onWay_step svd N th maxSq ff hist target law sel dt hN h0 h1 hh ht hff hb hm a2 hin htin g0
      (factor N hist target law sel dt q k) a4 (fun h => hc h k (by omega)) (hsp k (by omega))
    refine ⟨s2, q2, ?_, b2, ?_, b4⟩
    · rw [gainSteps_succ, a1]; exact b1
    · rw [b3, a3, List.append_assoc, List.replicate_succ']

theorem gainSteps_stuck (hN : 6 ≤ N) (h0 : 0 ≤ th) (h1 : th < 1) (hh : ∃ r ∈ hist, r.1 < N) (ht : target.length = N)
    (hff : BaseNumbers ff dt) (hb : ∀ j, wanted hist j = true → 6 ≤ j) {d0 : Dev ℝ} (hm : d0.mode = .oneInteg) {s : St} {q : List ℝ}
    (hi : Inv N hist d0 s q) (hin : ∀ i, 6 ≤ i → i < N → Inside d0 i (q.getD i 0)) (g0 : ℝ)
    (hsp : maxSq < speedSq N hist sel (law (apart N hist q target)) q target) (k : Nat) :
    ∃ s' q', gainSteps (postureLoop svd N th maxSq ff hist target g0 sel dt) [law] k s = .ok s' ∧ Inv N hist d0 s' q' ∧
      s'.reports = s.reports ++ List.replicate k [0] ∧ ∀ i, 6 ≤ i → i < N → q'.getD i 0 = q.getD i 0 := by
  induction k with
  | zero => exact ⟨s, q, rfl, hi, by simp, fun _ _ _ => rfl⟩
  | succ k ih =>
    obtain ⟨s1, q1, a1, a2, a3, a4⟩ := ih
    obtain ⟨s2, q2, b1, b2, b3, b4⟩ := stuck_step svd N th maxSq ff hist target law sel dt hN h0 h1 hh ht hff hb hm a2 hin g0 a4 hsp
    refine ⟨s2, q2, ?_, b2, ?_, b4⟩
    · rw [gainSteps_succ, a1]; exact b1
    · rw [b3, a3, List.append_assoc, List.replicate_succ']

/-! ### Lemmas on the velocity asked for -/

theorem speedSq_scale (g : ℝ) (q : List ℝ) : speedSq N hist sel g q target = g ^ 2 * speedSq N hist sel 1 q target := by
  unfold speedSq
  rw [Finset.mul_sum]
  apply Finset.sum_congr rfl
  intro j _
  split_ifs
  · ring
  · ring

theorem speedSq_nonneg (g : ℝ) (q : List ℝ) : 0 ≤ speedSq N hist sel g q target := by
  unfold speedSq
  apply Finset.sum_nonneg
  intro j _
  split_ifs
  · exact sq_nonneg _
  · exact le_refl _

theorem speedSq_way (c g : ℝ) (q q' : List ℝ) (h6 : ∀ j, Moved hist sel j → 6 ≤ j)
    (h : ∀ i, 6 ≤ i → i < N → q'.getD i 0 = (onWay N hist target sel q c).getD i 0) :
    speedSq N hist sel g q' target = c ^ 2 * speedSq N hist sel g q target := by
  rw [speedSq_reached N hist target g sel c 1 q q' h6 (fun i hi hN => by
    rw [h i hi hN, onWay_getD N hist target sel q c i hN]), pow_one]

theorem sum_filter_range (p : Nat → Bool) (f : Nat → ℝ) (n : Nat) :
    (((List.range n).filter p).map f).sum = ∑ j : Fin n, if p j.val = true then f j.val else 0 := by
  induction n with
  | zero => simp
  | succ n ih =>
    rw [List.range_succ, List.filter_append, List.map_append, List.sum_append, ih, Fin.sum_univ_castSucc]
    congr 1
    by_cases h : p n = true <;> simp [h]

/-- When all the joints asked for are selected, the norm of the error is that of the part that is moved. -/
theorem norm_apart (hsel : ∀ j < N, wanted hist j = true → Flags.call sel (j : Int) = .ok true) (q : List ℝ) :
    Gain.norm (apart N hist q target) = Real.sqrt (speedSq N hist sel 1 q target) := by
  classical
  unfold Gain.norm apart speedSq
  congr 1
  rw [List.map_map, sum_filter_range]
  apply Finset.sum_congr rfl
  intro j _
  have : wanted hist j.val = true ↔ Moved hist sel j.val := ⟨fun h => ⟨h, hsel _ j.isLt h⟩, fun h => h.1⟩
  rw [if_congr this rfl rfl]
  split_ifs
  · simp only [Function.comp]; ring
  · rfl

/-! ### Properties -/

variable {N th ff hist target sel dt}

/-- C135. A posture task whose gain is given by an entity plugged on its error. If, at each place between the first one and its mirror image
through the posture, the velocity asked for is within the limit, and the gain times the period stays between two numbers that are positive and
below two (at most one with checks), then no task is ever reported, each step multiplies the distance of each joint that is moved by one minus the
period times the gain of the place, the other joints after the first six stay, and the joints converge to the posture, at least as fast as with the
worst of the two numbers. -/
theorem C135_converges {d : Dev ℝ} {q : List ℝ} (h : Setup N th ff hist target sel dt d q)
    (hb : ∀ j, wanted hist j = true → 6 ≤ j) (g0 : ℝ) {lo hi : ℝ} (h0 : 0 < lo) (h2 : hi < 2)
    (hl : ∀ e, lo ≤ law e * dt ∧ law e * dt ≤ hi) (hc : d.sanity = true → hi ≤ 1)
    (hsp : ∀ (x : List ℝ) (c : ℝ), |c| ≤ 1 → (∀ i, 6 ≤ i → i < N →
        (Moved hist sel i → x.getD i 0 - target.getD i 0 = c * (q.getD i 0 - target.getD i 0)) ∧
        (¬Moved hist sel i → x.getD i 0 = q.getD i 0)) →
      speedSq N hist sel (law (apart N hist x target)) x target ≤ maxSq) :
    ∃ traj : Nat → List ℝ, (∀ k, ∃ s, gainSteps (postureLoop svd N th maxSq ff hist target g0 sel dt) [law] k
        (start (postureLoop svd N th maxSq ff hist target g0 sel dt) d) = .ok s ∧ s.dev.state = nums (traj k) ∧
        s.reports = List.replicate k []) ∧ (∀ i, 6 ≤ i → i < N → (traj 0).getD i 0 = q.getD i 0) ∧
      ∀ i, 6 ≤ i → i < N →
        (¬Moved hist sel i → ∀ k, (traj k).getD i 0 = q.getD i 0) ∧
        (Moved hist sel i →
          (∀ k, (traj (k + 1)).getD i 0 - target.getD i 0 =
            (1 - law (apart N hist (traj k) target) * dt) * ((traj k).getD i 0 - target.getD i 0)) ∧
          (∀ k, |(traj k).getD i 0 - target.getD i 0| ≤ max |1 - lo| |1 - hi| ^ k * |q.getD i 0 - target.getD i 0|) ∧
          Tendsto (fun k => (traj k).getD i 0) atTop (𝓝 (target.getD i 0))) := by
  set F := factor N hist target law sel dt q with hF
  set r := max |1 - lo| |1 - hi| with hr
  have hlh : lo ≤ hi := le_trans (hl []).1 (hl []).2
  have hr1 : r < 1 := by
    rw [hr, max_lt_iff, abs_lt, abs_lt]
    refine ⟨⟨by linarith, by linarith⟩, ⟨by linarith, by linarith⟩⟩
  have hr0 : 0 ≤ r := le_trans (abs_nonneg _) (le_max_left _ _)
  have hstep : ∀ e, |1 - law e * dt| ≤ r := by
    intro e
    obtain ⟨a1, a2⟩ := hl e
    have b1 : 1 - lo ≤ r := le_trans (le_abs_self _) (le_max_left _ _)
    have b2 : -(1 - hi) ≤ r := le_trans (neg_le_abs _) (le_max_right _ _)
    rw [abs_le]; constructor <;> linarith
  have hFr : ∀ k, |F k| ≤ r ^ k := by
    intro k
    induction k with
    | zero => simp [hF, factor]
    | succ k ih =>
      rw [hF, factor, abs_mul, pow_succ, mul_comm (r ^ k)]
      exact mul_le_mul (hstep _) ih (abs_nonneg _) hr0
  have hF1 : ∀ k, |F k| ≤ 1 := fun k => le_trans (hFr k) (pow_le_one₀ hr0 hr1.le)
  have hFs : d.sanity = true → ∀ k, 0 ≤ F k ∧ F k ≤ 1 := by
    intro hs k
    refine ⟨?_, le_trans (le_abs_self _) (hF1 k)⟩
    induction k with
    | zero => simp [hF, factor]
    | succ k ih =>
      rw [hF, factor]
      exact mul_nonneg (by have := (hl (apart N hist (onWay N hist target sel q (F k)) target)).2; have := hc hs; linarith) ih
  have hway : ∀ c i, i < N → (Moved hist sel i → (onWay N hist target sel q c).getD i 0 - target.getD i 0 =
      c * (q.getD i 0 - target.getD i 0)) ∧ (¬Moved hist sel i → (onWay N hist target sel q c).getD i 0 = q.getD i 0) := by
    intro c i hi
    rw [onWay_getD N hist target sel q c i hi]
    unfold reached
    exact ⟨fun hm => by rw [if_pos hm]; ring, fun hm => by rw [if_neg hm]⟩
  have hall : ∀ k, ∃ s q', gainSteps (postureLoop svd N th maxSq ff hist target g0 sel dt) [law] k
        (start (postureLoop svd N th maxSq ff hist target g0 sel dt) d) = .ok s ∧ s.dev.state = nums q' ∧
        s.reports = List.replicate k [] ∧ ∀ i, 6 ≤ i → i < N → q'.getD i 0 = (onWay N hist target sel q (F k)).getD i 0 := by
    intro k
    obtain ⟨s, q', a1, a2, a3, a4⟩ := gainSteps_way svd N th maxSq ff hist target law sel dt h.joints h.threshold.1 h.threshold.2 h.asked
      h.targetSize h.base hb h.mode (h.inv svd maxSq) h.inside h.targetInside g0 k (fun hs j _ => hFs hs (j + 1))
      (fun j _ => hsp _ (F j) (hF1 j) (fun i _ hi => hway _ i hi))
    exact ⟨s, q', a1, a2.state, by rw [a3]; simp [start], a4⟩
  choose s traj a1 a2 a3 a4 using hall
  refine ⟨traj, fun k => ⟨s k, a1 k, a2 k, a3 k⟩, fun i hi6 hiN => ?_, fun i hi6 hiN => ⟨fun hm k => ?_, fun hm => ?_⟩⟩
  · rw [a4 0 i hi6 hiN, onWay_getD N hist target sel q _ i hiN]
    simp only [hF, factor, reached]
    split_ifs <;> ring
  · rw [a4 k i hi6 hiN]; exact (hway _ i hiN).2 hm
  · have hk : ∀ k, (traj k).getD i 0 - target.getD i 0 = F k * (q.getD i 0 - target.getD i 0) := by
      intro k
      rw [a4 k i hi6 hiN]; exact (hway _ i hiN).1 hm
    have hbound : ∀ k, |(traj k).getD i 0 - target.getD i 0| ≤ r ^ k * |q.getD i 0 - target.getD i 0| := by
      intro k
      rw [hk k, abs_mul]
      exact mul_le_mul_of_nonneg_right (hFr k) (abs_nonneg _)
    refine ⟨fun k => ?_, hbound, ?_⟩
    · rw [hk (k + 1), hk k, apart_congr N hist target hb (a4 k), hF, factor]
      ring
    · have hlim : Tendsto (fun k => r ^ k * |q.getD i 0 - target.getD i 0|) atTop (𝓝 0) := by
        have := (tendsto_pow_atTop_nhds_zero_of_lt_one hr0 hr1).mul_const |q.getD i 0 - target.getD i 0|
        rwa [zero_mul] at this
      have h1 : Tendsto (fun k => (traj k).getD i 0 - target.getD i 0) atTop (𝓝 0) :=
        squeeze_zero_norm (fun k => by rw [Real.norm_eq_abs]; exact hbound k) hlim
      have h2 := h1.add_const (target.getD i 0)
      rw [zero_add] at h2
      exact h2.congr fun k => by ring

/-- The velocity is within the limit all along the way when it is within the limit at the start for the largest gain. -/
theorem speed_way {q : List ℝ} {lo hi : ℝ} (h0 : 0 ≤ lo) (hl : ∀ e, lo ≤ law e ∧ law e ≤ hi) (h6 : ∀ j, Moved hist sel j → 6 ≤ j)
    (hsm : speedSq N hist sel hi q target ≤ maxSq) (x : List ℝ) (c : ℝ) (hc : |c| ≤ 1)
    (hx : ∀ i, 6 ≤ i → i < N → (Moved hist sel i → x.getD i 0 - target.getD i 0 = c * (q.getD i 0 - target.getD i 0)) ∧
        (¬Moved hist sel i → x.getD i 0 = q.getD i 0)) :
    speedSq N hist sel (law (apart N hist x target)) x target ≤ maxSq := by
  have hw : ∀ i, 6 ≤ i → i < N → x.getD i 0 = (onWay N hist target sel q c).getD i 0 := by
    intro i h6 hN
    rw [onWay_getD N hist target sel q c i hN]
    unfold reached
    split_ifs with hm
    · have := (hx i h6 hN).1 hm; linarith
    · exact (hx i h6 hN).2 hm
  rw [speedSq_way N hist target sel c _ q x h6 hw, speedSq_scale]
  rw [speedSq_scale] at hsm
  have hn := speedSq_nonneg N hist target sel 1 q
  obtain ⟨a1, a2⟩ := hl (apart N hist x target)
  have c2 : c ^ 2 ≤ 1 := by rw [← sq_abs]; exact pow_le_one₀ (abs_nonneg _) hc
  have g2 : law (apart N hist x target) ^ 2 ≤ hi ^ 2 := pow_le_pow_left₀ (le_trans h0 a1) a2 2
  have g3 : 0 ≤ law (apart N hist x target) ^ 2 * speedSq N hist sel 1 q target := mul_nonneg (sq_nonneg _) hn
  calc c ^ 2 * (law (apart N hist x target) ^ 2 * speedSq N hist sel 1 q target)
      ≤ 1 * (law (apart N hist x target) ^ 2 * speedSq N hist sel 1 q target) := mul_le_mul_of_nonneg_right c2 g3
    _ ≤ hi ^ 2 * speedSq N hist sel 1 q target := by rw [one_mul]; exact mul_le_mul_of_nonneg_right g2 hn
    _ ≤ maxSq := hsm

/-- The run of the loop with a gain entity goes to the posture and never reports a task. -/
def Reaches (P : Params) (law : List ℝ → ℝ) (d : Dev ℝ) (moved : Nat → Prop) (target : List ℝ) : Prop :=
  ∃ traj : Nat → List ℝ, (∀ k, ∃ s, gainSteps P [law] k (start P d) = .ok s ∧ s.dev.state = nums (traj k) ∧ s.reports = List.replicate k []) ∧
    ∀ i, i < P.n → moved i → Tendsto (fun k => (traj k).getD i 0) atTop (𝓝 (target.getD i 0))

theorem reaches_bounded {d : Dev ℝ} {q : List ℝ} (h : Setup N th ff hist target sel dt d q)
    (hb : ∀ j, wanted hist j = true → 6 ≤ j) (g0 : ℝ) {lo hi : ℝ} (hdt : 0 < dt) (h0 : 0 < lo) (h2 : hi * dt < 2)
    (hl : ∀ e, lo ≤ law e ∧ law e ≤ hi) (hc : d.sanity = true → hi * dt ≤ 1) (hsm : speedSq N hist sel hi q target ≤ maxSq) :
    Reaches (postureLoop svd N th maxSq ff hist target g0 sel dt) law d (Moved hist sel) target := by
  obtain ⟨traj, t1, -, t3⟩ := C135_converges svd maxSq law h hb g0 (lo := lo * dt) (hi := hi * dt) (mul_pos h0 hdt) h2
    (fun e => ⟨mul_le_mul_of_nonneg_right (hl e).1 hdt.le, mul_le_mul_of_nonneg_right (hl e).2 hdt.le⟩) hc
    (speed_way maxSq law h0.le hl h.noBase hsm)
  exact ⟨traj, t1, fun i hi hm => ((t3 i (h.noBase i hm) hi).2 hm).2.2⟩

/-- C135. With the adaptive gain (value at zero, value at infinity, slope), or the one given by a passing point, or the hyperbolic gain: the joints
converge to the posture when the largest of the two values, times the period, is below two (at most one with checks) and the first velocity that it
would ask for is within the limit. -/
theorem C135_gain_entities {d : Dev ℝ} {q : List ℝ} (h : Setup N th ff hist target sel dt d q)
    (hb : ∀ j, wanted hist j = true → 6 ≤ j) (g0 : ℝ) {v0 vinf : ℝ} (hdt : 0 < dt) (hv0 : 0 < v0) (hvi : 0 < vinf)
    (h2 : max v0 vinf * dt < 2) (hc : d.sanity = true → max v0 vinf * dt ≤ 1) (hsm : speedSq N hist sel (max v0 vinf) q target ≤ maxSq) :
    (∀ tan, 0 ≤ tan * (v0 - vinf) →
      Reaches (postureLoop svd N th maxSq ff hist target g0 sel dt) (Gain.Adaptive.init v0 vinf tan).gain d (Moved hist sel) target) ∧
    (∀ xref p, 0 < xref → 0 < p → p ≤ 1 →
      Reaches (postureLoop svd N th maxSq ff hist target g0 sel dt) (Gain.Adaptive.initFromPassingPoint v0 vinf xref p).gain d
        (Moved hist sel) target) ∧
    ∀ tan decal, Reaches (postureLoop svd N th maxSq ff hist target g0 sel dt) (Gain.Hyperbolic.init v0 vinf tan decal).gain d
        (Moved hist sel) target := by
  have hlo : 0 < min v0 vinf := lt_min hv0 hvi
  refine ⟨fun tan ht => ?_, fun xref p hx hp hp1 => ?_, fun tan decal => ?_⟩
  · exact reaches_bounded svd maxSq _ h hb g0 hdt hlo h2 (Gain.Adaptive.C19_between v0 vinf tan ht) hc hsm
  · exact reaches_bounded svd maxSq _ h hb g0 hdt hlo h2
      (fun e => ⟨(Gain.Adaptive.C19_passing_point_between v0 vinf xref p hx hp hp1 e).1,
        (Gain.Adaptive.C19_passing_point_between v0 vinf xref p hx hp hp1 e).2.1⟩) hc hsm
  · refine reaches_bounded svd maxSq _ h hb g0 hdt hlo h2 (fun e => ?_) hc hsm
    by_cases hne : v0 = vinf
    · subst hne
      rw [(Gain.Hyperbolic.C20_constant v0 tan decal 0 0 0 e).1]
      exact ⟨min_le_left _ _, le_max_left _ _⟩
    · exact ⟨(Gain.Hyperbolic.C20_strictly_between v0 vinf tan decal hne e).1.le,
        (Gain.Hyperbolic.C20_strictly_between v0 vinf tan decal hne e).2.le⟩

/-- C135. A velocity within the limit at the start is not enough when the gain grows near the posture: if the velocity asked for is above the limit
at all the distances between `a` and `b`, an interval at least as long as what one step at the limit covers, a robot that starts at the distance `a`
or more stops for ever at such a distance, and from then on the task is reported at each step. -/
theorem C135_stops {d : Dev ℝ} {q : List ℝ} (h : Setup N th ff hist target sel dt d q)
    (hb : ∀ j, wanted hist j = true → 6 ≤ j) (hsel : ∀ j < N, wanted hist j = true → Flags.call sel (j : Int) = .ok true)
    (g0 : ℝ) (φ : ℝ → ℝ) (hlaw : ∀ e, law e = φ (Gain.norm e)) {lo a b : ℝ} (hdt : 0 < dt) (h0 : 0 < lo)
    (hφ : ∀ x, 0 ≤ x → lo ≤ φ x ∧ φ x * dt ≤ 1) (ha : 0 ≤ a) (hab : a < b) (hlen : dt * Real.sqrt maxSq ≤ b - a)
    (hband : ∀ x, a ≤ x → x ≤ b → maxSq < (φ x * x) ^ 2) (hfar : a ≤ Gain.norm (apart N hist q target)) :
    ∃ (K : Nat) (qK : List ℝ), a ≤ Gain.norm (apart N hist qK target) ∧
      (speedSq N hist sel (law (apart N hist q target)) q target ≤ maxSq → 0 < K) ∧
      ∀ k, ∃ s q', gainSteps (postureLoop svd N th maxSq ff hist target g0 sel dt) [law] (K + k)
          (start (postureLoop svd N th maxSq ff hist target g0 sel dt) d) = .ok s ∧ s.dev.state = nums q' ∧
        s.reports = List.replicate K [] ++ List.replicate k [0] ∧ ∀ i, 6 ≤ i → i < N → q'.getD i 0 = qK.getD i 0 := by
  classical
  set F := factor N hist target law sel dt q with hF
  set W := onWay N hist target sel q with hW
  set D := Gain.norm (apart N hist q target) with hD
  have h6 : ∀ j, Moved hist sel j → 6 ≤ j := h.noBase
  have hD0 : 0 ≤ D := Gain.norm_nonneg _
  have hDs : speedSq N hist sel 1 q target = D ^ 2 := by
    rw [hD, norm_apart N hist target sel hsel, Real.sq_sqrt (speedSq_nonneg N hist target sel 1 q)]
  have hnorm : ∀ c, 0 ≤ c → Gain.norm (apart N hist (W c) target) = c * D := by
    intro c hc
    rw [norm_apart N hist target sel hsel, speedSq_way N hist target sel c 1 q (W c) h6 (fun _ _ _ => rfl), hDs, ← mul_pow,
      Real.sqrt_sq (mul_nonneg hc hD0)]
  have hspeed : ∀ c, 0 ≤ c → speedSq N hist sel (law (apart N hist (W c) target)) (W c) target = (φ (c * D) * (c * D)) ^ 2 := by
    intro c hc
    rw [speedSq_way N hist target sel c _ q (W c) h6 (fun _ _ _ => rfl), speedSq_scale, hDs, hlaw, hnorm c hc]
    ring
  have hFn : ∀ k, 0 ≤ F k ∧ F k ≤ (1 - lo * dt) ^ k := by
    intro k
    induction k with
    | zero => simp [hF, factor]
    | succ k ih =>
      have he : F (k + 1) = (1 - φ (F k * D) * dt) * F k := by
        rw [← hnorm (F k) ih.1, ← hlaw]; rfl
      obtain ⟨p1, p2⟩ := hφ (F k * D) (mul_nonneg ih.1 hD0)
      have p3 : lo * dt ≤ φ (F k * D) * dt := mul_le_mul_of_nonneg_right p1 hdt.le
      rw [he, pow_succ, mul_comm ((1 - lo * dt) ^ k)]
      exact ⟨mul_nonneg (by linarith) ih.1, mul_le_mul (by linarith) ih.2 ih.1 (by linarith)⟩
  have hnext : ∀ k, F (k + 1) * D = F k * D - dt * (φ (F k * D) * (F k * D)) := by
    intro k
    have he : F (k + 1) = (1 - φ (F k * D) * dt) * F k := by
      rw [← hnorm (F k) (hFn k).1, ← hlaw]; rfl
    rw [he]; ring
  have hstay : ∀ k, (∀ j < k, (φ (F j * D) * (F j * D)) ^ 2 ≤ maxSq) → a ≤ F k * D := by
    intro k
    induction k with
    | zero => intro _; simpa [hF, factor] using hfar
    | succ k ih =>
      intro hj
      have h1 := ih (fun j hjk => hj j (by omega))
      have h2 := hj k (by omega)
      have h3 : b < F k * D := by
        by_contra hle
        exact absurd h2 (not_le.mpr (hband _ h1 (not_lt.mp hle)))
      have hx : 0 ≤ F k * D := mul_nonneg (hFn k).1 hD0
      have h4 : φ (F k * D) * (F k * D) ≤ Real.sqrt maxSq := Real.le_sqrt_of_sq_le h2
      rw [hnext]
      nlinarith
  have hex : ∃ K, maxSq < (φ (F K * D) * (F K * D)) ^ 2 := by
    by_contra hno
    push Not at hno
    have hall : ∀ k, b < F k * D := by
      intro k
      by_contra hle
      exact absurd (hno k) (not_le.mpr (hband _ (hstay k fun j _ => hno j) (not_lt.mp hle)))
    have hq1 : 1 - lo * dt < 1 := by nlinarith
    have hq0 : 0 ≤ 1 - lo * dt := by
      obtain ⟨p1, p2⟩ := hφ 0 (le_refl 0)
      have := mul_le_mul_of_nonneg_right p1 hdt.le
      linarith
    have hlim : Tendsto (fun k => (1 - lo * dt) ^ k * D) atTop (𝓝 0) := by
      have := (tendsto_pow_atTop_nhds_zero_of_lt_one hq0 hq1).mul_const D
      rwa [zero_mul] at this
    obtain ⟨k, hk⟩ := (hlim.eventually (gt_mem_nhds (show (0 : ℝ) < b by linarith))).exists
    have := hall k
    have := mul_le_mul_of_nonneg_right (hFn k).2 hD0
    linarith
  have hq1 : ∀ k, F k ≤ 1 := by
    intro k
    refine le_trans (hFn k).2 (pow_le_one₀ ?_ ?_)
    · obtain ⟨p1, p2⟩ := hφ 0 (le_refl 0)
      have := mul_le_mul_of_nonneg_right p1 hdt.le
      linarith
    · have := mul_pos h0 hdt; linarith
  refine ⟨Nat.find hex, W (F (Nat.find hex)), ?_, fun hsm => ?_, fun k => ?_⟩
  · rw [hnorm _ (hFn _).1]
    exact hstay _ fun j hj => not_lt.mp (Nat.find_min hex hj)
  · rw [Nat.find_pos]
    have h1 : F 0 = 1 := rfl
    rw [speedSq_scale, hDs, hlaw, ← mul_pow] at hsm
    rw [h1, one_mul]
    exact not_lt.mpr hsm
  · obtain ⟨s1, q1, a1, a2, a3, a4⟩ := gainSteps_way svd N th maxSq ff hist target law sel dt h.joints h.threshold.1 h.threshold.2 h.asked
      h.targetSize h.base hb h.mode (h.inv svd maxSq) h.inside h.targetInside g0 (Nat.find hex) (fun _ j _ => ⟨(hFn _).1, hq1 _⟩)
      (fun j hj => by
        show speedSq N hist sel (law (apart N hist (W (F j)) target)) (W (F j)) target ≤ maxSq
        rw [hspeed _ (hFn j).1]
        exact not_lt.mp (Nat.find_min hex hj))
    have hin1 : ∀ i, 6 ≤ i → i < N → Inside d i (q1.getD i 0) := by
      intro i hi6 hiN
      rw [a4 i hi6 hiN, onWay_getD N hist target sel q _ i hiN]
      unfold reached
      rw [pow_one]
      split_ifs with hm
      · exact (h.inside i hi6 hiN).between (h.targetInside i hiN hm) (hFn _).1 (hq1 _)
      · exact h.inside i hi6 hiN
    obtain ⟨s2, q2, b1, b2, b3, b4⟩ := gainSteps_stuck svd N th maxSq ff hist target law sel dt h.joints h.threshold.1 h.threshold.2 h.asked
      h.targetSize h.base hb h.mode a2 hin1 g0 (by
        rw [apart_congr N hist target hb a4, speedSq_congr N hist target sel _ h6 a4]
        show maxSq < speedSq N hist sel (law (apart N hist (W (F (Nat.find hex))) target)) (W (F (Nat.find hex))) target
        rw [hspeed _ (hFn _).1]
        exact Nat.find_spec hex) k
    refine ⟨s2, q2, ?_, b2.state, ?_, fun i hi6 hiN => ?_⟩
    · rw [gainSteps_add, a1]; exact b1
    · rw [b3, a3]; simp [start]
    · rw [b4 i hi6 hiN, a4 i hi6 hiN]

end

theorem demo_base : ∀ j, wanted [(6, true)] j = true → 6 ≤ j := by
  intro j hj
  by_contra h
  have : (6 == j) = false := by simp; omega
  simp [wanted, this] at hj

theorem demo_speed (g : ℝ) (q6 : ℝ) : speedSq 7 [(6, true)] (Flags.ofBool true) g [0, 0, 0, 0, 0, 0, q6] [0, 0, 0, 0, 0, 0, 1] =
    (g * (q6 - 1)) ^ 2 := by
  classical
  have hn : ∀ j : Nat, j ≠ 6 → ¬ Moved [(6, true)] (Flags.ofBool true) j := by
    rintro j hj ⟨h, -⟩
    have : (6 == j) = false := by simp; omega
    simp [wanted, this] at h
  unfold speedSq
  rw [Fin.sum_univ_succ, Fin.sum_univ_succ, Fin.sum_univ_succ, Fin.sum_univ_succ, Fin.sum_univ_succ, Fin.sum_univ_succ, Fin.sum_univ_succ]
  rw [if_neg (hn _ (by decide)), if_neg (hn _ (by decide)), if_neg (hn _ (by decide)), if_neg (hn _ (by decide)), if_neg (hn _ (by decide)),
    if_neg (hn _ (by decide)), if_pos (by exact demo_moved)]
  simp

/-- With a gain from one far from the posture to ten at the posture, the last joint of the demonstration converges to one radian. -/
example (svd : ∀ {m c : ℕ} (A : Matrix (Fin m) (Fin c) ℝ), Svd A) :
    Reaches (postureLoop svd 7 (1 / 10000) 10000 (fun _ _ _ _ => some 0) [(6, true)] [0, 0, 0, 0, 0, 0, 1] 0 (Flags.ofBool true) (1 / 100))
      (Gain.Adaptive.init 10 1 3).gain demoDev (Moved [(6, true)] (Flags.ofBool true)) [0, 0, 0, 0, 0, 0, 1] :=
  (C135_gain_entities svd 10000 demo_setup demo_base 0 (v0 := 10) (vinf := 1) (by norm_num) (by norm_num) (by norm_num)
    (by norm_num) (fun h => by cases h) (by rw [demo_speed]; norm_num)).1 3 (by norm_num)

/-- The same robot, five radians away from the posture. -/
noncomputable def farDev : Dev ℝ := { init with sanity := false, state := nums [0, 0, 0, 0, 0, 0, 6], stateSOUT := nums [0, 0, 0, 0, 0, 0, 6] }

theorem far_setup : Setup 7 (1 / 10000) (fun _ _ _ _ => some 0) [(6, true)] [0, 0, 0, 0, 0, 0, 1] (Flags.ofBool true) (1 / 1000)
    farDev [0, 0, 0, 0, 0, 0, 6] where
  joints := by decide
  threshold := by norm_num
  asked := ⟨(6, true), by simp, by decide⟩
  targetSize := rfl
  size := rfl
  base := fun _ _ _ => by simp
  noBase := fun j hj => demo_base j hj.1
  mode := rfl
  usable := .inl rfl
  state := rfl
  shown := rfl
  inside := fun _ _ _ h => by cases h
  targetInside := fun _ _ _ h => by cases h

theorem demo_gain (e : List ℝ) : (Gain.Adaptive.init 100 1 99).gain e = 99 * Real.exp (-Gain.norm e) + 1 := by
  simp only [Gain.Adaptive.gain, Gain.adaptiveValue, Gain.Adaptive.init]
  rw [if_neg (by norm_num)]
  norm_num

/-- C135. Counterexample: with a gain of one hundred at the posture and of one far from it, a period of one millisecond and a limit of ten radians
per second, a joint five radians away starts to move, stops for ever at half a radian or more, and the task is reported from then on. -/
theorem C135_stops_counterexample (svd : ∀ {m c : ℕ} (A : Matrix (Fin m) (Fin c) ℝ), Svd A) :
    ∃ (K : Nat) (x : ℝ), 0 < K ∧ 1 / 2 ≤ |x - 1| ∧
      ∀ k, ∃ s q', gainSteps (postureLoop svd 7 (1 / 10000) 100 (fun _ _ _ _ => some 0) [(6, true)] [0, 0, 0, 0, 0, 0, 1] 0
            (Flags.ofBool true) (1 / 1000)) [(Gain.Adaptive.init 100 1 99).gain] (K + k)
          (start (postureLoop svd 7 (1 / 10000) 100 (fun _ _ _ _ => some 0) [(6, true)] [0, 0, 0, 0, 0, 0, 1] 0
            (Flags.ofBool true) (1 / 1000)) farDev) = .ok s ∧ s.dev.state = nums q' ∧
        s.reports = List.replicate K [] ++ List.replicate k [0] ∧ q'.getD 6 0 = x := by
  have hap : ∀ q : List ℝ, apart 7 [(6, true)] q [0, 0, 0, 0, 0, 0, 1] = [q.getD 6 0 - 1] := by
    intro q
    have : ((List.range 7).filter fun i => wanted [(6, true)] i) = [6] := by decide
    simp [apart, this]
  have hn : Gain.norm [(5 : ℝ)] = 5 := by rw [Gain.norm_singleton]; norm_num
  have he1 : (1 / 2.72 : ℝ) ≤ Real.exp (-1) := by
    rw [Real.exp_neg, ← one_div]
    exact one_div_le_one_div_of_le (Real.exp_pos 1) (le_trans Real.exp_one_lt_d9.le (by norm_num))
  have he5 : Real.exp (-5) ≤ 1 / 99 := by
    rw [Real.exp_neg, ← one_div]
    apply one_div_le_one_div_of_le (by norm_num)
    have h1 : (2.7 : ℝ) ≤ Real.exp 1 := le_trans (by norm_num) Real.exp_one_gt_d9.le
    calc (99 : ℝ) ≤ 2.7 ^ 5 := by norm_num
      _ ≤ Real.exp 1 ^ 5 := pow_le_pow_left₀ (by norm_num) h1 5
      _ = Real.exp 5 := by rw [← Real.exp_nat_mul]; norm_num
  obtain ⟨K, qK, k1, k2, k3⟩ := C135_stops svd 100 (Gain.Adaptive.init 100 1 99).gain far_setup demo_base
    (fun j hj h => by
      have : j = 6 := by have := demo_base j h; omega
      subst this; exact demo_moved.2) 0
    (fun x => 99 * Real.exp (-x) + 1) demo_gain (lo := 1) (a := 1 / 2) (b := 1) (by norm_num) (by norm_num)
    (fun x hx => by
      have h1 := Real.exp_pos (-x)
      have h2 : Real.exp (-x) ≤ 1 := by rw [Real.exp_le_one_iff]; linarith
      constructor <;> linarith)
    (by norm_num) (by norm_num) (by
      have : Real.sqrt 100 = 10 := by rw [show (100 : ℝ) = 10 ^ 2 by norm_num]; exact Real.sqrt_sq (by norm_num)
      rw [this]; norm_num)
    (fun x h1 h2 => by
      have h3 : Real.exp (-1) ≤ Real.exp (-x) := Real.exp_le_exp.mpr (by linarith)
      have h5 : (10 : ℝ) < (99 * Real.exp (-x) + 1) * x := by nlinarith
      nlinarith)
    (by rw [hap]; show 1 / 2 ≤ Gain.norm [(6 : ℝ) - 1]; rw [show (6 : ℝ) - 1 = 5 by norm_num, hn]; norm_num)
  refine ⟨K, qK.getD 6 0, k2 ?_, ?_, fun k => ?_⟩
  · rw [demo_speed, hap]
    show ((Gain.Adaptive.init 100 1 99).gain [(6 : ℝ) - 1] * _) ^ 2 ≤ _
    rw [demo_gain, show (6 : ℝ) - 1 = 5 by norm_num, hn]
    have := Real.exp_pos (-5)
    nlinarith
  · rw [hap, Gain.norm_singleton] at k1
    exact k1
  · obtain ⟨s, q', a1, a2, a3, a4⟩ := k3 k
    exact ⟨s, q', a1, a2, a3, a4 6 (by decide) (by decide)⟩

end Verif.Loop
