import Verif.Loop.FreeFlyer6d
import Verif.Loop.Adaptive

/-!
# C148: the base driven by a task of a six-dimensional position with a gain entity

The meta task of the Python library plugs the error of the task on a gain entity and the gain on the task
(src/dynamic_graph/sot/core/meta_task_6d.py:59-67), and `goto6d` sets the reference, selects the six components and sets the gain, constant or
adaptive (src/dynamic_graph/sot/core/meta_tasks.py:40-82).
-/

namespace Verif.Loop

open Matrix Verif.Sot Verif.Device Verif.Geometry Verif.Point6d Verif.Se3 Verif.Spatial Verif.Features Filter Topology

/-! ### Reductions that change -/

/-- Repeated with a rotation that vanishes and with factors between two numbers, the reduction tends to zero. -/
theorem reduced_tendsto_between {lo hi : ℝ} (h0 : 0 < lo) (h2 : hi < 2) {c : ℕ → ℝ} (hl : ∀ k, lo ≤ c k) (hh : ∀ k, c k ≤ hi)
    {x z : ℕ → Fin 3 → ℝ} (hx : Tendsto (fun k => len (x k)) atTop (𝓝 0)) (h : ∀ k, z (k + 1) = reduced (c k) (x k) (z k)) :
    Tendsto (fun k => len (z k)) atTop (𝓝 0) := by
  set q := max ((1 - lo) ^ 2) ((1 - hi) ^ 2) with hq
  have hlh : lo ≤ hi := (hl 0).trans (hh 0)
  have hq1 : q < 1 := max_lt (by nlinarith) (by nlinarith)
  have hq0 : 0 ≤ q := (sq_nonneg _).trans (le_max_left _ _)
  have hcq : ∀ k, (1 - c k) ^ 2 ≤ q := by
    intro k
    have a1 := hl k
    have a2 := hh k
    rcases le_total (c k) 1 with h1 | h1
    · exact le_trans (by nlinarith) (le_max_left _ _)
    · exact le_trans (by nlinarith) (le_max_right _ _)
  have hx2 : Tendsto (fun k : ℕ => hi * len (x k) ^ 2 / 2) atTop (𝓝 0) := by
    have := ((hx.pow 2).const_mul hi).div_const 2
    simpa using this
  obtain ⟨K, hK⟩ := eventually_atTop.mp ((hx.eventually_le_const one_pos).and
    (hx2.eventually_le_const (show 0 < (1 - q) / 2 by linarith)))
  set g := (1 + q) / 2 with hg
  have hstep : ∀ k, K ≤ k → len (z (k + 1)) ^ 2 ≤ g * len (z k) ^ 2 := by
    intro k hk
    obtain ⟨a1, a2⟩ := hK k hk
    rw [h k]
    refine (reduced_near a1 (h0.le.trans (hl k)) (z k)).trans ?_
    refine mul_le_mul_of_nonneg_right ?_ (sq_nonneg _)
    have h1 : c k * len (x k) ^ 2 ≤ hi * len (x k) ^ 2 := mul_le_mul_of_nonneg_right (hh k) (sq_nonneg _)
    have h3 := hcq k
    rw [hg]; linarith
  have hgeo : ∀ j, len (z (j + K)) ^ 2 ≤ g ^ j * len (z K) ^ 2 := by
    intro j
    induction j with
    | zero => simp
    | succ j ih =>
      rw [show j + 1 + K = j + K + 1 by ring, pow_succ g j]
      refine (hstep _ (by omega)).trans ?_
      have := mul_le_mul_of_nonneg_left ih (show 0 ≤ g by rw [hg]; linarith)
      linarith
  have hc0 : Tendsto (fun j : ℕ => g ^ j * len (z K) ^ 2) atTop (𝓝 0) := by
    have := (tendsto_pow_atTop_nhds_zero_of_lt_one (show 0 ≤ g by rw [hg]; linarith) (show g < 1 by rw [hg]; linarith)).mul_const (len (z K) ^ 2)
    rwa [zero_mul] at this
  have hsq : Tendsto (fun j : ℕ => len (z (j + K)) ^ 2) atTop (𝓝 0) := squeeze_zero (fun j => sq_nonneg _) hgeo hc0
  rw [← tendsto_add_atTop_iff_nat K]
  have := (Real.continuous_sqrt.tendsto 0).comp hsq
  rw [Real.sqrt_zero] at this
  exact this.congr fun j => Real.sqrt_sq (len_nonneg _)

/-! ### One step with the gain entity -/

/-- The six components of an error, as the gain entity reads them. -/
def listed (e : Fin 3 ⊕ Fin 3 → ℝ) : List ℝ := [e (.inl 0), e (.inl 1), e (.inl 2), e (.inr 0), e (.inr 1), e (.inr 2)]

section
variable (svd : ∀ {m c : ℕ} (A : Matrix (Fin m) (Fin c) ℝ), Svd A) {th maxSq : ℝ} {fr : Frame} {o : OpPoint ℝ} {ref : Option (Pose ℝ)}
  {g0 gain : ℝ} {selec : Flags.Flags} {dt : ℝ} {joints : List ℝ} {law : List ℝ → ℝ}

theorem SInv.other_gain {F : BaseFeat} {N : Nat} {d0 : Dev ℝ} {s : St} {q : List ℝ} (g : ℝ) (h : SInv [F.task N gain selec] d0 s q) :
    SInv [F.task N g selec] d0 s q := by
  refine ⟨h.settings, h.state, h.shown, h.size, ?_⟩
  have := h.bufs
  revert this
  generalize s.bufs = bufs
  intro hb
  cases hb with
  | cons h1 h2 =>
    cases h2
    exact .cons h1 .nil

theorem P6Small.gain_le {B : Pose ℝ} {e : Fin 3 ⊕ Fin 3 → ℝ} {G : ℝ} (h : P6Small th maxSq G fr B e) (hg : gain ^ 2 ≤ G ^ 2) :
    P6Small th maxSq gain fr B e := by
  refine ⟨h.threshold, le_trans (mul_le_mul_of_nonneg_right hg ?_) h.limit⟩
  refine mul_nonneg (by positivity) ?_
  cases fr <;> simp only [frameSq] <;> positivity

/-- One step with the gain entity is one step with the gain that the entity answers to the error. -/
theorem gainStep_p6 (ho : o.isEndEffector = true) {d0 : Dev ℝ} {s : St} {b : Fin 6 → ℝ}
    (hi : SInv [(p6Base fr o.transformation (goalOf ref)).task (6 + joints.length) g0 selec] d0 s (List.ofFn b ++ joints)) :
    gainStep (p6Loop svd (6 + joints.length) th maxSq fr o ref g0 selec dt) [law] s =
      step (p6Loop svd (6 + joints.length) th maxSq fr o ref (law (listed (opError fr o ref b))) selec dt) s := by
  obtain ⟨bf, hb⟩ : ∃ bf, s.bufs = [bf] := by
    have := hi.bufs
    revert this
    generalize s.bufs = bufs
    intro hb
    cases hb with
    | cons h1 h2 =>
      cases h2
      exact ⟨_, rfl⟩
  have he : (p6Feat (6 + joints.length) fr o ref).err (List.ofFn b ++ joints) = .ok (listed (opError fr o ref b)) := by
    rw [p6Feat_eq (by omega) fr ho]
    show Outcome.ok (List.ofFn fun i : Fin 6 => at6 (errorFull fr ((basePose (List.ofFn (vec _ (List.ofFn b ++ joints)))).mul o.transformation)
      (some (goalOf ref))) i.val) = _
    rw [basePose_vec (by omega), basePose_app, ← error_goal]
    simp [List.ofFn_succ, listed, opError, opPose]
    exact ⟨rfl, rfl, rfl, rfl, rfl, rfl⟩
  have hr : regain (List.ofFn b ++ joints) (p6Loop svd (6 + joints.length) th maxSq fr o ref g0 selec dt).tasks [law] s.bufs =
      .ok [⟨[p6Feat (6 + joints.length) fr o ref], law (listed (opError fr o ref b)), selec⟩] := by
    rw [hb]
    show (collect _ _).bind _ = _
    simp only [collect, he, Outcome.bind_ok, Outcome.map_ok, Task.C14_single_feature, regain]
  unfold gainStep
  rw [hi.shown, numbers_nums, Outcome.bind_ok, hr]
  rfl

variable (ho : o.isEndEffector = true) (hB : IsRot o.transformation.R) (hd : IsRot (goalOf ref).R)
  (hsel : ∀ j : Nat, j < 6 → Flags.call selec (j : Int) = .ok true) (hth : 0 ≤ th)

include ho hB hd hsel hth

/-- The whole trajectory, with the recursion of the position error. -/
theorem p6_gain_trajectory {d : Dev ℝ} {b : Fin 6 → ℝ} (hm : d.mode = .oneInteg) (hs0 : d.sanity = false)
    (hst : d.state = nums (List.ofFn b ++ joints)) (hsh : d.stateSOUT = nums (List.ofFn b ++ joints)) (g0 : ℝ) {lo hi G : ℝ} (h0 : 0 < lo)
    (h4 : Real.pi * hi ≤ 4) (hl : ∀ e, lo ≤ law e * dt ∧ law e * dt ≤ hi) (hG : ∀ e, law e ^ 2 ≤ G ^ 2)
    (hq : hi * len (rotPart (opError fr o ref b)) ≤ Real.pi / 2) (hs : P6Small th maxSq G fr o.transformation (opError fr o ref b)) :
    ∃ base : Nat → Fin 6 → ℝ, base 0 = b ∧ ∀ k,
      (∃ s, gainSteps (p6Loop svd (6 + joints.length) th maxSq fr o ref g0 selec dt) [law] k
          (start (p6Loop svd (6 + joints.length) th maxSq fr o ref g0 selec dt) d) = .ok s ∧
        s.dev.state = nums (List.ofFn (base k) ++ joints) ∧ s.reports = List.replicate k []) ∧
      rotPart (opError fr o ref (base (k + 1))) =
        (1 - law (listed (opError fr o ref (base k))) * dt) • rotPart (opError fr o ref (base k)) ∧
      len (transPart (opError fr o ref (base (k + 1)))) ≤ len (transPart (opError fr o ref (base k))) ∧
      transPart (opError fr o ref (base (k + 1))) = reduced (law (listed (opError fr o ref (base k))) * dt)
        ((-(law (listed (opError fr o ref (base k))) * dt)) • rotPart (opError fr o ref (base k))) (transPart (opError fr o ref (base k))) := by
  set e : (Fin 6 → ℝ) → Fin 3 ⊕ Fin 3 → ℝ := opError fr o ref with he
  have hi2 : hi < 2 := by nlinarith [Real.pi_gt_three]
  have hc : ∀ l, |1 - law l * dt| < 1 := fun l => abs_lt.mpr ⟨by linarith [(hl l).2], by linarith [(hl l).1]⟩
  obtain ⟨f, f0, fk⟩ := chain (α := St × (Fin 6 → ℝ))
    (P := fun k x => gainSteps (p6Loop svd (6 + joints.length) th maxSq fr o ref g0 selec dt) [law] k
          (start (p6Loop svd (6 + joints.length) th maxSq fr o ref g0 selec dt) d) = .ok x.1 ∧
        SInv [(p6Base fr o.transformation (goalOf ref)).task (6 + joints.length) g0 selec] d x.1 (List.ofFn x.2 ++ joints) ∧
        x.1.reports = List.replicate k [] ∧ len (rotPart (e x.2)) ≤ len (rotPart (e b)) ∧
        len (transPart (e x.2)) ≤ len (transPart (e b)))
    (R := fun _ x y => rotPart (e y.2) = (1 - law (listed (e x.2)) * dt) • rotPart (e x.2) ∧
      len (transPart (e y.2)) ≤ len (transPart (e x.2)) ∧
      transPart (e y.2) = reduced (law (listed (e x.2)) * dt) ((-(law (listed (e x.2)) * dt)) • rotPart (e x.2)) (transPart (e x.2)))
    (a := (start (p6Loop svd (6 + joints.length) th maxSq fr o ref g0 selec dt) d, b))
    ⟨rfl, p6_start svd g0 selec dt th maxSq fr o ref hst hsh, rfl, le_rfl, le_rfl⟩ (by
      rintro k ⟨s, b1⟩ ⟨a1, a2, a3, a4, a5⟩
      simp only [] at a1 a2 a3 a4 a5
      set g := law (listed (e b1)) with hg
      have hlg := hl (listed (e b1))
      rw [← hg] at hlg
      have hgd : 0 < g * dt := lt_of_lt_of_le h0 hlg.1
      obtain ⟨s', b', e1, e2, e3, e4⟩ := p6_step svd (dt := dt) (gain := g) ho hB hd hsel hth hm hs0 (a2.other_gain g)
        ((hs.mono a4 a5).gain_le (hG _))
      have hbound : |1 - g * dt| * len (rotPart (e b1)) < Real.pi := by
        have h1 := mul_le_mul_of_nonneg_left (opError_angle (fr := fr) hB hd b1) (abs_nonneg (1 - g * dt))
        have h3 := mul_lt_mul_of_pos_right (hc (listed (e b1))) Real.pi_pos
        rw [one_mul] at h3
        exact lt_of_le_of_lt h1 h3
      obtain ⟨g1, g2⟩ := p6_parts hB hd hbound e4
      have hle : len (transPart (e b')) ≤ len (transPart (e b1)) := by
        show len (transPart (opError fr o ref b')) ≤ _
        rw [g2]
        refine reduced_len ?_ hgd.le ((mul_le_mul_of_nonneg_left hlg.2 Real.pi_pos.le).trans h4) _
        rw [len_smul, abs_neg, abs_of_pos hgd]
        exact (mul_le_mul hlg.2 a4 (len_nonneg _) (hgd.le.trans hlg.2)).trans hq
      have hrot : len (rotPart (e b')) ≤ len (rotPart (e b1)) := by
        show len (rotPart (opError fr o ref b')) ≤ _
        rw [g1, len_smul]
        have := mul_le_mul_of_nonneg_right (hc (listed (e b1))).le (len_nonneg (rotPart (e b1)))
        rw [one_mul] at this
        exact this
      refine ⟨(s', b'), ⟨?_, e2.other_gain g0, by simp only []; rw [e3, a3, ← List.replicate_succ'], hrot.trans a4, hle.trans a5⟩, g1, hle, g2⟩
      show (gainSteps _ _ k _).bind _ = _
      rw [a1]
      show gainStep _ _ s = _
      rw [gainStep_p6 svd ho a2]
      exact e1)
  refine ⟨fun k => (f k).2, by simp only []; rw [f0], fun k => ?_⟩
  obtain ⟨⟨a1, a2, a3, -, -⟩, a6, a7⟩ := fk k
  exact ⟨⟨(f k).1, a1, a2.state, a3⟩, a6, a7⟩

/-- **C148, trajectory.** Whatever the law of the gain, as long as the gain times the period stays between a positive number and `hi`, at most
`4 / π`, and the base turns by at most a quarter of a turn in a period: each step multiplies the rotation error by one minus the period times
the gain of the error at that step, the position error never becomes longer, the joints do not move and no task is reported. -/
theorem C148_trajectory {d : Dev ℝ} {b : Fin 6 → ℝ} (hm : d.mode = .oneInteg) (hs0 : d.sanity = false)
    (hst : d.state = nums (List.ofFn b ++ joints)) (hsh : d.stateSOUT = nums (List.ofFn b ++ joints)) (g0 : ℝ) {lo hi G : ℝ} (h0 : 0 < lo)
    (h4 : Real.pi * hi ≤ 4) (hl : ∀ e, lo ≤ law e * dt ∧ law e * dt ≤ hi) (hG : ∀ e, law e ^ 2 ≤ G ^ 2)
    (hq : hi * len (rotPart (opError fr o ref b)) ≤ Real.pi / 2) (hs : P6Small th maxSq G fr o.transformation (opError fr o ref b)) :
    ∃ base : Nat → Fin 6 → ℝ, base 0 = b ∧ ∀ k,
      (∃ s, gainSteps (p6Loop svd (6 + joints.length) th maxSq fr o ref g0 selec dt) [law] k
          (start (p6Loop svd (6 + joints.length) th maxSq fr o ref g0 selec dt) d) = .ok s ∧
        s.dev.state = nums (List.ofFn (base k) ++ joints) ∧ s.reports = List.replicate k []) ∧
      rotPart (opError fr o ref (base (k + 1))) =
        (1 - law (listed (opError fr o ref (base k))) * dt) • rotPart (opError fr o ref (base k)) ∧
      len (transPart (opError fr o ref (base (k + 1)))) ≤ len (transPart (opError fr o ref (base k))) ∧
      len (rotPart (opError fr o ref (base k))) ≤ max |1 - lo| |1 - hi| ^ k * len (rotPart (opError fr o ref b)) := by
  obtain ⟨base, b0, g⟩ := p6_gain_trajectory svd ho hB hd hsel hth hm hs0 hst hsh g0 h0 h4 hl hG hq hs
  refine ⟨base, b0, fun k => ⟨(g k).1, (g k).2.1, (g k).2.2.1, ?_⟩⟩
  set ρ := max |1 - lo| |1 - hi| with hr
  have hr0 : 0 ≤ ρ := le_trans (abs_nonneg _) (le_max_left _ _)
  have hstep : ∀ e, |1 - law e * dt| ≤ ρ := by
    intro e
    obtain ⟨a1, a2⟩ := hl e
    have b1 : 1 - lo ≤ ρ := le_trans (le_abs_self _) (le_max_left _ _)
    have b2 : -(1 - hi) ≤ ρ := le_trans (neg_le_abs _) (le_max_right _ _)
    rw [abs_le]; constructor <;> linarith
  induction k with
  | zero => rw [b0, pow_zero, one_mul]
  | succ k ih =>
    rw [(g k).2.1, len_smul, pow_succ, mul_comm (ρ ^ k), mul_assoc]
    exact mul_le_mul (hstep _) ih (len_nonneg _) hr0

/-- **C148, convergence.** Under the same hypotheses the error tends to zero and the pose of the base to the one where the operational point is
at its reference. -/
theorem C148_converges {d : Dev ℝ} {b : Fin 6 → ℝ} (hm : d.mode = .oneInteg) (hs0 : d.sanity = false)
    (hst : d.state = nums (List.ofFn b ++ joints)) (hsh : d.stateSOUT = nums (List.ofFn b ++ joints)) (g0 : ℝ) {lo hi G : ℝ} (h0 : 0 < lo)
    (h4 : Real.pi * hi ≤ 4) (hl : ∀ e, lo ≤ law e * dt ∧ law e * dt ≤ hi) (hG : ∀ e, law e ^ 2 ≤ G ^ 2)
    (hq : hi * len (rotPart (opError fr o ref b)) ≤ Real.pi / 2) (hs : P6Small th maxSq G fr o.transformation (opError fr o ref b)) :
    ∃ (base : Nat → Fin 6 → ℝ) (goal : Pose ℝ), goal.mul o.transformation = goalOf ref ∧
      (∀ k, ∃ s, gainSteps (p6Loop svd (6 + joints.length) th maxSq fr o ref g0 selec dt) [law] k
          (start (p6Loop svd (6 + joints.length) th maxSq fr o ref g0 selec dt) d) = .ok s ∧
        s.dev.state = nums (List.ofFn (base k) ++ joints) ∧ s.reports = List.replicate k []) ∧
      (∀ r, Tendsto (fun k => opError fr o ref (base k) r) atTop (𝓝 0)) ∧
      (∀ i j, Tendsto (fun k => (poseRpyToHomo (base k)).R i j) atTop (𝓝 (goal.R i j))) ∧
      ∀ i, Tendsto (fun k => (poseRpyToHomo (base k)).t i) atTop (𝓝 (goal.t i)) := by
  obtain ⟨base, b0, g⟩ := p6_gain_trajectory svd ho hB hd hsel hth hm hs0 hst hsh g0 h0 h4 hl hG hq hs
  have hi2 : hi < 2 := by nlinarith [Real.pi_gt_three]
  set c : Nat → ℝ := fun k => law (listed (opError fr o ref (base k))) * dt with hc
  set ρ := max |1 - lo| |1 - hi| with hr
  have hlh : lo ≤ hi := (hl []).1.trans (hl []).2
  have hr0 : 0 ≤ ρ := le_trans (abs_nonneg _) (le_max_left _ _)
  have hr1 : ρ < 1 := by
    rw [hr, max_lt_iff, abs_lt, abs_lt]
    refine ⟨⟨by linarith, by linarith⟩, ⟨by linarith, by linarith⟩⟩
  have hstep : ∀ k, |1 - c k| ≤ ρ := by
    intro k
    obtain ⟨a1, a2⟩ := hl (listed (opError fr o ref (base k)))
    have b1 : 1 - lo ≤ ρ := le_trans (le_abs_self _) (le_max_left _ _)
    have b2 : -(1 - hi) ≤ ρ := le_trans (neg_le_abs _) (le_max_right _ _)
    rw [abs_le]; constructor <;> linarith
  let p : Nat → ℝ := fun k => Nat.rec 1 (fun j x => (1 - c j) * x) k
  have hp : ∀ k, |p k| ≤ ρ ^ k := by
    intro k
    induction k with
    | zero => show |(1 : ℝ)| ≤ _; simp
    | succ k ih =>
      show |(1 - c k) * p k| ≤ _
      rw [abs_mul, pow_succ, mul_comm (ρ ^ k)]
      exact mul_le_mul (hstep k) ih (abs_nonneg _) hr0
  have hp0 : Tendsto p atTop (𝓝 0) := squeeze_zero_norm hp (tendsto_pow_atTop_nhds_zero_of_lt_one hr0 hr1)
  have hrot : ∀ k, rotPart (opError fr o ref (base k)) = p k • rotPart (opError fr o ref b) := by
    intro k
    induction k with
    | zero => rw [b0]; exact (one_smul ℝ _).symm
    | succ k ih =>
      rw [(g k).2.1, ih, smul_smul]
  have hx : Tendsto (fun k => len ((-(c k)) • rotPart (opError fr o ref (base k)))) atTop (𝓝 0) := by
    have h1 : Tendsto (fun k => hi * (|p k| * len (rotPart (opError fr o ref b)))) atTop (𝓝 0) := by
      have := (hp0.abs.mul_const (len (rotPart (opError fr o ref b)))).const_mul hi
      simpa using this
    refine squeeze_zero (fun k => len_nonneg _) (fun k => ?_) h1
    obtain ⟨a1, a2⟩ := hl (listed (opError fr o ref (base k)))
    have hck : c k ≤ hi := a2
    have hck0 : 0 ≤ c k := h0.le.trans a1
    rw [len_smul, abs_neg, abs_of_nonneg hck0, hrot k, len_smul]
    exact mul_le_mul_of_nonneg_right hck (mul_nonneg (abs_nonneg _) (len_nonneg _))
  obtain ⟨l1, l2, l3⟩ := p6_limit hB hd (fr := fr) (base := base) hp0 hrot
    (reduced_tendsto_between h0 hi2 (c := c) (fun k => (hl _).1) (fun k => (hl _).2) hx fun k => (g k).2.2.2)
  exact ⟨base, (goalOf ref).mul o.transformation.inv, by rw [pose_mul_assoc, inv_mul_self hB, pose_mul_one], fun k => (g k).1, l1, l2, l3⟩

/-- **C148, any angle.** When the gain times the period is at most one half, there is no condition on the angle. -/
theorem C148_any_angle {d : Dev ℝ} {b : Fin 6 → ℝ} (hm : d.mode = .oneInteg) (hs0 : d.sanity = false)
    (hst : d.state = nums (List.ofFn b ++ joints)) (hsh : d.stateSOUT = nums (List.ofFn b ++ joints)) (g0 : ℝ) {lo G : ℝ} (h0 : 0 < lo)
    (hl : ∀ e, lo ≤ law e * dt ∧ law e * dt ≤ 1 / 2) (hG : ∀ e, law e ^ 2 ≤ G ^ 2)
    (hs : P6Small th maxSq G fr o.transformation (opError fr o ref b)) :
    ∃ (base : Nat → Fin 6 → ℝ) (goal : Pose ℝ), goal.mul o.transformation = goalOf ref ∧
      (∀ k, ∃ s, gainSteps (p6Loop svd (6 + joints.length) th maxSq fr o ref g0 selec dt) [law] k
          (start (p6Loop svd (6 + joints.length) th maxSq fr o ref g0 selec dt) d) = .ok s ∧
        s.dev.state = nums (List.ofFn (base k) ++ joints) ∧ s.reports = List.replicate k []) ∧
      (∀ i j, Tendsto (fun k => (poseRpyToHomo (base k)).R i j) atTop (𝓝 (goal.R i j))) ∧
      ∀ i, Tendsto (fun k => (poseRpyToHomo (base k)).t i) atTop (𝓝 (goal.t i)) := by
  have hpi := Real.pi_lt_d2
  have ha := opError_angle (fr := fr) hB hd b
  obtain ⟨base, goal, g1, g2, -, g3, g4⟩ := C148_converges svd ho hB hd hsel hth hm hs0 hst hsh g0 h0 (by linarith) hl hG (by linarith) hs
  exact ⟨base, goal, g1, g2, g3, g4⟩

/-- **C148, the gain entities.** With the adaptive gain, the one given by a passing point or the hyperbolic gain, of values between `v0` and
`vinf`, both positive, and at most one half when multiplied by the period: from any pose of the base where the velocity asked with the larger
gain is within the limit, the base converges to the pose where the operational point is at its reference. -/
theorem C148_gain_entities {d : Dev ℝ} {b : Fin 6 → ℝ} (hm : d.mode = .oneInteg) (hs0 : d.sanity = false)
    (hst : d.state = nums (List.ofFn b ++ joints)) (hsh : d.stateSOUT = nums (List.ofFn b ++ joints)) (g0 : ℝ) {v0 vinf : ℝ} (hdt : 0 < dt)
    (h0 : 0 < v0) (hinf : 0 < vinf) (h1 : v0 * dt ≤ 1 / 2) (h2 : vinf * dt ≤ 1 / 2)
    (hs : P6Small th maxSq (max v0 vinf) fr o.transformation (opError fr o ref b)) {law : List ℝ → ℝ}
    (hlaw : (∃ tan, 0 ≤ tan * (v0 - vinf) ∧ law = (Gain.Adaptive.init v0 vinf tan).gain) ∨
      (∃ xref p, 0 < xref ∧ 0 < p ∧ p ≤ 1 ∧ law = (Gain.Adaptive.initFromPassingPoint v0 vinf xref p).gain) ∨
      ∃ tan decal, law = (Gain.Hyperbolic.init v0 vinf tan decal).gain) :
    ∃ (base : Nat → Fin 6 → ℝ) (goal : Pose ℝ), goal.mul o.transformation = goalOf ref ∧
      (∀ k, ∃ s, gainSteps (p6Loop svd (6 + joints.length) th maxSq fr o ref g0 selec dt) [law] k
          (start (p6Loop svd (6 + joints.length) th maxSq fr o ref g0 selec dt) d) = .ok s ∧
        s.dev.state = nums (List.ofFn (base k) ++ joints) ∧ s.reports = List.replicate k []) ∧
      (∀ i j, Tendsto (fun k => (poseRpyToHomo (base k)).R i j) atTop (𝓝 (goal.R i j))) ∧
      ∀ i, Tendsto (fun k => (poseRpyToHomo (base k)).t i) atTop (𝓝 (goal.t i)) := by
  have hb : ∀ e, min v0 vinf ≤ law e ∧ law e ≤ max v0 vinf := by
    rcases hlaw with ⟨tan, ht, rfl⟩ | ⟨xref, p, hx, hp, hp1, rfl⟩ | ⟨tan, decal, rfl⟩
    · exact Gain.Adaptive.C19_between v0 vinf tan ht
    · exact fun e => ⟨(Gain.Adaptive.C19_passing_point_between v0 vinf xref p hx hp hp1 e).1,
        (Gain.Adaptive.C19_passing_point_between v0 vinf xref p hx hp hp1 e).2.1⟩
    · intro e
      by_cases hne : v0 = vinf
      · subst hne
        rw [(Gain.Hyperbolic.C20_constant v0 tan decal 0 0 0 e).1]
        simp
      · exact ⟨(Gain.Hyperbolic.C20_strictly_between v0 vinf tan decal hne e).1.le,
          (Gain.Hyperbolic.C20_strictly_between v0 vinf tan decal hne e).2.le⟩
  have hmin : 0 < min v0 vinf := lt_min h0 hinf
  have hmax : max v0 vinf * dt ≤ 1 / 2 := by
    rcases max_choice v0 vinf with h | h <;> rw [h] <;> assumption
  refine C148_any_angle svd ho hB hd hsel hth hm hs0 hst hsh g0 (lo := min v0 vinf * dt) (mul_pos hmin hdt) (fun e => ⟨?_, ?_⟩) (fun e => ?_) hs
  · exact mul_le_mul_of_nonneg_right (hb e).1 hdt.le
  · exact (mul_le_mul_of_nonneg_right (hb e).2 hdt.le).trans hmax
  · have h3 := (hb e).1
    have h4 := (hb e).2
    exact pow_le_pow_left₀ (by linarith) h4 2

end

/-- **C148, case.** The base half a turn and more than three meters away, `goto6d` with the gain `(4.9, 0.9, 0.01, 0.9)` and a period of five
milliseconds: the hypotheses hold in both frames, and the base converges to the reference. -/
theorem C148_case (svd : ∀ {m c : ℕ} (A : Matrix (Fin m) (Fin c) ℝ), Svd A) (fr : Frame) :
    ∃ (b : Fin 6 → ℝ) (d : Dev ℝ) (base : Nat → Fin 6 → ℝ), d.state = nums (List.ofFn b ++ [5, 7]) ∧
      (poseRpyToHomo b).R = !![-1, 0, 0; 0, -1, 0; 0, 0, 1] ∧ (poseRpyToHomo b).t = ![1, 2, 3] ∧
      (∀ k, ∃ s, gainSteps (p6Loop svd 8 (1 / 10000) 10000 fr plain (some ⟨1, 0⟩) 0 (Flags.ofBool true) (1 / 200))
          [(Gain.Adaptive.initFromPassingPoint (49 / 10) (9 / 10) (1 / 100) (9 / 10)).gain] k
          (start (p6Loop svd 8 (1 / 10000) 10000 fr plain (some ⟨1, 0⟩) 0 (Flags.ofBool true) (1 / 200)) d) = .ok s ∧
        s.dev.state = nums (List.ofFn (base k) ++ [5, 7]) ∧ s.reports = List.replicate k []) ∧
      (∀ i j, Tendsto (fun k => (poseRpyToHomo (base k)).R i j) atTop (𝓝 ((1 : Matrix (Fin 3) (Fin 3) ℝ) i j))) ∧
      ∀ i, Tendsto (fun k => (poseRpyToHomo (base k)).t i) atTop (𝓝 0) := by
  obtain ⟨b, hpose, hb⟩ := half_case
  obtain ⟨htr, hang2⟩ := hb fr
  have hmax : max (49 / 10 : ℝ) (9 / 10) = 49 / 10 := max_eq_left (by norm_num)
  have hs : P6Small (1 / 10000) 10000 (max (49 / 10) (9 / 10)) fr plain.transformation (opError fr plain (some ⟨1, 0⟩) b) := by
    have h0 : len plain.transformation.t = 0 := len_zero
    rw [hmax]
    cases fr
    · refine ⟨?_, ?_⟩
      · rw [h0]; simp only [lever]; norm_num
      · rw [h0]; simp only [frameSq]; rw [htr]; nlinarith
    · refine ⟨?_, ?_⟩
      · rw [h0]; simp only [lever]; rw [htr]; norm_num
      · rw [h0]; simp only [frameSq]; rw [htr]; nlinarith
  let d : Dev ℝ := { init with sanity := false, state := nums (List.ofFn b ++ [5, 7]), stateSOUT := nums (List.ofFn b ++ [5, 7]) }
  obtain ⟨base, goal, g1, g2, g3, g4⟩ := C148_gain_entities svd (th := 1 / 10000) (maxSq := 10000) (fr := fr) (o := plain) (ref := some ⟨1, 0⟩)
    (dt := 1 / 200) (joints := [5, 7]) (selec := Flags.ofBool true) rfl isRot_one isRot_one (fun j _ => by simp [Flags.call, Flags.ofBool])
    (by norm_num) (d := d) (b := b) rfl rfl rfl rfl 0 (v0 := 49 / 10) (vinf := 9 / 10) (by norm_num) (by norm_num) (by norm_num) (by norm_num)
    (by norm_num) hs (.inr (.inl ⟨1 / 100, 9 / 10, by norm_num, by norm_num, by norm_num, rfl⟩))
  have hgoal : goal = ⟨1, 0⟩ := (pose_mul_one goal).symm.trans g1
  rw [hgoal] at g3 g4
  exact ⟨b, d, base, rfl, by rw [hpose], by rw [hpose], g2, g3, g4⟩

end Verif.Loop
