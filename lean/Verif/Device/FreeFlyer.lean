import Verif.Device.Props
import Verif.Se3.Unique
import Verif.Geometry.ConvertProps

/-!
# The free-flyer of the device (src/tools/device.cpp:40-65)

The parameter `ff` of `Verif.Device.increment` is given its value: the integration of the first six degrees of freedom by pinocchio.
Simplifications: real arithmetic (the quaternion of the code is normalised by pinocchio to first order, and is here exactly of length one);
`SE3().integrate` by its documented formula, the pose times the exponential of the displacement; a NaN angle or a NaN angular velocity makes
the six values NaN, a NaN linear velocity the three positions, a NaN position that position only.
-/

namespace Verif.Device

open Verif.Geometry Verif.Se3 Verif.Spatial

/-- `v(i)`, as a double. -/
def entry (v : List (Option ℝ)) (i : Nat) : Option ℝ := (v[i]?).join

/-- The number at an index (unused where it is NaN). -/
noncomputable def number (v : List (Option ℝ)) (i : Nat) : ℝ := (entry v i).getD 0

/-- `control.head<6>()` (src/tools/device.cpp:55): the linear velocity, then the angular one, both in the frame of the free-flyer. -/
def twistOf (c : Fin 6 → ℝ) : Twist := (![c 0, c 1, c 2], ![c 3, c 4, c 5])

/-- The pose after the integration (src/tools/device.cpp:48-61). -/
noncomputable def moved (st vc : List (Option ℝ)) (dt : ℝ) : Pose ℝ :=
  (poseRpyToHomo fun i => number st i).mul (exp6 (dt • twistOf fun i => number vc i))

/-- The value `i` is a number after the integration. -/
def staysNumber (st vc : List (Option ℝ)) (i : Fin 6) : Bool :=
  (entry st 3).isSome && (entry st 4).isSome && (entry st 5).isSome && (entry vc 3).isSome && (entry vc 4).isSome && (entry vc 5).isSome &&
    (decide (3 ≤ i.val) || ((entry st i).isSome && (entry vc 0).isSome && (entry vc 1).isSome && (entry vc 2).isSome))

/-- `Device::integrateRollPitchYaw` (src/tools/device.cpp:40-63): the first six values of the state. -/
noncomputable def freeFlyer (st vc : List (Option ℝ)) (dt : ℝ) : Fin 6 → Option ℝ := fun i =>
  if staysNumber st vc i then some (homoToPoseRpy (moved st vc dt) i) else none

/-- `freeFlyerPose` (src/tools/device.cpp:58-65, 504-541) after an increment: written by the integration of the free-flyer, and by nothing
else. No value stands for a pose with NaN, and for the one that the constructor leaves (src/tools/device.cpp:95). -/
noncomputable def poseAfter (d : Dev ℝ) (pose : Option (Pose ℝ)) (u : List (Option ℝ)) (dt : ℝ) : Option (Pose ℝ) :=
  if d.sanity && u.any Option.isNone then pose
  else if d.mode = .noInteg then pose
  else match velocities d u dt with
    | .ok (vc, _) =>
      if vc.length = d.state.length then
        if staysNumber d.state vc 0 && staysNumber d.state vc 1 && staysNumber d.state vc 2 then some (moved d.state vc dt) else none
      else pose
    | _ => pose

/-! ## Lemmas -/

theorem six (b : Fin 6 → ℝ) (q : List ℝ) : List.ofFn b ++ q = b 0 :: b 1 :: b 2 :: b 3 :: b 4 :: b 5 :: q := by
  simp [List.ofFn_succ]

theorem entry_six (b : Fin 6 → ℝ) (q : List ℝ) (i : Fin 6) : entry (nums (List.ofFn b ++ q)) i = some (b i) := by
  rw [six]
  fin_cases i <;> rfl

theorem number_six (b : Fin 6 → ℝ) (q : List ℝ) : (fun i : Fin 6 => number (nums (List.ofFn b ++ q)) i) = b := by
  funext i
  rw [number, entry_six]
  rfl

theorem stays_six (b c : Fin 6 → ℝ) (q u : List ℝ) (i : Fin 6) :
    staysNumber (nums (List.ofFn b ++ q)) (nums (List.ofFn c ++ u)) i = true := by
  have hb := entry_six b q
  have hc := entry_six c u
  have b3 := hb 3; have b4 := hb 4; have b5 := hb 5
  have c0 := hc 0; have c1 := hc 1; have c2 := hc 2; have c3 := hc 3; have c4 := hc 4; have c5 := hc 5
  simp only [Fin.val_zero, Fin.val_one, Fin.val_two] at c0 c1 c2
  rw [show ((3 : Fin 6) : ℕ) = 3 from rfl] at b3 c3
  rw [show ((4 : Fin 6) : ℕ) = 4 from rfl] at b4 c4
  rw [show ((5 : Fin 6) : ℕ) = 5 from rfl] at b5 c5
  simp [-List.ofFn_succ, staysNumber, b3, b4, b5, c0, c1, c2, c3, c4, c5, hb i]

theorem moved_six (b c : Fin 6 → ℝ) (q u : List ℝ) (dt : ℝ) :
    moved (nums (List.ofFn b ++ q)) (nums (List.ofFn c ++ u)) dt = (poseRpyToHomo b).mul (exp6 (dt • twistOf c)) := by
  rw [moved, number_six, number_six]

theorem freeFlyer_six (b c : Fin 6 → ℝ) (q u : List ℝ) (dt : ℝ) :
    List.ofFn (freeFlyer (nums (List.ofFn b ++ q)) (nums (List.ofFn c ++ u)) dt) =
      nums (List.ofFn (homoToPoseRpy ((poseRpyToHomo b).mul (exp6 (dt • twistOf c))))) := by
  have e : ∀ f : Fin 6 → ℝ, nums (List.ofFn f) = List.ofFn fun i => some (f i) := fun f => by rw [nums, List.map_ofFn]; rfl
  rw [e]
  congr 1
  funext i
  rw [freeFlyer, if_pos (stays_six b c q u i), moved_six]

theorem pose_isRot (b : Fin 6 → ℝ) : IsRot (poseRpyToHomo b).R := (C71_pose_rpy b).2.1

theorem moved_isRot (b : Fin 6 → ℝ) (x : Twist) : IsRot ((poseRpyToHomo b).mul (exp6 x)).R :=
  (pose_isRot b).mul (isRot_exp6 x)

/-- One increment in velocity mode, with its values. -/
theorem velocity_step (d : Dev ℝ) (b c : Fin 6 → ℝ) (q u : List ℝ) (dt : ℝ) (hs : d.sanity = false) (hm : d.mode = .oneInteg)
    (hst : d.state = nums (List.ofFn b ++ q)) (hl : q.length = u.length) :
    ∃ d', increment freeFlyer d (nums (List.ofFn c ++ u)) dt = .ok d' ∧
      d'.state = nums (List.ofFn (homoToPoseRpy ((poseRpyToHomo b).mul (exp6 (dt • twistOf c)))) ++
        List.zipWith (fun x v => x + dt * v) q u) ∧ d'.sanity = false ∧ d'.mode = .oneInteg ∧ d'.time = d.time + 1 := by
  obtain ⟨d', h1, h2, -, -, h5⟩ := C23_velocity_mode_free_flyer freeFlyer d (List.ofFn b) q (List.ofFn c) u dt hs hm hst hl
    (by simp) (by simp)
  obtain ⟨-, -, -, -, -, -, e1, e2, -⟩ := increment_cases h1
  refine ⟨d', h1, ?_, e1.trans hs, e2.trans hm, h5⟩
  rw [h2, hst, freeFlyer_six]
  simp [nums]

/-! ## C140 -/

/-- **C140, one step.** In velocity mode, without checks, one increment brings the base exactly where a body goes that moves during the time
step at the velocity of the first six entries of the control, constant in its own frame: every such motion ends at the new pose. The joints
advance by their velocity times the time step. This holds for every orientation, those where the roll-pitch-yaw angles are singular
included. -/
theorem C140_step (d : Dev ℝ) (b c : Fin 6 → ℝ) (q u : List ℝ) (dt : ℝ) (hs : d.sanity = false) (hm : d.mode = .oneInteg)
    (hst : d.state = nums (List.ofFn b ++ q)) (hl : q.length = u.length) :
    ∃ d' b', increment freeFlyer d (nums (List.ofFn c ++ u)) dt = .ok d' ∧
      d'.state = nums (List.ofFn b' ++ List.zipWith (fun x v => x + dt * v) q u) ∧
      (∀ M : ℝ → Pose ℝ, M 0 = poseRpyToHomo b → (∀ s, BodyTwist M ![c 0, c 1, c 2] ![c 3, c 4, c 5] s) → poseRpyToHomo b' = M dt) ∧
      ∃ M : ℝ → Pose ℝ, M 0 = poseRpyToHomo b ∧ (∀ s, BodyTwist M ![c 0, c 1, c 2] ![c 3, c 4, c 5] s) ∧ poseRpyToHomo b' = M dt := by
  obtain ⟨d', h1, h2, -⟩ := velocity_step d b c q u dt hs hm hst hl
  refine ⟨d', _, h1, h2, fun M h0 hM => ?_, fun s => (poseRpyToHomo b).mul (exp6 (s • twistOf c)), ?_, fun s => exp6_twist _ (twistOf c) s, ?_⟩
  · rw [C81_pose_rpy _ (moved_isRot _ _), motion_unique M (twistOf c) hM dt, h0]
  · simp only [zero_smul, exp6_zero, pose_mul_one]
  · exact C81_pose_rpy _ (moved_isRot _ _)

theorem run_constant (c : Fin 6 → ℝ) (u : List ℝ) (dt : ℝ) : ∀ (n : ℕ) (d : Dev ℝ) (b : Fin 6 → ℝ) (q : List ℝ), d.sanity = false →
    d.mode = .oneInteg → d.state = nums (List.ofFn b ++ q) → q.length = u.length →
    ∃ d', run freeFlyer d (List.replicate (n + 1) (.increment (nums (List.ofFn c ++ u)) dt)) = .ok d' ∧
      d'.state = nums (List.ofFn (homoToPoseRpy ((poseRpyToHomo b).mul (exp6 (((n + 1 : ℕ) * dt) • twistOf c)))) ++
        List.zipWith (fun x v => x + (n + 1 : ℕ) * dt * v) q u) ∧ d'.sanity = false ∧ d'.mode = .oneInteg ∧ d'.time = d.time + (n + 1 : ℕ)
  | 0, d, b, q, hs, hm, hst, hl => by
    obtain ⟨d', h1, h2, h3, h4, h5⟩ := velocity_step d b c q u dt hs hm hst hl
    refine ⟨d', ?_, ?_, h3, h4, ?_⟩
    · simp [-List.ofFn_succ, run, step, h1]
    · rw [h2]; simp
    · rw [h5]; simp
  | n + 1, d, b, q, hs, hm, hst, hl => by
    obtain ⟨d', h1, h2, h3, h4, h5⟩ := velocity_step d b c q u dt hs hm hst hl
    obtain ⟨e, g1, g2, g3, g4, g5⟩ := run_constant c u dt n d' _ _ h3 h4 h2 (by simp [hl])
    refine ⟨e, ?_, ?_, g3, g4, ?_⟩
    · rw [List.replicate_succ, run, step, h1]
      exact g1
    · rw [g2, C81_pose_rpy _ (moved_isRot _ _), Verif.Point6d.pose_mul_assoc, exp6_add]
      have hq : ∀ (q u : List ℝ), List.zipWith (fun x v => x + ((n + 1 : ℕ) : ℝ) * dt * v) (List.zipWith (fun x v => x + dt * v) q u) u =
          List.zipWith (fun x v => x + ((n + 1 + 1 : ℕ) : ℝ) * dt * v) q u := by
        intro q
        induction q with
        | nil => simp
        | cons x xs ih =>
          intro u
          cases u with
          | nil => rfl
          | cons y ys =>
            simp only [List.zipWith_cons_cons, ih]
            push_cast
            congr 1
            ring
      rw [hq]
      congr 8
      push_cast
      ring
    · rw [g5, h5]
      push_cast
      ring

/-- **C140, a constant control.** After `n` increments with the same control the base is where the motion at that constant velocity is after
`n` time steps: the steps add no error. -/
theorem C140_constant (d : Dev ℝ) (b c : Fin 6 → ℝ) (q u : List ℝ) (dt : ℝ) (n : ℕ) (hs : d.sanity = false) (hm : d.mode = .oneInteg)
    (hst : d.state = nums (List.ofFn b ++ q)) (hl : q.length = u.length) (M : ℝ → Pose ℝ) (h0 : M 0 = poseRpyToHomo b)
    (hM : ∀ s, BodyTwist M ![c 0, c 1, c 2] ![c 3, c 4, c 5] s) :
    ∃ d' b', run freeFlyer d (List.replicate n (.increment (nums (List.ofFn c ++ u)) dt)) = .ok d' ∧
      d'.state = nums (List.ofFn b' ++ List.zipWith (fun x v => x + n * dt * v) q u) ∧ poseRpyToHomo b' = M (n * dt) ∧
      d'.time = d.time + n := by
  cases n with
  | zero =>
    refine ⟨d, b, rfl, ?_, ?_, by simp⟩
    · rw [hst]
      congr 2
      have : ∀ (q u : List ℝ), q.length = u.length → q = List.zipWith (fun x v => x + ((0 : ℕ) : ℝ) * dt * v) q u := by
        intro q
        induction q with
        | nil => intro u _; simp
        | cons x xs ih =>
          intro u h
          cases u with
          | nil => simp at h
          | cons y ys => 
            simp only [List.length_cons, Nat.add_right_cancel_iff] at h
            rw [List.zipWith_cons_cons, ← ih ys h]
            simp
      exact this q u hl
    · rw [← h0]; simp
  | succ n =>
    obtain ⟨d', h1, h2, h3, h4, h5⟩ := run_constant c u dt n d b q hs hm hst hl
    refine ⟨d', _, h1, h2, ?_, h5⟩
    rw [C81_pose_rpy _ (moved_isRot _ _), motion_unique M (twistOf c) hM, h0]

/-- **C140, subdivision.** With a constant control the state after a duration does not depend on the number of increments that make it, in
its angles neither. -/
theorem C140_subdivision (d : Dev ℝ) (b c : Fin 6 → ℝ) (q u : List ℝ) (dt dt' : ℝ) (n m : ℕ) (hn : 0 < n) (hm0 : 0 < m)
    (he : n * dt = m * dt') (hs : d.sanity = false) (hm : d.mode = .oneInteg)
    (hst : d.state = nums (List.ofFn b ++ q)) (hl : q.length = u.length) :
    (run freeFlyer d (List.replicate n (.increment (nums (List.ofFn c ++ u)) dt))).map (·.state) =
      (run freeFlyer d (List.replicate m (.increment (nums (List.ofFn c ++ u)) dt'))).map (·.state) := by
  obtain ⟨n, rfl⟩ : ∃ k, n = k + 1 := ⟨n - 1, by omega⟩
  obtain ⟨m, rfl⟩ : ∃ k, m = k + 1 := ⟨m - 1, by omega⟩
  obtain ⟨d1, h1, h2, -⟩ := run_constant c u dt n d b q hs hm hst hl
  obtain ⟨d2, g1, g2, -⟩ := run_constant c u dt' m d b q hs hm hst hl
  rw [h1, g1, Outcome.map_ok, Outcome.map_ok, h2, g2, he]

/-- **C140, back.** A control, then its opposite during the same time, bring the base back to its pose and the joints to their positions. -/
theorem C140_back (d : Dev ℝ) (b c : Fin 6 → ℝ) (q u : List ℝ) (dt : ℝ) (hs : d.sanity = false) (hm : d.mode = .oneInteg)
    (hst : d.state = nums (List.ofFn b ++ q)) (hl : q.length = u.length) :
    ∃ d' b', run freeFlyer d [.increment (nums (List.ofFn c ++ u)) dt, .increment (nums (List.ofFn (-c) ++ u.map (-·))) dt] = .ok d' ∧
      d'.state = nums (List.ofFn b' ++ q) ∧ poseRpyToHomo b' = poseRpyToHomo b := by
  obtain ⟨d1, h1, h2, h3, h4, -⟩ := velocity_step d b c q u dt hs hm hst hl
  obtain ⟨d2, g1, g2, -⟩ := velocity_step d1 _ (-c) _ (u.map (-·)) dt h3 h4 h2 (by simp [hl])
  refine ⟨d2, homoToPoseRpy (poseRpyToHomo b), ?_, ?_, C81_pose_rpy _ (pose_isRot b)⟩
  · simp [-List.ofFn_succ, run, step, h1, g1]
  rw [g2, C81_pose_rpy _ (moved_isRot _ _), Verif.Point6d.pose_mul_assoc]
  have hq : ∀ (q u : List ℝ), q.length = u.length →
      List.zipWith (fun x v => x + dt * v) (List.zipWith (fun x v => x + dt * v) q u) (u.map (-·)) = q := by
    intro q
    induction q with
    | nil => intro u _; simp
    | cons x xs ih =>
      intro u h
      cases u with
      | nil => simp at h
      | cons y ys => simp at h; simp [ih ys h]
  rw [hq q u hl]
  have hc : dt • twistOf (-c) = (-dt) • twistOf c := by
    ext i <;> fin_cases i <;> simp [twistOf]
  rw [hc, exp6_add, add_neg_cancel, zero_smul, exp6_zero, pose_mul_one]

/-- **C140, distance.** The base moves by at most the length of its linear velocity times the time step, whatever it turns. -/
theorem C140_distance (d : Dev ℝ) (b c : Fin 6 → ℝ) (q u : List ℝ) (dt : ℝ) (hdt : 0 ≤ dt) (hs : d.sanity = false) (hm : d.mode = .oneInteg)
    (hst : d.state = nums (List.ofFn b ++ q)) (hl : q.length = u.length) :
    ∃ (d' : Dev ℝ) (b' : Fin 6 → ℝ) (q' : List ℝ), increment freeFlyer d (nums (List.ofFn c ++ u)) dt = .ok d' ∧ d'.state = nums (List.ofFn b' ++ q') ∧
      √((b' 0 - b 0) ^ 2 + (b' 1 - b 1) ^ 2 + (b' 2 - b 2) ^ 2) ≤ dt * √(c 0 ^ 2 + c 1 ^ 2 + c 2 ^ 2) := by
  obtain ⟨d', h1, h2, -⟩ := velocity_step d b c q u dt hs hm hst hl
  refine ⟨d', _, _, h1, h2, ?_⟩
  have hR := pose_isRot b
  have hle := leftJac_len (dt • twistOf c).2 (dt • twistOf c).1
  rw [Prod.smul_fst, len_smul, abs_of_nonneg hdt] at hle
  have e1 : len (twistOf c).1 = √(c 0 ^ 2 + c 1 ^ 2 + c 2 ^ 2) := by
    unfold len twistOf
    simp [Matrix.vec3_dotProduct]
    ring_nf
  rw [e1] at hle
  refine le_trans (le_of_eq ?_) hle
  set t := (exp6 (dt • twistOf c)).t with ht
  have e2 : len ((poseRpyToHomo b).R.mulVec t) = len t := by
    unfold len
    rw [Matrix.dotProduct_mulVec, Matrix.vecMul_mulVec, hR.1, Matrix.vecMul_one]
  have e3 : ∀ v : Fin 3 → ℝ, len v = √(v 0 ^ 2 + v 1 ^ 2 + v 2 ^ 2) := by
    intro v
    unfold len
    simp only [dotProduct, Fin.sum_univ_three]
    ring_nf
  have e4 : (exp6 (dt • twistOf c)).t = Matrix.mulVec (leftJac (dt • twistOf c).2) (dt • (twistOf c).1) := rfl
  rw [← e4, ← ht, ← e2, e3]
  simp [homoToPoseRpy, Pose.mul, poseRpyToHomo, ht]
  rfl

/-- **C140, acceleration mode.** The base follows, during the time step, the constant velocity that it has at the middle of the step; its
velocity then advances by the acceleration times the time step. -/
theorem C140_acceleration (d : Dev ℝ) (b w a : Fin 6 → ℝ) (q v u : List ℝ) (dt : ℝ) (hs : d.sanity = false) (hm : d.mode = .twoInteg)
    (hst : d.state = nums (List.ofFn b ++ q)) (hv : d.velocity = nums (List.ofFn w ++ v)) (hl : q.length = u.length)
    (hlv : v.length = u.length) :
    ∃ d' b', increment freeFlyer d (nums (List.ofFn a ++ u)) dt = .ok d' ∧
      d'.velocity = nums ((List.ofFn fun i => w i + dt * a i) ++ List.zipWith (fun x a => x + dt * a) v u) ∧
      d'.state = nums (List.ofFn b' ++ List.zipWith (fun x p => x + dt * (p.1 + 1 / 2 * dt * p.2)) q (v.zip u)) ∧
      ∀ M : ℝ → Pose ℝ, M 0 = poseRpyToHomo b →
        (∀ s, BodyTwist M ![w 0 + dt / 2 * a 0, w 1 + dt / 2 * a 1, w 2 + dt / 2 * a 2]
          ![w 3 + dt / 2 * a 3, w 4 + dt / 2 * a 4, w 5 + dt / 2 * a 5] s) → poseRpyToHomo b' = M dt := by
  have hz : ∀ (f : ℝ → ℝ → ℝ), List.zipWith f (List.ofFn w ++ v) (List.ofFn a ++ u) = (List.ofFn fun i => f (w i) (a i)) ++ List.zipWith f v u := by
    intro f
    rw [six, six, six]
    rfl
  set m : Fin 6 → ℝ := fun i => w i + 1 / 2 * dt * a i with hmdef
  have hvel : velocities d (nums (List.ofFn a ++ u)) dt =
      .ok (nums (List.ofFn m ++ List.zipWith (fun x a => x + 1 / 2 * dt * a) v u),
        nums ((List.ofFn fun i => w i + dt * a i) ++ List.zipWith (fun x a => x + dt * a) v u)) := by
    simp only [velocities, hm, hv]
    have hlen : (nums (List.ofFn w ++ v)).length = (nums (List.ofFn a ++ u)).length := by simp [nums, hlv]
    rw [if_pos hlen.ge]
    have hu := updateTail_nums (fun v a => vadd v (vmul dt a)) (fun x a => x + dt * a) (fun a b => by simp [vadd, vmul]) []
      (List.ofFn w ++ v) (List.ofFn a ++ u) (by simp [hlv])
    rw [List.nil_append, List.nil_append] at hu
    rw [hu, hz, hlen, Nat.sub_self, List.drop_zero]
    simp only [Outcome.map_ok, Outcome.ok.injEq, Prod.mk.injEq, and_true]
    rw [hmdef, ← hz (fun x a => x + 1 / 2 * dt * a)]
    simp only [nums]
    rw [List.zipWith_map, List.map_zipWith]
    rfl
  set d0 : Dev ℝ := { d with mode := .oneInteg } with hd0
  obtain ⟨d1, h1, h2, -⟩ := velocity_step d0 b m q (List.zipWith (fun x a => x + 1 / 2 * dt * a) v u) dt hs rfl hst (by simp [hl, hlv])
  have hpos : positions freeFlyer d.state (nums (List.ofFn m ++ List.zipWith (fun x a => x + 1 / 2 * dt * a) v u)) dt = .ok d1.state := by
    obtain ⟨e, g, a1, -⟩ := increment_cases h1
    rcases integrate_cases g with ⟨hn, -⟩ | ⟨-, hn, -⟩ | ⟨-, -, vc, v1, v2, st1, st2, k1, k2, k3, k4, rfl⟩
    · rw [show d0.sanity = d.sanity from rfl, hs] at hn; cases hn
    · cases hn
    · simp only [velocities, hd0, Outcome.ok.injEq, Prod.mk.injEq] at k1
      simp only [checkIf, hd0, hs, Bool.false_eq_true, if_false, Outcome.ok.injEq] at k4
      rw [a1, ← k4, k1.1]
      exact k3
  refine ⟨_, homoToPoseRpy ((poseRpyToHomo b).mul (exp6 (dt • twistOf m))), increment_eq freeFlyer d _ dt (.inl hs) (by simp [hm]) hvel
    (by simp only [checkIf, hs]; rfl) hpos (by simp only [checkIf, hs]; rfl), rfl, ?_, ?_⟩
  · simp only [h2]
    congr 2
    rw [List.zip, ← List.map_zipWith (f := fun p : ℝ × ℝ => p.1 + 1 / 2 * dt * p.2) (g := Prod.mk), List.zipWith_map_right]
  · intro M h0 hM
    rw [C81_pose_rpy _ (moved_isRot _ _), motion_unique M (twistOf m) (fun s => ?_) dt, h0]
    have := hM s
    have e : ∀ i, w i + dt / 2 * a i = m i := fun i => by rw [hmdef]; ring
    simp only [e] at this
    exact this

/-- **C140, a NaN angle.** A NaN yaw in the state makes the six values of the base NaN at the next increment that integrates it, with the
checks on too: they look at the control, and let NaN through. -/
theorem C140_nan_counterexample (d d' : Dev ℝ) (u : List (Option ℝ)) (dt : ℝ) (hm : d.mode = .oneInteg) (hy : d.state[5]? = some none)
    (hu : NoNaN u) (hl : u.length = d.state.length) (h : increment freeFlyer d u dt = .ok d') (i : Nat) (hi : i < 6) :
    d'.state[i]? = some none := by
  have h6 : 6 ≤ d.state.length := by
    have := (List.getElem?_eq_some_iff.mp hy).1
    omega
  obtain ⟨e, g, a1, -⟩ := increment_cases h
  rcases integrate_cases g with ⟨-, hn, -⟩ | ⟨-, hn, -⟩ | ⟨-, -, vc, v1, v2, st1, st2, k1, k2, k3, k4, rfl⟩
  · exact absurd hu hn
  · rw [hm] at hn; cases hn
  · simp only [velocities, hm, Outcome.ok.injEq, Prod.mk.injEq] at k1
    obtain ⟨rfl, -⟩ := k1
    have hff : freeFlyer d.state u dt = fun _ => none := by
      funext j
      have he : entry d.state 5 = none := by rw [entry, hy]; rfl
      simp [freeFlyer, staysNumber, he]
    have h1 : st1[i]? = some none := by
      rw [positions, if_pos hl, if_neg (by omega), hff, updateTail] at k3
      split_ifs at k3 with hle
      have hdl : (u.drop 6).length = d.state.length - 6 := by simp [hl]
      simp only [Outcome.ok.injEq] at k3
      rw [← k3, hdl, List.getElem?_append_left (by simp [-List.ofFn_succ]; omega), List.getElem?_take, if_pos (by simp [-List.ofFn_succ]; omega),
        List.getElem?_append_left (by simpa using hi)]
      have : ∀ j : Fin 6, (List.ofFn fun _ : Fin 6 => (none : Option ℝ))[j.val]? = some none := fun j => by fin_cases j <;> rfl
      exact this ⟨i, hi⟩
    rw [a1]
    rw [checkIf] at k4
    split_ifs at k4 with hsan
    · have hlen : i < st2.length := by
        rw [checkBounds_length k4]
        exact (List.getElem?_eq_some_iff.mp h1).1
      obtain ⟨x, l, p, q1, -, -, q4⟩ := checkBounds_get k4 (List.getElem?_eq_getElem hlen)
      rw [h1] at q1
      simp only [Option.some.injEq] at q1
      subst q1
      show st2[i]? = _
      rw [List.getElem?_eq_getElem hlen, q4]
      simp [saturate, vlt]
    · simp only [Outcome.ok.injEq] at k4
      subst k4
      exact h1

/-- **C140, the pose.** Without checks, `freeFlyerPose` is after such an increment the pose of the base of the state. -/
theorem C140_pose (d : Dev ℝ) (b c : Fin 6 → ℝ) (q u : List ℝ) (dt : ℝ) (pose : Option (Pose ℝ)) (hs : d.sanity = false)
    (hm : d.mode = .oneInteg) (hst : d.state = nums (List.ofFn b ++ q)) (hl : q.length = u.length) :
    ∃ d' b' q', increment freeFlyer d (nums (List.ofFn c ++ u)) dt = .ok d' ∧ d'.state = nums (List.ofFn b' ++ q') ∧
      poseAfter d pose (nums (List.ofFn c ++ u)) dt = some (poseRpyToHomo b') := by
  obtain ⟨d', h1, h2, -⟩ := velocity_step d b c q u dt hs hm hst hl
  refine ⟨d', _, _, h1, h2, ?_⟩
  rw [C81_pose_rpy _ (moved_isRot _ _)]
  have hlen : (nums (List.ofFn c ++ u)).length = (nums (List.ofFn b ++ q)).length := by simp [nums, hl]
  simp only [poseAfter, hs, hm, velocities, hst, hlen, stays_six, moved_six]
  simp

/-- **C140, counterexample: the pose without integration.** When the device copies the control, the base goes where the control says, whatever
the control, and the pose that the device publishes stays the one of the last integration. -/
theorem C140_pose_copy_counterexample (d : Dev ℝ) (b c : Fin 6 → ℝ) (q u : List ℝ) (dt : ℝ) (pose : Option (Pose ℝ)) (hm : d.mode = .noInteg)
    (hst : d.state = nums (List.ofFn b ++ q)) (hl : q.length = u.length) :
    ∃ d', increment freeFlyer d (nums (List.ofFn c ++ u)) dt = .ok d' ∧ d'.state = nums (List.ofFn c ++ u) ∧
      poseAfter d pose (nums (List.ofFn c ++ u)) dt = pose := by
  obtain ⟨d', h1, h2, -, -⟩ := C23_position_mode freeFlyer d [] (List.ofFn b ++ q) (List.ofFn c ++ u) dt hm hst (by simp [hl])
  have hany : (nums (List.ofFn c ++ u)).any Option.isNone = false := by simp [nums]
  refine ⟨d', h1, h2, ?_⟩
  simp only [poseAfter, hany, hm]
  simp

/-- **C140.** A control with NaN that the device refuses leaves the pose that it publishes. -/
theorem C140_pose_refused (d : Dev ℝ) (u : List (Option ℝ)) (dt : ℝ) (pose : Option (Pose ℝ)) (hs : d.sanity = true) (hu : none ∈ u) :
    ∃ d', increment freeFlyer d u dt = .ok d' ∧ d'.state = d.state ∧ poseAfter d pose u dt = pose := by
  have hany : u.any Option.isNone = true := List.any_eq_true.2 ⟨none, hu, rfl⟩
  have h : integrate freeFlyer d u dt = .ok d := by simp [integrate, hany, hs]
  rw [increment, h]
  refine ⟨_, rfl, rfl, ?_⟩
  simp [poseAfter, hany, hs]

theorem atan2_cos_sin {y : ℝ} (h1 : -Real.pi < y) (h2 : y ≤ Real.pi) : atan2 (Real.sin y) (Real.cos y) = y := by
  have h := Complex.arg_cos_add_sin_mul_I (θ := y) ⟨h1, h2⟩
  have e : (⟨Real.cos y, Real.sin y⟩ : ℂ) = Complex.cos y + Complex.sin y * Complex.I := by
    apply Complex.ext <;> simp [Complex.cos_ofReal_re, Complex.sin_ofReal_re, Complex.cos_ofReal_im, Complex.sin_ofReal_im]
  rw [atan2, e, h]

theorem yaw_entries (y : ℝ) : rpyToMatrix 0 0 y 1 0 = Real.sin y ∧ rpyToMatrix 0 0 y 0 0 = Real.cos y ∧ rpyToMatrix 0 0 y 2 0 = 0 ∧
    rpyToMatrix 0 0 y 2 1 = 0 ∧ rpyToMatrix 0 0 y 2 2 = 1 := by
  rw [rpyToMatrix_eq]
  refine ⟨?_, ?_, ?_, ?_, ?_⟩ <;> simp [elementary, Matrix.mul_apply, Fin.sum_univ_three]

theorem pitch_entry (r p y : ℝ) : rpyToMatrix r p y 2 0 = -Real.sin p := by
  rw [rpyToMatrix_eq]
  simp [elementary, Matrix.mul_apply, Fin.sum_univ_three]

/-- The pitch given back for a negative yaw is half a turn. -/
theorem pitch_of_negative_yaw {y : ℝ} (h1 : -Real.pi < y) (h2 : y < 0) : (matrixToRpy (rpyToMatrix 0 0 y)).2.1 = Real.pi := by
  obtain ⟨e1, e2, e3, e4, e5⟩ := yaw_entries y
  have hy : atan2 (Real.sin y) (Real.cos y) = y := atan2_cos_sin h1 (by linarith [Real.pi_pos])
  simp only [matrixToRpy, eulerAngles, e1, e2, e3, e4, e5, hy, if_pos h2]
  have : atan2 (-0) (-√(1 ^ 2 + 0 ^ 2)) = Real.pi := by
    simp only [one_pow, ne_eq, OfNat.ofNat_ne_zero, not_false_eq_true, zero_pow, add_zero, Real.sqrt_one, neg_zero, atan2]
    rw [show (⟨-1, 0⟩ : ℂ) = -1 by apply Complex.ext <;> simp, Complex.arg_neg_one]
  exact this

/-- **C140, counterexample.** A base at rest, turned by a negative yaw, with the same bounds on its six values, below half a turn, that its
state respects: with the checks on, an increment with a null control turns it. The angles come back as the other triple for the same
rotation, with a pitch of half a turn, which is then cut to the bound. -/
theorem C140_rest_counterexample (y B dt : ℝ) (hy : y < 0) (hB : -B ≤ y) (hpi : B < Real.pi) (d : Dev ℝ) (hs : d.sanity = true)
    (hm : d.mode = .oneInteg) (hst : d.state = nums [0, 0, 0, 0, 0, y]) (hv : d.velocity = nums [0, 0, 0, 0, 0, 0])
    (hlv : d.lowerVelocity = nums [0, 0, 0, 0, 0, 0]) (huv : d.upperVelocity = nums [0, 0, 0, 0, 0, 0])
    (hlp : d.lowerPosition = nums [-B, -B, -B, -B, -B, -B]) (hup : d.upperPosition = nums [B, B, B, B, B, B]) :
    Within d.lowerPosition d.upperPosition d.state ∧
    ∃ d' b', increment freeFlyer d (nums [0, 0, 0, 0, 0, 0]) dt = .ok d' ∧ d'.state = nums (List.ofFn b') ∧
      poseRpyToHomo b' ≠ poseRpyToHomo ![0, 0, 0, 0, 0, y] := by
  have hB0 : 0 < B := by linarith
  constructor
  · intro i x hx
    rw [hst] at hx
    rw [hlp, hup]
    match i, hx with
    | 0, hx | 1, hx | 2, hx | 3, hx | 4, hx =>
      simp [nums] at hx
      exact ⟨-B, B, rfl, rfl, by linarith, by linarith⟩
    | 5, hx =>
      simp [nums] at hx
      exact ⟨-B, B, rfl, rfl, by linarith, by linarith⟩
    | i + 6, hx => simp [nums] at hx
  have hstate : d.state = nums (List.ofFn ![0, 0, 0, 0, 0, y] ++ []) := by rw [hst, six]; rfl
  have hcontrol : nums [0, 0, 0, 0, 0, 0] = nums (List.ofFn ![(0 : ℝ), 0, 0, 0, 0, 0] ++ []) := by rw [six]; rfl
  have hzero : dt • twistOf ![(0 : ℝ), 0, 0, 0, 0, 0] = 0 := by
    ext i <;> fin_cases i <;> simp [twistOf]
  set b1 := homoToPoseRpy (poseRpyToHomo ![0, 0, 0, 0, 0, y]) with hb1
  have hpitch : b1 4 = Real.pi := pitch_of_negative_yaw (y := y) (by linarith) hy
  have hpos : positions freeFlyer d.state (nums [0, 0, 0, 0, 0, 0]) dt = .ok (nums (List.ofFn b1)) := by
    rw [hstate, hcontrol, positions, if_pos (by simp [nums]), if_neg (by simp [nums]), freeFlyer_six, hzero, exp6_zero, pose_mul_one]
    simp [nums, updateTail, hb1]
  have hsat : ∀ x : ℝ, saturate (some x) (some (-B)) (some B) = some (max (-B) (min x B)) := by
    intro x
    simp only [saturate, vlt, decide_eq_true_eq]
    split_ifs with c1 c2
    · rw [max_eq_left]; exact le_trans (min_le_left _ _) (le_of_lt c1)
    · rw [min_eq_right (le_of_lt c2), max_eq_right (by linarith)]
    · rw [min_eq_left (not_lt.mp c2), max_eq_right (not_lt.mp c1)]
  have hcheck : checkIf d.sanity (nums (List.ofFn b1)) d.lowerPosition d.upperPosition =
      .ok (nums (List.ofFn fun i => max (-B) (min (b1 i) B))) := by
    rw [checkIf, if_pos hs, hlp, hup, ← List.append_nil (List.ofFn b1), six, ← List.append_nil (List.ofFn fun i => _), six]
    simp [nums, checkBounds, hsat]
  have hvel : checkIf d.sanity d.velocity d.lowerVelocity d.upperVelocity = .ok d.velocity := by
    rw [checkIf, if_pos hs, hlv, huv, hv]
    simp [nums, checkBounds, saturate, vlt]
  refine ⟨_, fun i => max (-B) (min (b1 i) B), increment_eq freeFlyer d _ dt (.inr (nums_noNaN _)) (by simp [hm]) (by simp only [velocities, hm]) hvel hpos hcheck,
    rfl, ?_⟩
  intro e
  have e2 := congrArg (fun m : Pose ℝ => m.R 2 0) e
  simp only [poseRpyToHomo, pitch_entry, hpitch] at e2
  rw [min_eq_right hpi.le, max_eq_right (by linarith)] at e2
  have hsin := Real.sin_pos_of_pos_of_lt_pi hB0 hpi
  simp at e2
  linarith

/-- **C140, the pose, counterexample.** With the checks on the state is cut to its bounds after `freeFlyerPose` is written: the pose that it
gives is not that of the base of the state. -/
theorem C140_pose_counterexample (d : Dev ℝ) (pose : Option (Pose ℝ)) (hs : d.sanity = true) (hm : d.mode = .oneInteg)
    (hst : d.state = nums [0, 0, 0, 0, 0, 0]) (hv : d.velocity = nums [0, 0, 0, 0, 0, 0])
    (hlv : d.lowerVelocity = nums [0, 0, 0, 0, 0, 0]) (huv : d.upperVelocity = nums [0, 0, 0, 0, 0, 0])
    (hlp : d.lowerPosition = nums [-1, -1, -1, -1, -1, -1]) (hup : d.upperPosition = nums [1, 1, 1, 1, 1, 1]) :
    ∃ d' b' m, increment freeFlyer d (nums [2, 0, 0, 0, 0, 0]) 1 = .ok d' ∧ d'.state = nums (List.ofFn b') ∧
      poseAfter d pose (nums [2, 0, 0, 0, 0, 0]) 1 = some m ∧ m.t 0 = 2 ∧ (poseRpyToHomo b').t 0 = 1 := by
  have hstate : d.state = nums (List.ofFn (0 : Fin 6 → ℝ) ++ []) := by rw [hst, six]; rfl
  have hcontrol : nums [2, 0, 0, 0, 0, 0] = nums (List.ofFn ![(2 : ℝ), 0, 0, 0, 0, 0] ++ []) := by rw [six]; rfl
  set m := (poseRpyToHomo 0).mul (exp6 ((1 : ℝ) • twistOf ![(2 : ℝ), 0, 0, 0, 0, 0])) with hmdef
  have hm0 : m.t 0 = 2 := by
    have e0 : (twistOf ![(2 : ℝ), 0, 0, 0, 0, 0]).2 = 0 := by
      ext i; fin_cases i <;> simp [twistOf]
    obtain ⟨-, e2, -⟩ := yaw_entries 0
    have e01 : rpyToMatrix 0 0 0 0 1 = 0 ∧ rpyToMatrix 0 0 0 0 2 = 0 := by
      rw [rpyToMatrix_eq]
      constructor <;> simp [elementary, Matrix.mul_apply, Fin.sum_univ_three]
    simp only [hmdef, one_smul, exp6, e0, leftJac_zero, Matrix.one_mulVec, Pose.mul, poseRpyToHomo, Pi.add_apply, Pi.zero_apply]
    simp [Matrix.mulVec, dotProduct, Fin.sum_univ_three, twistOf, e2, e01.1, e01.2]
  set b1 := homoToPoseRpy m with hb1
  have hb10 : b1 0 = 2 := hm0
  have hpos : positions freeFlyer d.state (nums [2, 0, 0, 0, 0, 0]) 1 = .ok (nums (List.ofFn b1)) := by
    rw [hstate, hcontrol, positions, if_pos (by simp [nums]), if_neg (by simp [nums]), freeFlyer_six]
    simp [nums, updateTail, hb1, hmdef]
  have hsat : ∀ x : ℝ, saturate (some x) (some (-1)) (some 1) = some (max (-1) (min x 1)) := by
    intro x
    simp only [saturate, vlt, decide_eq_true_eq]
    split_ifs with c1 c2
    · rw [max_eq_left]; exact le_trans (min_le_left _ _) (le_of_lt c1)
    · rw [min_eq_right (le_of_lt c2), max_eq_right (by linarith)]
    · rw [min_eq_left (not_lt.mp c2), max_eq_right (not_lt.mp c1)]
  have hcheck : checkIf d.sanity (nums (List.ofFn b1)) d.lowerPosition d.upperPosition =
      .ok (nums (List.ofFn fun i => max (-1) (min (b1 i) 1))) := by
    rw [checkIf, if_pos hs, hlp, hup, ← List.append_nil (List.ofFn b1), six, ← List.append_nil (List.ofFn fun i => _), six]
    simp [nums, checkBounds, hsat]
  have hvel : checkIf d.sanity d.velocity d.lowerVelocity d.upperVelocity = .ok d.velocity := by
    rw [checkIf, if_pos hs, hlv, huv, hv]
    simp [nums, checkBounds, saturate, vlt]
  refine ⟨_, fun i => max (-1) (min (b1 i) 1), m, increment_eq freeFlyer d _ 1 (.inr (nums_noNaN _)) (by simp [hm]) (by simp only [velocities, hm]) hvel hpos hcheck,
    rfl, ?_, hm0, ?_⟩
  · rw [hcontrol]
    have hany : (nums (List.ofFn ![(2 : ℝ), 0, 0, 0, 0, 0] ++ [])).any Option.isNone = false := by simp [nums]
    have hlen : (nums (List.ofFn ![(2 : ℝ), 0, 0, 0, 0, 0] ++ [])).length = (nums (List.ofFn (0 : Fin 6 → ℝ) ++ [])).length := by simp [nums]
    simp only [poseAfter, hany, hm, velocities, hstate, hlen, stays_six, moved_six]
    simp [hmdef]
  · simp [poseRpyToHomo, hb10]

/-! ### Cases -/

/-- A device with a base at a height of one, turned by a quarter about the vertical, pitched by a quarter (where the angles are singular),
and one joint. -/
noncomputable def humanoid : Dev ℝ :=
  { (init : Dev ℝ) with sanity := false, state := nums (List.ofFn ![0, 0, 1, 0, Real.pi / 2, Real.pi / 2] ++ [3]) }

/-- **C140, case.** The hypotheses hold for a base whose angles are singular. -/
theorem C140_case : humanoid.sanity = false ∧ humanoid.mode = .oneInteg ∧
    humanoid.state = nums (List.ofFn ![0, 0, 1, 0, Real.pi / 2, Real.pi / 2] ++ [3]) ∧ [(3 : ℝ)].length = [(2 : ℝ)].length ∧
    ∃ M : ℝ → Pose ℝ, M 0 = poseRpyToHomo ![0, 0, 1, 0, Real.pi / 2, Real.pi / 2] ∧ ∀ s, BodyTwist M ![1, 0, 0] ![0, 0, 1] s :=
  ⟨rfl, rfl, rfl, rfl, fun s => (poseRpyToHomo ![0, 0, 1, 0, Real.pi / 2, Real.pi / 2]).mul (exp6 (s • (![1, 0, 0], ![0, 0, 1]))),
    by simp [exp6_zero, pose_mul_one], fun s => exp6_twist _ (![1, 0, 0], ![0, 0, 1]) s⟩

/-- A base at rest, turned by minus one radian, with bounds of plus or minus two. -/
noncomputable def resting : Dev ℝ :=
  { (init : Dev ℝ) with
    state := nums [0, 0, 0, 0, 0, -1], velocity := nums [0, 0, 0, 0, 0, 0]
    lowerVelocity := nums [0, 0, 0, 0, 0, 0], upperVelocity := nums [0, 0, 0, 0, 0, 0]
    lowerPosition := nums [-2, -2, -2, -2, -2, -2], upperPosition := nums [2, 2, 2, 2, 2, 2] }

/-- **C140, case of a base at rest that turns.** -/
theorem C140_rest_case : ∃ d' b', increment freeFlyer resting (nums [0, 0, 0, 0, 0, 0]) 1 = .ok d' ∧ d'.state = nums (List.ofFn b') ∧
    poseRpyToHomo b' ≠ poseRpyToHomo ![0, 0, 0, 0, 0, -1] :=
  (C140_rest_counterexample (-1) 2 1 (by norm_num) (by norm_num) (by linarith [Real.pi_gt_three]) resting rfl rfl rfl rfl rfl rfl rfl rfl).2

/-- **C140, case of a NaN yaw.** -/
theorem C140_nan_case : ∃ d', increment freeFlyer { (init : Dev ℝ) with sanity := false, state := [some 0, some 0, some 0, some 0, some 0, none] }
    (nums [0, 0, 0, 0, 0, 0]) 1 = .ok d' ∧ d'.state[0]? = some none := by
  have h : ∃ d', increment freeFlyer { (init : Dev ℝ) with sanity := false, state := [some 0, some 0, some 0, some 0, some 0, none] }
      (nums [0, 0, 0, 0, 0, 0]) 1 = .ok d' := by
    exact ⟨_, increment_eq freeFlyer _ _ 1 (st1 := List.ofFn (freeFlyer [some 0, some 0, some 0, some 0, some 0, none] (nums [0, 0, 0, 0, 0, 0]) 1))
      (.inl rfl) (by simp [init]) (by simp only [velocities, init]; rfl) (by simp only [checkIf]; rfl)
      (by simp [positions, nums, updateTail]) (by simp only [checkIf]; rfl)⟩
  obtain ⟨d', h⟩ := h
  exact ⟨d', h, C140_nan_counterexample _ d' _ 1 rfl rfl (nums_noNaN _) rfl h 0 (by norm_num)⟩

end Verif.Device
