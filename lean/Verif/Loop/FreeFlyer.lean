import Verif.Loop.Stack
import Verif.Device.FreeFlyer
import Verif.Point6d.PoseSe3
import Verif.Se3.Bound

/-!
# C142: the base of the robot driven by a pose task

The pose feature with the representation SE(3) (include/sot/core/feature-pose.hxx), whose joint B is the base of the robot, in a task of the
stack, whose control drives the device with the integration of the free-flyer (src/tools/device.cpp:40-65). All the six components are
selected, frame A and the desired pose do not move, and the signal `jbJjb` is the Jacobian of the base in its own frame: the identity for the
first six degrees of freedom, zero for the others.
-/

namespace Verif.Loop

open Matrix Verif.Sot Verif.Device Verif.Geometry Verif.Point6d Verif.Se3 Verif.Spatial Verif.Features Filter Topology

/-- The pose of the base in a state. -/
noncomputable def basePose (q : List ℝ) : Pose ℝ := poseRpyToHomo fun i => q.getD i.val 0

/-- The Jacobian of the base in its own frame. -/
def baseJac (N : Nat) : Matrix (Fin 3 ⊕ Fin 3) (Fin N) ℝ
  | .inl i, j => if j.val = i.val then 1 else 0
  | .inr i, j => if j.val = 3 + i.val then 1 else 0

/-- What the task reads from the pose feature (include/sot/core/feature-pose.hxx:148-203, 231-247). -/
noncomputable def poseFeat (N : Nat) (oMja jaMfa jbMfb Mdes : Pose ℝ) : Feat where
  err q := se3ComputeError (fun _ => true) oMja jaMfa (basePose q) jbMfb Mdes (List.replicate 6 0)
  jac q := (se3ComputeJacobian (fun _ => true) oMja jaMfa (basePose q) jbMfb Mdes none (baseJac N) (List.replicate 6 0)).map fun rows =>
    ⟨6, N, fun i j => if h : j < N then (rows[i]?).map fun r => r ⟨j, h⟩ else none⟩

/-- A robot of `N` degrees of freedom driven by that task. -/
noncomputable def poseLoop (svd : ∀ {m c : ℕ} (A : Matrix (Fin m) (Fin c) ℝ), Svd A) (N : Nat) (th maxSq : ℝ) (oMja jaMfa jbMfb Mdes : Pose ℝ)
    (gain : ℝ) (selec : Flags.Flags) (dt : ℝ) : Params where
  svd := svd
  n := N
  th := th
  maxSq := maxSq
  ff := freeFlyer
  tasks := [⟨[poseFeat N oMja jaMfa jbMfb Mdes], gain, selec⟩]
  dt := dt

/-! ### The feature as a function of the joints -/

/-- The same feature, as a function of the joints. -/
noncomputable def poseMap (N : Nat) (oMja jaMfa jbMfb Mdes : Pose ℝ) : Map N where
  m := 6
  f x i := at6 (se3Difference Mdes (faMfb oMja jaMfa (basePose (List.ofFn x)) jbMfb)) i.val
  J x i j := at6 (se3Jacobian oMja jaMfa (basePose (List.ofFn x)) jbMfb Mdes none (baseJac N)) i.val j

theorem picked_all : picked (fun _ => true) 6 = [0, 1, 2, 3, 4, 5] := by decide

theorem basePose_vec {N : Nat} (hN : 6 ≤ N) (q : List ℝ) : basePose (List.ofFn (vec N q)) = basePose q := by
  unfold basePose
  congr 1
  funext i
  have hi : i.val < N := lt_of_lt_of_le i.isLt hN
  simp only [List.getD, List.getElem?_ofFn, dif_pos hi, Option.getD_some, vec]

theorem poseFeat_eq {N : Nat} (hN : 6 ≤ N) (oMja jaMfa jbMfb Mdes : Pose ℝ) :
    poseFeat N oMja jaMfa jbMfb Mdes = (poseMap N oMja jaMfa jbMfb Mdes).feat := by
  have he : ∀ q, (poseFeat N oMja jaMfa jbMfb Mdes).err q = (poseMap N oMja jaMfa jbMfb Mdes).feat.err q := by
    intro q
    have h := (C141_selected (ι := Fin N) (fun _ => true) oMja jaMfa (basePose q) jbMfb Mdes none 0 0 (List.replicate 6 (0 : ℝ))
      (List.replicate 6 0) (by simp; rfl) (by simp; rfl)).1
    simp only [poseFeat, Map.feat]
    rw [h, picked_all]
    show _ = Outcome.ok (List.ofFn fun i : Fin 6 => at6 _ i.val)
    rw [basePose_vec hN]
    simp [List.ofFn_succ]
  have hj : ∀ q, (poseFeat N oMja jaMfa jbMfb Mdes).jac q = (poseMap N oMja jaMfa jbMfb Mdes).feat.jac q := by
    intro q
    have h := (C141_selected (fun _ => true) oMja jaMfa (basePose q) jbMfb Mdes none (baseJac N) 0 (List.replicate 6 (0 : ℝ))
      (List.replicate 6 (0 : Fin N → ℝ)) (by simp; rfl) (by simp; rfl)).2.1
    simp only [poseFeat, Map.feat]
    rw [h, picked_all, Outcome.map_ok]
    show _ = Outcome.ok _
    congr 2
    funext i j
    show _ = if h : i < 6 ∧ j < N then some (at6 (se3Jacobian oMja jaMfa (basePose (List.ofFn (vec N q))) jbMfb Mdes none (baseJac N)) i ⟨j, h.2⟩)
      else none
    rw [basePose_vec hN]
    by_cases hj : j < N
    · match i with
      | 0 | 1 | 2 | 3 | 4 | 5 => simp [hj]
      | i + 6 => simp [hj]
    · simp [hj]
  unfold poseFeat at *
  unfold Map.feat at *
  rw [Feat.mk.injEq]
  exact ⟨funext he, funext hj⟩

/-- The task, as a function of the joints. -/
noncomputable def poseTask (N : Nat) (oMja jaMfa jbMfb Mdes : Pose ℝ) (gain : ℝ) (selec : Flags.Flags) : MTask N :=
  ⟨poseMap N oMja jaMfa jbMfb Mdes, gain, selec⟩

theorem poseLoop_eq (svd : ∀ {m c : ℕ} (A : Matrix (Fin m) (Fin c) ℝ), Svd A) {N : Nat} (hN : 6 ≤ N) (th maxSq : ℝ)
    (oMja jaMfa jbMfb Mdes : Pose ℝ) (gain : ℝ) (selec : Flags.Flags) (dt : ℝ) :
    poseLoop svd N th maxSq oMja jaMfa jbMfb Mdes gain selec dt =
      stackLoop svd N th maxSq freeFlyer [poseTask N oMja jaMfa jbMfb Mdes gain selec] dt := by
  unfold poseLoop stackLoop
  rw [poseFeat_eq hN]
  rfl

/-! ### Six-dimensional vectors -/

/-- The six first entries. -/
def headSix {N : Nat} (w : Fin N → ℝ) : Fin 3 ⊕ Fin 3 → ℝ
  | .inl i => if h : i.val < N then w ⟨i.val, h⟩ else 0
  | .inr i => if h : 3 + i.val < N then w ⟨3 + i.val, h⟩ else 0

theorem sum_single {N : Nat} (w : Fin N → ℝ) (k : Nat) : (∑ j : Fin N, (if j.val = k then (1 : ℝ) else 0) * w j) = if h : k < N then w ⟨k, h⟩ else 0 := by
  split_ifs with h
  · rw [Finset.sum_eq_single ⟨k, h⟩]
    · simp
    · intro j _ hj
      rw [if_neg (fun e => hj (Fin.ext e)), zero_mul]
    · simp
  · apply Finset.sum_eq_zero
    intro j _
    rw [if_neg (by omega), zero_mul]

theorem baseJac_mulVec {N : Nat} (w : Fin N → ℝ) : baseJac N *ᵥ w = headSix w := by
  funext r
  rcases r with i | i
  · exact sum_single w i.val
  · exact sum_single w (3 + i.val)

theorem at6_inj {v w : Fin 3 ⊕ Fin 3 → ℝ} (h : ∀ i : Fin 6, at6 v i.val = at6 w i.val) : v = w := by
  funext r
  rcases r with i | i <;> fin_cases i
  · exact h 0
  · exact h 1
  · exact h 2
  · exact h 3
  · exact h 4
  · exact h 5

theorem at6_sq (v : Fin 3 ⊕ Fin 3 → ℝ) : (fun i : Fin 6 => at6 v i.val) ⬝ᵥ (fun i : Fin 6 => at6 v i.val) = v ⬝ᵥ v := by
  simp [dotProduct, Fin.sum_univ_succ, at6]
  ring

theorem exists_at6 (y : Fin 6 → ℝ) : ∃ v : Fin 3 ⊕ Fin 3 → ℝ, ∀ i : Fin 6, at6 v i.val = y i :=
  ⟨Sum.elim ![y 0, y 1, y 2] ![y 3, y 4, y 5], fun i => by fin_cases i <;> rfl⟩

theorem at6_mulVec {N : Nat} (A : Matrix (Fin 3 ⊕ Fin 3) (Fin N) ℝ) (w : Fin N → ℝ) (i : Nat) : at6 A i ⬝ᵥ w = at6 (A *ᵥ w) i := by
  unfold at6
  split_ifs <;> rfl

theorem at6_smul (c : ℝ) (v : Fin 3 ⊕ Fin 3 → ℝ) (i : Nat) : at6 (c • v) i = c * at6 v i := by
  unfold at6
  split_ifs <;> rfl

/-- The velocity whose base part is `v` and that does not move the joints. -/
def spread (N : Nat) (v : Fin 3 ⊕ Fin 3 → ℝ) : Fin N → ℝ := fun j => if j.val < 6 then at6 v j.val else 0

theorem headSix_spread {N : Nat} (hN : 6 ≤ N) (v : Fin 3 ⊕ Fin 3 → ℝ) : headSix (spread N v) = v := by
  funext r
  rcases r with i | i <;> fin_cases i <;> simp [headSix, spread, at6] <;> omega

theorem sum_six {N : Nat} (hN : 6 ≤ N) (f : Fin N → ℝ) :
    ∑ j : Fin N, f j = (∑ i : Fin 6, f ⟨i.val, lt_of_lt_of_le i.isLt hN⟩) + ∑ j : Fin N, if j.val < 6 then 0 else f j := by
  obtain ⟨n, rfl⟩ := Nat.exists_eq_add_of_le hN
  rw [Fin.sum_univ_add, Fin.sum_univ_add (fun j : Fin (6 + n) => if j.val < 6 then 0 else f j)]
  have h1 : ∑ i : Fin 6, (if (Fin.castAdd n i).val < 6 then 0 else f (Fin.castAdd n i)) = 0 := by
    apply Finset.sum_eq_zero; intro i _; rw [if_pos]; exact i.isLt
  rw [h1, zero_add]
  congr 1
  refine Finset.sum_congr rfl fun i _ => ?_
  rw [if_neg]; simp

theorem headSix_at6 {N : Nat} (hN : 6 ≤ N) (w : Fin N → ℝ) (i : Fin 6) : at6 (headSix w) i.val = w ⟨i.val, lt_of_lt_of_le i.isLt hN⟩ := by
  have : ∀ k : Nat, k < 6 → k < N := fun k hk => lt_of_lt_of_le hk hN
  fin_cases i <;> simp [at6, headSix, this]

theorem headSix_le {N : Nat} (hN : 6 ≤ N) (w : Fin N → ℝ) : headSix w ⬝ᵥ headSix w ≤ w ⬝ᵥ w := by
  rw [← at6_sq]
  simp only [headSix_at6 hN]
  rw [dotProduct, dotProduct, sum_six hN]
  have : 0 ≤ ∑ j : Fin N, if j.val < 6 then 0 else w j * w j :=
    Finset.sum_nonneg fun j _ => by split_ifs; exact le_rfl; exact mul_self_nonneg _
  linarith

theorem spread_sq {N : Nat} (hN : 6 ≤ N) (v : Fin 3 ⊕ Fin 3 → ℝ) : spread N v ⬝ᵥ spread N v = v ⬝ᵥ v := by
  rw [← at6_sq v, dotProduct, dotProduct, sum_six hN]
  have h1 : ∑ j : Fin N, (if j.val < 6 then 0 else spread N v j * spread N v j) = 0 := by
    apply Finset.sum_eq_zero
    intro j _
    split_ifs with h
    · rfl
    · simp [spread, h]
  rw [h1, add_zero]
  exact Finset.sum_congr rfl fun i _ => by simp [spread]

/-! ### Rigid motions -/

/-- The six-dimensional vector of a velocity. -/
def six (x : Twist) : Fin 3 ⊕ Fin 3 → ℝ := Sum.elim x.1 x.2

/-- The velocity of a six-dimensional vector. -/
def pair (v : Fin 3 ⊕ Fin 3 → ℝ) : Twist := (transPart v, rotPart v)

theorem six_pair (v : Fin 3 ⊕ Fin 3 → ℝ) : six (pair v) = v := (split6 v).symm

theorem pair_smul (c : ℝ) (v : Fin 3 ⊕ Fin 3 → ℝ) : pair (c • v) = c • pair v := rfl

theorem inv_inv_pose {B : Pose ℝ} (hB : IsRot B.R) : B.inv.inv = B := by
  have h : (B.R⁻¹)⁻¹ = B.R := by rw [hB.inv.inv_eq, hB.inv_eq, transpose_transpose]
  apply Pose.ext
  · exact h
  · show -((B.R⁻¹)⁻¹ *ᵥ -(B.R⁻¹ *ᵥ B.t)) = B.t
    rw [h, mulVec_neg, neg_neg, mulVec_mulVec, hB.inv_eq, hB.mul_transpose, one_mulVec]

theorem inv_mul_self {B : Pose ℝ} (hB : IsRot B.R) : B.inv.mul B = Pose.one := (Pose.inv_mul_eq_one hB).mpr rfl

theorem mul_inv_self {B : Pose ℝ} (hB : IsRot B.R) : B.mul B.inv = Pose.one := by
  have := inv_mul_self (B := B.inv) hB.inv
  rwa [inv_inv_pose hB] at this

/-- A motion in the frame of the base, seen from a frame that is attached to it. -/
theorem exp6_frame {B : Pose ℝ} (hB : IsRot B.R) (v : Fin 3 ⊕ Fin 3 → ℝ) : (exp6 (pair (twist B *ᵥ v))).mul B = B.mul (exp6 (pair v)) := by
  have hm : ∀ s : ℝ, BodyTwist (fun s => (B.mul (exp6 (s • pair v))).mul B.inv) (pair (twist B *ᵥ v)).1 (pair (twist B *ᵥ v)).2 s := by
    intro s
    have h1 : BodyTwist (fun s => B.mul (exp6 (s • pair v))) (transPart v) (rotPart v) s := exp6_twist B (pair v) s
    have h2 := bt_mul (B := fun _ => B.inv) hB.inv h1 (bt_const B.inv s)
    simp only [inv_inv_pose hB, add_zero] at h2
    exact h2
  have h := motion_unique _ _ hm 1
  simp only [one_smul, zero_smul, exp6_zero, pose_mul_one, mul_inv_self hB, pose_one_mul] at h
  rw [← h, pose_mul_assoc, inv_mul_self hB, pose_mul_one]

section
variable {oMja jaMfa jbMfb Mdes : Pose ℝ} (ha : IsRot oMja.R) (hfa : IsRot jaMfa.R) (hfb : IsRot jbMfb.R) (hd : IsRot Mdes.R)

include hfb in
/-- The pose of the feature after a motion of the base. -/
theorem faMfb_moved (M : Pose ℝ) (v : Fin 3 ⊕ Fin 3 → ℝ) :
    faMfb oMja jaMfa (M.mul (exp6 (pair (twist jbMfb *ᵥ v)))) jbMfb = (faMfb oMja jaMfa M jbMfb).mul (exp6 (pair v)) := by
  simp only [faMfb, pose_mul_assoc, exp6_frame hfb]

include ha hfa hfb hd in
/-- The error after a motion of the base along the error. -/
theorem error_moved {M : Pose ℝ} (hM : IsRot M.R) (c : ℝ)
    (hc : |1 + c| * len (rotPart (se3Difference Mdes (faMfb oMja jaMfa M jbMfb))) < Real.pi) :
    se3Difference Mdes (faMfb oMja jaMfa
        (M.mul (exp6 (pair (twist jbMfb *ᵥ (c • se3Difference Mdes (faMfb oMja jaMfa M jbMfb)))))) jbMfb)
      = (1 + c) • se3Difference Mdes (faMfb oMja jaMfa M jbMfb) := by
  rw [faMfb_moved hfb, pair_smul]
  have hr : IsRot (Mdes.inv.mul (faMfb oMja jaMfa M jbMfb)).R := hd.inv.mul (faMfb_isRot ha hfa hM hfb)
  set e := se3Difference Mdes (faMfb oMja jaMfa M jbMfb) with he
  have hpe : pair e = log6 (Mdes.inv.mul (faMfb oMja jaMfa M jbMfb)) := rfl
  have h1 : Mdes.inv.mul ((faMfb oMja jaMfa M jbMfb).mul (exp6 (c • pair e))) = exp6 ((1 + c) • pair e) := by
    rw [← pose_mul_assoc, ← exp6_add, one_smul]
    congr 1
    rw [hpe, exp6_log6 hr]
  rw [se3Difference, h1, log6_exp6 (by rw [Prod.smul_snd, len_smul]; exact hc)]
  funext r
  cases r <;> rfl

end

/-! ### The control -/

section
variable (svd : ∀ {m c : ℕ} (A : Matrix (Fin m) (Fin c) ℝ), Svd A) {N : Nat} {th maxSq : ℝ} {oMja jaMfa jbMfb Mdes : Pose ℝ} {gain : ℝ}
  {selec : Flags.Flags} {dt : ℝ}

/-- What one step asks of the error `e`: away from the half turn, within the threshold of the pseudo-inverses and within the limit of the
control. -/
structure Small (th maxSq gain : ℝ) (jbMfb : Pose ℝ) (e : Fin 3 ⊕ Fin 3 → ℝ) : Prop where
  angle : len (rotPart e) < Real.pi
  threshold : th ^ 2 * ((2 + len jbMfb.t ^ 2) * (2 + (3 * len (transPart e)) ^ 2)) < 1
  limit : gain ^ 2 * (twist jbMfb *ᵥ e ⬝ᵥ twist jbMfb *ᵥ e) ≤ maxSq

theorem Small.scale {e : Fin 3 ⊕ Fin 3 → ℝ} (h : Small th maxSq gain jbMfb e) {c : ℝ} (hc : |c| ≤ 1) : Small th maxSq gain jbMfb (c • e) := by
  have hc2 : c ^ 2 ≤ 1 := by rw [← sq_abs]; exact pow_le_one₀ (abs_nonneg c) hc
  refine ⟨?_, ?_, ?_⟩
  · rw [show rotPart (c • e) = c • rotPart e from rfl, len_smul]
    have := mul_le_mul_of_nonneg_right hc (len_nonneg (rotPart e))
    linarith [h.angle]
  · rw [show transPart (c • e) = c • transPart e from rfl, len_smul]
    refine lt_of_le_of_lt ?_ h.threshold
    have h1 : |c| * len (transPart e) ≤ len (transPart e) := by
      have := mul_le_mul_of_nonneg_right hc (len_nonneg (transPart e))
      linarith
    have h2 : 0 ≤ |c| * len (transPart e) := mul_nonneg (abs_nonneg c) (len_nonneg _)
    gcongr
  · rw [mulVec_smul, smul_dotProduct, dotProduct_smul, smul_eq_mul, smul_eq_mul]
    refine le_trans ?_ h.limit
    have h1 := dotProduct_self_star_nonneg (twist jbMfb *ᵥ e)
    have h2 : 0 ≤ gain ^ 2 * (twist jbMfb *ᵥ e ⬝ᵥ twist jbMfb *ᵥ e) := by
      refine mul_nonneg (sq_nonneg _) ?_
      rw [sum_sq]; positivity
    nlinarith

open scoped Classical in
theorem jac_pose (hsel : ∀ j : Nat, j < 6 → Flags.call selec (j : Int) = .ok true) (x : Fin N → ℝ) :
    (poseTask N oMja jaMfa jbMfb Mdes gain selec).jac x = (poseMap N oMja jaMfa jbMfb Mdes).J x := by
  ext i j
  show (if Flags.call selec ((j.val : ℕ) : Int) = .ok true then (poseMap N oMja jaMfa jbMfb Mdes).J x i j else 0) = _
  split_ifs with h
  · rfl
  · have hj : ¬ j.val < 6 := fun hj => h (hsel j.val hj)
    have hz : ∀ r, baseJac N r j = 0 := by
      intro r
      rcases r with k | k
      · exact if_neg (by omega)
      · exact if_neg (by omega)
    have hall : ∀ r, se3Jacobian oMja jaMfa (basePose (List.ofFn x)) jbMfb Mdes none (baseJac N) r j = 0 := by
      intro r
      simp only [se3Jacobian]
      rw [Matrix.mul_apply]
      exact Finset.sum_eq_zero fun k _ => by rw [hz, mul_zero]
    show (0 : ℝ) = at6 (se3Jacobian oMja jaMfa (basePose (List.ofFn x)) jbMfb Mdes none (baseJac N)) i.val j
    unfold at6
    split_ifs <;> exact (hall _).symm

theorem pose_mulVec (x w : Fin N → ℝ) (i : Fin 6) :
    ((poseMap N oMja jaMfa jbMfb Mdes).J x *ᵥ w) i =
      at6 (jlog6 (Mdes.inv.mul (faMfb oMja jaMfa (basePose (List.ofFn x)) jbMfb)) *ᵥ (twist jbMfb.inv *ᵥ headSix w)) i.val := by
  have h : se3Jacobian oMja jaMfa (basePose (List.ofFn x)) jbMfb Mdes none (baseJac N) *ᵥ w =
      jlog6 (Mdes.inv.mul (faMfb oMja jaMfa (basePose (List.ofFn x)) jbMfb)) *ᵥ (twist jbMfb.inv *ᵥ headSix w) := by
    simp only [se3Jacobian, se3DDifference1]
    rw [← baseJac_mulVec, mulVec_mulVec, mulVec_mulVec]
  rw [← h, ← at6_mulVec]
  rfl

/-- The matrix of the task, for the velocity `w` of the joints. -/
theorem task_mulVec (hN : 6 ≤ N) (hsel : ∀ j : Nat, j < 6 → Flags.call selec (j : Int) = .ok true) (q : List ℝ) (w : Fin N → ℝ) (i : Fin 6) :
    ((poseTask N oMja jaMfa jbMfb Mdes gain selec).jac (vec N q) *ᵥ w) i =
      at6 (jlog6 (Mdes.inv.mul (faMfb oMja jaMfa (basePose q) jbMfb)) *ᵥ (twist jbMfb.inv *ᵥ headSix w)) i.val := by
  have h0 : (poseTask N oMja jaMfa jbMfb Mdes gain selec).jac (vec N q) = (poseMap N oMja jaMfa jbMfb Mdes).J (vec N q) := jac_pose hsel _
  have h := pose_mulVec (oMja := oMja) (jaMfa := jaMfa) (jbMfb := jbMfb) (Mdes := Mdes) (vec N q) w i
  rw [basePose_vec hN] at h
  exact (congrFun (congrArg (· *ᵥ w) h0) i).trans h

/-- The velocities that meet the task: those whose base part is the opposite of the error, seen from the frame of the base. -/
theorem task_met (hN : 6 ≤ N) (ha : IsRot oMja.R) (hfa : IsRot jaMfa.R) (hfb : IsRot jbMfb.R) (hd : IsRot Mdes.R)
    (hsel : ∀ j : Nat, j < 6 → Flags.call selec (j : Int) = .ok true) {q : List ℝ}
    (hang : len (rotPart (se3Difference Mdes (faMfb oMja jaMfa (basePose q) jbMfb))) < Real.pi) (w : Fin N → ℝ) :
    (poseTask N oMja jaMfa jbMfb Mdes gain selec).Met (vec N q) w ↔
      headSix w = twist jbMfb *ᵥ (-gain • se3Difference Mdes (faMfb oMja jaMfa (basePose q) jbMfb)) := by
  set t := poseTask N oMja jaMfa jbMfb Mdes gain selec with ht
  set P := Mdes.inv.mul (faMfb oMja jaMfa (basePose q) jbMfb) with hP
  set e := se3Difference Mdes (faMfb oMja jaMfa (basePose q) jbMfb) with he
  have hr : IsRot P.R := hd.inv.mul (faMfb_isRot ha hfa (C71_pose_rpy _).2.1 hfb)
  have hrad : jlog6 P *ᵥ e = e := by
    have := jlog6_radial (x := pair e) hang
    rw [show exp6 (pair e) = P by rw [show pair e = log6 P from rfl, exp6_log6 hr]] at this
    have h2 : Sum.elim (pair e).1 (pair e).2 = e := six_pair e
    rwa [h2] at this
  obtain ⟨-, -, -, i2, i3, -⟩ := C55_twist_inv jbMfb hfb
  have hJ : ∀ i : Fin 6, (t.jac (vec N q) *ᵥ w) i = at6 (jlog6 P *ᵥ (twist jbMfb.inv *ᵥ headSix w)) i.val := task_mulVec hN hsel q w
  have hf : ∀ i : Fin 6, -t.gain * t.map.f (vec N q) i = at6 (-gain • e) i.val := by
    intro i
    rw [at6_smul]
    show -gain * at6 (se3Difference Mdes (faMfb oMja jaMfa (basePose (List.ofFn (vec N q))) jbMfb)) i.val = _
    rw [basePose_vec hN]
  constructor
  · intro h
    have h1 : jlog6 P *ᵥ (twist jbMfb.inv *ᵥ headSix w) = -gain • e := at6_inj fun i => by rw [← hJ, ← hf]; exact h i
    have h2 : jlog6 P *ᵥ (twist jbMfb.inv *ᵥ headSix w) = jlog6 P *ᵥ (-gain • e) := by rw [h1, mulVec_smul, hrad]
    have h3 : twist jbMfb.inv *ᵥ headSix w = -gain • e := by
      have := congrArg ((jlog6 P)⁻¹ *ᵥ ·) h2
      simpa only [mulVec_mulVec, ← Matrix.mul_assoc, nonsing_inv_mul _ (jlog6_det hr), Matrix.one_mul, one_mulVec] using this
    rw [← h3, mulVec_mulVec, i3, one_mulVec]
  · intro h i
    refine (hJ i).trans (Eq.trans ?_ (hf i).symm)
    rw [h, mulVec_mulVec _ (twist jbMfb.inv), i2, one_mulVec, mulVec_smul, hrad]

/-- The base can move the task in any direction, with velocities that are not too long. -/
theorem task_margin (hN : 6 ≤ N) (ha : IsRot oMja.R) (hfa : IsRot jaMfa.R) (hfb : IsRot jbMfb.R) (hd : IsRot Mdes.R)
    (hsel : ∀ j : Nat, j < 6 → Flags.call selec (j : Int) = .ok true) {q : List ℝ}
    (hs : Small th maxSq gain jbMfb (se3Difference Mdes (faMfb oMja jaMfa (basePose q) jbMfb))) :
    ∃ a, th < a ∧ ∀ y : Fin 6 → ℝ, ∃ v : Fin 3 ⊕ Fin 3 → ℝ,
      (poseTask N oMja jaMfa jbMfb Mdes gain selec).jac (vec N q) *ᵥ spread N v = y ∧ a ^ 2 * (v ⬝ᵥ v) ≤ y ⬝ᵥ y := by
  set t := poseTask N oMja jaMfa jbMfb Mdes gain selec with ht
  set P := Mdes.inv.mul (faMfb oMja jaMfa (basePose q) jbMfb) with hP
  set e := se3Difference Mdes (faMfb oMja jaMfa (basePose q) jbMfb) with he
  have hr : IsRot P.R := hd.inv.mul (faMfb_isRot ha hfa (C71_pose_rpy _).2.1 hfb)
  have hexp : exp6 (pair e) = P := by rw [show pair e = log6 P from rfl, exp6_log6 hr]
  obtain ⟨-, -, -, i2, i3, -⟩ := C55_twist_inv jbMfb hfb
  have hang : angle P.R < Real.pi := by
    have := hs.angle
    rwa [show rotPart e = rotVec P.R from rfl, len_rotVec hr] at this
  have hPt : len P.t ≤ len (transPart e) := by
    rw [← hexp]
    exact leftJac_len _ _
  set K := (2 + len jbMfb.t ^ 2) * (2 + (3 * len (transPart e)) ^ 2) with hK
  have hKp : 0 < K := by positivity
  refine ⟨1 / √K, ?_, fun y => ?_⟩
  · rw [lt_div_iff₀ (Real.sqrt_pos.mpr hKp)]
    apply lt_of_pow_lt_pow_left₀ 2 zero_le_one
    rw [mul_pow, Real.sq_sqrt hKp.le, one_pow]
    exact hs.threshold
  · obtain ⟨v, hv⟩ := exists_at6 y
    obtain ⟨d, d1, d2⟩ := jlog6_solve hr hang v
    refine ⟨twist jbMfb *ᵥ d, ?_, ?_⟩
    · funext i
      refine (task_mulVec hN hsel q _ i).trans ?_
      rw [headSix_spread hN, mulVec_mulVec _ (twist jbMfb.inv), i2, one_mulVec, d1]
      exact hv i
    · have hy : y ⬝ᵥ y = v ⬝ᵥ v := by
        rw [← at6_sq v, show (fun i : Fin 6 => at6 v i.val) = y from funext hv]
      rw [hy, div_pow, one_pow, Real.sq_sqrt hKp.le, div_mul_eq_mul_div, one_mul, div_le_iff₀ hKp]
      have t1 := twist_len hfb d
      have t2 : 0 ≤ v ⬝ᵥ v := by rw [sum_sq]; positivity
      have t3 : (2 + (3 * len P.t) ^ 2) * (v ⬝ᵥ v) ≤ (2 + (3 * len (transPart e)) ^ 2) * (v ⬝ᵥ v) := by
        have := len_nonneg P.t
        gcongr
      calc twist jbMfb *ᵥ d ⬝ᵥ twist jbMfb *ᵥ d ≤ (2 + len jbMfb.t ^ 2) * (d ⬝ᵥ d) := t1
        _ ≤ (2 + len jbMfb.t ^ 2) * ((2 + (3 * len (transPart e)) ^ 2) * (v ⬝ᵥ v)) := by
          have := d2.trans t3
          gcongr
        _ = v ⬝ᵥ v * K := by rw [hK]; ring

/-- The control at an error: the base follows the opposite of the error, seen from its own frame, and the joints do not move. -/
theorem control_pose (hN : 6 ≤ N) (ha : IsRot oMja.R) (hfa : IsRot jaMfa.R) (hfb : IsRot jbMfb.R) (hd : IsRot Mdes.R)
    (hsel : ∀ j : Nat, j < 6 → Flags.call selec (j : Int) = .ok true) (hth : 0 ≤ th) {s : St} {q : List ℝ}
    (hq : s.dev.stateSOUT = nums q)
    (hb : List.Forall₂ (fun t b => Good N t.map.m b) [poseTask N oMja jaMfa jbMfb Mdes gain selec] s.bufs)
    (hs : Small th maxSq gain jbMfb (se3Difference Mdes (faMfb oMja jaMfa (basePose q) jbMfb))) :
    ∃ bufs : List Buf, control (stackLoop svd N th maxSq freeFlyer [poseTask N oMja jaMfa jbMfb Mdes gain selec] dt) s =
        .ok (spread N (twist jbMfb *ᵥ (-gain • se3Difference Mdes (faMfb oMja jaMfa (basePose q) jbMfb))), [], bufs) ∧
      List.Forall₂ (fun t b => Good N t.map.m b) [poseTask N oMja jaMfa jbMfb Mdes gain selec] bufs := by
  set t := poseTask N oMja jaMfa jbMfb Mdes gain selec with ht
  set e := se3Difference Mdes (faMfb oMja jaMfa (basePose q) jbMfb) with he
  have hmet := fun w => task_met (gain := gain) hN ha hfa hfb hd hsel hs.angle w
  have hmargin : Margin th [t] (vec N q) := by
    obtain ⟨a, a1, a2⟩ := task_margin hN ha hfa hfb hd hsel hs
    refine .inr ⟨a, a1, ?_⟩
    intro pre t' post hsplit y
    have hpre : pre = [] ∧ t' = t := by
      cases pre with
      | nil => simp at hsplit; exact ⟨rfl, hsplit.1.symm⟩
      | cons a l => simp at hsplit
    obtain ⟨rfl, rfl⟩ := hpre
    obtain ⟨v, v1, v2⟩ := a2 y
    exact ⟨spread N v, by simp, v1, by rw [spread_sq hN]; exact v2⟩
  have hw : (t.Met (vec N q) (spread N (twist jbMfb *ᵥ (-gain • e)))) := (hmet _).mpr (headSix_spread hN _)
  obtain ⟨u, bufs, c1, c2, c3, c4⟩ := control_stack svd (maxSq := maxSq) (by omega) hth freeFlyer (by simp) dt hq hb hmargin (spread N (twist jbMfb *ᵥ (-gain • e)))
    (by
      rw [spread_sq hN, mulVec_smul, smul_dotProduct, dotProduct_smul, smul_eq_mul, smul_eq_mul]
      have := hs.limit
      nlinarith)
    (by intro t' ht'; rw [List.mem_singleton.mp ht']; exact hw)
  have hu : u = spread N (twist jbMfb *ᵥ (-gain • e)) := by
    by_contra hne
    have h1 := c4 _ (by intro t' ht'; rw [List.mem_singleton.mp ht']; exact hw) (Ne.symm hne)
    have h2 := (hmet u).mp (c3 t (by simp))
    have h3 := headSix_le hN u
    rw [h2, ← spread_sq hN] at h3
    linarith
  exact ⟨bufs, hu ▸ c1, c2⟩

/-! ### One step -/

theorem basePose_app (b : Fin 6 → ℝ) (joints : List ℝ) : basePose (List.ofFn b ++ joints) = poseRpyToHomo b := by
  unfold basePose
  congr 1
  funext i
  rw [List.getD, List.getElem?_append_left (by simp), List.getElem?_ofFn, dif_pos i.isLt]
  rfl

theorem spread_list (n : Nat) (v : Fin 3 ⊕ Fin 3 → ℝ) :
    List.ofFn (spread (6 + n) v) = (List.ofFn fun i : Fin 6 => at6 v i.val) ++ List.replicate n 0 := by
  apply List.ext_getElem
  · simp [-List.ofFn_succ]
  · intro i h1 h2
    rw [List.getElem_ofFn, List.getElem_append]
    by_cases h : i < 6
    · simp [-List.ofFn_succ, spread, h]
    · simp [-List.ofFn_succ, spread, h]

theorem twistOf_at6 (v : Fin 3 ⊕ Fin 3 → ℝ) : (twistOf fun i : Fin 6 => at6 v i.val) = pair v := by
  refine Prod.ext ?_ ?_ <;> funext i <;> fin_cases i <;> rfl

theorem zipWith_zero (q : List ℝ) (dt : ℝ) : List.zipWith (fun x v => x + dt * v) q (List.replicate q.length 0) = q := by
  induction q with
  | nil => rfl
  | cons x q ih => simp only [List.length_cons, List.replicate_succ, List.zipWith_cons_cons, mul_zero, add_zero, ih]

/-- The integration of the free-flyer gives numbers. -/
theorem freeFlyer_numbers (dt : ℝ) : BaseNumbers freeFlyer dt := by
  intro q u h6 hl i
  have hq : q = (List.ofFn fun i : Fin 6 => q.getD i.val 0) ++ q.drop 6 := by
    conv_lhs => rw [← List.take_append_drop 6 q]
    congr 1
    apply List.ext_getElem
    · simp [h6]
    · intro k h1 h2
      have : k < q.length := by simp at h1; omega
      simp [-List.ofFn_succ, List.getD, List.getElem?_eq_getElem this]
  have hu : u = (List.ofFn fun i : Fin 6 => u.getD i.val 0) ++ u.drop 6 := by
    conv_lhs => rw [← List.take_append_drop 6 u]
    congr 1
    apply List.ext_getElem
    · simp [hl, h6]
    · intro k h1 h2
      have : k < u.length := by simp at h1; omega
      simp [-List.ofFn_succ, List.getD, List.getElem?_eq_getElem this]
  rw [hq, hu, freeFlyer, if_pos (stays_six _ _ _ _ i)]
  simp

variable {joints : List ℝ} (ha : IsRot oMja.R) (hfa : IsRot jaMfa.R) (hfb : IsRot jbMfb.R) (hd : IsRot Mdes.R)
    (hsel : ∀ j : Nat, j < 6 → Flags.call selec (j : Int) = .ok true) (hth : 0 ≤ th)

include ha hfa hfb hd hsel hth

/-- One step of the loop: the base moves along the opposite of the error. -/
theorem step_pose {d0 : Dev ℝ} (hm : d0.mode = .oneInteg) (hs0 : d0.sanity = false) {s : St} {b : Fin 6 → ℝ}
    (hi : SInv [poseTask (6 + joints.length) oMja jaMfa jbMfb Mdes gain selec] d0 s (List.ofFn b ++ joints))
    (hs : Small th maxSq gain jbMfb (se3Difference Mdes (faMfb oMja jaMfa (poseRpyToHomo b) jbMfb))) :
    ∃ s' b', step (poseLoop svd (6 + joints.length) th maxSq oMja jaMfa jbMfb Mdes gain selec dt) s = .ok s' ∧
      SInv [poseTask (6 + joints.length) oMja jaMfa jbMfb Mdes gain selec] d0 s' (List.ofFn b' ++ joints) ∧
      s'.reports = s.reports ++ [[]] ∧
      poseRpyToHomo b' = (poseRpyToHomo b).mul
        (exp6 (pair (twist jbMfb *ᵥ ((-(gain * dt)) • se3Difference Mdes (faMfb oMja jaMfa (poseRpyToHomo b) jbMfb))))) := by
  set N := 6 + joints.length with hNdef
  have hN : 6 ≤ N := by omega
  rw [poseLoop_eq svd hN]
  set e := se3Difference Mdes (faMfb oMja jaMfa (poseRpyToHomo b) jbMfb) with he
  have hbp : basePose (List.ofFn b ++ joints) = poseRpyToHomo b := basePose_app b joints
  obtain ⟨bufs, c1, c2⟩ := control_pose svd (dt := dt) (maxSq := maxSq) hN ha hfa hfb hd hsel hth hi.shown hi.bufs (by rw [hbp]; exact hs)
  rw [hbp, ← he] at c1
  set v := twist jbMfb *ᵥ (-gain • e) with hv
  have hsz : (List.ofFn b ++ joints).length = N := hi.size
  obtain ⟨d', q', e1, e2, e3, e4, e5, -, -, -⟩ := device_step freeFlyer s.dev (List.ofFn b ++ joints) (List.ofFn (spread N v)) dt
    (by rw [hi.settings.2.1, hm]) hi.state (by rw [hsz]; simp) (fun _ => by omega)
    (fun hl i => by rw [hi.state]; exact freeFlyer_numbers dt _ _ (by omega) hl i) (.inl (by rw [hi.settings.1, hs0]))
  obtain ⟨d'', g1, g2, -⟩ := velocity_step s.dev b (fun i => at6 v i.val) joints (List.replicate joints.length 0) dt (by rw [hi.settings.1, hs0])
    (by rw [hi.settings.2.1, hm]) hi.state (by simp)
  rw [← spread_list, e1, Outcome.ok.injEq] at g1
  subst g1
  rw [zipWith_zero, twistOf_at6] at g2
  have hq' : q' = List.ofFn (homoToPoseRpy ((poseRpyToHomo b).mul (exp6 (dt • pair v)))) ++ joints := nums_inj (by rw [← e2, g2])
  refine ⟨⟨d', bufs, s.reports ++ [[]]⟩, homoToPoseRpy ((poseRpyToHomo b).mul (exp6 (dt • pair v))), ?_,
    ⟨hi.settings.trans e5, by rw [← hq']; exact e2, by rw [← hq']; exact e3, by rw [← hq', e4, hsz], c2⟩, rfl, ?_⟩
  · unfold step
    rw [c1, Outcome.bind_ok]
    show (Device.increment freeFlyer s.dev (List.ofFn fun i => some (spread N v i)) dt).map _ = _
    rw [ofFn_nums, e1]; rfl
  · rw [C81_pose_rpy _ (moved_isRot _ _), ← pair_smul, hv, ← mulVec_smul, smul_smul, show dt * -gain = -(gain * dt) by ring]

/-- **C142, several steps.** A pose task on the base, from an error away from the half turn, within the limit of the control and the threshold:
after `k` steps the error is exactly the first one times `(1 - gain dt)^k`, the joints have not moved and no task is reported. -/
theorem C142_approach {d : Dev ℝ} {b : Fin 6 → ℝ} (hm : d.mode = .oneInteg) (hs0 : d.sanity = false) (hst : d.state = nums (List.ofFn b ++ joints))
    (hsh : d.stateSOUT = nums (List.ofFn b ++ joints)) (h0 : 0 ≤ gain * dt) (h2 : gain * dt ≤ 2)
    (hs : Small th maxSq gain jbMfb (se3Difference Mdes (faMfb oMja jaMfa (poseRpyToHomo b) jbMfb))) (k : Nat) :
    ∃ s b', steps (poseLoop svd (6 + joints.length) th maxSq oMja jaMfa jbMfb Mdes gain selec dt) k
        (start (poseLoop svd (6 + joints.length) th maxSq oMja jaMfa jbMfb Mdes gain selec dt) d) = .ok s ∧
      s.dev.state = nums (List.ofFn b' ++ joints) ∧ s.reports = List.replicate k [] ∧
      se3Difference Mdes (faMfb oMja jaMfa (poseRpyToHomo b') jbMfb) =
        (1 - gain * dt) ^ k • se3Difference Mdes (faMfb oMja jaMfa (poseRpyToHomo b) jbMfb) := by
  set e := se3Difference Mdes (faMfb oMja jaMfa (poseRpyToHomo b) jbMfb) with he
  have hc : |1 - gain * dt| ≤ 1 := abs_le.mpr ⟨by linarith, by linarith⟩
  have hck : ∀ k : Nat, |(1 - gain * dt) ^ k| ≤ 1 := fun k => by rw [abs_pow]; exact pow_le_one₀ (abs_nonneg _) hc
  suffices hk : ∃ s b', steps (poseLoop svd (6 + joints.length) th maxSq oMja jaMfa jbMfb Mdes gain selec dt) k
        (start (poseLoop svd (6 + joints.length) th maxSq oMja jaMfa jbMfb Mdes gain selec dt) d) = .ok s ∧
      SInv [poseTask (6 + joints.length) oMja jaMfa jbMfb Mdes gain selec] d s (List.ofFn b' ++ joints) ∧ s.reports = List.replicate k [] ∧
      se3Difference Mdes (faMfb oMja jaMfa (poseRpyToHomo b') jbMfb) = (1 - gain * dt) ^ k • e by
    obtain ⟨s, b', a1, a2, a3, a4⟩ := hk
    exact ⟨s, b', a1, a2.state, a3, a4⟩
  induction k with
  | zero => exact ⟨_, b, rfl, ⟨.refl d, hst, hsh, by simp; omega, .cons (good_new _ _) .nil⟩, rfl, by simp [he]⟩
  | succ k ih =>
    obtain ⟨s, b1, a1, a2, a3, a4⟩ := ih
    have hsm : Small th maxSq gain jbMfb (se3Difference Mdes (faMfb oMja jaMfa (poseRpyToHomo b1) jbMfb)) := by
      rw [a4]; exact hs.scale (hck k)
    obtain ⟨s', b', e1, e2, e3, e4⟩ := step_pose svd (dt := dt) ha hfa hfb hd hsel hth hm hs0 a2 hsm
    refine ⟨s', b', ?_, e2, by rw [e3, a3, ← List.replicate_succ'], ?_⟩
    · show (steps _ k _).bind _ = _
      rw [a1]; exact e1
    · rw [e4, error_moved ha hfa hfb hd (pose_isRot b1), a4, smul_smul, pow_succ, ← sub_eq_add_neg, mul_comm]
      rw [← sub_eq_add_neg]
      exact (hsm.scale hc).angle.trans_eq' (by
        rw [show rotPart ((1 - gain * dt) • se3Difference Mdes (faMfb oMja jaMfa (poseRpyToHomo b1) jbMfb)) =
          (1 - gain * dt) • rotPart (se3Difference Mdes (faMfb oMja jaMfa (poseRpyToHomo b1) jbMfb)) from rfl, len_smul])

/-- **C142, path.** The frame of the feature stays on the motion at a constant velocity `N` from the desired pose to the first one: after `k`
steps it is where that motion is at the date `(1 - gain dt)^k`. -/
theorem C142_path {d : Dev ℝ} {b : Fin 6 → ℝ} (hm : d.mode = .oneInteg) (hs0 : d.sanity = false) (hst : d.state = nums (List.ofFn b ++ joints))
    (hsh : d.stateSOUT = nums (List.ofFn b ++ joints)) (h0 : 0 ≤ gain * dt) (h2 : gain * dt ≤ 2)
    (hs : Small th maxSq gain jbMfb (se3Difference Mdes (faMfb oMja jaMfa (poseRpyToHomo b) jbMfb))) :
    ∃ (N : ℝ → Pose ℝ) (v w : Fin 3 → ℝ), (∀ t, BodyTwist N v w t) ∧ N 0 = Mdes ∧ N 1 = faMfb oMja jaMfa (poseRpyToHomo b) jbMfb ∧
      ∀ k, ∃ s b', steps (poseLoop svd (6 + joints.length) th maxSq oMja jaMfa jbMfb Mdes gain selec dt) k
          (start (poseLoop svd (6 + joints.length) th maxSq oMja jaMfa jbMfb Mdes gain selec dt) d) = .ok s ∧
        s.dev.state = nums (List.ofFn b' ++ joints) ∧ faMfb oMja jaMfa (poseRpyToHomo b') jbMfb = N ((1 - gain * dt) ^ k) := by
  have hF : ∀ b : Fin 6 → ℝ, IsRot (faMfb oMja jaMfa (poseRpyToHomo b) jbMfb).R := fun b => faMfb_isRot ha hfa (pose_isRot b) hfb
  refine ⟨fun t => Mdes.mul (exp6 (t • pair (se3Difference Mdes (faMfb oMja jaMfa (poseRpyToHomo b) jbMfb)))), _, _,
    fun t => exp6_twist Mdes _ t, by simp only [zero_smul, exp6_zero, pose_mul_one], ?_, fun k => ?_⟩
  · simp only [one_smul]
    show Mdes.mul (exp6 (log6 (Mdes.inv.mul (faMfb oMja jaMfa (poseRpyToHomo b) jbMfb)))) = _
    rw [exp6_log6 (hd.inv.mul (hF b)), Pose.mul_inv_mul hd]
  · obtain ⟨s, b', e1, e2, -, e4⟩ := C142_approach svd (dt := dt) ha hfa hfb hd hsel hth hm hs0 hst hsh h0 h2 hs k
    refine ⟨s, b', e1, e2, ?_⟩
    simp only []
    rw [← pair_smul, ← e4]
    show _ = Mdes.mul (exp6 (log6 (Mdes.inv.mul (faMfb oMja jaMfa (poseRpyToHomo b') jbMfb))))
    rw [exp6_log6 (hd.inv.mul (hF b')), Pose.mul_inv_mul hd]

/-- **C142, convergence.** With a gain times the period strictly between zero and two, the pose of the base converges to the only one where the
frame of the feature has the desired pose; the joints do not move. -/
theorem C142_converges {d : Dev ℝ} {b : Fin 6 → ℝ} (hm : d.mode = .oneInteg) (hs0 : d.sanity = false)
    (hst : d.state = nums (List.ofFn b ++ joints)) (hsh : d.stateSOUT = nums (List.ofFn b ++ joints)) (h0 : 0 < gain * dt) (h2 : gain * dt < 2)
    (hs : Small th maxSq gain jbMfb (se3Difference Mdes (faMfb oMja jaMfa (poseRpyToHomo b) jbMfb))) :
    ∃ (base : Nat → Fin 6 → ℝ) (goal : Pose ℝ), faMfb oMja jaMfa goal jbMfb = Mdes ∧
      (∀ k, ∃ s, steps (poseLoop svd (6 + joints.length) th maxSq oMja jaMfa jbMfb Mdes gain selec dt) k
          (start (poseLoop svd (6 + joints.length) th maxSq oMja jaMfa jbMfb Mdes gain selec dt) d) = .ok s ∧
        s.dev.state = nums (List.ofFn (base k) ++ joints)) ∧
      (∀ i j, Tendsto (fun k => (poseRpyToHomo (base k)).R i j) atTop (𝓝 (goal.R i j))) ∧
      ∀ i, Tendsto (fun k => (poseRpyToHomo (base k)).t i) atTop (𝓝 (goal.t i)) := by
  obtain ⟨N, v, w, n1, n2, -, n4⟩ := C142_path svd (dt := dt) ha hfa hfb hd hsel hth hm hs0 hst hsh h0.le h2.le hs
  choose s base e1 e2 e3 using n4
  have hA : IsRot (oMja.mul jaMfa).R := ha.mul hfa
  have hback : ∀ F : Pose ℝ, faMfb oMja jaMfa (((oMja.mul jaMfa).mul F).mul jbMfb.inv) jbMfb = F := by
    intro F
    rw [faMfb, pose_mul_assoc, pose_mul_assoc _ _ jbMfb, inv_mul_self hfb, pose_mul_one, ← pose_mul_assoc, inv_mul_self hA, pose_one_mul]
  have hfwd : ∀ M : Pose ℝ, ((oMja.mul jaMfa).mul (faMfb oMja jaMfa M jbMfb)).mul jbMfb.inv = M := by
    intro M
    rw [faMfb, pose_mul_assoc, pose_mul_assoc _ jbMfb, mul_inv_self hfb, pose_mul_one, Pose.mul_inv_mul hA]
  have hbase : ∀ k, poseRpyToHomo (base k) = ((oMja.mul jaMfa).mul (N ((1 - gain * dt) ^ k))).mul jbMfb.inv := fun k => by
    rw [← e3 k, hfwd]
  have hc0 : Tendsto (fun k : Nat => (1 - gain * dt) ^ k) atTop (𝓝 0) :=
    tendsto_pow_atTop_nhds_zero_of_abs_lt_one (abs_lt.mpr ⟨by linarith, by linarith⟩)
  have hN : ∀ i, Tendsto (fun k => (N ((1 - gain * dt) ^ k)).t i) atTop (𝓝 (Mdes.t i)) := fun i => by
    rw [← n2]; exact ((n1 0).pos i).continuousAt.tendsto.comp hc0
  have hR : ∀ i j, Tendsto (fun k => (N ((1 - gain * dt) ^ k)).R i j) atTop (𝓝 (Mdes.R i j)) := fun i j => by
    rw [← n2]; exact ((n1 0).rot i j).continuousAt.tendsto.comp hc0
  have hNt : Tendsto (fun k => (N ((1 - gain * dt) ^ k)).t) atTop (𝓝 Mdes.t) := tendsto_pi_nhds.mpr hN
  have hNR : Tendsto (fun k => (N ((1 - gain * dt) ^ k)).R) atTop (𝓝 Mdes.R) := tendsto_pi_nhds.mpr fun i => tendsto_pi_nhds.mpr fun j => hR i j
  refine ⟨base, ((oMja.mul jaMfa).mul Mdes).mul jbMfb.inv, hback Mdes, fun k => ⟨s k, e1 k, e2 k⟩, fun i j => ?_, fun i => ?_⟩
  · simp only [hbase, Pose.mul]
    have hcont : Continuous fun X : Matrix (Fin 3) (Fin 3) ℝ => (oMja.R * jaMfa.R * X * jbMfb.inv.R) i j := by fun_prop
    exact (hcont.tendsto _).comp hNR
  · simp only [hbase, Pose.mul]
    have hcont : Continuous fun X : Matrix (Fin 3) (Fin 3) ℝ × (Fin 3 → ℝ) =>
        ((oMja.R * jaMfa.R * X.1) *ᵥ jbMfb.inv.t + ((oMja.R * jaMfa.R) *ᵥ X.2 + (oMja.R *ᵥ jaMfa.t + oMja.t))) i := by fun_prop
    have := (hcont.tendsto (Mdes.R, Mdes.t)).comp (hNR.prodMk_nhds hNt)
    simpa only [Function.comp_def] using this

/-- **C142, in one step.** When the gain times the period is one, the desired pose is reached exactly at the first step, and kept. -/
theorem C142_once {d : Dev ℝ} {b : Fin 6 → ℝ} (hm : d.mode = .oneInteg) (hs0 : d.sanity = false)
    (hst : d.state = nums (List.ofFn b ++ joints)) (hsh : d.stateSOUT = nums (List.ofFn b ++ joints)) (h1 : gain * dt = 1)
    (hs : Small th maxSq gain jbMfb (se3Difference Mdes (faMfb oMja jaMfa (poseRpyToHomo b) jbMfb))) (k : Nat) :
    ∃ s b', steps (poseLoop svd (6 + joints.length) th maxSq oMja jaMfa jbMfb Mdes gain selec dt) (k + 1)
        (start (poseLoop svd (6 + joints.length) th maxSq oMja jaMfa jbMfb Mdes gain selec dt) d) = .ok s ∧
      s.dev.state = nums (List.ofFn b' ++ joints) ∧ faMfb oMja jaMfa (poseRpyToHomo b') jbMfb = Mdes := by
  obtain ⟨s, b', e1, e2, -, e4⟩ := C142_approach svd (dt := dt) ha hfa hfb hd hsel hth hm hs0 hst hsh (by linarith) (by linarith) hs (k + 1)
  refine ⟨s, b', e1, e2, (C141_error_zero _ _ (faMfb_isRot ha hfa (pose_isRot b') hfb) hd).mp ?_⟩
  rw [e4, h1]
  simp

end

/-! ### A case -/

/-- The first error of the case. -/
noncomputable def caseError : Twist := (![1, 2, 3], ![0, 0, 1])

theorem one_inv_mul (M : Pose ℝ) : (⟨1, 0⟩ : Pose ℝ).inv.mul M = M := by
  apply Pose.ext <;> simp [Pose.mul, Pose.inv]

/-- **C142, case.** A base more than three meters and one radian away from the desired pose, with two joints, the threshold `1e-4`, the gain 10
and the period of ten milliseconds: the hypotheses hold, and the base converges. -/
theorem C142_case (svd : ∀ {m c : ℕ} (A : Matrix (Fin m) (Fin c) ℝ), Svd A) :
    ∃ (b : Fin 6 → ℝ) (d : Dev ℝ) (base : Nat → Fin 6 → ℝ), d.state = nums (List.ofFn b ++ [5, 7]) ∧
      se3Difference ⟨1, 0⟩ (faMfb ⟨1, 0⟩ ⟨1, 0⟩ (poseRpyToHomo b) ⟨1, 0⟩) = Sum.elim ![1, 2, 3] ![0, 0, 1] ∧
      (∀ k, ∃ s, steps (poseLoop svd 8 (1 / 10000) 10000 ⟨1, 0⟩ ⟨1, 0⟩ ⟨1, 0⟩ ⟨1, 0⟩ 10 (Flags.ofBool true) (1 / 100)) k
          (start (poseLoop svd 8 (1 / 10000) 10000 ⟨1, 0⟩ ⟨1, 0⟩ ⟨1, 0⟩ ⟨1, 0⟩ 10 (Flags.ofBool true) (1 / 100)) d) = .ok s ∧
        s.dev.state = nums (List.ofFn (base k) ++ [5, 7])) ∧
      ∀ i, Tendsto (fun k => (poseRpyToHomo (base k)).t i) atTop (𝓝 0) := by
  set b := homoToPoseRpy (exp6 caseError) with hb
  have hpose : poseRpyToHomo b = exp6 caseError := C81_pose_rpy _ (isRot_exp6 _)
  have hl : len caseError.2 = 1 := by
    simp [caseError, len, dotProduct, Fin.sum_univ_three]
  have he : se3Difference ⟨1, 0⟩ (faMfb ⟨1, 0⟩ ⟨1, 0⟩ (poseRpyToHomo b) ⟨1, 0⟩) = Sum.elim ![1, 2, 3] ![0, 0, 1] := by
    rw [faMfb_one, se3Difference, one_inv_mul, hpose, log6_exp6 (by rw [hl]; linarith [Real.pi_gt_three])]
    rfl
  have htone : twist (⟨1, 0⟩ : Pose ℝ) = 1 := by
    rw [twist, show skew (0 : Fin 3 → ℝ) = 0 from skew_zero, Matrix.zero_mul, fromBlocks_one]
  have hsmall : Small (1 / 10000) 10000 10 ⟨1, 0⟩ (se3Difference ⟨1, 0⟩ (faMfb ⟨1, 0⟩ ⟨1, 0⟩ (poseRpyToHomo b) ⟨1, 0⟩)) := by
    rw [he]
    refine ⟨?_, ?_, ?_⟩
    · show len ![0, 0, 1] < _
      have : len ![(0 : ℝ), 0, 1] = 1 := hl
      rw [this]; linarith [Real.pi_gt_three]
    · show (1 / 10000 : ℝ) ^ 2 * ((2 + len (0 : Fin 3 → ℝ) ^ 2) * (2 + (3 * len ![1, 2, 3]) ^ 2)) < 1
      rw [mul_pow, len_sq, len_sq]
      simp [dotProduct, Fin.sum_univ_three]
      norm_num
    · rw [htone, one_mulVec]
      simp [dotProduct, Fintype.sum_sum_type, Fin.sum_univ_three]
      norm_num
  let d : Dev ℝ := { init with sanity := false, state := nums (List.ofFn b ++ [5, 7]), stateSOUT := nums (List.ofFn b ++ [5, 7]) }
  obtain ⟨base, goal, g1, g2, -, g4⟩ := C142_converges svd (th := 1 / 10000) (maxSq := 10000) (gain := 10) (dt := 1 / 100) (joints := [5, 7])
    (selec := Flags.ofBool true) isRot_one isRot_one isRot_one isRot_one (fun j _ => by simp [Flags.call, Flags.ofBool]) (by norm_num) (d := d) (b := b)
    rfl rfl rfl rfl (by norm_num) (by norm_num) hsmall
  refine ⟨b, d, base, rfl, he, g2, fun i => ?_⟩
  rw [faMfb_one] at g1
  have := g4 i
  rw [g1] at this
  exact this

end Verif.Loop
