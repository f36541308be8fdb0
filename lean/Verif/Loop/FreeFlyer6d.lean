import Verif.Loop.FreeFlyerR3

/-!
# C147: the base of the robot driven by a task of a six-dimensional position

The feature FeaturePoint6d (src/feature/feature-point6d.cpp) on an operational point of the base, displaced by OpPointModifier
(src/math/op-point-modifier.cpp), as the meta task of the Python library makes it (src/dynamic_graph/sot/core/meta_task_6d.py), in a task of
the stack, whose control drives the device with the integration of the free-flyer (src/tools/device.cpp:40-65). All the six components are
selected, the reference does not move, and the signals of the robot are the pose of the base and its Jacobian in its own frame. As there is
no inverse of a Jacobian of a rotation in this feature, no angle is excluded.
-/

namespace Verif.Loop

open Matrix Verif.Sot Verif.Device Verif.Geometry Verif.Point6d Verif.Se3 Verif.Spatial Verif.Features Filter Topology

/-- What the task reads from the feature (src/feature/feature-point6d.cpp:174-278, 292-352), whose inputs are the outputs of the modifier of
the operational point (src/math/op-point-modifier.cpp:68-122). -/
noncomputable def p6Feat (N : Nat) (fr : Frame) (o : OpPoint ℝ) (ref : Option (Pose ℝ)) : Feat where
  err q := computeError fr (fun _ => true) (opPosition o (basePose q)) ref (List.replicate 6 0)
  jac q := (computeJacobian fr (fun _ => true) (opPosition o (basePose q)) ref (opJacobian o (baseJac N) (basePose q)) (List.replicate 6 0)).map
    fun rows => ⟨6, N, fun i j => if h : j < N then (rows[i]?).map fun r => r ⟨j, h⟩ else none⟩

/-- A robot of `N` degrees of freedom driven by that task. -/
noncomputable def p6Loop (svd : ∀ {m c : ℕ} (A : Matrix (Fin m) (Fin c) ℝ), Svd A) (N : Nat) (th maxSq : ℝ) (fr : Frame) (o : OpPoint ℝ)
    (ref : Option (Pose ℝ)) (gain : ℝ) (selec : Flags.Flags) (dt : ℝ) : Params where
  svd := svd
  n := N
  th := th
  maxSq := maxSq
  ff := freeFlyer
  tasks := [⟨[p6Feat N fr o ref], gain, selec⟩]
  dt := dt

/-- The pose that the frame has to reach: the reference, or the world when there is none. -/
noncomputable def goalOf (ref : Option (Pose ℝ)) : Pose ℝ := ref.getD Pose.one

/-! ### The feature as a function of the joints -/

/-- The error and its derivative. -/
noncomputable def p6Base (fr : Frame) (B Md : Pose ℝ) : BaseFeat where
  E M := errorFull fr (M.mul B) (some Md)
  K M := jacobianFull fr (M.mul B) (some Md) (twist B.inv)

theorem error_goal (fr : Frame) (M : Pose ℝ) (ref : Option (Pose ℝ)) : errorFull fr M ref = errorFull fr M (some (goalOf ref)) := by
  cases ref
  · exact C93_no_reference fr M
  · rfl

theorem jacobian_goal {ι : Type} (fr : Frame) (M : Pose ℝ) (ref : Option (Pose ℝ)) (Jq : Matrix (Fin 3 ⊕ Fin 3) ι ℝ) :
    jacobianFull fr M ref Jq = jacobianFull fr M (some (goalOf ref)) Jq := by
  cases ref with
  | some m => rfl
  | none =>
    cases fr
    · simp only [jacobianFull, desiredRot, goalOf, Option.getD_none, Pose.one, inv_one, Matrix.one_mul]
      funext r j
      cases r <;> rfl
    · simp only [jacobianFull, interaction, goalOf, Option.getD_none, Pose.one, zero_sub]

theorem jacobian_mul {ι : Type} (fr : Frame) (M : Pose ℝ) (ref : Option (Pose ℝ)) (X : Matrix (Fin 3 ⊕ Fin 3) (Fin 3 ⊕ Fin 3) ℝ)
    (J : Matrix (Fin 3 ⊕ Fin 3) ι ℝ) : jacobianFull fr M ref (X * J) = jacobianFull fr M ref X * J := by
  cases fr
  · ext r j
    rcases r with i | i
    · show (∑ k, desiredRot M ref i k * ∑ l, X (.inl k) l * J l j) = ∑ l, (∑ k, desiredRot M ref i k * X (.inl k) l) * J l j
      simp only [Finset.mul_sum, Finset.sum_mul]
      rw [Finset.sum_comm]
      simp only [mul_assoc]
    · show (∑ k, desiredRot M ref i k * ∑ l, X (.inr k) l * J l j) = ∑ l, (∑ k, desiredRot M ref i k * X (.inr k) l) * J l j
      simp only [Finset.mul_sum, Finset.sum_mul]
      rw [Finset.sum_comm]
      simp only [mul_assoc]
  · simp only [jacobianFull, Matrix.mul_assoc]

theorem p6Feat_eq {N : Nat} (hN : 6 ≤ N) (fr : Frame) {o : OpPoint ℝ} (ho : o.isEndEffector = true) (ref : Option (Pose ℝ)) :
    p6Feat N fr o ref = ((p6Base fr o.transformation (goalOf ref)).map N).feat := by
  have he : ∀ q, (p6Feat N fr o ref).err q = ((p6Base fr o.transformation (goalOf ref)).map N).feat.err q := by
    intro q
    have h := (C93_selected (ι := Fin N) fr (fun _ => true) (opPosition o (basePose q)) ref 0 0 (List.replicate 6 (0 : ℝ))
      (List.replicate 6 0) (by simp; rfl) (by simp; rfl)).2.1
    simp only [p6Feat, Map.feat]
    rw [h, picked_all, error_goal]
    show _ = Outcome.ok (List.ofFn fun i : Fin 6 => at6 _ i.val)
    rw [basePose_vec hN]
    simp [List.ofFn_succ, p6Base, opPosition]
  have hj : ∀ q, (p6Feat N fr o ref).jac q = ((p6Base fr o.transformation (goalOf ref)).map N).feat.jac q := by
    intro q
    have h := (C93_selected fr (fun _ => true) (opPosition o (basePose q)) ref 0 (opJacobian o (baseJac N) (basePose q))
      (List.replicate 6 (0 : ℝ)) (List.replicate 6 (0 : Fin N → ℝ)) (by simp; rfl) (by simp; rfl)).2.2.1
    simp only [p6Feat, Map.feat]
    rw [h, picked_all, Outcome.map_ok, jacobian_goal, opJacobian, if_pos ho, jacobian_mul]
    show _ = Outcome.ok _
    congr 2
    funext i j
    show _ = if h : i < 6 ∧ j < N then some (at6 ((p6Base fr o.transformation (goalOf ref)).K (basePose (List.ofFn (vec N q))) * baseJac N) i ⟨j, h.2⟩)
      else none
    rw [basePose_vec hN]
    by_cases hj : j < N
    · match i with
      | 0 | 1 | 2 | 3 | 4 | 5 => simp [hj, p6Base, opPosition]
      | i + 6 => simp [hj]
    · simp [hj]
  unfold p6Feat at *
  unfold Map.feat at *
  rw [Feat.mk.injEq]
  exact ⟨funext he, funext hj⟩

theorem p6Loop_eq (svd : ∀ {m c : ℕ} (A : Matrix (Fin m) (Fin c) ℝ), Svd A) {N : Nat} (hN : 6 ≤ N) (th maxSq : ℝ) (fr : Frame)
    {o : OpPoint ℝ} (ho : o.isEndEffector = true) (ref : Option (Pose ℝ)) (gain : ℝ) (selec : Flags.Flags) (dt : ℝ) :
    p6Loop svd N th maxSq fr o ref gain selec dt =
      stackLoop svd N th maxSq freeFlyer [(p6Base fr o.transformation (goalOf ref)).task N gain selec] dt := by
  unfold p6Loop stackLoop
  rw [p6Feat_eq hN fr ho]
  rfl

/-! ### The velocity -/

/-- How much longer than the error a velocity can be, because of the lever arm of the position error in the current frame. -/
noncomputable def lever (fr : Frame) (e : Fin 3 ⊕ Fin 3 → ℝ) : ℝ :=
  match fr with
  | .desired => 1
  | .current => 2 + len (transPart e) ^ 2

/-- The square of the length of the velocity of the frame, for the gain one. -/
noncomputable def frameSq (fr : Frame) (e : Fin 3 ⊕ Fin 3 → ℝ) : ℝ :=
  match fr with
  | .desired => len (transPart e) ^ 2 + len (rotPart e) ^ 2
  | .current => len (transPart e) ^ 2 * (1 + len (rotPart e) ^ 2) + len (rotPart e) ^ 2

/-- What one step asks of the error `e`: within the threshold of the pseudo-inverses and within the limit of the control. -/
structure P6Small (th maxSq gain : ℝ) (fr : Frame) (B : Pose ℝ) (e : Fin 3 ⊕ Fin 3 → ℝ) : Prop where
  threshold : th ^ 2 * ((2 + len B.t ^ 2) * lever fr e) < 1
  limit : gain ^ 2 * ((2 + len B.t ^ 2) * frameSq fr e) ≤ maxSq

section
variable {th maxSq : ℝ} {fr : Frame} {B Md : Pose ℝ} {gain : ℝ} {selec : Flags.Flags} {dt : ℝ}

theorem P6Small.mono {e e' : Fin 3 ⊕ Fin 3 → ℝ} (h : P6Small th maxSq gain fr B e) (h1 : len (rotPart e') ≤ len (rotPart e))
    (h2 : len (transPart e') ≤ len (transPart e)) : P6Small th maxSq gain fr B e' := by
  have p1 := len_nonneg (rotPart e')
  have p2 := len_nonneg (transPart e')
  have hl : lever fr e' ≤ lever fr e := by
    cases fr
    · exact le_rfl
    · show 2 + len (transPart e') ^ 2 ≤ 2 + len (transPart e) ^ 2
      gcongr
  have hs : frameSq fr e' ≤ frameSq fr e := by
    cases fr
    · show len (transPart e') ^ 2 + len (rotPart e') ^ 2 ≤ len (transPart e) ^ 2 + len (rotPart e) ^ 2
      gcongr
    · show len (transPart e') ^ 2 * (1 + len (rotPart e') ^ 2) + len (rotPart e') ^ 2 ≤
        len (transPart e) ^ 2 * (1 + len (rotPart e) ^ 2) + len (rotPart e) ^ 2
      gcongr
  refine ⟨lt_of_le_of_lt ?_ h.threshold, le_trans ?_ h.limit⟩ <;> gcongr

/-- The velocity of the frame of the feature, in its own frame, at the pose `F`. -/
noncomputable def p6Velocity (fr : Frame) (Md F : Pose ℝ) (gain : ℝ) : Fin 3 ⊕ Fin 3 → ℝ :=
  match fr with
  | .desired => Sum.elim (-gain • ((Md.R⁻¹ * F.R)ᵀ *ᵥ transPart (errorFull .desired F (some Md)))) (-gain • rotPart (errorFull .desired F (some Md)))
  | .current =>
    Sum.elim (gain • (transPart (errorFull .current F (some Md)) - skew (rotPart (errorFull .current F (some Md))) *ᵥ transPart (errorFull .current F (some Md))))
      (gain • rotPart (errorFull .current F (some Md)))

theorem p6K_parts (hB : IsRot B.R) (M : Pose ℝ) (u : Fin 3 ⊕ Fin 3 → ℝ) :
    linPart (twist B.inv) (twist B *ᵥ u) = transPart u ∧ angPart (twist B.inv) (twist B *ᵥ u) = rotPart u := by
  obtain ⟨-, -, -, i2, -, -⟩ := C55_twist_inv B hB
  constructor <;>
  · funext i
    simp only [linPart, angPart]
    rw [mulVec_mulVec, i2, one_mulVec]
    rfl

/-- The translation of the relative frame in the current frame. -/
theorem current_trans {F : Pose ℝ} : transPart (errorFull .current F (some Md)) = F.R⁻¹ *ᵥ (Md.t - F.t) := by
  show F.R⁻¹ *ᵥ Md.t + -(F.R⁻¹ *ᵥ F.t) = _
  rw [mulVec_sub, sub_eq_add_neg]

/-- The rotation error is not changed by the rotation between the two frames. -/
theorem rot_fixed (fr : Frame) {F : Pose ℝ} (hF : IsRot F.R) (hd : IsRot Md.R) :
    (Md.R⁻¹ * F.R)ᵀ *ᵥ rotPart (errorFull fr F (some Md)) = rotPart (errorFull fr F (some Md)) ∧
    (Md.R⁻¹ * F.R) *ᵥ rotPart (errorFull fr F (some Md)) = rotPart (errorFull fr F (some Md)) := by
  have hX : IsRot (Md.R⁻¹ * F.R) := hd.inv.mul hF
  cases fr
  · have h : (Md.R⁻¹ * F.R) *ᵥ rotPart (errorFull .desired F (some Md)) = rotPart (errorFull .desired F (some Md)) := rotVec_fixed hX
    refine ⟨?_, h⟩
    conv_lhs => rw [← h]
    rw [mulVec_mulVec, hX.1, one_mulVec]
  · have he : (Md.R⁻¹ * F.R)ᵀ = F.R⁻¹ * Md.R := by rw [transpose_mul, hd.inv_eq, hF.inv_eq, transpose_transpose]
    have h : (Md.R⁻¹ * F.R)ᵀ *ᵥ rotPart (errorFull .current F (some Md)) = rotPart (errorFull .current F (some Md)) := by
      rw [he]
      exact rotVec_fixed (hF.inv.mul hd)
    refine ⟨h, ?_⟩
    conv_lhs => rw [← h]
    rw [mulVec_mulVec, hX.mul_transpose, one_mulVec]

theorem cross_skew (a b : Fin 3 → ℝ) : a ⨯₃ b = skew a *ᵥ b := by rw [skew_mulVec]

theorem skew_swap (a b : Fin 3 → ℝ) : skew a *ᵥ b = -(skew b *ᵥ a) := by
  rw [skew_mulVec, skew_mulVec, cross_anticomm]

theorem skew_len (a b : Fin 3 → ℝ) : len (skew a *ᵥ b) ≤ len a * len b := by
  apply le_of_sq_le_sq _ (mul_nonneg (len_nonneg a) (len_nonneg b))
  rw [mul_pow, len_sq, len_sq, len_sq]
  nlinarith [lagrange a b, sq_nonneg (a ⬝ᵥ b)]

theorem len_sub_skew (z r : Fin 3 → ℝ) : len (z - skew r *ᵥ z) ^ 2 ≤ len z ^ 2 * (1 + len r ^ 2) := by
  have h1 : z ⬝ᵥ skew r *ᵥ z = 0 := by
    rw [skew_swap, dotProduct_neg, dot_skew, neg_zero]
  have h2 := lagrange r z
  rw [len_sq, len_sq, len_sq, sub_dotProduct, dotProduct_sub, dotProduct_sub, dotProduct_comm (skew r *ᵥ z) z, h1]
  nlinarith [sq_nonneg (r ⬝ᵥ z)]

theorem p6Ready (hB : IsRot B.R) (hd : IsRot Md.R) {M : Pose ℝ} (hM : IsRot M.R)
    (hs : P6Small th maxSq gain fr B (errorFull fr (M.mul B) (some Md))) :
    (p6Base fr B Md).Ready th maxSq gain M (twist B *ᵥ p6Velocity fr Md (M.mul B) gain) := by
  set F := M.mul B with hF
  have hFr : IsRot F.R := hM.mul hB
  have hX : IsRot (Md.R⁻¹ * F.R) := hd.inv.mul hFr
  have hp : 0 < 2 + len B.t ^ 2 := by positivity
  obtain ⟨r1, r2⟩ := rot_fixed fr hFr hd
  have hlev : 0 < lever fr (errorFull fr F (some Md)) := by
    cases fr
    · exact one_pos
    · show 0 < 2 + len _ ^ 2; positivity
  have hq : 0 < (2 + len B.t ^ 2) * lever fr (errorFull fr F (some Md)) := mul_pos hp hlev
  have hXl : ∀ x, (Md.R⁻¹ * F.R) *ᵥ ((Md.R⁻¹ * F.R)ᵀ *ᵥ x) = x := fun x => by rw [mulVec_mulVec, hX.mul_transpose, one_mulVec]
  have t1 : ∀ a b : Fin 3 → ℝ, transPart (Sum.elim a b) = a := fun a b => rfl
  have t2 : ∀ a b : Fin 3 → ℝ, rotPart (Sum.elim a b) = b := fun a b => rfl
  have ext6 : ∀ x y : Fin 3 ⊕ Fin 3 → ℝ, transPart x = transPart y → rotPart x = rotPart y → x = y := fun x y h h' => by
    rw [split6 x, split6 y, h, h']
  refine ⟨?_, ⟨1 / √((2 + len B.t ^ 2) * lever fr (errorFull fr F (some Md))), ?_, fun y => ?_⟩, ?_⟩
  · show jacobianFull fr F (some Md) (twist B.inv) *ᵥ (twist B *ᵥ _) = -gain • errorFull fr F (some Md)
    obtain ⟨l1, l2⟩ := p6K_parts hB M (p6Velocity fr Md F gain)
    cases fr
    · apply ext6
      · rw [jac_desired_trans, l1]
        show _ *ᵥ (-gain • (_ *ᵥ _)) = -gain • transPart (errorFull .desired F (some Md))
        rw [mulVec_smul, hXl]
      · rw [jac_desired_rot, l2]
        show _ *ᵥ (-gain • _) = -gain • rotPart (errorFull .desired F (some Md))
        rw [mulVec_smul, r2]
    · apply ext6
      · rw [jac_current_trans, l1, l2, ← current_trans, cross_skew]
        show -(gain • (_ - _)) - skew (gain • _) *ᵥ _ = -gain • transPart (errorFull .current F (some Md))
        rw [skew_smul, smul_mulVec, smul_sub]
        module
      · rw [jac_current_rot, l2]
        show -(_ *ᵥ (gain • _)) = -gain • rotPart (errorFull .current F (some Md))
        rw [mulVec_smul, r2, neg_smul]
  · rw [lt_div_iff₀ (Real.sqrt_pos.mpr hq)]
    apply lt_of_pow_lt_pow_left₀ 2 zero_le_one
    rw [mul_pow, Real.sq_sqrt hq.le, one_pow]
    exact hs.threshold
  · have hbound : ∀ d : Fin 3 ⊕ Fin 3 → ℝ, d ⬝ᵥ d ≤ lever fr (errorFull fr F (some Md)) * (y ⬝ᵥ y) →
        (1 / √((2 + len B.t ^ 2) * lever fr (errorFull fr F (some Md)))) ^ 2 * (twist B *ᵥ d ⬝ᵥ twist B *ᵥ d) ≤ y ⬝ᵥ y := by
      intro d h
      rw [div_pow, one_pow, Real.sq_sqrt hq.le, div_mul_eq_mul_div, one_mul, div_le_iff₀ hq]
      refine (twist_len hB d).trans ?_
      have := mul_le_mul_of_nonneg_left h hp.le
      linarith
    show ∃ d, jacobianFull fr F (some Md) (twist B.inv) *ᵥ d = y ∧ _
    cases fr
    · refine ⟨twist B *ᵥ Sum.elim ((Md.R⁻¹ * F.R)ᵀ *ᵥ transPart y) ((Md.R⁻¹ * F.R)ᵀ *ᵥ rotPart y), ?_, hbound _ ?_⟩
      · obtain ⟨l1, l2⟩ := p6K_parts hB M (Sum.elim ((Md.R⁻¹ * F.R)ᵀ *ᵥ transPart y) ((Md.R⁻¹ * F.R)ᵀ *ᵥ rotPart y))
        apply ext6
        · rw [jac_desired_trans, l1, t1, hXl]
        · rw [jac_desired_rot, l2, t2, hXl]
      · rw [sum_sq, sum_sq y, t1, t2, len_rot hX.transpose, len_rot hX.transpose]
        exact le_of_eq (one_mul _).symm
    · set z := transPart (errorFull .current F (some Md)) with hz
      set w := -((Md.R⁻¹ * F.R)ᵀ *ᵥ rotPart y) with hw
      have hwl : len w = len (rotPart y) := by
        rw [hw, ← neg_one_smul ℝ, len_smul, len_rot hX.transpose]; simp
      refine ⟨twist B *ᵥ Sum.elim (-transPart y - skew w *ᵥ z) w, ?_, hbound _ ?_⟩
      · obtain ⟨l1, l2⟩ := p6K_parts hB M (Sum.elim (-transPart y - skew w *ᵥ z) w)
        apply ext6
        · rw [jac_current_trans, l1, l2, ← current_trans, cross_skew, t1, t2, ← hz]
          module
        · rw [jac_current_rot, l2, t2, hw, mulVec_neg, hXl, neg_neg]
      · rw [sum_sq, sum_sq y, t1, t2, hwl]
        show _ ≤ (2 + len z ^ 2) * _
        have a1 : len (-transPart y - skew w *ᵥ z) ≤ len (transPart y) + len (rotPart y) * len z := by
          have h1 := len_add (-transPart y) (-(skew w *ᵥ z))
          rw [← sub_eq_add_neg] at h1
          have h2 : ∀ v : Fin 3 → ℝ, len (-v) = len v := fun v => by rw [← neg_one_smul ℝ, len_smul]; simp
          rw [h2, h2] at h1
          have h3 := skew_len w z
          rw [hwl] at h3
          linarith
        have a2 := pow_le_pow_left₀ (len_nonneg _) a1 2
        nlinarith [sq_nonneg (len (transPart y) * len z - len (rotPart y)), sq_nonneg (len (transPart y)), sq_nonneg (len (rotPart y))]
  · refine (twist_len hB _).trans (le_trans ?_ hs.limit)
    rw [sum_sq, mul_left_comm]
    refine mul_le_mul_of_nonneg_left ?_ hp.le
    cases fr
    · show len (-gain • _) ^ 2 + len (-gain • _) ^ 2 ≤ gain ^ 2 * (_ + _)
      rw [len_smul, len_smul, len_rot hX.transpose, mul_pow, mul_pow, sq_abs, neg_sq]
      exact le_of_eq (by ring)
    · show len (gain • _) ^ 2 + len (gain • _) ^ 2 ≤ gain ^ 2 * (_ + _)
      rw [len_smul, len_smul, mul_pow, mul_pow, sq_abs]
      have := mul_le_mul_of_nonneg_left (len_sub_skew (transPart (errorFull .current F (some Md))) (rotPart (errorFull .current F (some Md))))
        (sq_nonneg gain)
      linarith

/-! ### A step -/

theorem exp3_leftJac (x : Fin 3 → ℝ) : exp3 x = 1 + leftJac x * skew x := by
  by_cases hx : x = 0
  · subst hx
    rw [exp3_zero, skew_zero, Matrix.mul_zero, add_zero]
  · have h := (len_pos hx).ne'
    have h3 : skew x * skew x * skew x = -(len x ^ 2) • skew x := by rw [Matrix.mul_assoc, skew_cube]
    unfold exp3 leftJac poly
    rw [Matrix.add_mul, Matrix.add_mul, Matrix.one_mul, Matrix.smul_mul, Matrix.smul_mul, h3, smul_smul]
    have e1 : Real.sin (len x) / len x = 1 + (len x - Real.sin (len x)) / len x ^ 3 * -(len x ^ 2) := by field_simp; ring
    rw [e1]
    module

/-- The parts of the error after a motion with that velocity: the same formula for the two frames. -/
theorem p6_moved (fr : Frame) (hd : IsRot Md.R) {F : Pose ℝ} (hF : IsRot F.R) (s : ℝ) :
    (relative fr (F.mul (exp6 (pair (s • p6Velocity fr Md F 1)))) (some Md)).R = exp3 ((1 - s) • rotPart (errorFull fr F (some Md))) ∧
    transPart (errorFull fr (F.mul (exp6 (pair (s • p6Velocity fr Md F 1)))) (some Md)) =
      reduced s ((-s) • rotPart (errorFull fr F (some Md))) (transPart (errorFull fr F (some Md))) := by
  have hexp : exp3 (rotPart (errorFull fr F (some Md))) = (relative fr F (some Md)).R := exp3_rotVec (rel_isRot fr hF hd)
  cases fr
  · set w := rotPart (errorFull .desired F (some Md)) with hw
    set z := transPart (errorFull .desired F (some Md)) with hz
    have hX : Md.R⁻¹ * F.R = exp3 w := hexp.symm
    have hrot : rotPart (s • p6Velocity .desired Md F 1) = (-s) • w := by
      show s • (-(1 : ℝ) • w) = _
      rw [smul_smul, mul_neg_one]
    have htr : transPart (s • p6Velocity .desired Md F 1) = (-s) • ((exp3 w)ᵀ *ᵥ z) := by
      show s • (-(1 : ℝ) • ((Md.R⁻¹ * F.R)ᵀ *ᵥ z)) = _
      rw [smul_smul, mul_neg_one, hX]
    have hmul : relative .desired (F.mul (exp6 (pair (s • p6Velocity .desired Md F 1)))) (some Md) =
        (relative .desired F (some Md)).mul (exp6 (pair (s • p6Velocity .desired Md F 1))) := (pose_mul_assoc _ _ _).symm
    constructor
    · rw [hmul]
      show (relative .desired F (some Md)).R * exp3 (rotPart (s • p6Velocity .desired Md F 1)) = _
      rw [← hexp, hrot]
      have := exp3_add 1 (-s) w
      rwa [one_smul, ← sub_eq_add_neg] at this
    · show (relative .desired (F.mul (exp6 (pair (s • p6Velocity .desired Md F 1)))) (some Md)).t = _
      rw [hmul]
      show (relative .desired F (some Md)).R *ᵥ (leftJac (rotPart (s • p6Velocity .desired Md F 1)) *ᵥ transPart (s • p6Velocity .desired Md F 1)) + z = _
      rw [← hexp, hrot, htr, mulVec_smul, mulVec_smul, mulVec_mulVec, mulVec_mulVec, leftJac_conj, reduced, neg_smul]
      module
  · set r := rotPart (errorFull .current F (some Md)) with hr
    set z := transPart (errorFull .current F (some Md)) with hz
    set G := exp6 (pair (s • p6Velocity .current Md F 1)) with hG
    have hrot : rotPart (s • p6Velocity .current Md F 1) = s • r := by
      show s • ((1 : ℝ) • r) = _
      rw [one_smul]
    have htr : transPart (s • p6Velocity .current Md F 1) = s • (z - skew r *ᵥ z) := by
      show s • ((1 : ℝ) • (z - skew r *ᵥ z)) = _
      rw [one_smul]
    have hGR : G.R = exp3 (s • r) := by
      show exp3 (rotPart (s • p6Velocity .current Md F 1)) = _
      rw [hrot]
    have hGt : G.t = s • (leftJac (s • r) *ᵥ (z - skew r *ᵥ z)) := by
      show leftJac (rotPart (s • p6Velocity .current Md F 1)) *ᵥ transPart (s • p6Velocity .current Md F 1) = _
      rw [hrot, htr, mulVec_smul]
    have hGrot : IsRot G.R := by rw [hGR]; exact isRot_exp3 _
    have hinv : G.R⁻¹ = exp3 ((-s) • r) := by
      have h1 := exp3_add (-s) s r
      rw [neg_add_cancel, zero_smul, exp3_zero, ← hGR] at h1
      exact Matrix.inv_eq_left_inv h1
    have hmul : relative .current (F.mul G) (some Md) = G.inv.mul (relative .current F (some Md)) := by
      show (F.mul G).inv.mul Md = G.inv.mul (F.inv.mul Md)
      have h1 : (F.mul G).mul (G.inv.mul (F.inv.mul Md)) = Md := by
        rw [pose_mul_assoc, Pose.mul_inv_mul hGrot, Pose.mul_inv_mul hF]
      conv_lhs => rw [← h1]
      rw [← pose_mul_assoc, inv_mul_self (hF.mul hGrot), pose_one_mul]
    have hja : exp3 ((-s) • r) * (s • leftJac (s • r)) = s • leftJac ((-s) • r) := by
      have h1 := leftJac_add (-s) s r
      have h2 : -s • leftJac (-s • r) = -(s • leftJac (-s • r)) := neg_smul _ _
      rw [neg_add_cancel, zero_smul, h2, ← sub_eq_add_neg, sub_eq_zero] at h1
      exact h1
    constructor
    · rw [hmul]
      show G.R⁻¹ * (relative .current F (some Md)).R = _
      rw [hinv, ← hexp]
      have := exp3_add (-s) 1 r
      rw [one_smul] at this
      rw [this]
      congr 2
      ring
    · show (relative .current (F.mul G) (some Md)).t = _
      rw [hmul]
      show G.R⁻¹ *ᵥ z + -(G.R⁻¹ *ᵥ G.t) = _
      rw [hinv, hGt, ← smul_mulVec, mulVec_mulVec, hja, exp3_leftJac ((-s) • r), Matrix.add_mulVec, one_mulVec, ← mulVec_mulVec, skew_smul,
        smul_mulVec, smul_mulVec, mulVec_smul, mulVec_sub, reduced]
      module

end


/-! ### Steps -/

theorem reduced_dot (s : ℝ) (x z : Fin 3 → ℝ) : x ⬝ᵥ reduced s x z = (1 - s) * (x ⬝ᵥ z) := by
  have h : ∀ a b : ℝ, x ⬝ᵥ (poly x a b *ᵥ z) = x ⬝ᵥ z := by
    intro a b
    simp [poly, skew, Matrix.mulVec, dotProduct, Fin.sum_univ_three, Matrix.mul_apply, Matrix.one_apply]
    ring
  rw [reduced, dotProduct_sub, dotProduct_smul, leftJac, h, smul_eq_mul]
  ring

/-- What the length after a step depends on. -/
theorem reduced_same (s : ℝ) {x z x' z' : Fin 3 → ℝ} (h1 : len x = len x') (h2 : len z = len z') (h3 : (x ⬝ᵥ z) ^ 2 = (x' ⬝ᵥ z') ^ 2) :
    len (reduced s x z) = len (reduced s x' z') := by
  have l1 := lagrange x z
  have l2 := lagrange x' z'
  rw [← len_sq x, ← len_sq z] at l1
  rw [← len_sq x', ← len_sq z', ← h1, ← h2, ← h3] at l2
  have h4 : skew x *ᵥ z ⬝ᵥ skew x *ᵥ z = skew x' *ᵥ z' ⬝ᵥ skew x' *ᵥ z' := by linarith
  show √(reduced s x z ⬝ᵥ reduced s x z) = √(reduced s x' z' ⬝ᵥ reduced s x' z')
  congr 1
  rw [reduced, reduced, leftJac, leftJac, reduced_poly, reduced_poly, h4, ← h1, ← len_sq z, ← len_sq z', h2]

section
variable (svd : ∀ {m c : ℕ} (A : Matrix (Fin m) (Fin c) ℝ), Svd A) {th maxSq : ℝ} {fr : Frame} {o : OpPoint ℝ} {ref : Option (Pose ℝ)} {gain : ℝ}
  {selec : Flags.Flags} {dt : ℝ} {joints : List ℝ} (ho : o.isEndEffector = true) (hB : IsRot o.transformation.R) (hd : IsRot (goalOf ref).R)
  (hsel : ∀ j : Nat, j < 6 → Flags.call selec (j : Int) = .ok true) (hth : 0 ≤ th)

/-- The pose of the operational point, for the base `b`. -/
noncomputable def opPose (o : OpPoint ℝ) (b : Fin 6 → ℝ) : Pose ℝ := (poseRpyToHomo b).mul o.transformation

/-- The error of the feature, for the base `b`. -/
noncomputable def opError (fr : Frame) (o : OpPoint ℝ) (ref : Option (Pose ℝ)) (b : Fin 6 → ℝ) : Fin 3 ⊕ Fin 3 → ℝ :=
  errorFull fr (opPose o b) ref

include hB in
theorem opPose_isRot (b : Fin 6 → ℝ) : IsRot (opPose o b).R := (pose_isRot b).mul hB

include hB hd in
theorem opError_angle (b : Fin 6 → ℝ) : len (rotPart (opError fr o ref b)) ≤ Real.pi := by
  rw [opError, error_goal]
  have h := rel_isRot fr (opPose_isRot hB b) hd
  show len (rotVec (relative fr (opPose o b) (some (goalOf ref))).R) ≤ _
  rw [len_rotVec h]
  exact angle_le_pi h

include ho hB hd hsel hth in
/-- One step of the loop. -/
theorem p6_step {d0 : Dev ℝ} (hm : d0.mode = .oneInteg) (hs0 : d0.sanity = false) {s : St} {b : Fin 6 → ℝ}
    (hi : SInv [(p6Base fr o.transformation (goalOf ref)).task (6 + joints.length) gain selec] d0 s (List.ofFn b ++ joints))
    (hs : P6Small th maxSq gain fr o.transformation (opError fr o ref b)) :
    ∃ s' b', step (p6Loop svd (6 + joints.length) th maxSq fr o ref gain selec dt) s = .ok s' ∧
      SInv [(p6Base fr o.transformation (goalOf ref)).task (6 + joints.length) gain selec] d0 s' (List.ofFn b' ++ joints) ∧
      s'.reports = s.reports ++ [[]] ∧
      opPose o b' = (opPose o b).mul (exp6 (dt • pair (p6Velocity fr (goalOf ref) (opPose o b) gain))) := by
  rw [p6Loop_eq svd (by omega) th maxSq fr ho]
  rw [opError, error_goal] at hs
  obtain ⟨s', b', e1, e2, e3, e4⟩ := BaseFeat.step svd (dt := dt) rfl hsel hth hm hs0 hi (p6Ready hB hd (pose_isRot b) hs)
  refine ⟨s', b', e1, e2, e3, ?_⟩
  show (poseRpyToHomo b').mul o.transformation = _
  rw [e4, ← pair_smul, ← mulVec_smul, pose_mul_assoc, exp6_frame hB, ← pose_mul_assoc]
  rfl

/-- The velocity for another gain. -/
theorem velocity_gain (fr : Frame) (Md F : Pose ℝ) (gain dt : ℝ) : dt • p6Velocity fr Md F gain = (gain * dt) • p6Velocity fr Md F 1 := by
  funext r
  cases fr <;> rcases r with i | i
  · show dt * (-gain * _) = gain * dt * (-1 * _); ring
  · show dt * (-gain * _) = gain * dt * (-1 * _); ring
  · show dt * (gain * _) = gain * dt * (1 * _); ring
  · show dt * (gain * _) = gain * dt * (1 * _); ring

/-- The start. -/
theorem p6_start (gain : ℝ) (selec : Flags.Flags) (dt th maxSq : ℝ) (fr : Frame) (o : OpPoint ℝ) (ref : Option (Pose ℝ)) {d : Dev ℝ}
    {b : Fin 6 → ℝ} (hst : d.state = nums (List.ofFn b ++ joints)) (hsh : d.stateSOUT = nums (List.ofFn b ++ joints)) :
    SInv [(p6Base fr o.transformation (goalOf ref)).task (6 + joints.length) gain selec] d
      (start (p6Loop svd (6 + joints.length) th maxSq fr o ref gain selec dt) d) (List.ofFn b ++ joints) :=
  ⟨.refl d, hst, hsh, by simp; omega, .cons (good_new _ _) .nil⟩

include hB hd in
/-- The parts of the error after a step. -/
theorem p6_parts {b b' : Fin 6 → ℝ} (hs : |1 - gain * dt| * len (rotPart (opError fr o ref b)) < Real.pi)
    (h : opPose o b' = (opPose o b).mul (exp6 (dt • pair (p6Velocity fr (goalOf ref) (opPose o b) gain)))) :
    rotPart (opError fr o ref b') = (1 - gain * dt) • rotPart (opError fr o ref b) ∧
    transPart (opError fr o ref b') = reduced (gain * dt) ((-(gain * dt)) • rotPart (opError fr o ref b)) (transPart (opError fr o ref b)) := by
  rw [← pair_smul, velocity_gain] at h
  obtain ⟨h1, h2⟩ := p6_moved fr hd (opPose_isRot hB b) (gain * dt)
  rw [← h] at h1 h2
  have hg : ∀ b, opError fr o ref b = errorFull fr (opPose o b) (some (goalOf ref)) := fun b => error_goal _ _ _
  rw [hg] at hs
  rw [hg, hg]
  refine ⟨?_, h2⟩
  show rotVec (relative fr (opPose o b') (some (goalOf ref))).R = _
  rw [h1, rotVec_exp3]
  rw [len_smul]
  exact hs

include ho hB hd hsel hth

/-- The whole trajectory, with the recursion of the position error. -/
theorem p6_trajectory {d : Dev ℝ} {b : Fin 6 → ℝ} (hm : d.mode = .oneInteg) (hs0 : d.sanity = false)
    (hst : d.state = nums (List.ofFn b ++ joints)) (hsh : d.stateSOUT = nums (List.ofFn b ++ joints)) (h0 : 0 < gain * dt)
    (h4 : Real.pi * (gain * dt) ≤ 4) (hq : gain * dt * len (rotPart (opError fr o ref b)) ≤ Real.pi / 2)
    (hs : P6Small th maxSq gain fr o.transformation (opError fr o ref b)) :
    ∃ base : Nat → Fin 6 → ℝ, base 0 = b ∧ ∀ k,
      (∃ s, steps (p6Loop svd (6 + joints.length) th maxSq fr o ref gain selec dt) k
          (start (p6Loop svd (6 + joints.length) th maxSq fr o ref gain selec dt) d) = .ok s ∧
        s.dev.state = nums (List.ofFn (base k) ++ joints) ∧ s.reports = List.replicate k []) ∧
      rotPart (opError fr o ref (base k)) = (1 - gain * dt) ^ k • rotPart (opError fr o ref b) ∧
      len (transPart (opError fr o ref (base (k + 1)))) ≤ len (transPart (opError fr o ref (base k))) ∧
      transPart (opError fr o ref (base (k + 1))) =
        reduced (gain * dt) ((-(gain * dt)) • rotPart (opError fr o ref (base k))) (transPart (opError fr o ref (base k))) := by
  set e : (Fin 6 → ℝ) → Fin 3 ⊕ Fin 3 → ℝ := opError fr o ref with he
  have h2 : gain * dt < 2 := by nlinarith [Real.pi_gt_three]
  have hc : |1 - gain * dt| < 1 := abs_lt.mpr ⟨by linarith, by linarith⟩
  have hck : ∀ k : Nat, |(1 - gain * dt) ^ k| ≤ 1 := fun k => by rw [abs_pow]; exact pow_le_one₀ (abs_nonneg _) hc.le
  obtain ⟨f, f0, fk⟩ := chain (α := St × (Fin 6 → ℝ))
    (P := fun k x => steps (p6Loop svd (6 + joints.length) th maxSq fr o ref gain selec dt) k
          (start (p6Loop svd (6 + joints.length) th maxSq fr o ref gain selec dt) d) = .ok x.1 ∧
        SInv [(p6Base fr o.transformation (goalOf ref)).task (6 + joints.length) gain selec] d x.1 (List.ofFn x.2 ++ joints) ∧
        x.1.reports = List.replicate k [] ∧ rotPart (e x.2) = (1 - gain * dt) ^ k • rotPart (e b) ∧
        len (transPart (e x.2)) ≤ len (transPart (e b)))
    (R := fun _ x y => len (transPart (e y.2)) ≤ len (transPart (e x.2)) ∧
      transPart (e y.2) = reduced (gain * dt) ((-(gain * dt)) • rotPart (e x.2)) (transPart (e x.2)))
    (a := (start (p6Loop svd (6 + joints.length) th maxSq fr o ref gain selec dt) d, b))
    ⟨rfl, p6_start svd gain selec dt th maxSq fr o ref hst hsh, rfl, by simp, le_rfl⟩ (by
      rintro k ⟨s, b1⟩ ⟨a1, a2, a3, a4, a5⟩
      simp only [] at a1 a2 a3 a4 a5
      have hr : len (rotPart (e b1)) ≤ len (rotPart (e b)) := by
        rw [a4, len_smul]
        have := mul_le_mul_of_nonneg_right (hck k) (len_nonneg (rotPart (e b)))
        linarith
      obtain ⟨s', b', e1, e2, e3, e4⟩ := p6_step svd (dt := dt) ho hB hd hsel hth hm hs0 a2 (hs.mono hr a5)
      have hbound : |1 - gain * dt| * len (rotPart (e b1)) < Real.pi := by
        have h1 := mul_le_mul_of_nonneg_left (opError_angle (fr := fr) hB hd b1) (abs_nonneg (1 - gain * dt))
        have h3 := mul_lt_mul_of_pos_right hc Real.pi_pos
        rw [one_mul] at h3
        exact lt_of_le_of_lt h1 h3
      obtain ⟨g1, g2⟩ := p6_parts hB hd hbound e4
      have hle : len (transPart (e b')) ≤ len (transPart (e b1)) := by
        show len (transPart (opError fr o ref b')) ≤ _
        rw [g2]
        refine reduced_len ?_ h0.le h4 _
        rw [len_smul, abs_neg, abs_of_pos h0]
        exact (mul_le_mul_of_nonneg_left hr h0.le).trans hq
      refine ⟨(s', b'), ⟨?_, e2, by simp only []; rw [e3, a3, ← List.replicate_succ'], ?_, hle.trans a5⟩, hle, g2⟩
      · show (steps _ k _).bind _ = _
        rw [a1]; exact e1
      · refine g1.trans ?_
        show (1 - gain * dt) • rotPart (e b1) = _
        rw [a4, smul_smul, pow_succ, mul_comm])
  refine ⟨fun k => (f k).2, by simp only []; rw [f0], fun k => ?_⟩
  obtain ⟨⟨a1, a2, a3, a4, -⟩, a6, a7⟩ := fk k
  exact ⟨⟨(f k).1, a1, a2.state, a3⟩, a4, a6, a7⟩

/-- **C147, one step.** During the period the operational point has a constant velocity in its own frame. With the desired frame: the
opposite of the way from the reference, seen from the point, and of the rotation error, times the gain. With the current frame: the way to the
reference, corrected by the turn of the point, and the rotation error, times the gain. -/
theorem C147_step {d : Dev ℝ} {b : Fin 6 → ℝ} (hm : d.mode = .oneInteg) (hs0 : d.sanity = false) (hst : d.state = nums (List.ofFn b ++ joints))
    (hsh : d.stateSOUT = nums (List.ofFn b ++ joints)) (hs : P6Small th maxSq gain fr o.transformation (opError fr o ref b)) :
    ∃ s b' N v w, steps (p6Loop svd (6 + joints.length) th maxSq fr o ref gain selec dt) 1 (start (p6Loop svd (6 + joints.length) th maxSq fr o ref gain selec dt) d) = .ok s ∧
      s.dev.state = nums (List.ofFn b' ++ joints) ∧ s.reports = [[]] ∧
      (∀ t, BodyTwist N v w t) ∧ N 0 = opPose o b ∧ N dt = opPose o b' ∧
      (fr = .desired → v = -gain • ((opPose o b).Rᵀ *ᵥ ((opPose o b).t - (goalOf ref).t)) ∧ w = -gain • rotPart (opError fr o ref b)) ∧
      (fr = .current → v = gain • ((opPose o b).Rᵀ *ᵥ ((goalOf ref).t - (opPose o b).t) +
          ((opPose o b).Rᵀ *ᵥ ((goalOf ref).t - (opPose o b).t)) ⨯₃ rotPart (opError fr o ref b)) ∧
        w = gain • rotPart (opError fr o ref b)) := by
  obtain ⟨s', b', e1, e2, e3, e4⟩ := p6_step svd (dt := dt) ho hB hd hsel hth hm hs0 (p6_start svd gain selec dt th maxSq fr o ref hst hsh) hs
  have hF := opPose_isRot hB b
  have hg : opError fr o ref b = errorFull fr (opPose o b) (some (goalOf ref)) := error_goal _ _ _
  refine ⟨s', b', fun t => (opPose o b).mul (exp6 (t • pair (p6Velocity fr (goalOf ref) (opPose o b) gain))),
    transPart (p6Velocity fr (goalOf ref) (opPose o b) gain), rotPart (p6Velocity fr (goalOf ref) (opPose o b) gain), e1, e2.state, e3,
    fun t => exp6_twist _ _ t, by simp only [zero_smul, exp6_zero, pose_mul_one], e4.symm, ?_, ?_⟩
  · rintro rfl
    rw [hg]
    refine ⟨?_, rfl⟩
    show -gain • (((goalOf ref).R⁻¹ * (opPose o b).R)ᵀ *ᵥ ((goalOf ref).R⁻¹ *ᵥ (opPose o b).t + -((goalOf ref).R⁻¹ *ᵥ (goalOf ref).t))) = _
    congr 1
    rw [← sub_eq_add_neg, ← mulVec_sub, mulVec_mulVec, transpose_mul, hd.inv_eq, transpose_transpose, Matrix.mul_assoc, hd.mul_transpose,
      Matrix.mul_one]
  · rintro rfl
    rw [hg]
    refine ⟨?_, rfl⟩
    show gain • (transPart (errorFull .current (opPose o b) (some (goalOf ref))) - skew (rotPart (errorFull .current (opPose o b) (some (goalOf ref)))) *ᵥ
      transPart (errorFull .current (opPose o b) (some (goalOf ref)))) = _
    congr 1
    rw [current_trans, cross_skew, skew_swap, hF.inv_eq, sub_neg_eq_add]

/-- **C147, trajectory.** Whatever the frame of the computation, when the base turns by at most a quarter of a turn in the first period and
the gain times the period is positive and at most `4 / π`: after `k` steps the rotation error is exactly the first one times `(1 - gain dt)^k`,
the position error never becomes longer, the joints do not move and no task is reported. -/
theorem C147_trajectory {d : Dev ℝ} {b : Fin 6 → ℝ} (hm : d.mode = .oneInteg) (hs0 : d.sanity = false)
    (hst : d.state = nums (List.ofFn b ++ joints)) (hsh : d.stateSOUT = nums (List.ofFn b ++ joints)) (h0 : 0 < gain * dt)
    (h4 : Real.pi * (gain * dt) ≤ 4) (hq : gain * dt * len (rotPart (opError fr o ref b)) ≤ Real.pi / 2)
    (hs : P6Small th maxSq gain fr o.transformation (opError fr o ref b)) :
    ∃ base : Nat → Fin 6 → ℝ, base 0 = b ∧ ∀ k,
      (∃ s, steps (p6Loop svd (6 + joints.length) th maxSq fr o ref gain selec dt) k (start (p6Loop svd (6 + joints.length) th maxSq fr o ref gain selec dt) d) = .ok s ∧ s.dev.state = nums (List.ofFn (base k) ++ joints) ∧ s.reports = List.replicate k []) ∧
      rotPart (opError fr o ref (base k)) = (1 - gain * dt) ^ k • rotPart (opError fr o ref b) ∧
      len (transPart (opError fr o ref (base (k + 1)))) ≤ len (transPart (opError fr o ref (base k))) := by
  obtain ⟨base, g0, g⟩ := p6_trajectory svd (dt := dt) ho hB hd hsel hth hm hs0 hst hsh h0 h4 hq hs
  exact ⟨base, g0, fun k => ⟨(g k).1, (g k).2.1, (g k).2.2.1⟩⟩

omit ho hsel hth in
/-- When the rotation error vanishes along a direction and the position error vanishes, the base tends to the pose where the operational point
is at its reference. -/
theorem p6_limit {base : Nat → Fin 6 → ℝ} {c : Nat → ℝ} {w : Fin 3 → ℝ} (hc0 : Tendsto c atTop (𝓝 0))
    (hrot : ∀ k, rotPart (opError fr o ref (base k)) = c k • w)
    (hz : Tendsto (fun k => len (transPart (opError fr o ref (base k)))) atTop (𝓝 0)) :
    (∀ r, Tendsto (fun k => opError fr o ref (base k) r) atTop (𝓝 0)) ∧
      (∀ i j, Tendsto (fun k => (poseRpyToHomo (base k)).R i j) atTop (𝓝 (((goalOf ref).mul o.transformation.inv).R i j))) ∧
      ∀ i, Tendsto (fun k => (poseRpyToHomo (base k)).t i) atTop (𝓝 (((goalOf ref).mul o.transformation.inv).t i)) := by
  set Md := goalOf ref with hMd
  set X : Nat → Pose ℝ := fun k => relative fr (opPose o (base k)) (some Md) with hX
  have hXr : ∀ k, IsRot (X k).R := fun k => rel_isRot fr (opPose_isRot hB _) hd
  have hg : ∀ b, opError fr o ref b = errorFull fr (opPose o b) (some Md) := fun b => error_goal _ _ _
  have hpos : ∀ i, Tendsto (fun k => transPart (opError fr o ref (base k)) i) atTop (𝓝 0) := fun i =>
    squeeze_zero_norm (fun k => by rw [Real.norm_eq_abs]; exact abs_le_len _ i) hz
  have hXt : Tendsto (fun k => (X k).t) atTop (𝓝 0) := tendsto_pi_nhds.mpr fun i =>
    (hpos i).congr fun k => by rw [hg]; rfl
  have hXR : Tendsto (fun k => (X k).R) atTop (𝓝 1) := by
    refine tendsto_pi_nhds.mpr fun i => tendsto_pi_nhds.mpr fun j => ?_
    have h1 := (exp3_deriv w 0 i j).continuousAt.tendsto.comp hc0
    rw [zero_smul, exp3_zero] at h1
    refine h1.congr fun k => ?_
    show exp3 (c k • w) i j = _
    rw [← hrot k, hg, ← exp3_rotVec (hXr k)]
    rfl
  have hXT : Tendsto (fun k => (X k).Rᵀ) atTop (𝓝 1) := by
    have hcont : Continuous fun Y : Matrix (Fin 3) (Fin 3) ℝ => Yᵀ := by fun_prop
    have := (hcont.tendsto 1).comp hXR
    rw [transpose_one] at this
    exact this
  -- the operational point
  have hF : Tendsto (fun k => (opPose o (base k)).R) atTop (𝓝 Md.R) ∧ Tendsto (fun k => (opPose o (base k)).t) atTop (𝓝 Md.t) := by
    cases fr
    · have he : ∀ k, opPose o (base k) = Md.mul (X k) := fun k => (Pose.mul_inv_mul hd).symm
      simp only [he, Pose.mul]
      constructor
      · have hcont : Continuous fun Y : Matrix (Fin 3) (Fin 3) ℝ => Md.R * Y := by fun_prop
        have := (hcont.tendsto 1).comp hXR
        rw [Matrix.mul_one] at this
        exact this
      · have hcont : Continuous fun y : Fin 3 → ℝ => Md.R *ᵥ y + Md.t := by fun_prop
        have := (hcont.tendsto 0).comp hXt
        rw [mulVec_zero, zero_add] at this
        exact this
    · have he : ∀ k, opPose o (base k) = Md.mul (X k).inv := fun k => by
        have h1 : Md = (opPose o (base k)).mul (X k) := (Pose.mul_inv_mul (opPose_isRot hB _)).symm
        rw [h1, pose_mul_assoc, mul_inv_self (hXr k), pose_mul_one]
      simp only [he, Pose.mul, Pose.inv, (hXr _).inv_eq]
      constructor
      · have hcont : Continuous fun Y : Matrix (Fin 3) (Fin 3) ℝ => Md.R * Y := by fun_prop
        have := (hcont.tendsto 1).comp hXT
        rw [Matrix.mul_one] at this
        exact this
      · have hcont : Continuous fun y : Matrix (Fin 3) (Fin 3) ℝ × (Fin 3 → ℝ) => Md.R *ᵥ (-(y.1 *ᵥ y.2)) + Md.t := by fun_prop
        have := (hcont.tendsto (1, 0)).comp (hXT.prodMk_nhds hXt)
        simp only [mulVec_zero, neg_zero, zero_add] at this
        exact this
  have hbase : ∀ k, poseRpyToHomo (base k) = (opPose o (base k)).mul o.transformation.inv := fun k => by
    rw [opPose, pose_mul_assoc, mul_inv_self hB, pose_mul_one]
  refine ⟨fun r => ?_, fun i j => ?_, fun i => ?_⟩
  · rcases r with i | i
    · exact hpos i
    · have h1 := hc0.mul_const (w i)
      rw [zero_mul] at h1
      exact h1.congr fun k => (congrFun (hrot k) i).symm
  · simp only [hbase, Pose.mul]
    have hcont : Continuous fun Y : Matrix (Fin 3) (Fin 3) ℝ => (Y * o.transformation.inv.R) i j := by fun_prop
    exact (hcont.tendsto _).comp hF.1
  · simp only [hbase, Pose.mul]
    have hcont : Continuous fun Y : Matrix (Fin 3) (Fin 3) ℝ × (Fin 3 → ℝ) => (Y.1 *ᵥ o.transformation.inv.t + Y.2) i := by fun_prop
    have := (hcont.tendsto (Md.R, Md.t)).comp (hF.1.prodMk_nhds hF.2)
    simpa only [Function.comp_def] using this

/-- **C147, convergence.** Under the same hypotheses the error tends to zero and the pose of the base to the only one where the operational
point is at its reference; the joints do not move. -/
theorem C147_converges {d : Dev ℝ} {b : Fin 6 → ℝ} (hm : d.mode = .oneInteg) (hs0 : d.sanity = false)
    (hst : d.state = nums (List.ofFn b ++ joints)) (hsh : d.stateSOUT = nums (List.ofFn b ++ joints)) (h0 : 0 < gain * dt)
    (h4 : Real.pi * (gain * dt) ≤ 4) (hq : gain * dt * len (rotPart (opError fr o ref b)) ≤ Real.pi / 2)
    (hs : P6Small th maxSq gain fr o.transformation (opError fr o ref b)) :
    ∃ (base : Nat → Fin 6 → ℝ) (goal : Pose ℝ), goal.mul o.transformation = goalOf ref ∧
      (∀ k, ∃ s, steps (p6Loop svd (6 + joints.length) th maxSq fr o ref gain selec dt) k (start (p6Loop svd (6 + joints.length) th maxSq fr o ref gain selec dt) d) = .ok s ∧ s.dev.state = nums (List.ofFn (base k) ++ joints)) ∧
      (∀ r, Tendsto (fun k => opError fr o ref (base k) r) atTop (𝓝 0)) ∧
      (∀ i j, Tendsto (fun k => (poseRpyToHomo (base k)).R i j) atTop (𝓝 (goal.R i j))) ∧
      ∀ i, Tendsto (fun k => (poseRpyToHomo (base k)).t i) atTop (𝓝 (goal.t i)) := by
  obtain ⟨base, g0, g⟩ := p6_trajectory svd (dt := dt) ho hB hd hsel hth hm hs0 hst hsh h0 h4 hq hs
  have h2 : gain * dt < 2 := by nlinarith [Real.pi_gt_three]
  obtain ⟨l1, l2, l3⟩ := p6_limit hB hd (fr := fr) (base := base)
    (tendsto_pow_atTop_nhds_zero_of_abs_lt_one (abs_lt.mpr ⟨by linarith, by linarith⟩)) (fun k => (g k).2.1)
    (reduced_tendsto h0 h2 (w := rotPart (opError fr o ref b)) fun k => by rw [← (g k).2.1]; exact (g k).2.2.2)
  refine ⟨base, (goalOf ref).mul o.transformation.inv, by rw [pose_mul_assoc, inv_mul_self hB, pose_mul_one], fun k => ?_, l1, l2, l3⟩
  obtain ⟨s, s1, s2, -⟩ := (g k).1
  exact ⟨s, s1, s2⟩

/-- **C147, any angle.** When the gain times the period is at most one half, there is no condition on the angle: even from the half turn, the
pose of the base converges to the one where the operational point is at its reference. -/
theorem C147_any_angle {d : Dev ℝ} {b : Fin 6 → ℝ} (hm : d.mode = .oneInteg) (hs0 : d.sanity = false)
    (hst : d.state = nums (List.ofFn b ++ joints)) (hsh : d.stateSOUT = nums (List.ofFn b ++ joints)) (h0 : 0 < gain * dt) (h2 : gain * dt ≤ 1 / 2)
    (hs : P6Small th maxSq gain fr o.transformation (opError fr o ref b)) :
    ∃ (base : Nat → Fin 6 → ℝ) (goal : Pose ℝ), goal.mul o.transformation = goalOf ref ∧
      (∀ k, ∃ s, steps (p6Loop svd (6 + joints.length) th maxSq fr o ref gain selec dt) k (start (p6Loop svd (6 + joints.length) th maxSq fr o ref gain selec dt) d) = .ok s ∧ s.dev.state = nums (List.ofFn (base k) ++ joints)) ∧
      (∀ i j, Tendsto (fun k => (poseRpyToHomo (base k)).R i j) atTop (𝓝 (goal.R i j))) ∧
      ∀ i, Tendsto (fun k => (poseRpyToHomo (base k)).t i) atTop (𝓝 (goal.t i)) := by
  have hpi := Real.pi_pos
  have ha := opError_angle (fr := fr) hB hd b
  obtain ⟨base, goal, g1, g2, -, g3, g4⟩ := C147_converges svd (dt := dt) ho hB hd hsel hth hm hs0 hst hsh h0
    (by nlinarith [Real.pi_lt_d2]) (by nlinarith [len_nonneg (rotPart (opError fr o ref b))]) hs
  exact ⟨base, goal, g1, g2, g3, g4⟩

/-- **C147, straight.** Without a rotation error, after `k` steps the whole error is the first one times `(1 - gain dt)^k`. -/
theorem C147_straight {d : Dev ℝ} {b : Fin 6 → ℝ} (hm : d.mode = .oneInteg) (hs0 : d.sanity = false)
    (hst : d.state = nums (List.ofFn b ++ joints)) (hsh : d.stateSOUT = nums (List.ofFn b ++ joints)) (h0 : 0 < gain * dt)
    (h4 : Real.pi * (gain * dt) ≤ 4) (hr : (opPose o b).R = (goalOf ref).R)
    (hs : P6Small th maxSq gain fr o.transformation (opError fr o ref b)) (k : Nat) :
    ∃ s b', steps (p6Loop svd (6 + joints.length) th maxSq fr o ref gain selec dt) k (start (p6Loop svd (6 + joints.length) th maxSq fr o ref gain selec dt) d) = .ok s ∧ s.dev.state = nums (List.ofFn b' ++ joints) ∧ s.reports = List.replicate k [] ∧
      opError fr o ref b' = (1 - gain * dt) ^ k • opError fr o ref b := by
  have hzero : rotPart (opError fr o ref b) = 0 := by
    rw [opError, error_goal]
    have h : (relative fr (opPose o b) (some (goalOf ref))).R = 1 := by
      cases fr
      · show (goalOf ref).R⁻¹ * (opPose o b).R = 1
        rw [hr, inv_mul_cancel' hd]
      · show (opPose o b).R⁻¹ * (goalOf ref).R = 1
        rw [hr, inv_mul_cancel' hd]
    show rotVec (relative fr (opPose o b) (some (goalOf ref))).R = 0
    rw [h]
    exact (rotVec_eq_zero isRot_one).mpr rfl
  obtain ⟨base, g0, g⟩ := p6_trajectory svd (dt := dt) ho hB hd hsel hth hm hs0 hst hsh h0 h4
    (by rw [hzero, len_zero, mul_zero]; linarith [Real.pi_pos]) hs
  obtain ⟨s, s1, s2, s3⟩ := (g k).1
  have ht : ∀ k, transPart (opError fr o ref (base k)) = (1 - gain * dt) ^ k • transPart (opError fr o ref b) := by
    intro k
    induction k with
    | zero => rw [g0, pow_zero, one_smul]
    | succ k ih => rw [(g k).2.2.2, (g k).2.1, hzero, smul_zero, smul_zero, reduced_zero, ih, smul_smul, pow_succ, mul_comm]
  refine ⟨s, base k, s1, s2, s3, ?_⟩
  rw [split6 (opError fr o ref (base k)), split6 (opError fr o ref b), ht k, (g k).2.1]
  funext r
  cases r <;> rfl

/-- **C147, in two steps.** When the gain times the period is one, the first step removes the rotation error, for any angle, and the second
one the position error: the operational point is exactly at its reference, and stays there. The limits allow the position error to
double. -/
theorem C147_twice {d : Dev ℝ} {b : Fin 6 → ℝ} (hm : d.mode = .oneInteg) (hs0 : d.sanity = false)
    (hst : d.state = nums (List.ofFn b ++ joints)) (hsh : d.stateSOUT = nums (List.ofFn b ++ joints)) (h1 : gain * dt = 1)
    (hs : P6Small th maxSq gain fr o.transformation
      (Sum.elim ((2 : ℝ) • transPart (opError fr o ref b)) (rotPart (opError fr o ref b)))) :
    (∃ s b', steps (p6Loop svd (6 + joints.length) th maxSq fr o ref gain selec dt) 1 (start (p6Loop svd (6 + joints.length) th maxSq fr o ref gain selec dt) d) = .ok s ∧ s.dev.state = nums (List.ofFn b' ++ joints) ∧ (opPose o b').R = (goalOf ref).R) ∧
    ∀ k, ∃ s b', steps (p6Loop svd (6 + joints.length) th maxSq fr o ref gain selec dt) (k + 2) (start (p6Loop svd (6 + joints.length) th maxSq fr o ref gain selec dt) d) = .ok s ∧ s.dev.state = nums (List.ofFn b' ++ joints) ∧ opPose o b' = goalOf ref := by
  have hg : ∀ b, opError fr o ref b = errorFull fr (opPose o b) (some (goalOf ref)) := fun b => error_goal _ _ _
  have hrot0 : ∀ b, rotPart (opError fr o ref b) = 0 → (opPose o b).R = (goalOf ref).R := by
    intro b h
    rw [hg] at h
    have hX := (rotVec_eq_zero (rel_isRot fr (opPose_isRot hB b) hd)).mp h
    cases fr
    · have : (goalOf ref).R⁻¹ * (opPose o b).R = 1 := hX
      have h2 := congrArg ((goalOf ref).R * ·) this
      simpa [← Matrix.mul_assoc, mul_inv_cancel' hd] using h2
    · have : (opPose o b).R⁻¹ * (goalOf ref).R = 1 := hX
      have h2 := congrArg ((opPose o b).R * ·) this
      simpa [← Matrix.mul_assoc, mul_inv_cancel' (opPose_isRot hB b)] using h2.symm
  have hl2 : len ((2 : ℝ) • transPart (opError fr o ref b)) = 2 * len (transPart (opError fr o ref b)) := by
    rw [len_smul, abs_of_pos two_pos]
  have hs1 : P6Small th maxSq gain fr o.transformation (opError fr o ref b) := hs.mono le_rfl (by
    show len (transPart (opError fr o ref b)) ≤ len ((2 : ℝ) • transPart (opError fr o ref b))
    rw [hl2]; linarith [len_nonneg (transPart (opError fr o ref b))])
  obtain ⟨s1, b1, e1, e2, -, e4⟩ := p6_step svd (dt := dt) ho hB hd hsel hth hm hs0 (p6_start svd gain selec dt th maxSq fr o ref hst hsh) hs1
  obtain ⟨m1, m2⟩ := p6_parts hB hd (by rw [h1, sub_self, abs_zero, zero_mul]; exact Real.pi_pos) e4
  rw [h1, sub_self, zero_smul] at m1
  rw [h1] at m2
  have hsm : P6Small th maxSq gain fr o.transformation (opError fr o ref b1) := hs.mono
    (by rw [m1, len_zero]; exact len_nonneg _) (by
      show len (transPart (opError fr o ref b1)) ≤ len ((2 : ℝ) • transPart (opError fr o ref b))
      rw [hl2, m2, reduced, one_smul, sub_eq_add_neg]
      refine (len_add _ _).trans ?_
      rw [show ∀ v : Fin 3 → ℝ, -v = (-1 : ℝ) • v from fun v => by simp, len_smul, abs_neg, abs_one, one_mul, two_mul]
      exact add_le_add le_rfl (leftJac_len _ _))
  refine ⟨⟨s1, b1, e1, e2.state, hrot0 _ m1⟩, fun k => ?_⟩
  have hnext : ∀ {s : St} {b2 : Fin 6 → ℝ},
      SInv [(p6Base fr o.transformation (goalOf ref)).task (6 + joints.length) gain selec] d s (List.ofFn b2 ++ joints) →
      rotPart (opError fr o ref b2) = 0 → P6Small th maxSq gain fr o.transformation (opError fr o ref b2) →
      ∃ s' b', step (p6Loop svd (6 + joints.length) th maxSq fr o ref gain selec dt) s = .ok s' ∧
        SInv [(p6Base fr o.transformation (goalOf ref)).task (6 + joints.length) gain selec] d s' (List.ofFn b' ++ joints) ∧
        opError fr o ref b' = 0 := by
    intro s b2 hi hR hsm
    obtain ⟨s', b', c1, c2, -, c4⟩ := p6_step svd (dt := dt) ho hB hd hsel hth hm hs0 hi hsm
    obtain ⟨n1, n2⟩ := p6_parts hB hd (by rw [h1, sub_self, abs_zero, zero_mul]; exact Real.pi_pos) c4
    rw [h1, sub_self, zero_smul] at n1
    rw [h1, hR, smul_zero, reduced_zero, sub_self, zero_smul] at n2
    refine ⟨s', b', c1, c2, ?_⟩
    rw [split6 (opError fr o ref b'), n1, n2]
    funext r; cases r <;> rfl
  suffices hk : ∃ s b', steps (p6Loop svd (6 + joints.length) th maxSq fr o ref gain selec dt) (k + 2) (start (p6Loop svd (6 + joints.length) th maxSq fr o ref gain selec dt) d) = .ok s ∧
      SInv [(p6Base fr o.transformation (goalOf ref)).task (6 + joints.length) gain selec] d s (List.ofFn b' ++ joints) ∧
      opError fr o ref b' = 0 by
    obtain ⟨s, b', a1, a2, a3⟩ := hk
    rw [hg] at a3
    exact ⟨s, b', a1, a2.state, (C93_error_zero fr _ _ (opPose_isRot hB b') hd).mp a3⟩
  induction k with
  | zero =>
    obtain ⟨s', b', c1, c2, c3⟩ := hnext e2 m1 hsm
    refine ⟨s', b', ?_, c2, c3⟩
    show (step _ _).bind _ = _
    rw [e1]
    exact c1
  | succ k ih =>
    obtain ⟨s, b2, a1, a2, a3⟩ := ih
    obtain ⟨s', b', c1, c2, c3⟩ := hnext a2 (by rw [a3]; rfl) (hs.mono
      (by rw [a3]; show len (0 : Fin 3 → ℝ) ≤ _; rw [len_zero]; exact len_nonneg _)
      (by rw [a3]; show len (0 : Fin 3 → ℝ) ≤ _; rw [len_zero]; exact len_nonneg _))
    refine ⟨s', b', ?_, c2, c3⟩
    show (steps _ (k + 2) _).bind _ = _
    rw [a1]; exact c1

omit ho hB hd hsel hth in
theorem exp3_opposite (w : Fin 3 → ℝ) : exp3 (-w) = (exp3 w)ᵀ := by
  unfold exp3
  rw [show len (-w) = len w by simp [len], poly_transpose]
  have hs : skew (-w) = -skew w := by
    ext i j
    fin_cases i <;> fin_cases j <;> simp [skew]
  rw [poly, poly, hs, neg_mul_neg, smul_neg, neg_smul]

omit ho hsel hth in
/-- What the two frames have in common, at a pose. -/
theorem frames_same (b : Fin 6 → ℝ) :
    len (rotPart (opError .current o ref b)) = len (rotPart (opError .desired o ref b)) ∧
    len (transPart (opError .current o ref b)) = len (transPart (opError .desired o ref b)) ∧
    (rotPart (opError .current o ref b) ⬝ᵥ transPart (opError .current o ref b)) ^ 2 =
      (rotPart (opError .desired o ref b) ⬝ᵥ transPart (opError .desired o ref b)) ^ 2 := by
  have hF := opPose_isRot hB b
  set F := opPose o b with hFdef
  set Md := goalOf ref with hMd
  have hg : ∀ fr, opError fr o ref b = errorFull fr F (some Md) := fun fr => error_goal _ _ _
  rw [hg, hg]
  set X : Matrix (Fin 3) (Fin 3) ℝ := Md.R⁻¹ * F.R with hXdef
  have hX : IsRot X := hd.inv.mul hF
  have ht : transPart (errorFull .current F (some Md)) = -(Xᵀ *ᵥ transPart (errorFull .desired F (some Md))) := by
    rw [current_trans]
    show _ = -(Xᵀ *ᵥ (Md.R⁻¹ *ᵥ F.t + -(Md.R⁻¹ *ᵥ Md.t)))
    rw [← sub_eq_add_neg, ← mulVec_sub, mulVec_mulVec, hXdef, transpose_mul, hd.inv_eq, transpose_transpose, Matrix.mul_assoc, hd.mul_transpose,
      Matrix.mul_one, ← mulVec_neg, neg_sub, hF.inv_eq]
  have hinv : F.R⁻¹ * Md.R = Xᵀ := by
    rw [hXdef, transpose_mul, hd.inv_eq, transpose_transpose, hF.inv_eq]
  have hrc : rotPart (errorFull .current F (some Md)) = rotVec Xᵀ := by
    rw [← hinv]; rfl
  have hrd : rotPart (errorFull .desired F (some Md)) = rotVec X := rfl
  have hlr : len (rotVec Xᵀ) = len (rotVec X) := by
    have h := (C93_rotation_bounded .current .desired F Md hF hd).2
    rw [← hrc, ← hrd]
    unfold len
    congr 1
    simp only [dotProduct, rotPart, ← pow_two]
    exact h
  refine ⟨by rw [hrc, hrd, hlr], ?_, ?_⟩
  · rw [ht, show ∀ v : Fin 3 → ℝ, -v = (-1 : ℝ) • v from fun v => by simp, len_smul, abs_neg, abs_one, one_mul, len_rot hX.transpose]
  · rw [hrc, ht, hrd]
    have hdot : rotVec X ⬝ᵥ (Xᵀ *ᵥ transPart (errorFull .desired F (some Md))) = rotVec X ⬝ᵥ transPart (errorFull .desired F (some Md)) := by
      rw [dotProduct_mulVec, vecMul_transpose, rotVec_fixed hX]
    rcases (angle_le_pi hX).lt_or_eq with h | h
    · have hl : len (rotVec X) < Real.pi := by
        unfold len
        rwa [rotVec_sq hX, Real.sqrt_sq (angle_nonneg hX)]
      have : rotVec Xᵀ = -rotVec X := by
        have h1 : Xᵀ = exp3 (-rotVec X) := by rw [exp3_opposite, exp3_rotVec hX]
        rw [h1, rotVec_exp3]
        rw [show -rotVec X = (-1 : ℝ) • rotVec X by simp, len_smul, abs_neg, abs_one, one_mul]
        exact hl
      rw [this, neg_dotProduct_neg, hdot]
    · have hl : len (rotVec X) = Real.pi := by
        unfold len
        rw [rotVec_sq hX, Real.sqrt_sq (angle_nonneg hX), h]
      have : Xᵀ = X := by
        have h1 := exp3_rotVec hX
        unfold exp3 at h1
        rw [hl, Real.sin_pi, zero_div] at h1
        rw [← h1, poly_transpose, neg_zero]
      rw [congrArg rotVec this, dotProduct_neg, neg_sq, hdot]

/-- **C147, the two frames.** From the same start, the computations in the frame of the reference and in the current frame do not move the
base in the same way, but at every date the two position errors have the same length, and so have the two rotation errors. -/
theorem C147_frames {d : Dev ℝ} {b : Fin 6 → ℝ} (hm : d.mode = .oneInteg) (hs0 : d.sanity = false)
    (hst : d.state = nums (List.ofFn b ++ joints)) (hsh : d.stateSOUT = nums (List.ofFn b ++ joints)) (h0 : 0 < gain * dt)
    (h4 : Real.pi * (gain * dt) ≤ 4) (hq : gain * dt * len (rotPart (opError .desired o ref b)) ≤ Real.pi / 2)
    (hs : ∀ fr, P6Small th maxSq gain fr o.transformation (opError fr o ref b)) :
    ∃ base : Frame → Nat → Fin 6 → ℝ,
      (∀ fr k, ∃ s, steps (p6Loop svd (6 + joints.length) th maxSq fr o ref gain selec dt) k
          (start (p6Loop svd (6 + joints.length) th maxSq fr o ref gain selec dt) d) = .ok s ∧
        s.dev.state = nums (List.ofFn (base fr k) ++ joints)) ∧
      ∀ k, len (transPart (opError .current o ref (base .current k))) = len (transPart (opError .desired o ref (base .desired k))) ∧
        len (rotPart (opError .current o ref (base .current k))) = len (rotPart (opError .desired o ref (base .desired k))) := by
  obtain ⟨q1, q2, q3⟩ := frames_same hB hd b
  obtain ⟨bc, c0, c⟩ := p6_trajectory svd (dt := dt) ho hB hd hsel hth hm hs0 hst hsh h0 h4 (by rw [q1]; exact hq) (hs .current)
  obtain ⟨bd, d0, d1⟩ := p6_trajectory svd (dt := dt) ho hB hd hsel hth hm hs0 hst hsh h0 h4 hq (hs .desired)
  refine ⟨fun fr => match fr with | .desired => bd | .current => bc, ?_, ?_⟩
  · rintro (_ | _) k
    · obtain ⟨s, s1, s2, -⟩ := (d1 k).1
      exact ⟨s, s1, s2⟩
    · obtain ⟨s, s1, s2, -⟩ := (c k).1
      exact ⟨s, s1, s2⟩
  simp only []
  have hr : ∀ k, len (rotPart (opError .current o ref (bc k))) = len (rotPart (opError .desired o ref (bd k))) := by
    intro k
    rw [(c k).2.1, (d1 k).2.1, len_smul, len_smul, q1]
  have hdot : ∀ fr (base : Nat → Fin 6 → ℝ) k,
      rotPart (opError fr o ref (base (k + 1))) = (1 - gain * dt) • rotPart (opError fr o ref (base k)) →
      transPart (opError fr o ref (base (k + 1))) =
        reduced (gain * dt) ((-(gain * dt)) • rotPart (opError fr o ref (base k))) (transPart (opError fr o ref (base k))) →
      rotPart (opError fr o ref (base (k + 1))) ⬝ᵥ transPart (opError fr o ref (base (k + 1))) =
        (1 - gain * dt) ^ 2 * (rotPart (opError fr o ref (base k)) ⬝ᵥ transPart (opError fr o ref (base k))) := by
    intro fr base k e1 e2
    have h := reduced_dot (gain * dt) ((-(gain * dt)) • rotPart (opError fr o ref (base k))) (transPart (opError fr o ref (base k)))
    rw [← e2, smul_dotProduct, smul_dotProduct, smul_eq_mul, smul_eq_mul] at h
    have h' : rotPart (opError fr o ref (base k)) ⬝ᵥ transPart (opError fr o ref (base (k + 1))) =
        (1 - gain * dt) * (rotPart (opError fr o ref (base k)) ⬝ᵥ transPart (opError fr o ref (base k))) := by
      refine mul_left_cancel₀ (neg_ne_zero.mpr h0.ne') ?_
      rw [h]; ring
    rw [e1, smul_dotProduct, h', smul_eq_mul]
    ring
  have hsucc : ∀ fr (base : Nat → Fin 6 → ℝ) k, (∀ k, rotPart (opError fr o ref (base k)) = (1 - gain * dt) ^ k • rotPart (opError fr o ref b)) →
      rotPart (opError fr o ref (base (k + 1))) = (1 - gain * dt) • rotPart (opError fr o ref (base k)) := by
    intro fr base k h
    rw [h (k + 1), h k, smul_smul, pow_succ, mul_comm]
  suffices hall : ∀ k, len (transPart (opError .current o ref (bc k))) = len (transPart (opError .desired o ref (bd k))) ∧
      (rotPart (opError .current o ref (bc k)) ⬝ᵥ transPart (opError .current o ref (bc k))) ^ 2 =
        (rotPart (opError .desired o ref (bd k)) ⬝ᵥ transPart (opError .desired o ref (bd k))) ^ 2 from
    fun k => ⟨(hall k).1, hr k⟩
  intro k
  induction k with
  | zero => rw [c0, d0]; exact ⟨q2, q3⟩
  | succ k ih =>
    refine ⟨?_, ?_⟩
    · rw [(c k).2.2.2, (d1 k).2.2.2]
      refine reduced_same _ ?_ ih.1 ?_
      · rw [len_smul, len_smul, hr k]
      · rw [smul_dotProduct, smul_dotProduct, smul_eq_mul, smul_eq_mul, mul_pow, mul_pow, ih.2]
    · rw [hdot .current bc k (hsucc _ _ k fun k => (c k).2.1) (c k).2.2.2, hdot .desired bd k (hsucc _ _ k fun k => (d1 k).2.1) (d1 k).2.2.2,
        mul_pow, mul_pow, ih.2]

/-- **C147, against the feature of the pose.** From the same start, away from the half turn, the feature of the six-dimensional position in the
frame of the reference and the feature of the relative pose with the R3xSO3 representation (C145) give the base the same pose at every
date. -/
theorem C147_pose_feature {d : Dev ℝ} {b : Fin 6 → ℝ} (hm : d.mode = .oneInteg) (hs0 : d.sanity = false)
    (hst : d.state = nums (List.ofFn b ++ joints)) (hsh : d.stateSOUT = nums (List.ofFn b ++ joints)) (h0 : 0 < gain * dt)
    (h4 : Real.pi * (gain * dt) ≤ 4) (hq : gain * dt * len (rotPart (poseDifference (goalOf ref) (opPose o b))) ≤ Real.pi / 2)
    (hs : R3Small th maxSq gain o.transformation (poseDifference (goalOf ref) (opPose o b))) :
    ∃ base base' : Nat → Fin 6 → ℝ,
      (∀ k, ∃ s, steps (p6Loop svd (6 + joints.length) th maxSq .desired o ref gain selec dt) k
          (start (p6Loop svd (6 + joints.length) th maxSq .desired o ref gain selec dt) d) = .ok s ∧
        s.dev.state = nums (List.ofFn (base k) ++ joints)) ∧
      (∀ k, ∃ s, steps (r3Loop svd (6 + joints.length) th maxSq ⟨1, 0⟩ ⟨1, 0⟩ o.transformation (goalOf ref) gain selec dt) k
          (start (r3Loop svd (6 + joints.length) th maxSq ⟨1, 0⟩ ⟨1, 0⟩ o.transformation (goalOf ref) gain selec dt) d) = .ok s ∧
        s.dev.state = nums (List.ofFn (base' k) ++ joints)) ∧
      ∀ k, poseRpyToHomo (base k) = poseRpyToHomo (base' k) := by
  have hg : ∀ b, opError .desired o ref b = errorFull .desired (opPose o b) (some (goalOf ref)) := fun b => error_goal _ _ _
  have hfa : ∀ b, faMfb ⟨1, 0⟩ ⟨1, 0⟩ (poseRpyToHomo b) o.transformation = opPose o b := fun b => by
    simp [faMfb, opPose, Pose.mul, Pose.inv]
  have hrot : ∀ b, rotPart (poseDifference (goalOf ref) (opPose o b)) = rotPart (opError .desired o ref b) := fun b => by
    rw [hg]
    show rotVec ((goalOf ref).Rᵀ * (opPose o b).R) = rotVec ((goalOf ref).R⁻¹ * (opPose o b).R)
    rw [hd.inv_eq]
  have htr : ∀ b, (goalOf ref).Rᵀ *ᵥ transPart (poseDifference (goalOf ref) (opPose o b)) = transPart (opError .desired o ref b) := fun b => by
    rw [hg]
    show (goalOf ref).Rᵀ *ᵥ ((opPose o b).t - (goalOf ref).t) = (goalOf ref).R⁻¹ *ᵥ (opPose o b).t + -((goalOf ref).R⁻¹ *ᵥ (goalOf ref).t)
    rw [mulVec_sub, sub_eq_add_neg, hd.inv_eq]
  have hsm : P6Small th maxSq gain .desired o.transformation (opError .desired o ref b) := by
    refine ⟨by simpa [lever] using hs.threshold, ?_⟩
    have := hs.limit
    rw [sum_sq, hrot] at this
    simp only [frameSq]
    rw [← htr b, len_rot hd.transpose]
    exact this
  obtain ⟨bp, p0, p⟩ := p6_trajectory svd (dt := dt) ho hB hd hsel hth hm hs0 hst hsh h0 h4 (by rw [← hrot]; exact hq) hsm
  obtain ⟨br, r0, r⟩ := r3_trajectory svd (dt := dt) (oMja := ⟨1, 0⟩) (jaMfa := ⟨1, 0⟩) isRot_one isRot_one hB hd hsel hth hm hs0 hst hsh h0.le h4
    (by rw [hfa]; exact hq) (by rw [hfa]; exact hs)
  simp only [hfa, hrot, htr] at r
  have he : ∀ k, transPart (opError .desired o ref (bp k)) = transPart (opError .desired o ref (br k)) := by
    intro k
    induction k with
    | zero => rw [p0, r0]
    | succ k ih => rw [(p k).2.2.2, (r k).2.2.2, ih, (p k).2.1, (r k).2.1]
  refine ⟨bp, br, fun k => ?_, fun k => ?_, fun k => ?_⟩
  · obtain ⟨s, s1, s2, -⟩ := (p k).1
    exact ⟨s, s1, s2⟩
  · obtain ⟨s, s1, s2, -⟩ := (r k).1
    exact ⟨s, s1, s2⟩
  · have hpose : ∀ b, opPose o b = (goalOf ref).mul ⟨exp3 (rotPart (opError .desired o ref b)), transPart (opError .desired o ref b)⟩ := by
      intro b
      rw [hg]
      show _ = (goalOf ref).mul ⟨exp3 (rotVec ((goalOf ref).R⁻¹ * (opPose o b).R)), _⟩
      rw [exp3_rotVec (hd.inv.mul (opPose_isRot hB b))]
      exact (Pose.mul_inv_mul hd).symm
    have h : opPose o (bp k) = opPose o (br k) := by
      rw [hpose (bp k), hpose (br k), he k, (p k).2.1, (r k).2.1]
    have hbase : ∀ b, poseRpyToHomo b = (opPose o b).mul o.transformation.inv := fun b => by
      rw [opPose, pose_mul_assoc, mul_inv_self hB, pose_mul_one]
    rw [hbase, hbase, h]

end

/-- The operational point is the base itself. -/
noncomputable def plain : OpPoint ℝ := ⟨⟨1, 0⟩, true⟩

/-- A base exactly half a turn away from the world and more than three meters away. -/
theorem half_case : ∃ b : Fin 6 → ℝ, poseRpyToHomo b = ⟨!![-1, 0, 0; 0, -1, 0; 0, 0, 1], ![1, 2, 3]⟩ ∧
    ∀ fr, len (transPart (opError fr plain (some ⟨1, 0⟩) b)) ^ 2 = 14 ∧ len (rotPart (opError fr plain (some ⟨1, 0⟩) b)) ^ 2 ≤ 10 := by
  have hpi := Real.pi_gt_three
  have hpi2 := Real.pi_lt_d2
  have hR : IsRot (!![-1, 0, 0; 0, -1, 0; 0, 0, 1] : Matrix (Fin 3) (Fin 3) ℝ) := by
    refine ⟨?_, ?_⟩
    · ext i j
      fin_cases i <;> fin_cases j <;> simp [Matrix.mul_apply, Fin.sum_univ_three]
    · simp [Matrix.det_fin_three]
  set b := homoToPoseRpy (⟨!![-1, 0, 0; 0, -1, 0; 0, 0, 1], ![1, 2, 3]⟩ : Pose ℝ) with hb
  have hpose : poseRpyToHomo b = ⟨!![-1, 0, 0; 0, -1, 0; 0, 0, 1], ![1, 2, 3]⟩ := C81_pose_rpy _ hR
  have hop : opPose plain b = ⟨!![-1, 0, 0; 0, -1, 0; 0, 0, 1], ![1, 2, 3]⟩ := by
    rw [opPose, hpose]; exact pose_mul_one _
  refine ⟨b, hpose, fun fr => ?_⟩
  have hang := opError_angle (fr := fr) (o := plain) (ref := some ⟨1, 0⟩) isRot_one isRot_one b
  have hsq : ∀ v : Fin 3 → ℝ, len v ^ 2 = v ⬝ᵥ v := len_sq
  have htr : len (transPart (opError fr plain (some ⟨1, 0⟩) b)) ^ 2 = 14 := by
    rw [opError, error_goal, hop, hsq]
    have h14 : (![1, 2, 3] : Fin 3 → ℝ) ⬝ᵥ ![1, 2, 3] = 14 := by
      simp [dotProduct, Fin.sum_univ_three]; norm_num
    cases fr
    · have h : transPart (errorFull .desired (⟨!![-1, 0, 0; 0, -1, 0; 0, 0, 1], ![1, 2, 3]⟩ : Pose ℝ) (some (goalOf (some ⟨1, 0⟩)))) = ![1, 2, 3] := by
        show (1 : Matrix (Fin 3) (Fin 3) ℝ)⁻¹ *ᵥ ![1, 2, 3] + -((1 : Matrix (Fin 3) (Fin 3) ℝ)⁻¹ *ᵥ 0) = _
        rw [inv_one, one_mulVec, mulVec_zero, neg_zero, add_zero]
      rw [h, h14]
    · rw [current_trans, hR.inv_eq, ← hsq, len_rot hR.transpose, hsq]
      show (0 - ![1, 2, 3] : Fin 3 → ℝ) ⬝ᵥ (0 - ![1, 2, 3]) = 14
      rw [zero_sub, neg_dotProduct_neg, h14]
  have hang2 : len (rotPart (opError fr plain (some ⟨1, 0⟩) b)) ^ 2 ≤ 10 := by
    nlinarith [len_nonneg (rotPart (opError fr plain (some ⟨1, 0⟩) b))]
  exact ⟨htr, hang2⟩

/-- **C147, case.** A base exactly half a turn away from the reference and more than three meters away, with two joints, the threshold
`1e-4`, the gain 5 and the period of a tenth of a second: the hypotheses hold in both frames, and the base converges to the reference. -/
theorem C147_case (svd : ∀ {m c : ℕ} (A : Matrix (Fin m) (Fin c) ℝ), Svd A) (fr : Frame) :
    ∃ (b : Fin 6 → ℝ) (d : Dev ℝ) (base : Nat → Fin 6 → ℝ), d.state = nums (List.ofFn b ++ [5, 7]) ∧
      (poseRpyToHomo b).R = !![-1, 0, 0; 0, -1, 0; 0, 0, 1] ∧ (poseRpyToHomo b).t = ![1, 2, 3] ∧
      (∀ k, ∃ s, steps (p6Loop svd 8 (1 / 10000) 10000 fr plain (some ⟨1, 0⟩) 5 (Flags.ofBool true) (1 / 10)) k
          (start (p6Loop svd 8 (1 / 10000) 10000 fr plain (some ⟨1, 0⟩) 5 (Flags.ofBool true) (1 / 10)) d) = .ok s ∧
        s.dev.state = nums (List.ofFn (base k) ++ [5, 7])) ∧
      (∀ i j, Tendsto (fun k => (poseRpyToHomo (base k)).R i j) atTop (𝓝 ((1 : Matrix (Fin 3) (Fin 3) ℝ) i j))) ∧
      ∀ i, Tendsto (fun k => (poseRpyToHomo (base k)).t i) atTop (𝓝 0) := by
  obtain ⟨b, hpose, hb⟩ := half_case
  obtain ⟨htr, hang2⟩ := hb fr
  have hs : P6Small (1 / 10000) 10000 5 fr plain.transformation (opError fr plain (some ⟨1, 0⟩) b) := by
    have h0 : len plain.transformation.t = 0 := len_zero
    cases fr
    · refine ⟨?_, ?_⟩
      · rw [h0]; simp only [lever]; norm_num
      · rw [h0]; simp only [frameSq]; rw [htr]; nlinarith
    · refine ⟨?_, ?_⟩
      · rw [h0]; simp only [lever]; rw [htr]; norm_num
      · rw [h0]; simp only [frameSq]; rw [htr]; nlinarith
  let d : Dev ℝ := { init with sanity := false, state := nums (List.ofFn b ++ [5, 7]), stateSOUT := nums (List.ofFn b ++ [5, 7]) }
  obtain ⟨base, goal, g1, g2, g3, g4⟩ := C147_any_angle svd (th := 1 / 10000) (maxSq := 10000) (fr := fr) (o := plain) (ref := some ⟨1, 0⟩) (gain := 5)
    (dt := 1 / 10) (joints := [5, 7]) (selec := Flags.ofBool true) rfl isRot_one isRot_one (fun j _ => by simp [Flags.call, Flags.ofBool])
    (by norm_num) (d := d) (b := b) rfl rfl rfl rfl (by norm_num) (by norm_num) hs
  have hgoal : goal = ⟨1, 0⟩ := (pose_mul_one goal).symm.trans g1
  rw [hgoal] at g3 g4
  exact ⟨b, d, base, rfl, by rw [hpose], by rw [hpose], g2, g3, g4⟩

/-- **C147, case in two steps.** The same start with the gain 5 and the period of a fifth of a second: at the second step the base is exactly
at the reference. -/
theorem C147_twice_case (svd : ∀ {m c : ℕ} (A : Matrix (Fin m) (Fin c) ℝ), Svd A) (fr : Frame) :
    ∃ (b : Fin 6 → ℝ) (d : Dev ℝ), d.state = nums (List.ofFn b ++ [5, 7]) ∧
      poseRpyToHomo b = ⟨!![-1, 0, 0; 0, -1, 0; 0, 0, 1], ![1, 2, 3]⟩ ∧
      ∀ k, ∃ s b', steps (p6Loop svd 8 (1 / 10000) 40000 fr plain (some ⟨1, 0⟩) 5 (Flags.ofBool true) (1 / 5)) (k + 2)
          (start (p6Loop svd 8 (1 / 10000) 40000 fr plain (some ⟨1, 0⟩) 5 (Flags.ofBool true) (1 / 5)) d) = .ok s ∧
        s.dev.state = nums (List.ofFn b' ++ [5, 7]) ∧ poseRpyToHomo b' = ⟨1, 0⟩ := by
  obtain ⟨b, hpose, hb⟩ := half_case
  obtain ⟨htr, hang2⟩ := hb fr
  have htr2 : len ((2 : ℝ) • transPart (opError fr plain (some ⟨1, 0⟩) b)) ^ 2 = 56 := by
    rw [len_smul, mul_pow, htr]; norm_num
  have hs : P6Small (1 / 10000) 40000 5 fr plain.transformation
      (Sum.elim ((2 : ℝ) • transPart (opError fr plain (some ⟨1, 0⟩) b)) (rotPart (opError fr plain (some ⟨1, 0⟩) b))) := by
    have h0 : len plain.transformation.t = 0 := len_zero
    have ht : ∀ u v : Fin 3 → ℝ, transPart (Sum.elim u v) = u ∧ rotPart (Sum.elim u v) = v := fun u v => ⟨rfl, rfl⟩
    cases fr
    · refine ⟨?_, ?_⟩
      · rw [h0]; simp only [lever]; norm_num
      · rw [h0]; simp only [frameSq]; rw [(ht _ _).1, (ht _ _).2, htr2]; nlinarith
    · refine ⟨?_, ?_⟩
      · rw [h0]; simp only [lever]; rw [(ht _ _).1, htr2]; norm_num
      · rw [h0]; simp only [frameSq]; rw [(ht _ _).1, (ht _ _).2, htr2]; nlinarith
  let d : Dev ℝ := { init with sanity := false, state := nums (List.ofFn b ++ [5, 7]), stateSOUT := nums (List.ofFn b ++ [5, 7]) }
  obtain ⟨-, g⟩ := C147_twice svd (th := 1 / 10000) (maxSq := 40000) (fr := fr) (o := plain) (ref := some ⟨1, 0⟩) (gain := 5)
    (dt := 1 / 5) (joints := [5, 7]) (selec := Flags.ofBool true) rfl isRot_one isRot_one (fun j _ => by simp [Flags.call, Flags.ofBool])
    (by norm_num) (d := d) (b := b) rfl rfl rfl rfl (by norm_num) hs
  refine ⟨b, d, rfl, hpose, fun k => ?_⟩
  obtain ⟨s, b', s1, s2, s3⟩ := g k
  exact ⟨s, b', s1, s2, (pose_mul_one _).symm.trans s3⟩

end Verif.Loop
