import Verif.Loop.FreeFlyer6d

/-!
# A task on some of the components of a six-dimensional position

What the closed loop of a single task on the base does, for any error and any Jacobian that depend on the pose of the base only, with any
number of components; and the feature FeaturePoint6d (src/feature/feature-point6d.cpp) with a selection of its components, as such an error.
-/

namespace Verif.Loop

open Matrix Verif.Sot Verif.Device Verif.Geometry Verif.Point6d Verif.Se3 Verif.Spatial Verif.Features Filter Topology

/-- An error and its derivative for the velocity of the base in its own frame. -/
structure PartFeat where
  m : Nat
  E : Pose ℝ → Fin m → ℝ
  K : Pose ℝ → Matrix (Fin m) (Fin 3 ⊕ Fin 3) ℝ

/-- The same, as a function of the joints. -/
noncomputable def PartFeat.map (F : PartFeat) (N : Nat) : Map N where
  m := F.m
  f x i := F.E (basePose (List.ofFn x)) i
  J x := F.K (basePose (List.ofFn x)) * baseJac N

/-- The task. -/
noncomputable def PartFeat.task (F : PartFeat) (N : Nat) (gain : ℝ) (selec : Flags.Flags) : MTask N := ⟨F.map N, gain, selec⟩

section
variable (svd : ∀ {m c : ℕ} (A : Matrix (Fin m) (Fin c) ℝ), Svd A) {N : Nat} {th maxSq : ℝ} {F : PartFeat} {gain : ℝ}
  {selec : Flags.Flags} {dt : ℝ}

open scoped Classical in
theorem PartFeat.jac_eq (hsel : ∀ j : Nat, j < 6 → Flags.call selec (j : Int) = .ok true) (x : Fin N → ℝ) :
    (F.task N gain selec).jac x = (F.map N).J x := by
  ext i j
  show (if Flags.call selec ((j.val : ℕ) : Int) = .ok true then (F.map N).J x i j else 0) = _
  split_ifs with h
  · rfl
  · have hj : ¬ j.val < 6 := fun hj => h (hsel j.val hj)
    have hz : ∀ r, baseJac N r j = 0 := by
      intro r
      rcases r with k | k
      · exact if_neg (by omega)
      · exact if_neg (by omega)
    show (0 : ℝ) = ∑ k, F.K (basePose (List.ofFn x)) i k * baseJac N k j
    exact (Finset.sum_eq_zero fun k _ => by rw [hz, mul_zero]).symm

theorem PartFeat.mulVec (hN : 6 ≤ N) (hsel : ∀ j : Nat, j < 6 → Flags.call selec (j : Int) = .ok true) (q : List ℝ) (w : Fin N → ℝ) :
    (F.task N gain selec).jac (vec N q) *ᵥ w = F.K (basePose q) *ᵥ headSix w := by
  have h0 : (F.task N gain selec).jac (vec N q) = (F.map N).J (vec N q) := PartFeat.jac_eq hsel _
  refine (congrArg (· *ᵥ w) h0).trans ?_
  rw [← baseJac_mulVec, mulVec_mulVec]
  show (F.K (basePose (List.ofFn (vec N q))) * baseJac N) *ᵥ w = _
  rw [basePose_vec hN]

theorem PartFeat.met (hN : 6 ≤ N) (hsel : ∀ j : Nat, j < 6 → Flags.call selec (j : Int) = .ok true) (q : List ℝ) (w : Fin N → ℝ) :
    (F.task N gain selec).Met (vec N q) w ↔ F.K (basePose q) *ᵥ headSix w = -gain • F.E (basePose q) := by
  have hJ := PartFeat.mulVec (F := F) (gain := gain) hN hsel q w
  have hf : ∀ i : Fin F.m, -(F.task N gain selec).gain * (F.task N gain selec).map.f (vec N q) i = (-gain • F.E (basePose q)) i := by
    intro i
    show -gain * F.E (basePose (List.ofFn (vec N q))) i = _
    rw [basePose_vec hN]
    rfl
  constructor
  · intro h
    funext i
    rw [← hJ, ← hf]
    exact h i
  · intro h i
    refine (congrFun hJ i).trans (Eq.trans ?_ (hf i).symm)
    rw [h]

/-- What one step asks of a pose of the base and of a velocity: it is the shortest one that does what the task wants (it is a combination of
the rows of the Jacobian), the Jacobian is regular for the threshold, and the velocity is within the limit of the control. -/
structure PartFeat.Ready (F : PartFeat) (th maxSq gain : ℝ) (M : Pose ℝ) (v : Fin 3 ⊕ Fin 3 → ℝ) : Prop where
  solves : F.K M *ᵥ v = -gain • F.E M
  shortest : ∃ z, v = (F.K M)ᵀ *ᵥ z
  margin : ∃ a, th < a ∧ ∀ y, ∃ d, F.K M *ᵥ d = y ∧ a ^ 2 * (d ⬝ᵥ d) ≤ y ⬝ᵥ y
  limit : v ⬝ᵥ v ≤ maxSq

/-- The control: the base has that velocity and the joints do not move. -/
theorem PartFeat.control (hN : 6 ≤ N) (hsel : ∀ j : Nat, j < 6 → Flags.call selec (j : Int) = .ok true) (hth : 0 ≤ th) {s : St} {q : List ℝ}
    (hq : s.dev.stateSOUT = nums q) (hb : List.Forall₂ (fun t b => Good N t.map.m b) [F.task N gain selec] s.bufs) {v : Fin 3 ⊕ Fin 3 → ℝ}
    (hs : F.Ready th maxSq gain (basePose q) v) :
    ∃ bufs : List Buf, Loop.control (stackLoop svd N th maxSq freeFlyer [F.task N gain selec] dt) s = .ok (spread N v, [], bufs) ∧
      List.Forall₂ (fun t b => Good N t.map.m b) [F.task N gain selec] bufs := by
  set t := F.task N gain selec with ht
  have hmet := fun w => PartFeat.met (F := F) (gain := gain) hN hsel q w
  have hmargin : Margin th [t] (vec N q) := by
    obtain ⟨a, a1, a2⟩ := hs.margin
    refine .inr ⟨a, a1, ?_⟩
    intro pre t' post hsplit y
    have hpre : pre = [] ∧ t' = t := by
      cases pre with
      | nil => simp at hsplit; exact ⟨rfl, hsplit.1.symm⟩
      | cons a l => simp at hsplit
    obtain ⟨rfl, rfl⟩ := hpre
    obtain ⟨d, d1, d2⟩ := a2 y
    refine ⟨spread N d, by simp, ?_, ?_⟩
    · refine (PartFeat.mulVec hN hsel q _).trans ?_
      rw [headSix_spread hN, d1]
    · rw [spread_sq hN]
      exact d2
  have hw : t.Met (vec N q) (spread N v) := (hmet _).mpr (by rw [headSix_spread hN]; exact hs.solves)
  obtain ⟨u, bufs, c1, c2, c3, c4⟩ := control_stack svd (maxSq := maxSq) (by omega) hth freeFlyer (by simp) dt hq hb hmargin (spread N v)
    (by rw [spread_sq hN]; exact hs.limit) (by intro t' ht'; rw [List.mem_singleton.mp ht']; exact hw)
  have hu : u = spread N v := by
    by_contra hne
    have h1 := c4 _ (by intro t' ht'; rw [List.mem_singleton.mp ht']; exact hw) (Ne.symm hne)
    have h2 := ((hmet u).mp (c3 t (by simp))).trans hs.solves.symm
    obtain ⟨z, hz⟩ := hs.shortest
    have h4 : v ⬝ᵥ headSix u = v ⬝ᵥ v := by
      have : ∀ x, v ⬝ᵥ x = z ⬝ᵥ (F.K (basePose q) *ᵥ x) := fun x => by
        rw [dotProduct_mulVec, ← mulVec_transpose, ← hz]
      rw [this, this v, h2]
    have h5 : 0 ≤ (headSix u - v) ⬝ᵥ (headSix u - v) := by
      rw [dotProduct]
      exact Finset.sum_nonneg fun i _ => mul_self_nonneg _
    rw [sub_dotProduct, dotProduct_sub, dotProduct_sub, dotProduct_comm (headSix u) v, h4] at h5
    have h3 := headSix_le hN u
    rw [spread_sq hN] at h1
    linarith
  exact ⟨bufs, hu ▸ c1, c2⟩

/-- One step of the loop. -/
theorem PartFeat.step {joints : List ℝ} (hn : 6 + joints.length = N) (hsel : ∀ j : Nat, j < 6 → Flags.call selec (j : Int) = .ok true) (hth : 0 ≤ th)
    {d0 : Dev ℝ} (hm : d0.mode = .oneInteg) (hs0 : d0.sanity = false) {s : St} {b : Fin 6 → ℝ}
    (hi : SInv [F.task N gain selec] d0 s (List.ofFn b ++ joints)) {v : Fin 3 ⊕ Fin 3 → ℝ}
    (hs : F.Ready th maxSq gain (poseRpyToHomo b) v) :
    ∃ s' b', Loop.step (stackLoop svd N th maxSq freeFlyer [F.task N gain selec] dt) s = .ok s' ∧
      SInv [F.task N gain selec] d0 s' (List.ofFn b' ++ joints) ∧ s'.reports = s.reports ++ [[]] ∧
      poseRpyToHomo b' = (poseRpyToHomo b).mul (exp6 (dt • pair v)) := by
  have hN : 6 ≤ N := by omega
  obtain ⟨bufs, c1, c2⟩ := PartFeat.control svd (dt := dt) (maxSq := maxSq) hN hsel hth hi.shown hi.bufs (v := v) (by rw [basePose_app]; exact hs)
  obtain ⟨s', e1, e2, e3⟩ := step_base svd (dt := dt) hn hm hs0 hi c1 c2
  rw [spread_tail_list hN v _ hn, zipWith_zero, headSix_spread hN] at e2
  exact ⟨s', _, e1, e2, e3, C81_pose_rpy _ (moved_isRot _ _)⟩

/-- The start. -/
theorem PartFeat.start {joints : List ℝ} {d : Dev ℝ} {b : Fin 6 → ℝ} (hst : d.state = nums (List.ofFn b ++ joints))
    (hsh : d.stateSOUT = nums (List.ofFn b ++ joints)) (P : Params) (hP : P.tasks.length = 1) :
    SInv [F.task (6 + joints.length) gain selec] d (Loop.start P d) (List.ofFn b ++ joints) := by
  refine ⟨.refl d, hst, hsh, by simp; omega, ?_⟩
  show List.Forall₂ _ _ (P.tasks.map fun _ => Buf.new)
  obtain ⟨t, ht⟩ := List.length_eq_one_iff.mp hP
  rw [ht]
  exact .cons (good_new _ _) .nil

end

/-! ### The feature with a selection -/

/-- What the task reads from the feature (src/feature/feature-point6d.cpp:174-278, 292-352) whose selected components are those of `sel`,
and whose inputs are the outputs of the modifier of the operational point (src/math/op-point-modifier.cpp:68-122). -/
noncomputable def p6Sel (N : Nat) (fr : Frame) (sel : Nat → Bool) (o : OpPoint ℝ) (ref : Option (Pose ℝ)) : Feat where
  err q := computeError fr sel (opPosition o (basePose q)) ref (List.replicate (dimension sel) 0)
  jac q := (computeJacobian fr sel (opPosition o (basePose q)) ref (opJacobian o (baseJac N) (basePose q)) (List.replicate (dimension sel) 0)).map
    fun rows => ⟨dimension sel, N, fun i j => if h : j < N then (rows[i]?).map fun r => r ⟨j, h⟩ else none⟩

/-- A robot of `N` degrees of freedom driven by that task. -/
noncomputable def p6SelLoop (svd : ∀ {m c : ℕ} (A : Matrix (Fin m) (Fin c) ℝ), Svd A) (N : Nat) (th maxSq : ℝ) (fr : Frame) (sel : Nat → Bool)
    (o : OpPoint ℝ) (ref : Option (Pose ℝ)) (gain : ℝ) (selec : Flags.Flags) (dt : ℝ) : Params where
  svd := svd
  n := N
  th := th
  maxSq := maxSq
  ff := freeFlyer
  tasks := [⟨[p6Sel N fr sel o ref], gain, selec⟩]
  dt := dt

/-- All the components are those of the whole feature. -/
theorem p6Sel_all (N : Nat) (fr : Frame) (o : OpPoint ℝ) (ref : Option (Pose ℝ)) : p6Sel N fr (fun _ => true) o ref = p6Feat N fr o ref := rfl

/-- Some of the rows. -/
noncomputable def p6Rows (fr : Frame) (rows : List Nat) (B Md : Pose ℝ) : PartFeat where
  m := rows.length
  E M i := at6 (errorFull fr (M.mul B) (some Md)) rows[i]
  K M := Matrix.of fun i => at6 (jacobianFull fr (M.mul B) (some Md) (twist B.inv)) rows[i]

/-- The selected rows. -/
noncomputable def p6Part (fr : Frame) (sel : Nat → Bool) (B Md : Pose ℝ) : PartFeat := p6Rows fr (picked sel 6) B Md

theorem p6Sel_eq {N : Nat} (hN : 6 ≤ N) (fr : Frame) (sel : Nat → Bool) {o : OpPoint ℝ} (ho : o.isEndEffector = true) (ref : Option (Pose ℝ)) :
    p6Sel N fr sel o ref = ((p6Part fr sel o.transformation (goalOf ref)).map N).feat := by
  have hd : dimension sel = (picked sel 6).length :=
    (C93_selected (ι := Fin N) fr sel Pose.one none 0 0 (List.replicate (dimension sel) (0 : ℝ)) (List.replicate (dimension sel) 0)
      (by simp) (by simp)).1
  have he : ∀ q, (p6Sel N fr sel o ref).err q = ((p6Part fr sel o.transformation (goalOf ref)).map N).feat.err q := by
    intro q
    have h := (C93_selected (ι := Fin N) fr sel (opPosition o (basePose q)) ref 0 0 (List.replicate (dimension sel) (0 : ℝ))
      (List.replicate (dimension sel) 0) (by simp) (by simp)).2.1
    simp only [p6Sel, Map.feat]
    rw [h, error_goal]
    show _ = Outcome.ok (List.ofFn fun i : Fin (picked sel 6).length => at6 _ (picked sel 6)[i])
    rw [basePose_vec hN]
    congr 1
    apply List.ext_getElem
    · simp
    · intro i h1 h2
      simp [opPosition]
  have hj : ∀ q, (p6Sel N fr sel o ref).jac q = ((p6Part fr sel o.transformation (goalOf ref)).map N).feat.jac q := by
    intro q
    have h := (C93_selected fr sel (opPosition o (basePose q)) ref 0 (opJacobian o (baseJac N) (basePose q))
      (List.replicate (dimension sel) (0 : ℝ)) (List.replicate (dimension sel) (0 : Fin N → ℝ)) (by simp) (by simp)).2.2.1
    simp only [p6Sel, Map.feat]
    rw [h, Outcome.map_ok, jacobian_goal, opJacobian, if_pos ho, jacobian_mul]
    show Outcome.ok _ = Outcome.ok _
    have hm : ((p6Part fr sel o.transformation (goalOf ref)).map N).m = (picked sel 6).length := rfl
    have : ∀ i j, (if h : j < N then (((picked sel 6).map (at6 (jacobianFull fr (opPosition o (basePose q)) (some (goalOf ref))
        (twist o.transformation.inv) * baseJac N)))[i]?).map fun r => r ⟨j, h⟩ else none) =
        if h : i < (picked sel 6).length ∧ j < N then some (((p6Part fr sel o.transformation (goalOf ref)).K (basePose (List.ofFn (vec N q))) *
          baseJac N) ⟨i, h.1⟩ ⟨j, h.2⟩) else none := by
      intro i j
      rw [basePose_vec hN]
      by_cases hj : j < N
      · by_cases hi : i < (picked sel 6).length
        · rw [dif_pos hj, dif_pos ⟨hi, hj⟩, List.getElem?_map, List.getElem?_eq_getElem hi, Option.map_some, Option.map_some]
          congr 1
          show (at6 (jacobianFull fr (opPosition o (basePose q)) (some (goalOf ref)) (twist o.transformation.inv) * baseJac N)
            (picked sel 6)[i] : Fin N → ℝ) ⟨j, hj⟩ = ∑ k, (at6 (jacobianFull fr ((basePose q).mul o.transformation) (some (goalOf ref))
            (twist o.transformation.inv)) (picked sel 6)[i] : Fin 3 ⊕ Fin 3 → ℝ) k * baseJac N k ⟨j, hj⟩
          unfold at6
          split_ifs <;> rfl
        · rw [dif_pos hj, dif_neg (fun h => hi h.1), List.getElem?_eq_none (by simpa using hi)]
          rfl
      · rw [dif_neg hj, dif_neg (fun h => hj h.2)]
    simp only [this, hd]
    rfl
  unfold p6Sel at *
  unfold Map.feat at *
  rw [Feat.mk.injEq]
  exact ⟨funext he, funext hj⟩

theorem p6SelLoop_eq (svd : ∀ {m c : ℕ} (A : Matrix (Fin m) (Fin c) ℝ), Svd A) {N : Nat} (hN : 6 ≤ N) (th maxSq : ℝ) (fr : Frame)
    (sel : Nat → Bool) {o : OpPoint ℝ} (ho : o.isEndEffector = true) (ref : Option (Pose ℝ)) (gain : ℝ) (selec : Flags.Flags) (dt : ℝ) :
    p6SelLoop svd N th maxSq fr sel o ref gain selec dt =
      stackLoop svd N th maxSq freeFlyer [(p6Part fr sel o.transformation (goalOf ref)).task N gain selec] dt := by
  unfold p6SelLoop stackLoop
  rw [p6Sel_eq hN fr sel ho]
  rfl

end Verif.Loop
