import Verif.Loop.WholeBody

/-!
# A task of six components on the base

What the closed loop of a single task on the base does, for any error and any Jacobian with six rows that depend on the pose of the base only.
-/

namespace Verif.Loop

open Matrix Verif.Sot Verif.Device Verif.Geometry Verif.Point6d Verif.Se3 Verif.Spatial Verif.Features Filter Topology

/-- An error with six components and its derivative for the velocity of the base in its own frame. -/
structure BaseFeat where
  E : Pose ℝ → Fin 3 ⊕ Fin 3 → ℝ
  K : Pose ℝ → Matrix (Fin 3 ⊕ Fin 3) (Fin 3 ⊕ Fin 3) ℝ

/-- The same, as a function of the joints. -/
noncomputable def BaseFeat.map (F : BaseFeat) (N : Nat) : Map N where
  m := 6
  f x i := at6 (F.E (basePose (List.ofFn x))) i.val
  J x i j := at6 (F.K (basePose (List.ofFn x)) * baseJac N) i.val j

/-- The task. -/
noncomputable def BaseFeat.task (F : BaseFeat) (N : Nat) (gain : ℝ) (selec : Flags.Flags) : MTask N := ⟨F.map N, gain, selec⟩

section
variable (svd : ∀ {m c : ℕ} (A : Matrix (Fin m) (Fin c) ℝ), Svd A) {N : Nat} {th maxSq : ℝ} {F : BaseFeat} {gain : ℝ}
  {selec : Flags.Flags} {dt : ℝ}

open scoped Classical in
theorem BaseFeat.jac_eq (hsel : ∀ j : Nat, j < 6 → Flags.call selec (j : Int) = .ok true) (x : Fin N → ℝ) :
    (F.task N gain selec).jac x = (F.map N).J x := by
  ext i j
  show (if Flags.call selec ((j.val : ℕ) : Int) = .ok true then (F.map N).J x i j else 0) = _
  split_ifs with h
  · rfl
  · have hj : ¬ j.val < 6 := fun hj => h (hsel j.val hj)
    have hz : ∀ r, baseJac N r j = 0 := by
      intro r
      rcases r with k | k
      · exact if_neg (by omega)
      · exact if_neg (by omega)
    have hall : ∀ r, (F.K (basePose (List.ofFn x)) * baseJac N) r j = 0 := by
      intro r
      rw [Matrix.mul_apply]
      exact Finset.sum_eq_zero fun k _ => by rw [hz, mul_zero]
    show (0 : ℝ) = at6 (F.K (basePose (List.ofFn x)) * baseJac N) i.val j
    unfold at6
    split_ifs <;> exact (hall _).symm

theorem BaseFeat.mulVec (hN : 6 ≤ N) (hsel : ∀ j : Nat, j < 6 → Flags.call selec (j : Int) = .ok true) (q : List ℝ) (w : Fin N → ℝ) (i : Fin 6) :
    ((F.task N gain selec).jac (vec N q) *ᵥ w) i = at6 (F.K (basePose q) *ᵥ headSix w) i.val := by
  have h0 : (F.task N gain selec).jac (vec N q) = (F.map N).J (vec N q) := BaseFeat.jac_eq hsel _
  refine (congrFun (congrArg (· *ᵥ w) h0) i).trans ?_
  rw [← baseJac_mulVec, mulVec_mulVec, ← at6_mulVec]
  show (fun j => at6 (F.K (basePose (List.ofFn (vec N q))) * baseJac N) i.val j) ⬝ᵥ w = _
  rw [basePose_vec hN]

theorem BaseFeat.met (hN : 6 ≤ N) (hsel : ∀ j : Nat, j < 6 → Flags.call selec (j : Int) = .ok true) (q : List ℝ) (w : Fin N → ℝ) :
    (F.task N gain selec).Met (vec N q) w ↔ F.K (basePose q) *ᵥ headSix w = -gain • F.E (basePose q) := by
  have hf : ∀ i : Fin 6, -(F.task N gain selec).gain * (F.task N gain selec).map.f (vec N q) i = at6 (-gain • F.E (basePose q)) i.val := by
    intro i
    rw [at6_smul]
    show -gain * at6 (F.E (basePose (List.ofFn (vec N q)))) i.val = _
    rw [basePose_vec hN]
  have hJ := fun i : Fin 6 => BaseFeat.mulVec (F := F) (gain := gain) hN hsel q w i
  constructor
  · intro h
    exact at6_inj fun i => by rw [← hJ, ← hf]; exact h i
  · intro h i
    refine (hJ i).trans (Eq.trans ?_ (hf i).symm)
    rw [h]

/-- What one step asks of a pose of the base and of a velocity: it is the one that the task wants, the Jacobian is regular for the threshold,
and the velocity is within the limit of the control. -/
structure BaseFeat.Ready (F : BaseFeat) (th maxSq gain : ℝ) (M : Pose ℝ) (v : Fin 3 ⊕ Fin 3 → ℝ) : Prop where
  solves : F.K M *ᵥ v = -gain • F.E M
  margin : ∃ a, th < a ∧ ∀ y, ∃ d, F.K M *ᵥ d = y ∧ a ^ 2 * (d ⬝ᵥ d) ≤ y ⬝ᵥ y
  limit : v ⬝ᵥ v ≤ maxSq

theorem BaseFeat.Ready.inj {M : Pose ℝ} {v : Fin 3 ⊕ Fin 3 → ℝ} (h : F.Ready th maxSq gain M v) {x y : Fin 3 ⊕ Fin 3 → ℝ}
    (he : F.K M *ᵥ x = F.K M *ᵥ y) : x = y := by
  obtain ⟨a, -, a2⟩ := h.margin
  have hs : Function.Surjective (F.K M).mulVec := fun y => by
    obtain ⟨d, d1, -⟩ := a2 y
    exact ⟨d, d1⟩
  exact Matrix.mulVec_injective_iff_isUnit.mpr (Matrix.mulVec_surjective_iff_isUnit.mp hs) he

/-- The control: the base has that velocity and the joints do not move. -/
theorem BaseFeat.control (hN : 6 ≤ N) (hsel : ∀ j : Nat, j < 6 → Flags.call selec (j : Int) = .ok true) (hth : 0 ≤ th) {s : St} {q : List ℝ}
    (hq : s.dev.stateSOUT = nums q) (hb : List.Forall₂ (fun t b => Good N t.map.m b) [F.task N gain selec] s.bufs) {v : Fin 3 ⊕ Fin 3 → ℝ}
    (hs : F.Ready th maxSq gain (basePose q) v) :
    ∃ bufs : List Buf, Loop.control (stackLoop svd N th maxSq freeFlyer [F.task N gain selec] dt) s = .ok (spread N v, [], bufs) ∧
      List.Forall₂ (fun t b => Good N t.map.m b) [F.task N gain selec] bufs := by
  set t := F.task N gain selec with ht
  have hmet := fun w => BaseFeat.met (F := F) (gain := gain) hN hsel q w
  have hmargin : Margin th [t] (vec N q) := by
    obtain ⟨a, a1, a2⟩ := hs.margin
    refine .inr ⟨a, a1, ?_⟩
    intro pre t' post hsplit y
    have hpre : pre = [] ∧ t' = t := by
      cases pre with
      | nil => simp at hsplit; exact ⟨rfl, hsplit.1.symm⟩
      | cons a l => simp at hsplit
    obtain ⟨rfl, rfl⟩ := hpre
    obtain ⟨z, hz⟩ := exists_at6 y
    obtain ⟨d, d1, d2⟩ := a2 z
    refine ⟨spread N d, by simp, ?_, ?_⟩
    · funext i
      refine (BaseFeat.mulVec hN hsel q _ i).trans ?_
      rw [headSix_spread hN, d1]
      exact hz i
    · have hy : y ⬝ᵥ y = z ⬝ᵥ z := by
        rw [← at6_sq z, show (fun i : Fin 6 => at6 z i.val) = y from funext hz]
        rfl
      rw [spread_sq hN]
      exact d2.trans_eq hy.symm
  have hw : t.Met (vec N q) (spread N v) := (hmet _).mpr (by rw [headSix_spread hN]; exact hs.solves)
  obtain ⟨u, bufs, c1, c2, c3, c4⟩ := control_stack svd (maxSq := maxSq) (by omega) hth freeFlyer (by simp) dt hq hb hmargin (spread N v)
    (by rw [spread_sq hN]; exact hs.limit) (by intro t' ht'; rw [List.mem_singleton.mp ht']; exact hw)
  have hu : u = spread N v := by
    by_contra hne
    have h1 := c4 _ (by intro t' ht'; rw [List.mem_singleton.mp ht']; exact hw) (Ne.symm hne)
    have h2 := hs.inj (((hmet u).mp (c3 t (by simp))).trans hs.solves.symm)
    have h3 := headSix_le hN u
    rw [h2, ← spread_sq hN] at h3
    linarith
  exact ⟨bufs, hu ▸ c1, c2⟩

/-- One step of the loop. -/
theorem BaseFeat.step {joints : List ℝ} (hn : 6 + joints.length = N) (hsel : ∀ j : Nat, j < 6 → Flags.call selec (j : Int) = .ok true) (hth : 0 ≤ th)
    {d0 : Dev ℝ} (hm : d0.mode = .oneInteg) (hs0 : d0.sanity = false) {s : St} {b : Fin 6 → ℝ}
    (hi : SInv [F.task N gain selec] d0 s (List.ofFn b ++ joints)) {v : Fin 3 ⊕ Fin 3 → ℝ}
    (hs : F.Ready th maxSq gain (poseRpyToHomo b) v) :
    ∃ s' b', Loop.step (stackLoop svd N th maxSq freeFlyer [F.task N gain selec] dt) s = .ok s' ∧
      SInv [F.task N gain selec] d0 s' (List.ofFn b' ++ joints) ∧ s'.reports = s.reports ++ [[]] ∧
      poseRpyToHomo b' = (poseRpyToHomo b).mul (exp6 (dt • pair v)) := by
  have hN : 6 ≤ N := by omega
  obtain ⟨bufs, c1, c2⟩ := BaseFeat.control svd (dt := dt) (maxSq := maxSq) hN hsel hth hi.shown hi.bufs (v := v) (by rw [basePose_app]; exact hs)
  obtain ⟨s', e1, e2, e3⟩ := step_base svd (dt := dt) hn hm hs0 hi c1 c2
  rw [spread_tail_list hN v _ hn, zipWith_zero, headSix_spread hN] at e2
  exact ⟨s', _, e1, e2, e3, C81_pose_rpy _ (moved_isRot _ _)⟩

end

end Verif.Loop
