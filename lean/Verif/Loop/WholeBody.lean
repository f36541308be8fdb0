import Verif.Loop.FreeFlyer

/-!
# C143: the base and the joints in one stack

A stack that holds the pose task of the base (`Verif/Loop/FreeFlyer.lean`) among tasks that depend on the joints only, in any order. The stack
computes the control of all of them at once; the theorems say that the base and the joints then move as if each kind of task was alone.
-/

namespace Verif.Loop

open Matrix Verif.Sot Verif.Device Verif.Geometry Verif.Point6d Verif.Se3 Verif.Spatial Verif.Features Filter Topology

/-- A robot of `N` degrees of freedom driven by the tasks `pre`, then the pose task of the base, then the tasks `post`. -/
noncomputable def wholeLoop (svd : ∀ {m c : ℕ} (A : Matrix (Fin m) (Fin c) ℝ), Svd A) (N : Nat) (th maxSq : ℝ) (oMja jaMfa jbMfb Mdes : Pose ℝ)
    (gain : ℝ) (selec : Flags.Flags) (pre post : List (MTask N)) (dt : ℝ) : Params where
  svd := svd
  n := N
  th := th
  maxSq := maxSq
  ff := freeFlyer
  tasks := (pre.map fun t => ⟨[t.map.feat], t.gain, t.selec⟩) ++ ⟨[poseFeat N oMja jaMfa jbMfb Mdes], gain, selec⟩ ::
    post.map fun t => ⟨[t.map.feat], t.gain, t.selec⟩
  dt := dt

theorem wholeLoop_eq (svd : ∀ {m c : ℕ} (A : Matrix (Fin m) (Fin c) ℝ), Svd A) {N : Nat} (hN : 6 ≤ N) (th maxSq : ℝ)
    (oMja jaMfa jbMfb Mdes : Pose ℝ) (gain : ℝ) (selec : Flags.Flags) (pre post : List (MTask N)) (dt : ℝ) :
    wholeLoop svd N th maxSq oMja jaMfa jbMfb Mdes gain selec pre post dt =
      stackLoop svd N th maxSq freeFlyer (pre ++ poseTask N oMja jaMfa jbMfb Mdes gain selec :: post) dt := by
  unfold wholeLoop stackLoop
  rw [poseFeat_eq hN]
  simp [poseTask]

/-! ### Vectors without base part -/

/-- The velocity without its base part. -/
def tail6 {N : Nat} (w : Fin N → ℝ) : Fin N → ℝ := fun j => if j.val < 6 then 0 else w j

theorem headSix_tail {N : Nat} (w : Fin N → ℝ) : headSix (tail6 w) = 0 := by
  funext r
  rcases r with i | i <;> fin_cases i <;> simp [headSix, tail6]

theorem tail_spread {N : Nat} (v : Fin 3 ⊕ Fin 3 → ℝ) : tail6 (spread N v) = 0 := by
  funext j
  by_cases h : j.val < 6 <;> simp [tail6, spread, h]

theorem tail_add {N : Nat} (v w : Fin N → ℝ) : tail6 (v + w) = tail6 v + tail6 w := by
  funext j
  by_cases h : j.val < 6 <;> simp [tail6, h]

theorem headSix_add {N : Nat} (v w : Fin N → ℝ) : headSix (v + w) = headSix v + headSix w := by
  funext r
  rcases r with i | i <;> simp only [headSix, Pi.add_apply] <;> split_ifs <;> simp

theorem dot_split {N : Nat} (hN : 6 ≤ N) (w : Fin N → ℝ) : w ⬝ᵥ w = headSix w ⬝ᵥ headSix w + tail6 w ⬝ᵥ tail6 w := by
  rw [← at6_sq]
  simp only [headSix_at6 hN]
  rw [dotProduct, sum_six hN, dotProduct, dotProduct]
  congr 1
  apply Finset.sum_congr rfl
  intro j _
  by_cases h : j.val < 6 <;> simp [tail6, h]

theorem split_six {N : Nat} (hN : 6 ≤ N) (w : Fin N → ℝ) : w = spread N (headSix w) + tail6 w := by
  funext j
  by_cases h : j.val < 6
  · have := headSix_at6 hN w ⟨j.val, h⟩
    simp only [Pi.add_apply, spread, tail6, h, if_true, add_zero]
    exact this.symm
  · simp [spread, tail6, h]

theorem MTask.Affine.jac_tail {N : Nat} {t : MTask N} (h : t.Affine) (x w : Fin N → ℝ) : t.jac x *ᵥ w = t.jac x *ᵥ tail6 w := by
  classical
  obtain ⟨A, b, -, h2, h3⟩ := h
  funext i
  simp only [Matrix.mulVec, dotProduct]
  apply Finset.sum_congr rfl
  intro j _
  by_cases hj : j.val < 6
  · have : t.jac x i j = 0 := by
      simp only [MTask.jac, Matrix.of_apply, h2, h3 i j (.inl hj), ite_self]
    rw [this, zero_mul, zero_mul]
  · simp [tail6, hj]

theorem MTask.Affine.f_tail {N : Nat} {t : MTask N} (h : t.Affine) {x y : Fin N → ℝ} (hxy : ∀ j : Fin N, 6 ≤ j.val → y j = x j) (i : Fin t.map.m) :
    t.map.f y i = t.map.f x i := by
  rw [h.moved x y 0 (fun j hj => by rw [hxy j hj]; simp), mulVec_zero]
  simp

theorem MTask.Affine.met_tail {N : Nat} {t : MTask N} (h : t.Affine) {x y : Fin N → ℝ} (hxy : ∀ j : Fin N, 6 ≤ j.val → y j = x j) (w : Fin N → ℝ) :
    t.Met y w ↔ t.Met x (tail6 w) := by
  unfold MTask.Met
  rw [h.jac_eq y x, h.jac_tail x w]
  constructor <;> intro hm i
  · rw [hm i, h.f_tail hxy]
  · rw [hm i, h.f_tail hxy]

/-! ### The control -/

theorem split_mid {A : Type} {pre post pre' post' : List A} {p t : A} (h : pre ++ p :: post = pre' ++ t :: post') :
    (pre' = pre ∧ t = p) ∨ ∃ l r, pre ++ post = l ++ t :: r ∧ ∀ x ∈ pre', x = p ∨ x ∈ l := by
  rcases List.append_eq_append_iff.mp h with ⟨m, h1, h2⟩ | ⟨m, h1, h2⟩
  · cases m with
    | nil => simp at h1 h2; exact .inl ⟨h1, h2.1.symm⟩
    | cons a m =>
      simp at h2
      obtain ⟨rfl, rfl⟩ := h2
      refine .inr ⟨pre ++ m, post', by simp, ?_⟩
      intro x hx
      rw [h1] at hx
      simp at hx ⊢
      tauto
  · cases m with
    | nil => simp at h1 h2; exact .inl ⟨h1.symm, h2.1⟩
    | cons a m =>
      simp at h2
      obtain ⟨rfl, rfl⟩ := h2
      refine .inr ⟨pre', m ++ post, by rw [h1]; simp, fun x hx => .inr hx⟩

section
variable (svd : ∀ {m c : ℕ} (A : Matrix (Fin m) (Fin c) ℝ), Svd A) {N : Nat} {th maxSq : ℝ} {oMja jaMfa jbMfb Mdes : Pose ℝ} {gain : ℝ}
  {selec : Flags.Flags} {dt : ℝ} {pre post : List (MTask N)}

/-- The margin of the whole stack. -/
theorem margin_whole (hN : 6 ≤ N) (ha : IsRot oMja.R) (hfa : IsRot jaMfa.R) (hfb : IsRot jbMfb.R) (hd : IsRot Mdes.R)
    (hsel : ∀ j : Nat, j < 6 → Flags.call selec (j : Int) = .ok true) (hth : 0 ≤ th) {q : List ℝ}
    (hs : Small th maxSq gain jbMfb (se3Difference Mdes (faMfb oMja jaMfa (basePose q) jbMfb)))
    (haff : ∀ t ∈ pre ++ post, t.Affine) (hm : Margin th (pre ++ post) (vec N q)) :
    Margin th (pre ++ poseTask N oMja jaMfa jbMfb Mdes gain selec :: post) (vec N q) := by
  rcases hm with hm | ⟨a, ha1, hm⟩
  · exact .inl hm
  obtain ⟨a', a1, a2⟩ := task_margin hN ha hfa hfb hd hsel hs
  refine .inr ⟨min a a', lt_min ha1 a1, fun pre' t post' hsplit y => ?_⟩
  have hmin : 0 ≤ min a a' := le_min (hth.trans ha1.le) (hth.trans a1.le)
  rcases split_mid hsplit with ⟨rfl, rfl⟩ | ⟨l, r, h1, h2⟩
  · obtain ⟨v, v1, v2⟩ := a2 y
    refine ⟨spread N v, fun p hp => ?_, v1, ?_⟩
    · rw [(haff p (by simp [hp])).jac_tail, tail_spread, mulVec_zero]
    · rw [spread_sq hN]
      refine le_trans ?_ v2
      have : 0 ≤ v ⬝ᵥ v := by rw [sum_sq]; positivity
      have := min_le_right a a'
      gcongr
  · obtain ⟨d, d1, d2, d3⟩ := hm l t r h1 y
    have hmem : ∀ p ∈ l, p.Affine := fun p hp => haff p (by rw [h1]; simp [hp])
    have htaff : t.Affine := haff t (by rw [h1]; simp)
    refine ⟨tail6 d, fun p hp => ?_, by rw [← htaff.jac_tail, d2], ?_⟩
    · rcases h2 p hp with rfl | hp
      · funext i
        refine (task_mulVec hN hsel q _ i).trans ?_
        rw [headSix_tail, mulVec_zero, mulVec_zero]
        unfold at6
        split_ifs <;> rfl
      · rw [← (hmem p hp).jac_tail]; exact d1 p hp
    · refine le_trans ?_ d3
      have h3 : tail6 d ⬝ᵥ tail6 d ≤ d ⬝ᵥ d := by
        rw [dot_split hN d]
        have : 0 ≤ headSix d ⬝ᵥ headSix d := by rw [sum_sq]; positivity
        linarith
      have h4 : 0 ≤ tail6 d ⬝ᵥ tail6 d := dot_self_nonneg _
      have := min_le_left a a'
      gcongr

/-- The control of the whole stack is the sum of the control of the pose task alone and of the control of the other tasks alone. -/
theorem control_whole (hN : 6 ≤ N) (ha : IsRot oMja.R) (hfa : IsRot jaMfa.R) (hfb : IsRot jbMfb.R) (hd : IsRot Mdes.R)
    (hsel : ∀ j : Nat, j < 6 → Flags.call selec (j : Int) = .ok true) (hth : 0 ≤ th) (hne : pre ++ post ≠ [])
    (haff : ∀ t ∈ pre ++ post, t.Affine) {s s2 : St} {q q2 : List ℝ} (hq : s.dev.stateSOUT = nums q) (hq2 : s2.dev.stateSOUT = nums q2)
    (hqq : ∀ j : Fin N, 6 ≤ j.val → vec N q2 j = vec N q j)
    (hb : List.Forall₂ (fun t b => Good N t.map.m b) (pre ++ poseTask N oMja jaMfa jbMfb Mdes gain selec :: post) s.bufs)
    (hb2 : List.Forall₂ (fun t b => Good N t.map.m b) (pre ++ post) s2.bufs)
    (hs : Small th maxSq gain jbMfb (se3Difference Mdes (faMfb oMja jaMfa (basePose q) jbMfb)))
    (hm : Margin th (pre ++ post) (vec N q)) (w : Fin N → ℝ)
    (hw : gain ^ 2 * (twist jbMfb *ᵥ se3Difference Mdes (faMfb oMja jaMfa (basePose q) jbMfb) ⬝ᵥ
      twist jbMfb *ᵥ se3Difference Mdes (faMfb oMja jaMfa (basePose q) jbMfb)) + w ⬝ᵥ w ≤ maxSq)
    (hmet : ∀ t ∈ pre ++ post, t.Met (vec N q) w) :
    ∃ (u : Fin N → ℝ) (bufs bufs2 : List Buf), control (stackLoop svd N th maxSq freeFlyer (pre ++ post) dt) s2 = .ok (u, [], bufs2) ∧
      control (stackLoop svd N th maxSq freeFlyer (pre ++ poseTask N oMja jaMfa jbMfb Mdes gain selec :: post) dt) s =
        .ok (spread N (twist jbMfb *ᵥ (-gain • se3Difference Mdes (faMfb oMja jaMfa (basePose q) jbMfb))) + u, [], bufs) ∧
      headSix u = 0 ∧ (∀ t ∈ pre ++ post, t.Met (vec N q) u) ∧
      List.Forall₂ (fun t b => Good N t.map.m b) (pre ++ poseTask N oMja jaMfa jbMfb Mdes gain selec :: post) bufs ∧
      List.Forall₂ (fun t b => Good N t.map.m b) (pre ++ post) bufs2 := by
  set e := se3Difference Mdes (faMfb oMja jaMfa (basePose q) jbMfb) with he
  set v := twist jbMfb *ᵥ (-gain • e) with hv
  have hvv : v ⬝ᵥ v = gain ^ 2 * (twist jbMfb *ᵥ e ⬝ᵥ twist jbMfb *ᵥ e) := by
    rw [hv, mulVec_smul, smul_dotProduct, dotProduct_smul, smul_eq_mul, smul_eq_mul]
    ring
  have hvp : 0 ≤ v ⬝ᵥ v := by rw [sum_sq]; positivity
  have hpm := fun w => task_met (gain := gain) hN ha hfa hfb hd hsel hs.angle w
  -- the joint tasks
  have hself : ∀ t ∈ pre ++ post, ∀ w, t.Met (vec N q) w ↔ t.Met (vec N q) (tail6 w) := fun t ht w =>
    (haff t ht).met_tail (fun _ _ => rfl) w
  have hcross : ∀ t ∈ pre ++ post, ∀ w, t.Met (vec N q2) w ↔ t.Met (vec N q) w := fun t ht w =>
    ((haff t ht).met_tail hqq w).trans (hself t ht w).symm
  obtain ⟨u, bufs2, c1, c2, c3, c4⟩ := control_stack svd (maxSq := maxSq) (by omega) hth freeFlyer hne dt hq2 hb2 (hm.affine haff) w
    (by rw [← hvv] at hw; linarith) (fun t ht => (hcross t ht w).mpr (hmet t ht))
  have hu3 : ∀ t ∈ pre ++ post, t.Met (vec N q) u := fun t ht => (hcross t ht u).mp (c3 t ht)
  have hu4 : ∀ v, (∀ t ∈ pre ++ post, t.Met (vec N q) v) → v ≠ u → u ⬝ᵥ u < v ⬝ᵥ v := fun v hv =>
    c4 v fun t ht => (hcross t ht v).mpr (hv t ht)
  have htu : tail6 u = u := by
    by_contra hne
    have h1 := hu4 (tail6 u) (fun t ht => (hself t ht u).mp (hu3 t ht)) hne
    have h2 := dot_split hN u
    have : 0 ≤ headSix u ⬝ᵥ headSix u := by rw [sum_sq]; positivity
    linarith
  have hhu : headSix u = 0 := by rw [← htu, headSix_tail]
  have hul : ∀ w, (∀ t ∈ pre ++ post, t.Met (vec N q) w) → u ⬝ᵥ u ≤ w ⬝ᵥ w := by
    intro w hw
    by_cases h : w = u
    · rw [h]
    · exact (hu4 w hw h).le
  have hsum : ∀ w : Fin N → ℝ, headSix w = 0 → (spread N v + w) ⬝ᵥ (spread N v + w) = v ⬝ᵥ v + tail6 w ⬝ᵥ tail6 w := by
    intro w hw
    rw [dot_split hN, headSix_add, headSix_spread hN, hw, add_zero, tail_add, tail_spread, zero_add]
  -- the whole stack
  have hall : ∀ x, (∀ t ∈ pre ++ post, t.Met (vec N q) x) → headSix x = v →
      ∀ t ∈ pre ++ poseTask N oMja jaMfa jbMfb Mdes gain selec :: post, t.Met (vec N q) x := by
    intro x hx hx6 t ht
    simp only [List.mem_append, List.mem_cons] at ht
    rcases ht with ht | rfl | ht
    · exact hx t (by simp [ht])
    · exact (hpm x).mpr hx6
    · exact hx t (by simp [ht])
  have hcand : ∀ t ∈ pre ++ poseTask N oMja jaMfa jbMfb Mdes gain selec :: post, t.Met (vec N q) (spread N v + u) := by
    refine hall _ (fun t ht => (hself t ht _).mpr ?_) ?_
    · rw [tail_add, tail_spread, zero_add, htu]; exact hu3 t ht
    · rw [headSix_add, headSix_spread hN, hhu, add_zero]
  have hlim : (spread N v + u) ⬝ᵥ (spread N v + u) ≤ maxSq := by
    rw [hsum u hhu, htu, hvv]
    have := hul w hmet
    linarith
  obtain ⟨u', bufs, g1, g2, g3, g4⟩ := control_stack svd (maxSq := maxSq) (by omega) hth freeFlyer (by simp) dt hq hb
    (margin_whole hN ha hfa hfb hd hsel hth hs haff hm) (spread N v + u) hlim hcand
  have hu' : u' = spread N v + u := by
    by_contra hne
    have h1 := g4 _ hcand (Ne.symm hne)
    have h2 : headSix u' = v := (hpm u').mp (g3 _ (by simp))
    have h3 : ∀ t ∈ pre ++ post, t.Met (vec N q) (tail6 u') := by
      intro t ht
      refine (hself t ht u').mp (g3 t ?_)
      simp only [List.mem_append, List.mem_cons] at ht ⊢
      tauto
    have h4 := hul _ h3
    rw [hsum u hhu, htu, dot_split hN u', h2] at h1
    linarith
  exact ⟨u, bufs, bufs2, c1, hu' ▸ g1, hhu, hu3, g2, c2⟩

/-! ### One step -/

theorem ofFn_split {n : Nat} (hn : 6 + n = N) (u : Fin N → ℝ) :
    List.ofFn u = (List.ofFn fun i : Fin 6 => at6 (headSix u) i.val) ++ List.ofFn fun i : Fin n => u ⟨6 + i.val, by omega⟩ := by
  subst hn
  apply List.ext_getElem
  · simp [-List.ofFn_succ]
  · intro i h1 h2
    rw [List.getElem_ofFn, List.getElem_append]
    by_cases h : i < 6
    · rw [dif_pos (by simp [-List.ofFn_succ, h]), List.getElem_ofFn]
      exact (headSix_at6 (by omega) u ⟨i, h⟩).symm
    · rw [dif_neg (by simp [-List.ofFn_succ, h]), List.getElem_ofFn]
      congr 1
      simp [-List.ofFn_succ]
      omega

/-- One step of a loop on a robot with a base. -/
theorem step_base {tasks : List (MTask N)} {joints : List ℝ} (hn : 6 + joints.length = N) {d0 : Dev ℝ} (hm : d0.mode = .oneInteg)
    (hs0 : d0.sanity = false) {s : St} {b : Fin 6 → ℝ} (hi : SInv tasks d0 s (List.ofFn b ++ joints)) {u : Fin N → ℝ} {bufs : List Buf}
    (hc : control (stackLoop svd N th maxSq freeFlyer tasks dt) s = .ok (u, [], bufs))
    (hb : List.Forall₂ (fun t b => Good N t.map.m b) tasks bufs) :
    ∃ s', step (stackLoop svd N th maxSq freeFlyer tasks dt) s = .ok s' ∧
      SInv tasks d0 s' (List.ofFn (homoToPoseRpy ((poseRpyToHomo b).mul (exp6 (dt • pair (headSix u))))) ++
        List.zipWith (fun x v => x + dt * v) joints (List.ofFn fun i : Fin joints.length => u ⟨6 + i.val, by omega⟩)) ∧
      s'.reports = s.reports ++ [[]] := by
  have hsz : (List.ofFn b ++ joints).length = N := hi.size
  obtain ⟨d', q', e1, e2, e3, e4, e5, -, -, -⟩ := device_step freeFlyer s.dev (List.ofFn b ++ joints) (List.ofFn u) dt
    (by rw [hi.settings.2.1, hm]) hi.state (by rw [hsz]; simp) (fun _ => by omega)
    (fun hl i => by rw [hi.state]; exact freeFlyer_numbers dt _ _ (by omega) hl i) (.inl (by rw [hi.settings.1, hs0]))
  obtain ⟨d'', g1, g2, -⟩ := velocity_step s.dev b (fun i => at6 (headSix u) i.val) joints
    (List.ofFn fun i : Fin joints.length => u ⟨6 + i.val, by omega⟩) dt (by rw [hi.settings.1, hs0])
    (by rw [hi.settings.2.1, hm]) hi.state (by simp)
  rw [← ofFn_split hn, e1, Outcome.ok.injEq] at g1
  subst g1
  rw [twistOf_at6] at g2
  have hq' := nums_inj (e2.symm.trans g2)
  refine ⟨⟨d', bufs, s.reports ++ [[]]⟩, ?_,
    ⟨hi.settings.trans e5, by rw [← hq']; exact e2, by rw [← hq']; exact e3, by rw [← hq', e4, hsz], hb⟩, rfl⟩
  unfold step
  rw [hc, Outcome.bind_ok]
  show (Device.increment freeFlyer s.dev (List.ofFn fun i => some (u i)) dt).map _ = _
  rw [ofFn_nums, e1]; rfl

theorem start_inv {tasks : List (MTask N)} {d : Dev ℝ} {q : List ℝ} (hst : d.state = nums q) (hsh : d.stateSOUT = nums q) (hq : q.length = N) :
    SInv tasks d (start (stackLoop svd N th maxSq freeFlyer tasks dt) d) q := by
  refine ⟨.refl d, hst, hsh, hq, ?_⟩
  show List.Forall₂ _ tasks (((tasks.map fun t => (⟨[t.map.feat], t.gain, t.selec⟩ : TaskDef))).map fun _ => Buf.new)
  induction tasks with
  | nil => exact .nil
  | cons t ts ih => exact .cons (good_new _ _) ih

theorem spread_tail_list (hN : 6 ≤ N) (v : Fin 3 ⊕ Fin 3 → ℝ) (n : Nat) (hn : 6 + n = N) :
    (List.ofFn fun i : Fin n => spread N v ⟨6 + i.val, by omega⟩) = List.replicate n 0 := by
  apply List.ext_getElem
  · simp
  · intro i h1 h2
    simp [spread]

theorem vec_app {b : Fin 6 → ℝ} {joints : List ℝ} (j : Fin N) (hj : 6 ≤ j.val) : vec N (List.ofFn b ++ joints) j = joints.getD (j.val - 6) 0 := by
  unfold vec
  rw [List.getD, List.getElem?_append_right (by simpa [-List.ofFn_succ] using hj), List.getD]
  simp [-List.ofFn_succ]

variable (ha : IsRot oMja.R) (hfa : IsRot jaMfa.R) (hfb : IsRot jbMfb.R) (hd : IsRot Mdes.R)
    (hsel : ∀ j : Nat, j < 6 → Flags.call selec (j : Int) = .ok true) (hth : 0 ≤ th) (hne : pre ++ post ≠ []) (haff : ∀ t ∈ pre ++ post, t.Affine)

include ha hfa hfb hd hsel hth hne haff

/-- **C143, the base and the joints do not disturb each other.** As long as some velocity of the joints meets the tasks of the joints, and stays
within the limit together with the velocity of the base, after `k` steps the base of the robot is the one that the pose task alone would have
given, and the joints are those that the other tasks alone would have given, whatever the place of the pose task in the stack. The error of the
pose task is the first one times `(1 - gain dt)^k`, the error of each other task is the first one times `(1 - its gain dt)^k`. No task is
reported. -/
theorem C143_decoupled {d : Dev ℝ} {b : Fin 6 → ℝ} {joints : List ℝ} (hn : 6 + joints.length = N) (hm : d.mode = .oneInteg) (hs0 : d.sanity = false)
    (hst : d.state = nums (List.ofFn b ++ joints)) (hsh : d.stateSOUT = nums (List.ofFn b ++ joints)) (h0 : 0 ≤ gain * dt) (h2 : gain * dt ≤ 2)
    (hs : Small th maxSq gain jbMfb (se3Difference Mdes (faMfb oMja jaMfa (poseRpyToHomo b) jbMfb)))
    (hmargin : Margin th (pre ++ post) (vec N (List.ofFn b ++ joints))) (k : Nat)
    (hw : ∀ j < k, ∃ w : Fin N → ℝ, gain ^ 2 * (twist jbMfb *ᵥ se3Difference Mdes (faMfb oMja jaMfa (poseRpyToHomo b) jbMfb) ⬝ᵥ
      twist jbMfb *ᵥ se3Difference Mdes (faMfb oMja jaMfa (poseRpyToHomo b) jbMfb)) + w ⬝ᵥ w ≤ maxSq ∧ ∀ t ∈ pre ++ post, ∀ i,
      (t.jac (vec N (List.ofFn b ++ joints)) *ᵥ w) i = -t.gain * ((1 - t.gain * dt) ^ j * t.map.f (vec N (List.ofFn b ++ joints)) i)) :
    ∃ (s s1 s2 : St) (b' b2 : Fin 6 → ℝ) (joints' : List ℝ), steps (wholeLoop svd N th maxSq oMja jaMfa jbMfb Mdes gain selec pre post dt) k
        (start (wholeLoop svd N th maxSq oMja jaMfa jbMfb Mdes gain selec pre post dt) d) = .ok s ∧
      steps (poseLoop svd N th maxSq oMja jaMfa jbMfb Mdes gain selec dt) k
        (start (poseLoop svd N th maxSq oMja jaMfa jbMfb Mdes gain selec dt) d) = .ok s1 ∧
      steps (stackLoop svd N th maxSq freeFlyer (pre ++ post) dt) k (start (stackLoop svd N th maxSq freeFlyer (pre ++ post) dt) d) = .ok s2 ∧
      s.dev.state = nums (List.ofFn b' ++ joints') ∧ s1.dev.state = nums (List.ofFn b' ++ joints) ∧
      s2.dev.state = nums (List.ofFn b2 ++ joints') ∧ joints'.length = joints.length ∧ s.reports = List.replicate k [] ∧
      se3Difference Mdes (faMfb oMja jaMfa (poseRpyToHomo b') jbMfb) =
        (1 - gain * dt) ^ k • se3Difference Mdes (faMfb oMja jaMfa (poseRpyToHomo b) jbMfb) ∧
      ∀ t ∈ pre ++ post, ∀ i, t.map.f (vec N (List.ofFn b' ++ joints')) i = (1 - t.gain * dt) ^ k * t.map.f (vec N (List.ofFn b ++ joints)) i := by
  have hN : 6 ≤ N := by omega
  rw [poseLoop_eq svd hN, wholeLoop_eq svd hN]
  set e := se3Difference Mdes (faMfb oMja jaMfa (poseRpyToHomo b) jbMfb) with he
  set P := poseTask N oMja jaMfa jbMfb Mdes gain selec with hP
  set x0 := vec N (List.ofFn b ++ joints) with hx0
  have hc : |1 - gain * dt| ≤ 1 := abs_le.mpr ⟨by linarith, by linarith⟩
  have hck : ∀ k : Nat, |(1 - gain * dt) ^ k| ≤ 1 := fun k => by rw [abs_pow]; exact pow_le_one₀ (abs_nonneg _) hc
  have hlen : (List.ofFn b ++ joints).length = N := by rw [List.length_append, List.length_ofFn, hn]
  suffices hk : ∃ (s s1 s2 : St) (b' b2 : Fin 6 → ℝ) (joints' : List ℝ), steps (stackLoop svd N th maxSq freeFlyer (pre ++ P :: post) dt) k
        (start (stackLoop svd N th maxSq freeFlyer (pre ++ P :: post) dt) d) = .ok s ∧
      steps (stackLoop svd N th maxSq freeFlyer [P] dt) k (start (stackLoop svd N th maxSq freeFlyer [P] dt) d) = .ok s1 ∧
      steps (stackLoop svd N th maxSq freeFlyer (pre ++ post) dt) k (start (stackLoop svd N th maxSq freeFlyer (pre ++ post) dt) d) = .ok s2 ∧
      SInv (pre ++ P :: post) d s (List.ofFn b' ++ joints') ∧ SInv [P] d s1 (List.ofFn b' ++ joints) ∧
      SInv (pre ++ post) d s2 (List.ofFn b2 ++ joints') ∧ joints'.length = joints.length ∧ s.reports = List.replicate k [] ∧
      se3Difference Mdes (faMfb oMja jaMfa (poseRpyToHomo b') jbMfb) = (1 - gain * dt) ^ k • e ∧
      ∀ t ∈ pre ++ post, ∀ i, t.map.f (vec N (List.ofFn b' ++ joints')) i = (1 - t.gain * dt) ^ k * t.map.f x0 i by
    obtain ⟨s, s1, s2, b', b2, joints', a1, a2, a3, a4, a5, a6, a7⟩ := hk
    exact ⟨s, s1, s2, b', b2, joints', a1, a2, a3, a4.state, a5.state, a6.state, a7⟩
  induction k with
  | zero =>
    exact ⟨_, _, _, b, b, joints, rfl, rfl, rfl, start_inv svd hst hsh hlen, start_inv svd hst hsh hlen, start_inv svd hst hsh hlen, rfl, rfl,
      by simp [he], fun t _ i => by simp [hx0]⟩
  | succ k ih =>
    obtain ⟨s, s1, s2, b', b2, joints', a1, a2, a3, a4, a5, a6, a7, a8, a9, a10⟩ := ih (fun j hj => hw j (by omega))
    obtain ⟨w, w1, w2⟩ := hw k (by omega)
    have hbp : ∀ l, basePose (List.ofFn b' ++ l) = poseRpyToHomo b' := basePose_app b'
    have hsm : Small th maxSq gain jbMfb (se3Difference Mdes (faMfb oMja jaMfa (poseRpyToHomo b') jbMfb)) := by
      rw [a9]; exact hs.scale (hck k)
    have hee : twist jbMfb *ᵥ ((1 - gain * dt) ^ k • e) ⬝ᵥ twist jbMfb *ᵥ ((1 - gain * dt) ^ k • e) ≤ twist jbMfb *ᵥ e ⬝ᵥ twist jbMfb *ᵥ e := by
      rw [mulVec_smul, smul_dotProduct, dotProduct_smul, smul_eq_mul, smul_eq_mul, ← mul_assoc, ← sq]
      have h1 : ((1 - gain * dt) ^ k) ^ 2 ≤ 1 := by rw [← sq_abs]; exact pow_le_one₀ (abs_nonneg _) (hck k)
      have h3 : 0 ≤ twist jbMfb *ᵥ e ⬝ᵥ twist jbMfb *ᵥ e := by rw [sum_sq]; positivity
      nlinarith
    obtain ⟨u, bufs, bufs2, c1, c2, c3, c4, c5, c6⟩ := control_whole svd (maxSq := maxSq) (dt := dt) (gain := gain) (pre := pre) (post := post)
      hN ha hfa hfb hd hsel hth hne haff (s := s) (s2 := s2) a4.shown a6.shown (fun j hj => by rw [vec_app j hj, vec_app j hj]) a4.bufs a6.bufs
      (by rw [hbp]; exact hsm) (hmargin.affine haff) w
      (by
        rw [hbp, a9]
        have := mul_le_mul_of_nonneg_left hee (sq_nonneg gain)
        linarith)
      (fun t ht i => by rw [(haff t ht).jac_eq _ x0, w2 t ht, a10 t ht])
    obtain ⟨bufs1, p1, p2⟩ := control_pose svd (dt := dt) (maxSq := maxSq) hN ha hfa hfb hd hsel hth a5.shown a5.bufs (by rw [hbp]; exact hsm)
    rw [hbp] at c2 p1
    set v := twist jbMfb *ᵥ (-gain • se3Difference Mdes (faMfb oMja jaMfa (poseRpyToHomo b') jbMfb)) with hv
    have hn' : 6 + joints'.length = N := by omega
    obtain ⟨t0, e1, e2, e3⟩ := step_base svd (dt := dt) hn' hm hs0 a4 c2 c5
    obtain ⟨t1, f1, f2, -⟩ := step_base svd (dt := dt) hn hm hs0 a5 p1 p2
    obtain ⟨t2, g1, g2, -⟩ := step_base svd (dt := dt) hn' hm hs0 a6 c1 c6
    have hh : headSix (spread N v + u) = v := by rw [headSix_add, headSix_spread hN, c3, add_zero]
    have hju : ∀ i : Fin joints'.length, (spread N v + u) ⟨6 + i.val, by omega⟩ = u ⟨6 + i.val, by omega⟩ := fun i => by simp [spread]
    rw [hh] at e2
    simp only [hju] at e2
    rw [headSix_spread hN, spread_tail_list hN v _ hn, zipWith_zero] at f2
    have hpose : poseRpyToHomo (homoToPoseRpy ((poseRpyToHomo b').mul (exp6 (dt • pair v)))) =
        (poseRpyToHomo b').mul (exp6 (pair (twist jbMfb *ᵥ (-(gain * dt) • se3Difference Mdes (faMfb oMja jaMfa (poseRpyToHomo b') jbMfb))))) := by
      rw [C81_pose_rpy _ (moved_isRot _ _), ← pair_smul, hv, ← mulVec_smul, smul_smul, show dt * -gain = -(gain * dt) by ring]
    refine ⟨t0, t1, t2, _, _, _, ?_, ?_, ?_, e2, f2, g2, ?_, by rw [e3, a8, ← List.replicate_succ'], ?_, ?_⟩
    · show (steps _ k _).bind _ = _
      rw [a1]; exact e1
    · show (steps _ k _).bind _ = _
      rw [a2]; exact f1
    · show (steps _ k _).bind _ = _
      rw [a3]; exact g1
    · simp [a7]
    · rw [hpose, error_moved ha hfa hfb hd (pose_isRot b'), a9, smul_smul, pow_succ, ← sub_eq_add_neg, mul_comm]
      rw [← sub_eq_add_neg]
      exact (hsm.scale hc).angle.trans_eq' (by
        rw [show rotPart ((1 - gain * dt) • se3Difference Mdes (faMfb oMja jaMfa (poseRpyToHomo b') jbMfb)) =
          (1 - gain * dt) • rotPart (se3Difference Mdes (faMfb oMja jaMfa (poseRpyToHomo b') jbMfb)) from rfl, len_smul])
    · intro t ht i
      rw [(haff t ht).moved (vec N (List.ofFn b' ++ joints')) _ (dt • u) ?_, mulVec_smul]
      · show _ + dt * (t.jac _ *ᵥ u) i = _
        rw [c4 t ht, a10 t ht]
        ring
      · intro j hj
        rw [vec_app j hj, vec_app j hj]
        have hjl : j.val - 6 < joints'.length := by have := j.isLt; omega
        simp only [List.getD, List.getElem?_zipWith, List.getElem?_eq_getElem hjl, List.getElem?_ofFn, dif_pos hjl, Option.getD_some, Pi.smul_apply,
          smul_eq_mul]
        congr 3
        exact Fin.ext (by simp; omega)

/-- **C143, convergence.** With the same gain `g` for all the tasks of the joints, if some velocity of the joints meets them at the start, within the
limit together with the velocity of the base, the pose of the base converges to the one where the frame of the feature has the desired pose, and
the joints converge to a place where the errors of all their tasks are zero, the nearest one to the start. -/
theorem C143_converges {d : Dev ℝ} {b : Fin 6 → ℝ} {joints : List ℝ} (hn : 6 + joints.length = N) (hm : d.mode = .oneInteg) (hs0 : d.sanity = false)
    (hst : d.state = nums (List.ofFn b ++ joints)) (hsh : d.stateSOUT = nums (List.ofFn b ++ joints)) (h0 : 0 < gain * dt) (h2 : gain * dt < 2)
    (hs : Small th maxSq gain jbMfb (se3Difference Mdes (faMfb oMja jaMfa (poseRpyToHomo b) jbMfb)))
    (hmargin : Margin th (pre ++ post) (vec N (List.ofFn b ++ joints))) {g : ℝ} (hg : ∀ t ∈ pre ++ post, t.gain = g) (g0 : 0 < g * dt) (g2 : g * dt < 2)
    (w : Fin N → ℝ) (hw : gain ^ 2 * (twist jbMfb *ᵥ se3Difference Mdes (faMfb oMja jaMfa (poseRpyToHomo b) jbMfb) ⬝ᵥ
      twist jbMfb *ᵥ se3Difference Mdes (faMfb oMja jaMfa (poseRpyToHomo b) jbMfb)) + w ⬝ᵥ w ≤ maxSq)
    (hmet : ∀ t ∈ pre ++ post, t.Met (vec N (List.ofFn b ++ joints)) w) :
    ∃ (base : Nat → Fin 6 → ℝ) (js : Nat → List ℝ) (goal : Pose ℝ) (place : Fin N → ℝ), faMfb oMja jaMfa goal jbMfb = Mdes ∧
      (∀ k, ∃ s, steps (wholeLoop svd N th maxSq oMja jaMfa jbMfb Mdes gain selec pre post dt) k
          (start (wholeLoop svd N th maxSq oMja jaMfa jbMfb Mdes gain selec pre post dt) d) = .ok s ∧
        s.dev.state = nums (List.ofFn (base k) ++ js k) ∧ s.reports = List.replicate k []) ∧
      (∀ i j, Tendsto (fun k => (poseRpyToHomo (base k)).R i j) atTop (𝓝 (goal.R i j))) ∧
      (∀ i, Tendsto (fun k => (poseRpyToHomo (base k)).t i) atTop (𝓝 (goal.t i))) ∧
      (∀ i : Fin N, 6 ≤ i.val → Tendsto (fun k => vec N (List.ofFn (base k) ++ js k) i) atTop (𝓝 (place i))) ∧
      (∀ t ∈ pre ++ post, ∀ i, t.map.f place i = 0) ∧
      ∀ z, (∀ t ∈ pre ++ post, ∀ i, t.map.f z i = 0) →
        (place - vec N (List.ofFn b ++ joints)) ⬝ᵥ (place - vec N (List.ofFn b ++ joints)) ≤
          (z - vec N (List.ofFn b ++ joints)) ⬝ᵥ (z - vec N (List.ofFn b ++ joints)) := by
  have hN : 6 ≤ N := by omega
  have hlen : (List.ofFn b ++ joints).length = N := by rw [List.length_append, List.length_ofFn, hn]
  have hww : w ⬝ᵥ w ≤ maxSq := by
    refine le_trans ?_ hw
    have : 0 ≤ twist jbMfb *ᵥ se3Difference Mdes (faMfb oMja jaMfa (poseRpyToHomo b) jbMfb) ⬝ᵥ
      twist jbMfb *ᵥ se3Difference Mdes (faMfb oMja jaMfa (poseRpyToHomo b) jbMfb) := by rw [sum_sq]; positivity
    have := mul_nonneg (sq_nonneg gain) this
    linarith
  obtain ⟨traj, place, t1, t2, t3, t4⟩ := C126_converges svd maxSq (⟨hN, hth, hne, haff, hmargin, freeFlyer_numbers dt, hlen, hm, hs0, hst, hsh⟩ :
    SSetup th freeFlyer (pre ++ post) dt d (List.ofFn b ++ joints)) hg g0 g2 w hww hmet
  have hdec := fun k => C143_decoupled svd (maxSq := maxSq) (dt := dt) (gain := gain) ha hfa hfb hd hsel hth hne haff hn hm hs0 hst hsh h0.le h2.le
    hs hmargin k (fun j _ => ⟨(1 - g * dt) ^ j • w, by
      rw [smul_dotProduct, dotProduct_smul, smul_eq_mul, smul_eq_mul, ← mul_assoc, ← sq]
      have h1 : ((1 - g * dt) ^ j) ^ 2 ≤ 1 := by
        rw [← sq_abs, abs_pow]
        exact pow_le_one₀ (by positivity) (pow_le_one₀ (abs_nonneg _) (abs_le.mpr ⟨by linarith, by linarith⟩))
      have h3 : 0 ≤ w ⬝ᵥ w := dot_self_nonneg w
      nlinarith, fun t ht i => by
      rw [mulVec_smul]
      show (1 - g * dt) ^ j * (t.jac _ *ᵥ w) i = _
      rw [hmet t ht i, hg t ht]
      ring⟩)
  choose s s1 s2 base b2 js r1 r2 r3 r4 r5 r6 r7 r8 r9 r10 using hdec
  subst hn
  obtain ⟨base1, goal, c1, c2, c3, c4⟩ := C142_converges svd (dt := dt) ha hfa hfb hd hsel hth hm hs0 hst hsh h0 h2 hs
  have hbase : base1 = base := by
    funext k
    obtain ⟨x, x1, x2⟩ := c2 k
    rw [r2 k, Outcome.ok.injEq] at x1
    subst x1
    have h := nums_inj ((r5 k).symm.trans x2)
    exact (List.ofFn_injective (List.append_inj_left h (by simp))).symm
  subst hbase
  refine ⟨base1, js, goal, place, c1, fun k => ⟨s k, r1 k, r4 k, r8 k⟩, c3, c4, fun i hi => ?_, t3, t4⟩
  have hjs : ∀ k, vec _ (List.ofFn (base1 k) ++ js k) i = vec _ (traj k) i := by
    intro k
    obtain ⟨x, x1, x2, -⟩ := t1 k
    rw [r3 k, Outcome.ok.injEq] at x1
    subst x1
    rw [← nums_inj ((r6 k).symm.trans x2), vec_app i hi, vec_app i hi]
  simp only [hjs]
  exact t2 i hi

end

/-! ### A case -/

/-- The two tasks of the joints of the case have a margin. -/
theorem rows_margin (b b' : ℝ) (x : Fin 8 → ℝ) : Margin (1 / 10000) ([rowTask c6 b 10] ++ [rowTask c67 b' 10]) x := by
  have hj : ∀ (c : Fin 8 → ℝ) (b : ℝ) (w : Fin 8 → ℝ), (rowTask c b 10).jac x *ᵥ w = fun _ => c ⬝ᵥ w := by
    intro c b w
    funext i
    unfold Matrix.mulVec
    congr 1
  refine .inr ⟨1 / 2, by norm_num, fun pre t post h y => ?_⟩
  match pre, h with
  | [], h =>
    simp only [List.cons_append, List.nil_append, List.cons.injEq] at h
    obtain ⟨rfl, -⟩ := h
    refine ⟨fun j => if j = 6 then y (0 : Fin 1) else 0, by simp, ?_, ?_⟩
    · rw [hj]; funext i
      have : i = (0 : Fin 1) := Subsingleton.elim (α := Fin 1) _ _
      rw [this]
      simp [c6, dotProduct, Fin.sum_univ_eight]
    · have hy : y ⬝ᵥ y = y (0 : Fin 1) * y (0 : Fin 1) := Fin.sum_univ_one (f := fun i : Fin 1 => y i * y i)
      rw [hy]
      simp [dotProduct, Fin.sum_univ_eight]
      nlinarith [mul_self_nonneg (y (0 : Fin 1))]
  | [p], h =>
    simp only [List.cons_append, List.nil_append, List.cons.injEq] at h
    obtain ⟨rfl, rfl, -⟩ := h
    refine ⟨fun j => if j = 7 then y (0 : Fin 1) else 0, ?_, ?_, ?_⟩
    · intro p hp
      rw [List.mem_singleton.mp hp, hj]
      funext i
      simp [c6, dotProduct, Fin.sum_univ_eight]
    · rw [hj]; funext i
      have : i = (0 : Fin 1) := Subsingleton.elim (α := Fin 1) _ _
      rw [this]
      simp [c67, dotProduct, Fin.sum_univ_eight]
    · have hy : y ⬝ᵥ y = y (0 : Fin 1) * y (0 : Fin 1) := Fin.sum_univ_one (f := fun i : Fin 1 => y i * y i)
      rw [hy]
      simp [dotProduct, Fin.sum_univ_eight]
      nlinarith [mul_self_nonneg (y (0 : Fin 1))]
  | p :: p' :: l, h => simp at h

/-- **C143, case.** The base of `C142_case`, with the pose task between two tasks of the joints: the joint 6 has to be at one and its sum with the
joint 7 at three. The hypotheses hold; the base converges to the desired pose and the joints to one and two. -/
theorem C143_case (svd : ∀ {m c : ℕ} (A : Matrix (Fin m) (Fin c) ℝ), Svd A) :
    ∃ (b : Fin 6 → ℝ) (d : Dev ℝ) (base : Nat → Fin 6 → ℝ) (js : Nat → List ℝ), d.state = nums (List.ofFn b ++ [5, 7]) ∧
      (∀ k, ∃ s, steps (wholeLoop svd 8 (1 / 10000) 10000 ⟨1, 0⟩ ⟨1, 0⟩ ⟨1, 0⟩ ⟨1, 0⟩ 10 (Flags.ofBool true) [rowTask c6 1 10] [rowTask c67 3 10] (1 / 100)) k
          (start (wholeLoop svd 8 (1 / 10000) 10000 ⟨1, 0⟩ ⟨1, 0⟩ ⟨1, 0⟩ ⟨1, 0⟩ 10 (Flags.ofBool true) [rowTask c6 1 10] [rowTask c67 3 10] (1 / 100)) d) = .ok s ∧
        s.dev.state = nums (List.ofFn (base k) ++ js k) ∧ s.reports = List.replicate k []) ∧
      (∀ i, Tendsto (fun k => (poseRpyToHomo (base k)).t i) atTop (𝓝 0)) ∧
      Tendsto (fun k => vec 8 (List.ofFn (base k) ++ js k) 6) atTop (𝓝 1) ∧ Tendsto (fun k => vec 8 (List.ofFn (base k) ++ js k) 7) atTop (𝓝 2) := by
  set b := homoToPoseRpy (exp6 caseError) with hb
  have hpose : poseRpyToHomo b = exp6 caseError := C81_pose_rpy _ (isRot_exp6 _)
  have hl : len caseError.2 = 1 := by
    simp [caseError, len, dotProduct, Fin.sum_univ_three]
  have he : se3Difference ⟨1, 0⟩ (faMfb ⟨1, 0⟩ ⟨1, 0⟩ (poseRpyToHomo b) ⟨1, 0⟩) = Sum.elim ![1, 2, 3] ![0, 0, 1] := by
    rw [faMfb_one, se3Difference, one_inv_mul, hpose, log6_exp6 (by rw [hl]; linarith [Real.pi_gt_three])]
    rfl
  have htone : twist (⟨1, 0⟩ : Pose ℝ) = 1 := by
    rw [twist, show skew (0 : Fin 3 → ℝ) = 0 from skew_zero, Matrix.zero_mul, fromBlocks_one]
  have hsmall : Small (1 / 10000) 10000 10 ⟨1, 0⟩ (se3Difference ⟨1, 0⟩ (faMfb ⟨1, 0⟩ ⟨1, 0⟩ (poseRpyToHomo b) ⟨1, 0⟩)) := by
    rw [he]
    refine ⟨?_, ?_, ?_⟩
    · show len ![0, 0, 1] < _
      have : len ![(0 : ℝ), 0, 1] = 1 := hl
      rw [this]; linarith [Real.pi_gt_three]
    · show (1 / 10000 : ℝ) ^ 2 * ((2 + len (0 : Fin 3 → ℝ) ^ 2) * (2 + (3 * len ![1, 2, 3]) ^ 2)) < 1
      rw [mul_pow, len_sq, len_sq]
      simp [dotProduct, Fin.sum_univ_three]
      norm_num
    · rw [htone, one_mulVec]
      simp [dotProduct, Fintype.sum_sum_type, Fin.sum_univ_three]
      norm_num
  let d : Dev ℝ := { init with sanity := false, state := nums (List.ofFn b ++ [5, 7]), stateSOUT := nums (List.ofFn b ++ [5, 7]) }
  have h6 : ∀ z : Fin 8 → ℝ, c6 ⬝ᵥ z = z 6 := by
    intro z
    simp [c6, dotProduct]
  have h67 : ∀ z : Fin 8 → ℝ, c67 ⬝ᵥ z = z 6 + z 7 := by
    intro z
    simp [c67, dotProduct, Fin.sum_univ_eight]
  have v6 : vec 8 (List.ofFn b ++ [5, 7]) 6 = 5 := vec_app (b := b) (joints := [5, 7]) (6 : Fin 8) (by decide)
  have v7 : vec 8 (List.ofFn b ++ [5, 7]) 7 = 7 := vec_app (b := b) (joints := [5, 7]) (7 : Fin 8) (by decide)
  obtain ⟨base, js, goal, place, g1, g2, -, g4, g5, g6, -⟩ := C143_converges svd (N := 8) (th := 1 / 10000) (maxSq := 10000) (gain := 10) (dt := 1 / 100)
    (joints := [5, 7]) (selec := Flags.ofBool true) (pre := [rowTask c6 1 10]) (post := [rowTask c67 3 10]) isRot_one isRot_one isRot_one isRot_one
    (fun j _ => by simp [Flags.call, Flags.ofBool]) (by norm_num) (by simp) (by
      intro t ht
      simp only [List.cons_append, List.nil_append, List.mem_cons, List.not_mem_nil, or_false] at ht
      rcases ht with rfl | rfl
      · refine rowTask_affine _ _ _ fun j hj => if_neg ?_
        rintro rfl
        exact absurd hj (by decide)
      · refine rowTask_affine _ _ _ fun j hj => ?_
        unfold c67
        rw [if_neg (by rintro rfl; exact absurd hj (by decide)), if_neg (by rintro rfl; exact absurd hj (by decide))]) (d := d) (b := b) rfl
    rfl rfl rfl rfl (by norm_num) (by norm_num) hsmall (rows_margin _ _ _) (g := 10) (by simp [rowTask]) (by norm_num) (by norm_num)
    (fun j => if j = 6 then -40 else if j = 7 then -50 else 0) (by
      rw [he, htone, one_mulVec]
      simp [dotProduct, Fintype.sum_sum_type, Fin.sum_univ_three, Fin.sum_univ_eight]
      norm_num) (by
      intro t ht
      simp only [List.cons_append, List.nil_append, List.mem_cons, List.not_mem_nil, or_false] at ht
      rcases ht with rfl | rfl
      · apply rowTask_met
        rw [h6, h6, v6]
        norm_num
      · apply rowTask_met
        rw [h67, h67, v6, v7]
        simp only [if_true, if_neg (show ¬(7 : Fin 8) = 6 by decide)]
        norm_num)
  have p6 : place 6 = 1 := by
    have : c6 ⬝ᵥ place - 1 = 0 := g6 (rowTask c6 1 10) (by simp) (0 : Fin 1)
    rw [h6] at this
    linarith
  have p7 : place 6 + place 7 = 3 := by
    have : c67 ⬝ᵥ place - 3 = 0 := g6 (rowTask c67 3 10) (by simp) (0 : Fin 1)
    rw [h67] at this
    linarith
  refine ⟨b, d, base, js, rfl, g2, fun i => ?_, ?_, ?_⟩
  · rw [faMfb_one] at g1
    have := g4 i
    rw [g1] at this
    exact this
  · rw [← p6]; exact g5 6 (by decide)
  · rw [show (2 : ℝ) = place 7 by linarith]; exact g5 7 (by decide)

end Verif.Loop
