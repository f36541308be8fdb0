import Verif.Sot.ControlRun3

/-!
# Properties C09-C13 and C63 of the control law

`computeControlLaw svd n th maxSq accel q0 proj0 stack = .ok (u, dis)` reads: with inversion threshold
`th`, increment limit `maxSq`, posture acceleration `accel`, optional initial control `q0` and
projector `proj0`, the stack (highest priority first) yields the control `u`, and `dis` lists the
positions of the levels that were reported as disabled. `svd` is any singular value decomposition.
-/

namespace Verif.Sot

open Matrix Verif.MultiBound

variable {n : ℕ} (svd : ∀ {m c : ℕ} (A : Matrix (Fin m) (Fin c) ℝ), Svd A)

/-- The direction `d` is in the image of the projector (no restriction when it is not plugged, or
ignored because of its number of rows). -/
def Allowed (proj0 : Option DynMat) (d : Fin n → ℝ) : Prop :=
  ∀ P, proj0 = some P → ∀ h : P.rows = n,
    ∃ w : Fin P.cols → ℝ, ∀ i : Fin n, d i = (P.M *ᵥ w) (Fin.cast h.symm i)

theorem allowed_iff (proj0 : Option DynMat) (d : Fin n → ℝ) :
    Allowed proj0 d ↔ InRange (initKernel n proj0) d := by
  unfold Allowed initKernel
  cases proj0 with
  | none => simp [InRange.none]
  | some P =>
    simp only [Option.some.injEq]
    by_cases h : P.rows = n
    · rw [dif_pos h, inRange_some]
      constructor
      · intro hd
        obtain ⟨w, hw⟩ := hd P rfl h
        exact ⟨w, funext fun i => by rw [hw i]; rfl⟩
      · rintro ⟨w, rfl⟩ Q rfl h'
        exact ⟨w, fun i => rfl⟩
    · rw [dif_neg h]
      simp only [InRange.none, iff_true]
      rintro Q rfl h'
      exact absurd h' h

/-- The projector, when used, has orthonormal columns. -/
def Orthonormal (n : ℕ) (proj0 : Option DynMat) : Prop :=
  ∀ P, proj0 = some P → P.rows = n → P.Mᵀ * P.M = 1

theorem orth_initKernel {proj0 : Option DynMat} (h : Orthonormal n proj0) :
    Orth (initKernel n proj0) := by
  unfold initKernel
  cases proj0 with
  | none => exact orth_none
  | some P =>
    by_cases hr : P.rows = n
    · obtain ⟨r, c, M⟩ := P
      simp only at hr
      subst hr
      have := h _ rfl rfl
      show Orth (if h : r = r then some ⟨c, M.submatrix (Fin.cast h.symm) id⟩ else none)
      rw [dif_pos rfl]
      exact this
    · show Orth (if h : P.rows = n then some ⟨P.cols, P.M.submatrix (Fin.cast h.symm) id⟩ else none)
      rw [dif_neg hr]; exact orth_none

/-! ## C13: unselected joints -/

/-- C13. The jacobian a level works with keeps column `j` when the mask of the task reads true at `j`
and has a zero column otherwise; a task without mask keeps its jacobian. -/
theorem C13_masked_columns (lv : Level n) (i : Fin lv.m) (j : Fin n) :
    (lv.selec = none → activated lv i j = lv.jac i j) ∧
    (∀ f, lv.selec = some f →
      (Flags.call f ((j : ℕ) : Int) = .ok true → activated lv i j = lv.jac i j) ∧
      (Flags.call f ((j : ℕ) : Int) = .ok false → activated lv i j = 0)) := by
  rw [activated_eq_effJac]
  unfold effJac
  simp only [Matrix.of_apply]
  refine ⟨fun h => by simp [h], fun f h => ⟨fun h2 => by simp [h, h2], fun h2 => by simp [h, h2]⟩⟩

/-- A task on two components of a three-joint robot, with the mask "101" followed by the default
`false`; used as a witness below. -/
noncomputable def demoLevel : Level 3 where
  m := 2
  jac := !![1, 2, 3; 4, 5, 6]
  selec := some ⟨[true, false, true], false⟩
  task := fun i => ⟨.single, if i = 0 then 1 else -2, 0, 0, false, false⟩
  fullPosture := false
  mem := none

example : activated demoLevel (1 : Fin 2) 1 = 0 ∧ activated demoLevel (1 : Fin 2) 2 = 6 := by
  have h1 := ((C13_masked_columns demoLevel (1 : Fin 2) 1).2 _ rfl).2 (by decide)
  have h2 := ((C13_masked_columns demoLevel (1 : Fin 2) 2).2 _ rfl).1 (by decide)
  refine ⟨h1, h2.trans ?_⟩
  show (!![1, 2, 3; 4, 5, 6] : Matrix (Fin 2) (Fin 3) ℝ) 1 2 = 6
  simp

/-! ## C11: initial control and projector -/

/-- C11. The control differs from the initial control (zero when not plugged) only inside the image of
the projector. -/
theorem C11_inside_projector {th maxSq : ℝ} {accel : Bool} {q0 : Option DynVec}
    {proj0 : Option DynMat} {stack : List (Level n)} {u : Fin n → ℝ} {dis : List ℕ}
    (h : computeControlLaw svd n th maxSq accel q0 proj0 stack = .ok (u, dis)) :
    (∀ q, q0 = some q → ∀ hq : q.size = n, Allowed proj0 (u - fun i => q.v (Fin.cast hq.symm i))) ∧
    (q0 = none → Allowed proj0 u) := by
  obtain ⟨-, -, stf, h3, rfl, -⟩ := (computeControlLaw_eq svd).mp h
  have hf := (loop_frame svd h3).1
  rw [(startSt_fields q0 proj0).2.2] at hf
  rw [← allowed_iff] at hf
  constructor
  · rintro q rfl hq
    convert hf using 2
    ext i
    have : i.val < q.size := by omega
    simp only [startSt, dif_pos this]
    rfl
  · rintro rfl
    simpa [startSt] using hf

/-- C11. An initial control of the wrong size is refused by an exception. -/
theorem C11_wrong_size_throws {th maxSq : ℝ} {accel : Bool} {q : DynVec}
    {proj0 : Option DynMat} {stack : List (Level n)} (hq : q.size ≠ n) :
    computeControlLaw svd n th maxSq accel (some q) proj0 stack = .throw := by
  unfold computeControlLaw
  simp only [dif_neg hq]

/-- C11. With an empty stack the initial control is returned as it is; without initial control an
empty stack is refused by an exception. -/
theorem C11_empty_stack {th maxSq : ℝ} {accel : Bool} (q : Fin n → ℝ) {proj0 : Option DynMat} :
    computeControlLaw svd n th maxSq accel (some ⟨n, q⟩) proj0 [] = .ok (q, []) ∧
    computeControlLaw svd n th maxSq accel none proj0 [] = .throw := by
  constructor
  · unfold computeControlLaw
    simp [loop]
  · unfold computeControlLaw
    simp

/-- C11. A projector with the wrong number of rows is ignored. -/
theorem C11_wrong_projector_ignored {th maxSq : ℝ} {accel : Bool} {q0 : Option DynVec} {P : DynMat}
    {stack : List (Level n)} (hP : P.rows ≠ n) :
    computeControlLaw svd n th maxSq accel q0 (some P) stack =
      computeControlLaw svd n th maxSq accel q0 none stack := by
  unfold computeControlLaw initKernel
  simp only [dif_neg hP]

/-! ## C63: the control law is memory safe -/

/-- C63. With memories (if already allocated) at least as large as needed, at most `n` columns in the
projector and no posture acceleration in play, the control law has no undefined behaviour; and when
moreover all task components are single bounds, the initial control has the right size and the stack
is not empty, it returns a control. -/
theorem C63_no_undefined_behaviour {th maxSq : ℝ} {accel : Bool} {q0 : Option DynVec}
    {proj0 : Option DynMat} {stack : List (Level n)}
    (hm : ∀ lv ∈ stack, ∀ s, lv.mem = some s → lv.m ≤ s.1 ∧ n ≤ s.2)
    (hP : ∀ P, proj0 = some P → P.cols ≤ n)
    (hp : accel = true → ∀ lv ∈ stack, lv.fullPosture = false) :
    computeControlLaw svd n th maxSq accel q0 proj0 stack ≠ .ub ∧
    ((∀ lv ∈ stack, ∀ i, (lv.task i).mode = .single) → (∀ q, q0 = some q → q.size = n) →
      (q0 = none → stack ≠ []) →
      ∃ u dis, computeControlLaw svd n th maxSq accel q0 proj0 stack = .ok (u, dis)) := by
  have hc : (basis (startSt n q0 proj0).kernel).c ≤ n := by
    rw [(startSt_fields q0 proj0).2.2]
    unfold initKernel
    cases proj0 with
    | none => exact le_rfl
    | some P =>
      by_cases h : P.rows = n
      · simp only [dif_pos h]; exact hP P rfl
      · simp only [dif_neg h]; exact le_rfl
  obtain ⟨h1, h2⟩ := loop_no_ub svd (th := th) (maxSq := maxSq) (accel := accel) (lvs := stack)
    (st := startSt n q0 proj0) hm hc hp
  constructor
  · intro hub
    unfold computeControlLaw at hub
    cases q0 with
    | none =>
      simp only at hub
      split at hub
      · simp at hub
      · cases hl : loop svd th maxSq accel stack (startSt n none proj0) with
        | ok a => rw [show (⟨0, true, initKernel n proj0, 0, []⟩ : St n) = startSt n none proj0 from rfl,
            hl] at hub; simp at hub
        | throw => rw [show (⟨0, true, initKernel n proj0, 0, []⟩ : St n) = startSt n none proj0 from rfl,
            hl] at hub; simp at hub
        | ub => exact h1 hl
    | some q =>
      simp only at hub
      split at hub
      · rename_i hq
        have hst : (⟨fun i => q.v (Fin.cast hq.symm i), false, initKernel n proj0, 0, []⟩ : St n) =
            startSt n (some q) proj0 := by
          simp only [startSt]
          congr 1
          ext i
          have : i.val < q.size := by omega
          rw [dif_pos this]; rfl
        rw [hst] at hub
        cases hl : loop svd th maxSq accel stack (startSt n (some q) proj0) with
        | ok a => rw [hl] at hub; simp at hub
        | throw => rw [hl] at hub; simp at hub
        | ub => exact h1 hl
      · simp at hub
  · intro hs hq hne
    obtain ⟨stf, h3⟩ := h2 hs
    exact ⟨_, _, (computeControlLaw_eq svd).mpr ⟨hq, hne, stf, h3, rfl, rfl⟩⟩

/-- C63. Counterexample without the hypothesis on the memory: a task whose size grew after its memory
was allocated makes the resolution write out of its buffers, for any decomposition. -/
theorem C63_grown_task_counterexample :
    computeControlLaw svd 1 0 100 false none none
      [{ m := 1, jac := 1, selec := none, task := fun _ => ⟨.single, 1, 0, 0, false, false⟩,
         fullPosture := false, mem := some (0, 1) }] = .ub := by
  have hrank : 0 < rankJ 0 (svd (1 : Matrix (Fin 1) (Fin 1) ℝ)).σ := by
    refine (lt_rankJ_iff 0 _ (svd (1 : Matrix (Fin 1) (Fin 1) ℝ)).antitone ⟨0, by simp⟩).mpr ?_
    rcases lt_or_eq_of_le ((svd (1 : Matrix (Fin 1) (Fin 1) ℝ)).nonneg ⟨0, by simp⟩) with h | h
    · exact h
    · exfalso
      have h1 := svd_mulVec (svd (1 : Matrix (Fin 1) (Fin 1) ℝ)) (fun _ => 1)
      have h2 : (fun k => (svd (1 : Matrix (Fin 1) (Fin 1) ℝ)).σ k *
          ((thinV (svd (1 : Matrix (Fin 1) (Fin 1) ℝ)))ᵀ *ᵥ (fun _ => 1)) k) = 0 := by
        ext k
        have : k = ⟨0, by simp⟩ := Fin.ext (by have := k.isLt; simp at this ⊢)
        rw [this, ← h]; simp
      rw [h2] at h1
      have := congrFun h1 0
      simp at this
  unfold computeControlLaw
  simp only [List.isEmpty_cons, Bool.false_eq_true, if_false, initKernel]
  rw [loop]
  have : levelStep svd 0 100 false true (⟨0, true, none, 0, []⟩ : St 1)
      { m := 1, jac := 1, selec := none, task := fun _ => ⟨.single, 1, 0, 0, false, false⟩,
        fullPosture := false, mem := some (0, 1) } = .ub := by
    unfold levelStep
    rw [taskVector_single (by intro i; rfl)]
    simp only [Outcome.bind, Bool.and_false, Bool.false_eq_true, if_false]
    unfold generalLevel activated
    simp only [Option.getD_some]
    rw [if_pos]
    exact hrank
  simp only [List.isEmpty_nil]
  rw [this]
  rfl

/-! ## C12: over-large increments -/

/-- C12. Every change of the control made by a level is within the limit: adding a level at the bottom
of the stack either leaves the control unchanged or changes it by a vector whose squared norm is at
most the limit. -/
theorem C12_limited_change {th maxSq : ℝ} {q0 : Option DynVec} {proj0 : Option DynMat}
    {stack : List (Level n)} {lv : Level n} {u u1 : Fin n → ℝ} {dis dis1 : List ℕ}
    (h : computeControlLaw svd n th maxSq false q0 proj0 stack = .ok (u, dis))
    (h1 : computeControlLaw svd n th maxSq false q0 proj0 (stack ++ [lv]) = .ok (u1, dis1)) :
    u1 = u ∨ (u1 - u) ⬝ᵥ (u1 - u) ≤ maxSq := by
  obtain ⟨-, -, stf, h3, rfl, -⟩ := (computeControlLaw_eq svd).mp h
  obtain ⟨-, -, stf1, h4, rfl, -⟩ := (computeControlLaw_eq svd).mp h1
  have key : ∀ (st st1 st2 : St n) (l : Level n),
      levelStep svd th maxSq false true st l = .ok st1 → st.control = st2.control →
      st1.control = st2.control ∨
        (st1.control - st2.control) ⬝ᵥ (st1.control - st2.control) ≤ maxSq := by
    intro st st1 st2 l hl hc
    obtain ⟨err, -, ⟨-, hf, -, -⟩ | ⟨-, hg⟩⟩ := levelStep_cases svd hl
    · simp at hf
    · rw [generalLevel_eq svd hg]
      obtain ⟨-, ⟨ha, -⟩ | ⟨ha, -, -, -, hb⟩⟩ := updateLevel_cases svd (th := th)
        (maxSq := maxSq) (last := true) (st := st) (K := (basis st.kernel).K)
        (Jt := effJac l * (basis st.kernel).K) (e := correctedErr st (effJac l) err)
      · left; rw [ha, hc]
      · right; rw [ha, hc, add_sub_cancel_left]; exact hb
  rcases List.eq_nil_or_concat stack with rfl | ⟨pre, p, rfl⟩
  · simp only [loop, Outcome.ok.injEq] at h3
    obtain ⟨st', h5, h6⟩ := (loop_cons svd).mp (show loop svd th maxSq false (lv :: []) _ = _ from h4)
    rcases h6 with ⟨-, rfl⟩ | ⟨hne, -⟩
    · exact key _ _ _ lv h5 (by rw [h3])
    · simp at hne
  · rw [List.concat_eq_append] at h3 h4
    rw [List.append_assoc] at h4
    rcases loop_split svd (show loop svd th maxSq false (pre ++ p :: [lv]) _ = _ from h4) with
      ⟨stp, stl, hr, ha, hb⟩ | ⟨pre1, q, pre2, s, hpre, -, -, -, hall⟩
    · obtain ⟨st1, hc, hd, -⟩ := levelStep_last svd ha (by simp) true
      have h5 : loop svd th maxSq false (pre ++ p :: []) (startSt n q0 proj0) = .ok st1 :=
        loop_append svd hr hc (Or.inl ⟨Or.inl rfl, rfl⟩)
      rw [h3] at h5
      simp only [Outcome.ok.injEq] at h5
      subst h5
      rcases hb with ⟨-, rfl⟩ | ⟨-, -, hb⟩
      · left; exact hd.symm
      · obtain ⟨st', h6, h7⟩ := (loop_cons svd).mp hb
        rcases h7 with ⟨-, rfl⟩ | ⟨hne, -⟩
        · exact key _ _ _ lv h6 hd.symm
        · simp at hne
    · have := hall p []
      rw [h3] at this
      simp only [Outcome.ok.injEq] at this
      left; rw [this]

/-- C12. A rejected level is as if it were not in the stack: the control is the one obtained without it,
so the lower-priority levels are executed.

Partial: when the rejected level is the first one, a projector with at least one column is required
(see the counterexample below); and the rejected level is assumed not to be the last one. -/
theorem C12_rejected_is_skipped_partial {th maxSq : ℝ} {accel : Bool} {q0 : Option DynVec}
    {proj0 : Option DynMat} {pre : List (Level n)} {lv : Level n} {post : List (Level n)}
    {u : Fin n → ℝ} {dis : List ℕ}
    (h : computeControlLaw svd n th maxSq accel q0 proj0 (pre ++ lv :: post) = .ok (u, dis))
    (hrej : pre.length ∈ dis) (hpost : post ≠ [])
    (hfirst : pre = [] → ∃ P, proj0 = some P ∧ P.rows = n ∧ 0 < P.cols) :
    ∃ dis', computeControlLaw svd n th maxSq accel q0 proj0 (pre ++ post) = .ok (u, dis') := by
  obtain ⟨hq, -, stf, h3, rfl, rfl⟩ := (computeControlLaw_eq svd).mp h
  obtain ⟨s1, s2, s3⟩ := startSt_fields (n := n) q0 proj0
  rcases loop_split svd h3 with ⟨stp, stl, hr, ha, hb⟩ | ⟨pre1, p, pre2, s, rfl, hr, h1, -, -⟩
  · obtain ⟨r1, r2, r3, ⟨l, r4, r5⟩, r6⟩ := reach_frame svd hr
    obtain ⟨f1, f2, f3, f4, -⟩ := levelStep_frame svd ha
    obtain ⟨t1, l2, t2, t3⟩ := tail_frame svd hb
    have hsame : Same stl stp := by
      rcases f4 with h | ⟨-, h, hk, hz⟩
      · exfalso
        rw [t2, h, r4, s2] at hrej
        simp only [List.nil_append, List.mem_append] at hrej
        rcases hrej with hi | hi
        · have := r5 _ hi; omega
        · have := t3 _ hi; omega
      · exact ⟨h, hz, hk⟩
    have hcols : cols stl.kernel ≠ 0 := by
      rw [hsame.2.2]
      rcases reach_cols svd hr with ⟨hp, rfl⟩ | hc
      · obtain ⟨P, rfl, hP, hcol⟩ := hfirst hp
        rw [s3]
        simp only [initKernel, dif_pos hP, cols]
        omega
      · exact hc
    rcases hb with ⟨hb | hb, -⟩ | ⟨-, -, hb⟩
    · exact absurd hb hpost
    · exact absurd hb hcols
    · obtain ⟨stf2, h5, h6⟩ := loop_same svd hb stp hsame
      have h7 := loop_reach svd hr hpost h5
      exact ⟨stf2.disabled, (computeControlLaw_eq svd).mpr
        ⟨hq, fun _ => by simp [hpost], stf2, h7, h6.1.symm, rfl⟩⟩
  · exfalso
    obtain ⟨r1, r2, r3, ⟨l, r4, r5⟩, r6⟩ := reach_frame svd hr
    obtain ⟨f1, f2, f3, f4, -⟩ := levelStep_frame svd h1
    rcases f4 with h | ⟨h, -⟩
    · rw [h, r4, s2] at hrej
      have h9 := r5 _ (by simpa using hrej)
      have h10 := List.length_append (as := pre1) (bs := p :: pre2)
      simp only [List.length_cons] at h10
      omega
    · rw [h, r4, s2] at hrej
      simp only [List.nil_append, List.mem_append, List.mem_singleton] at hrej
      have h10 := List.length_append (as := pre1) (bs := p :: pre2)
      simp only [List.length_cons] at h10
      rcases hrej with hi | hi
      · have := r5 _ hi; omega
      · omega

/-- C12. Above some limit no level is rejected. -/
theorem C12_large_limit_accepts {th : ℝ} {q0 : Option DynVec} {proj0 : Option DynMat}
    {stack : List (Level n)} (hm : ∀ lv ∈ stack, lv.mem = none)
    (hP : ∀ P, proj0 = some P → P.cols ≤ n) (hs : ∀ lv ∈ stack, ∀ i, (lv.task i).mode = .single)
    (hq : ∀ q, q0 = some q → q.size = n) (hne : stack ≠ []) :
    ∃ M u, ∀ maxSq, M ≤ maxSq →
      computeControlLaw svd n th maxSq false q0 proj0 stack = .ok (u, []) := by
  have hc : (basis (startSt n q0 proj0).kernel).c ≤ n := by
    rw [(startSt_fields q0 proj0).2.2]
    unfold initKernel
    cases proj0 with
    | none => exact le_rfl
    | some P =>
      by_cases h : P.rows = n
      · simp only [dif_pos h]; exact hP P rfl
      · simp only [dif_neg h]; exact le_rfl
  obtain ⟨M, stf, hM⟩ := loop_large svd (th := th) (accel := false) (lvs := stack)
    (st := startSt n q0 proj0) (fun lv hl s h => by rw [hm lv hl] at h; simp at h) hc (by simp) hs
  refine ⟨M, stf.control, fun maxSq h => ?_⟩
  refine (computeControlLaw_eq svd).mpr ⟨hq, fun _ => hne, stf, (hM maxSq h).1, rfl, ?_⟩
  rw [(hM maxSq h).2]
  exact (startSt_fields q0 proj0).2.1

/-- One-joint task asking for velocity `v`. -/
def oneJoint (v : ℝ) : Level 1 where
  m := 1
  jac := 1
  selec := none
  task := fun _ => ⟨.single, v, 0, 0, false, false⟩
  fullPosture := false
  mem := none

theorem one_increment (e : Fin 1 → ℝ) :
    increment (svd (1 : Matrix (Fin 1) (Fin 1) ℝ)) (rankJ 0 (svd (1 : Matrix (Fin 1) (Fin 1) ℝ)).σ) e
      = e := by
  set x := increment (svd (1 : Matrix (Fin 1) (Fin 1) ℝ))
    (rankJ 0 (svd (1 : Matrix (Fin 1) (Fin 1) ℝ)).σ) e with hx
  have h := increment_residual (svd (1 : Matrix (Fin 1) (Fin 1) ℝ)) 0 le_rfl
    (fun k hk => le_antisymm hk ((svd _).nonneg k)) e (e - x)
  rw [← hx, Matrix.one_mulVec, Matrix.one_mulVec] at h
  have := dotProduct_self_eq_zero.mp h
  exact (sub_eq_zero.mp this).symm

/-- A one-joint level in the first position. -/
theorem oneJoint_step (maxSq v : ℝ) (accel last : Bool) (k : Option (Kernel 1))
    (hk : k = none ∨ k = some ⟨1, 1⟩) (i : ℕ) (l : List ℕ) :
    levelStep svd 0 maxSq accel last ⟨0, true, k, i, l⟩ (oneJoint v) =
      .ok (updateLevel svd 0 maxSq last ⟨0, true, k, i, l⟩ (1 : Matrix (Fin 1) (Fin 1) ℝ)
        (1 : Matrix (Fin 1) (Fin 1) ℝ) (fun _ => v)) := by
  unfold levelStep
  rw [taskVector_single (by intro i; rfl)]
  simp only [Outcome.bind, oneJoint, Bool.and_false, Bool.false_eq_true, if_false]
  have hr : rankJ 0 (svd (1 : Matrix (Fin 1) (Fin 1) ℝ)).σ ≤ 1 := by
    have := rankJ_le 0 (svd (1 : Matrix (Fin 1) (Fin 1) ℝ)).σ
    simpa using this
  rcases hk with rfl | rfl
  · unfold generalLevel activated correctedErr
    simp only [Option.getD_none, if_true]
    rw [if_neg (by omega)]
  · unfold generalLevel activated correctedErr
    have h1 : (1 : Matrix (Fin 1) (Fin 1) ℝ) * (1 : Matrix (Fin 1) (Fin 1) ℝ) = 1 := Matrix.mul_one _
    simp only [Option.getD_none, if_true]
    rw [h1, if_neg (by omega)]

theorem oneJoint_rejected (maxSq v : ℝ) (hv : maxSq < v * v) (last : Bool) (k : Option (Kernel 1))
    (i : ℕ) (l : List ℕ) :
    updateLevel svd 0 maxSq last ⟨0, true, k, i, l⟩ (1 : Matrix (Fin 1) (Fin 1) ℝ)
        (1 : Matrix (Fin 1) (Fin 1) ℝ) (fun _ => v) = ⟨0, true, k, i + 1, l ++ [i]⟩ := by
  unfold updateLevel
  simp only [one_increment, Matrix.one_mulVec]
  rw [if_pos]
  simpa [dotProduct] using hv

theorem oneJoint_last (maxSq v : ℝ) (hv : v * v ≤ maxSq) (k : Option (Kernel 1))
    (i : ℕ) (l : List ℕ) :
    updateLevel svd 0 maxSq true ⟨0, true, k, i, l⟩ (1 : Matrix (Fin 1) (Fin 1) ℝ)
        (1 : Matrix (Fin 1) (Fin 1) ℝ) (fun _ => v) = ⟨fun _ => v, false, k, i + 1, l⟩ := by
  unfold updateLevel
  simp only [one_increment, Matrix.one_mulVec]
  rw [if_neg]
  · simp
  · simpa [dotProduct] using hv

/-- C12. Counterexample to the second half of the property: without projector, rejecting the first
level stops the whole resolution. The second task alone would be executed. -/
theorem C12_first_rejected_counterexample :
    computeControlLaw svd 1 0 1 false none none [oneJoint 10, oneJoint (1 / 2)] = .ok (0, [0]) ∧
    computeControlLaw svd 1 0 1 false none none [oneJoint (1 / 2)] = .ok (fun _ => 1 / 2, []) := by
  constructor
  · refine (computeControlLaw_eq svd).mpr ⟨by simp, by simp, ⟨0, true, none, 1, [0]⟩, ?_, rfl, rfl⟩
    refine (loop_cons svd).mpr ⟨⟨0, true, none, 1, [0]⟩, ?_, Or.inl ⟨Or.inr rfl, rfl⟩⟩
    show levelStep svd 0 1 false _ ⟨0, true, none, 0, []⟩ _ = _
    rw [oneJoint_step svd 1 10 false _ none (Or.inl rfl), oneJoint_rejected svd 1 10 (by norm_num)]
    rfl
  · refine (computeControlLaw_eq svd).mpr
      ⟨by simp, by simp, ⟨fun _ => 1 / 2, false, none, 1, []⟩, ?_, rfl, rfl⟩
    refine (loop_cons svd).mpr ⟨⟨fun _ => 1 / 2, false, none, 1, []⟩, ?_, Or.inl ⟨Or.inl rfl, rfl⟩⟩
    show levelStep svd 0 1 false true ⟨0, true, none, 0, []⟩ _ = _
    rw [oneJoint_step svd 1 (1 / 2) false _ none (Or.inl rfl),
      oneJoint_last svd 1 (1 / 2) (by norm_num)]

/-- With the identity plugged as projector the same stack is resolved as expected: the hypotheses of
`C12_rejected_is_skipped_partial` are met. -/
example : computeControlLaw svd 1 0 1 false none (some ⟨1, 1, 1⟩) [oneJoint 10, oneJoint (1 / 2)] =
    .ok (fun _ => 1 / 2, [0]) := by
  have hk : initKernel 1 (some ⟨1, 1, 1⟩) = some ⟨1, 1⟩ := rfl
  refine (computeControlLaw_eq svd).mpr
    ⟨by simp, by simp, ⟨fun _ => 1 / 2, false, some ⟨1, 1⟩, 2, [0]⟩, ?_, rfl, rfl⟩
  refine (loop_cons svd).mpr ⟨⟨0, true, some ⟨1, 1⟩, 1, [0]⟩, ?_, Or.inr ⟨by simp, by simp [cols], ?_⟩⟩
  · show levelStep svd 0 1 false _ ⟨0, true, some ⟨1, 1⟩, 0, []⟩ _ = _
    rw [oneJoint_step svd 1 10 false _ _ (Or.inr rfl), oneJoint_rejected svd 1 10 (by norm_num)]
    rfl
  · refine (loop_cons svd).mpr
      ⟨⟨fun _ => 1 / 2, false, some ⟨1, 1⟩, 2, [0]⟩, ?_, Or.inl ⟨Or.inl rfl, rfl⟩⟩
    rw [show ([] : List (Level 1)).isEmpty = true from rfl,
      oneJoint_step svd 1 (1 / 2) false _ _ (Or.inr rfl), oneJoint_last svd 1 (1 / 2) (by norm_num)]

/-! ## C09: lower priorities do not disturb higher priorities -/

/-- C09. For every accepted level of a regular run, the velocity `J u` of the final control is the one
obtained when the resolution stops at that level: nothing below disturbs it. -/
theorem C09_not_disturbed {th maxSq : ℝ} {accel : Bool} {q0 : Option DynVec}
    {proj0 : Option DynMat} {pre : List (Level n)} {lv : Level n} {post : List (Level n)}
    {u : Fin n → ℝ} {dis : List ℕ}
    (h : computeControlLaw svd n th maxSq accel q0 proj0 (pre ++ lv :: post) = .ok (u, dis))
    (hacc : pre.length ∉ dis) (hp : accel = true → lv.fullPosture = false)
    (hreg : Regular svd n th maxSq accel q0 proj0 (pre ++ lv :: post)) :
    ∃ u1 dis1, computeControlLaw svd n th maxSq accel q0 proj0 (pre ++ [lv]) = .ok (u1, dis1) ∧
      effJac lv *ᵥ u = effJac lv *ᵥ u1 := by
  obtain ⟨hq, -, stf, h3, rfl, rfl⟩ := (computeControlLaw_eq svd).mp h
  obtain ⟨s1, s2, s3⟩ := startSt_fields (n := n) q0 proj0
  rcases loop_split svd h3 with ⟨stp, stl, hr, ha, hb⟩ | ⟨pre1, p, pre2, s, rfl, hr, h1, -, hall⟩
  · obtain ⟨r1, r2, r3, ⟨l, r4, r5⟩, r6⟩ := reach_frame svd hr
    obtain ⟨f1, f2, f3, f4, -⟩ := levelStep_frame svd ha
    obtain ⟨t1, l2, t2, t3⟩ := tail_frame svd hb
    have hacc' : stl.disabled = stp.disabled := by
      rcases f4 with h | ⟨h, -⟩
      · exact h
      · exfalso
        apply hacc
        rw [t2, h, show stp.iterTask = pre.length by omega]; simp
    obtain ⟨st1, hc, hd, -⟩ := levelStep_last svd ha hp true
    refine ⟨st1.control, st1.disabled, (computeControlLaw_eq svd).mpr
      ⟨hq, fun _ => by simp, st1, ?_, rfl, rfl⟩, ?_⟩
    · exact loop_append svd hr hc (Or.inl ⟨Or.inl rfl, rfl⟩)
    · rw [hd]
      by_cases hp : post = []
      · subst hp
        rcases hb with ⟨-, rfl⟩ | ⟨h, -⟩
        · rfl
        · simp at h
      · have hl : post.isEmpty = false := by simpa using hp
        rw [hl] at ha
        have := kernel_null svd ha hacc' (regular_reach svd hreg hr).1 _ t1
        rw [Matrix.mulVec_sub, sub_eq_zero] at this
        exact this
  · exact ⟨stf.control, stf.disabled, (computeControlLaw_eq svd).mpr
      ⟨hq, fun _ => by simp, stf, hall lv [], rfl, rfl⟩, rfl⟩

/-- C09 without any assumption on the singular values: the disturbance of an accepted level by all the
levels below is at most the threshold times the change of the control, when the projector (if plugged)
has orthonormal columns. -/
theorem C09_disturbance_bound {th maxSq : ℝ} {accel : Bool} {q0 : Option DynVec}
    {proj0 : Option DynMat} {pre : List (Level n)} {lv : Level n} {post : List (Level n)}
    {u : Fin n → ℝ} {dis : List ℕ} (hth : 0 ≤ th)
    (h : computeControlLaw svd n th maxSq accel q0 proj0 (pre ++ lv :: post) = .ok (u, dis))
    (hacc : pre.length ∉ dis) (hp : accel = true → lv.fullPosture = false)
    (ho : Orthonormal n proj0) :
    ∃ u1 dis1, computeControlLaw svd n th maxSq accel q0 proj0 (pre ++ [lv]) = .ok (u1, dis1) ∧
      (effJac lv *ᵥ (u - u1)) ⬝ᵥ (effJac lv *ᵥ (u - u1)) ≤ th ^ 2 * ((u - u1) ⬝ᵥ (u - u1)) := by
  obtain ⟨hq, -, stf, h3, rfl, rfl⟩ := (computeControlLaw_eq svd).mp h
  obtain ⟨s1, s2, s3⟩ := startSt_fields (n := n) q0 proj0
  rcases loop_split svd h3 with ⟨stp, stl, hr, ha, hb⟩ | ⟨pre1, p, pre2, s, rfl, hr, h1, -, hall⟩
  · obtain ⟨r1, r2, r3, ⟨l, r4, r5⟩, r6⟩ := reach_frame svd hr
    obtain ⟨f1, f2, f3, f4, -⟩ := levelStep_frame svd ha
    obtain ⟨t1, l2, t2, t3⟩ := tail_frame svd hb
    have hacc' : stl.disabled = stp.disabled := by
      rcases f4 with h | ⟨h, -⟩
      · exact h
      · exfalso
        apply hacc
        rw [t2, h, show stp.iterTask = pre.length by omega]; simp
    obtain ⟨st1, hc, hd, -⟩ := levelStep_last svd ha hp true
    refine ⟨st1.control, st1.disabled, (computeControlLaw_eq svd).mpr
      ⟨hq, fun _ => by simp, st1, ?_, rfl, rfl⟩, ?_⟩
    · exact loop_append svd hr hc (Or.inl ⟨Or.inl rfl, rfl⟩)
    · rw [hd]
      by_cases hp : post = []
      · subst hp
        rcases hb with ⟨-, rfl⟩ | ⟨h, -⟩
        · simp
        · simp at h
      · have hl : post.isEmpty = false := by simpa using hp
        rw [hl] at ha
        exact kernel_le svd hth ha hacc'
          (reach_orth svd hr (by rw [s3]; exact orth_initKernel ho)) _ t1
  · exact ⟨stf.control, stf.disabled, (computeControlLaw_eq svd).mpr
      ⟨hq, fun _ => by simp, stf, hall lv [], rfl, rfl⟩, by simp⟩

/-! ## C10: feasible tasks are achieved -/

/-- C10. The residual of an accepted level is orthogonal to everything the level can still reach: all
velocities `J d` for `d` in the image of the projector that do not move the accepted levels of higher
priority.

The hypothesis `hker` excludes the stack whose first level is rejected without projector (the
resolution then stops, see `C12_first_rejected_counterexample`); `hgen` excludes the accelerated
posture level. -/
theorem C10_residual_orthogonal {th maxSq : ℝ} {accel : Bool} {q0 : Option DynVec}
    {proj0 : Option DynMat} {pre : List (Level n)} {lv : Level n} {post : List (Level n)}
    {u : Fin n → ℝ} {dis : List ℕ} (hth : 0 ≤ th)
    (h : computeControlLaw svd n th maxSq accel q0 proj0 (pre ++ lv :: post) = .ok (u, dis))
    (hker : 0 ∈ dis → ∃ P, proj0 = some P ∧ P.rows = n)
    (hacc : pre.length ∉ dis)
    (hgen : ¬ (post = [] ∧ accel = true ∧ lv.fullPosture = true))
    (hreg : Regular svd n th maxSq accel q0 proj0 (pre ++ lv :: post))
    (e : Fin lv.m → ℝ) (he : Requests lv e)
    (d : Fin n → ℝ) (hd : Allowed proj0 d)
    (hJ : ∀ j (hj : j < pre.length), j ∉ dis → effJac pre[j] *ᵥ d = 0) :
    (e - effJac lv *ᵥ u) ⬝ᵥ (effJac lv *ᵥ d) = 0 := by
  obtain ⟨hq, -, stf, h3, rfl, rfl⟩ := (computeControlLaw_eq svd).mp h
  obtain ⟨s1, s2, s3⟩ := startSt_fields (n := n) q0 proj0
  refine level_in_run svd hth h3 s1 s2 (startSt_zero q0 proj0) ?_ hacc hgen hreg e he d ?_ hJ
  · intro h0
    obtain ⟨P, rfl, hP⟩ := hker h0
    rw [s3]
    simp [initKernel, hP]
  · rw [s3]; exact (allowed_iff proj0 d).mp hd

/-- C10. Among the controls that agree with `u` on the accepted levels of higher priority and differ
from it inside the image of the projector, `u` has the smallest error on an accepted level: the stack
is solved lexicographically. -/
theorem C10_lexicographic_optimum {th maxSq : ℝ} {accel : Bool} {q0 : Option DynVec}
    {proj0 : Option DynMat} {pre : List (Level n)} {lv : Level n} {post : List (Level n)}
    {u : Fin n → ℝ} {dis : List ℕ} (hth : 0 ≤ th)
    (h : computeControlLaw svd n th maxSq accel q0 proj0 (pre ++ lv :: post) = .ok (u, dis))
    (hker : 0 ∈ dis → ∃ P, proj0 = some P ∧ P.rows = n)
    (hacc : pre.length ∉ dis)
    (hgen : ¬ (post = [] ∧ accel = true ∧ lv.fullPosture = true))
    (hreg : Regular svd n th maxSq accel q0 proj0 (pre ++ lv :: post))
    (e : Fin lv.m → ℝ) (he : Requests lv e)
    (u' : Fin n → ℝ) (hd : Allowed proj0 (u' - u))
    (hJ : ∀ j (hj : j < pre.length), j ∉ dis → effJac pre[j] *ᵥ u' = effJac pre[j] *ᵥ u) :
    (e - effJac lv *ᵥ u) ⬝ᵥ (e - effJac lv *ᵥ u) ≤ (e - effJac lv *ᵥ u') ⬝ᵥ (e - effJac lv *ᵥ u') := by
  have hres := C10_residual_orthogonal svd hth h hker hacc hgen hreg e he (u' - u) hd (by
    intro j hj hn
    rw [Matrix.mulVec_sub, hJ j hj hn, sub_self])
  have h1 : e - effJac lv *ᵥ u' = (e - effJac lv *ᵥ u) - effJac lv *ᵥ (u' - u) := by
    rw [Matrix.mulVec_sub]; abel
  rw [h1]
  generalize e - effJac lv *ᵥ u = a at *
  generalize effJac lv *ᵥ (u' - u) = b at *
  have hb : 0 ≤ b ⬝ᵥ b := by
    unfold dotProduct; exact Finset.sum_nonneg (fun i _ => mul_self_nonneg _)
  rw [sub_dotProduct, dotProduct_sub, dotProduct_sub, dotProduct_comm b a, hres]
  linarith

/-- C10. A level that can be achieved without disturbing the accepted levels of higher priority is
achieved exactly: `J u` is the requested velocity in the final control. -/
theorem C10_feasible_is_exact {th maxSq : ℝ} {accel : Bool} {q0 : Option DynVec}
    {proj0 : Option DynMat} {pre : List (Level n)} {lv : Level n} {post : List (Level n)}
    {u : Fin n → ℝ} {dis : List ℕ} (hth : 0 ≤ th)
    (h : computeControlLaw svd n th maxSq accel q0 proj0 (pre ++ lv :: post) = .ok (u, dis))
    (hker : 0 ∈ dis → ∃ P, proj0 = some P ∧ P.rows = n)
    (hacc : pre.length ∉ dis)
    (hgen : ¬ (post = [] ∧ accel = true ∧ lv.fullPosture = true))
    (hreg : Regular svd n th maxSq accel q0 proj0 (pre ++ lv :: post))
    (e : Fin lv.m → ℝ) (he : Requests lv e)
    (u' : Fin n → ℝ) (hd : Allowed proj0 (u' - u))
    (hJ : ∀ j (hj : j < pre.length), j ∉ dis → effJac pre[j] *ᵥ u' = effJac pre[j] *ᵥ u)
    (hfeas : effJac lv *ᵥ u' = e) : effJac lv *ᵥ u = e := by
  have := C10_lexicographic_optimum svd hth h hker hacc hgen hreg e he u' hd hJ
  rw [hfeas, sub_self] at this
  simp only [zero_dotProduct] at this
  have hb : 0 ≤ (e - effJac lv *ᵥ u) ⬝ᵥ (e - effJac lv *ᵥ u) := by
    unfold dotProduct; exact Finset.sum_nonneg (fun i _ => mul_self_nonneg _)
  have h0 := dotProduct_self_eq_zero.mp (le_antisymm this hb)
  exact (sub_eq_zero.mp h0).symm

/-- C10. In particular a level of full row rank on the directions left by the levels above it is
achieved exactly. -/
theorem C10_full_row_rank_is_exact {th maxSq : ℝ} {accel : Bool} {q0 : Option DynVec}
    {proj0 : Option DynMat} {pre : List (Level n)} {lv : Level n} {post : List (Level n)}
    {u : Fin n → ℝ} {dis : List ℕ} (hth : 0 ≤ th)
    (h : computeControlLaw svd n th maxSq accel q0 proj0 (pre ++ lv :: post) = .ok (u, dis))
    (hker : 0 ∈ dis → ∃ P, proj0 = some P ∧ P.rows = n)
    (hacc : pre.length ∉ dis)
    (hgen : ¬ (post = [] ∧ accel = true ∧ lv.fullPosture = true))
    (hreg : Regular svd n th maxSq accel q0 proj0 (pre ++ lv :: post))
    (e : Fin lv.m → ℝ) (he : Requests lv e)
    (honto : ∀ y : Fin lv.m → ℝ, ∃ d : Fin n → ℝ, Allowed proj0 d ∧
      (∀ p ∈ pre, effJac p *ᵥ d = 0) ∧ effJac lv *ᵥ d = y) : effJac lv *ᵥ u = e := by
  obtain ⟨d, h1, h2, h3⟩ := honto (e - effJac lv *ᵥ u)
  refine C10_feasible_is_exact svd hth h hker hacc hgen hreg e he (u + d) (by simpa using h1) ?_ ?_
  · intro j hj _
    rw [Matrix.mulVec_add, h2 _ (List.getElem_mem hj), add_zero]
  · rw [Matrix.mulVec_add, h3]; abel

/-- C10. Without initial control, and with an orthonormal projector or none, the control has the
smallest norm among the controls (in the image of the projector) that give the same velocity to all
accepted levels. -/
theorem C10_minimum_norm {th maxSq : ℝ} {accel : Bool} {proj0 : Option DynMat}
    {stack : List (Level n)} {u : Fin n → ℝ} {dis : List ℕ} (hth : 0 ≤ th)
    (h : computeControlLaw svd n th maxSq accel none proj0 stack = .ok (u, dis))
    (hgen : accel = true → ∀ lv ∈ stack, lv.fullPosture = false)
    (ho : Orthonormal n proj0) (u' : Fin n → ℝ) (hd : Allowed proj0 (u' - u))
    (hJ : ∀ j (hj : j < stack.length), j ∉ dis → effJac stack[j] *ᵥ u' = effJac stack[j] *ᵥ u) :
    u ⬝ᵥ u ≤ u' ⬝ᵥ u' := by
  obtain ⟨hq, -, stf, h3, rfl, rfl⟩ := (computeControlLaw_eq svd).mp h
  obtain ⟨s1, s2, s3⟩ := startSt_fields (n := n) none proj0
  have hperp := loop_perp svd hth h3 hgen (by rw [s3]; exact orth_initKernel ho)
    (by intro d _; simp [startSt]) (by rw [s2]; simp) (u' - stf.control)
    (by rw [s3]; exact (allowed_iff proj0 _).mp hd)
    (by
      intro j hj hn
      rw [s1, Nat.zero_add] at hn
      rw [Matrix.mulVec_sub, hJ j hj hn, sub_self])
  generalize stf.control = u at *
  have hb : 0 ≤ (u' - u) ⬝ᵥ (u' - u) := by
    unfold dotProduct; exact Finset.sum_nonneg (fun i _ => mul_self_nonneg _)
  have h4 : u' ⬝ᵥ u' = u ⬝ᵥ u + 2 * (u ⬝ᵥ (u' - u)) + (u' - u) ⬝ᵥ (u' - u) := by
    simp only [dotProduct_sub, sub_dotProduct, dotProduct_comm u u']
    ring
  rw [h4, hperp]
  linarith

/-! ## The hypotheses of C09 and C10 are met -/

/-- A second task for the three-joint robot, without mask. -/
noncomputable def demoLow : Level 3 where
  m := 3
  jac := !![1, 0, 0; 0, 1, 0; 1, 1, 1]
  selec := none
  task := fun i => ⟨.single, i.val, 0, 0, false, false⟩
  fullPosture := false
  mem := none

/-- Two conflicting tasks, the first one masked: a run with all levels accepted exists, it is regular
(the threshold is zero), so C09, C10 and C11 apply to it. -/
example : ∃ maxSq u, computeControlLaw svd 3 0 maxSq false none none [demoLevel, demoLow] =
      .ok (u, []) ∧ Regular svd 3 0 maxSq false none none [demoLevel, demoLow] ∧
      Requests demoLevel (fun i : Fin 2 => if i = 0 then 1 else -2) := by
  obtain ⟨M, u, h⟩ := C12_large_limit_accepts svd (n := 3) (th := 0) (q0 := none) (proj0 := none)
    (stack := [demoLevel, demoLow]) (by simp [demoLevel, demoLow]) (by simp)
    (by
      intro lv hl i
      simp only [List.mem_cons, List.not_mem_nil, or_false] at hl
      rcases hl with rfl | rfl <;> rfl) (by simp) (by simp)
  exact ⟨M, u, h M le_rfl, regularFrom_zero svd _ _, fun i => ⟨rfl, rfl⟩⟩

/-- A singular value decomposition exists for every matrix, so the oracle of the theorems exists. -/
example : Nonempty (∀ {m c : ℕ} (A : Matrix (Fin m) (Fin c) ℝ), Svd A) :=
  ⟨fun A => Classical.choice (svd_exists A)⟩

end Verif.Sot
