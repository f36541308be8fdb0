import Verif.Sot.ControlRun

namespace Verif.Sot

open Matrix Verif.MultiBound

variable {n : ℕ} (svd : ∀ {m c : ℕ} (A : Matrix (Fin m) (Fin c) ℝ), Svd A)

/-- With a zero threshold every run is regular. -/
theorem regularFrom_zero {maxSq : ℝ} {accel : Bool} (lvs : List (Level n)) (st : St n) :
    RegularFrom svd 0 maxSq accel lvs st := by
  induction lvs generalizing st with
  | nil => trivial
  | cons lv rest ih =>
    exact ⟨fun k hk => le_antisymm hk ((svd _).nonneg k), fun st' _ => ih st'⟩

theorem startSt_zero (q0 : Option DynVec) (proj0 : Option DynMat) :
    (startSt n q0 proj0).controlIsZero = true → (startSt n q0 proj0).control = 0 := by
  cases q0 <;> simp [startSt]

theorem startSt_fields (q0 : Option DynVec) (proj0 : Option DynMat) :
    (startSt n q0 proj0).iterTask = 0 ∧ (startSt n q0 proj0).disabled = [] ∧
    (startSt n q0 proj0).kernel = initKernel n proj0 := by
  cases q0 <;> exact ⟨rfl, rfl, rfl⟩

/-! ### Orthonormal kernels -/

def Orth (k : Option (Kernel n)) : Prop := (basis k).Kᵀ * (basis k).K = 1

theorem orth_none : Orth (none : Option (Kernel n)) := by
  show (1 : Matrix (Fin n) (Fin n) ℝ)ᵀ * (1 : Matrix (Fin n) (Fin n) ℝ) = 1
  simp

theorem orth_mul {c d : ℕ} {K : Matrix (Fin n) (Fin c) ℝ} {R : Matrix (Fin c) (Fin d) ℝ}
    (hK : Kᵀ * K = 1) (hR : Rᵀ * R = 1) : (K * R)ᵀ * (K * R) = 1 := by
  rw [Matrix.transpose_mul, Matrix.mul_assoc, ← Matrix.mul_assoc Kᵀ, hK, Matrix.one_mul, hR]

theorem orth_dot {c : ℕ} {K : Matrix (Fin n) (Fin c) ℝ} (hK : Kᵀ * K = 1) (a b : Fin c → ℝ) :
    (K *ᵥ a) ⬝ᵥ (K *ᵥ b) = a ⬝ᵥ b := by
  rw [Matrix.dotProduct_mulVec, ← Matrix.mulVec_transpose, Matrix.mulVec_mulVec, hK,
    Matrix.one_mulVec]

theorem levelStep_orth {th maxSq : ℝ} {accel last : Bool} {st st' : St n} {lv : Level n}
    (h : levelStep svd th maxSq accel last st lv = .ok st') (ho : Orth st.kernel) :
    Orth st'.kernel := by
  obtain ⟨err, -, ⟨-, -, -, hp⟩ | ⟨-, hg⟩⟩ := levelStep_cases svd h
  · unfold postureLevel at hp
    cases hk : st.kernel with
    | none => simp [hk] at hp
    | some k =>
      obtain ⟨c, K⟩ := k
      simp only [hk] at hp
      split at hp
      · split at hp
        · simp at hp
        · simp only [Outcome.ok.injEq] at hp
          subst hp
          simpa [hk] using ho
      · simp at hp
  · rw [generalLevel_eq svd hg]
    obtain ⟨hi, ⟨hc, hz, hk, hd, -⟩ | ⟨hc, hz, hk, hd, -⟩⟩ := updateLevel_cases svd (th := th)
      (maxSq := maxSq) (last := last) (st := st) (K := (basis st.kernel).K)
      (Jt := effJac lv * (basis st.kernel).K) (e := correctedErr st (effJac lv) err)
    · rw [hk]; exact ho
    · rw [hk]
      split
      · exact ho
      · exact orth_mul ho (rightCols_orth _ _)

theorem reach_orth {th maxSq : ℝ} {accel : Bool} {pre : List (Level n)} {st stp : St n}
    (h : Reach svd th maxSq accel pre st stp) (ho : Orth st.kernel) : Orth stp.kernel := by
  induction h with
  | nil st => exact ho
  | cons p ps st st' stp h1 hc hr ih => exact ih (levelStep_orth svd h1 ho)

theorem reach_cols {th maxSq : ℝ} {accel : Bool} {pre : List (Level n)} {st stp : St n}
    (h : Reach svd th maxSq accel pre st stp) : (pre = [] ∧ stp = st) ∨ cols stp.kernel ≠ 0 := by
  induction h with
  | nil st => exact Or.inl ⟨rfl, rfl⟩
  | cons p ps st st' stp h1 hc hr ih =>
    rcases ih with ⟨-, rfl⟩ | h
    · exact Or.inr hc
    · exact Or.inr h

/-- Without regularity, directions left to the next levels move the task by at most the threshold. -/
theorem kernel_le {th maxSq : ℝ} {accel : Bool} {st st' : St n} {lv : Level n} (hth : 0 ≤ th)
    (h : levelStep svd th maxSq accel false st lv = .ok st') (hacc : st'.disabled = st.disabled)
    (ho : Orth st.kernel) (d : Fin n → ℝ) (hd : InRange st'.kernel d) :
    (effJac lv *ᵥ d) ⬝ᵥ (effJac lv *ᵥ d) ≤ th ^ 2 * (d ⬝ᵥ d) := by
  obtain ⟨_, -, -, hk⟩ := levelStep_accepted svd h (by simp) hacc
  rw [hk rfl] at hd
  obtain ⟨w, rfl⟩ := inRange_some.mp hd
  have h1 := mulVec_rightCols_le (svd (effJac lv * (basis st.kernel).K))
    (rankJ th (svd (effJac lv * (basis st.kernel).K)).σ) th hth (by
      intro k hk
      by_contra hlt
      have := (lt_rankJ_iff th _ (svd (effJac lv * (basis st.kernel).K)).antitone k).mpr
        (not_le.mp hlt)
      omega) w
  rw [orth_dot (orth_mul ho (rightCols_orth _ _))]
  rwa [Matrix.mulVec_mulVec, Matrix.mul_assoc, ← Matrix.mulVec_mulVec] at h1

/-! ### Directions still available -/

/-- A direction that does not move the accepted levels executed so far is still available. -/
theorem reach_complete {th maxSq : ℝ} {accel : Bool} (hth : 0 ≤ th) {pre : List (Level n)}
    {st stp : St n} (h : Reach svd th maxSq accel pre st stp)
    (hlt : ∀ i ∈ st.disabled, i < st.iterTask) (d : Fin n → ℝ) (hd : InRange st.kernel d)
    (hJ : ∀ j (hj : j < pre.length), st.iterTask + j ∉ stp.disabled → effJac pre[j] *ᵥ d = 0) :
    InRange stp.kernel d := by
  induction h with
  | nil st => exact hd
  | cons p ps st st' stp h1 hc hr ih =>
    obtain ⟨f1, f2, f3, f4, -⟩ := levelStep_frame svd h1
    obtain ⟨g1, g2, g3, ⟨l, g4, g5⟩, -⟩ := reach_frame svd hr
    apply ih
    · intro i hi
      rcases f4 with h | ⟨h, -⟩
      · rw [h] at hi; have := hlt i hi; omega
      · rw [h] at hi
        rcases List.mem_append.mp hi with hi | hi
        · have := hlt i hi; omega
        · simp at hi; omega
    · rcases f4 with h | ⟨-, -, h, -⟩
      · apply kernel_complete svd hth h1 h d hd
        apply hJ 0 (by simp)
        rw [g4, h]
        simp only [List.mem_append, not_or]
        constructor
        · intro hi; have := hlt _ hi; omega
        · intro hi; have := g5 _ hi; omega
      · rw [h]; exact hd
    · intro j hj hn
      have := hJ (j + 1) (by simpa using hj) (by rw [f3] at hn; rwa [show st.iterTask + (j + 1) = st.iterTask + 1 + j by omega])
      simpa using this

/-- The situation of one level inside a successful run. -/
theorem level_in_run {th maxSq : ℝ} {accel : Bool} {pre : List (Level n)} {lv : Level n}
    {post : List (Level n)} {st stf : St n} (hth : 0 ≤ th)
    (h : loop svd th maxSq accel (pre ++ lv :: post) st = .ok stf)
    (h0 : st.iterTask = 0) (hd0 : st.disabled = [])
    (hz : st.controlIsZero = true → st.control = 0)
    (hker : 0 ∈ stf.disabled → st.kernel ≠ none)
    (hacc : pre.length ∉ stf.disabled)
    (hgen : ¬ (post = [] ∧ accel = true ∧ lv.fullPosture = true))
    (hreg : RegularFrom svd th maxSq accel (pre ++ lv :: post) st)
    (e : Fin lv.m → ℝ) (he : Requests lv e) (d : Fin n → ℝ) (hd : InRange st.kernel d)
    (hJ : ∀ j (hj : j < pre.length), j ∉ stf.disabled → effJac pre[j] *ᵥ d = 0) :
    (e - effJac lv *ᵥ stf.control) ⬝ᵥ (effJac lv *ᵥ d) = 0 := by
  rcases loop_split svd h with ⟨stp, stl, hr, h1, h2⟩ | ⟨pre1, p, pre2, s, rfl, hr, h1, h2, -⟩
  · obtain ⟨r1, r2, r3, ⟨l, r4, r5⟩, r6⟩ := reach_frame svd hr
    obtain ⟨f1, f2, f3, f4, -⟩ := levelStep_frame svd h1
    obtain ⟨t1, l2, t2, t3⟩ := tail_frame svd h2
    have hstp : stp.iterTask = pre.length := by omega
    have hacc' : stl.disabled = stp.disabled := by
      rcases f4 with h | ⟨h, -⟩
      · exact h
      · exfalso
        apply hacc
        rw [t2, h, hstp]; simp
    have hdp : InRange stp.kernel d := by
      apply reach_complete svd hth hr (by rw [hd0]; simp) d hd
      intro j hj hn
      apply hJ j hj
      rw [t2, hacc']
      rw [h0, Nat.zero_add] at hn
      simp only [List.mem_append, not_or]
      refine ⟨hn, fun hi => ?_⟩
      have := t3 _ hi
      omega
    have hregl := regular_reach svd hreg hr
    have hgen' : ¬ (post.isEmpty = true ∧ accel = true ∧ lv.fullPosture = true) := by
      simpa using hgen
    have hres := level_residual svd hth h1 hgen' hacc' (r6 hz) hregl.1 e he d hdp
    have hJu : effJac lv *ᵥ stf.control = effJac lv *ᵥ stl.control := by
      by_cases hp : post = []
      · subst hp
        rcases h2 with ⟨-, rfl⟩ | ⟨h, -⟩
        · rfl
        · simp at h
      · have hl : post.isEmpty = false := by simpa using hp
        rw [hl] at h1
        have := kernel_null svd h1 hacc' hregl.1 _ t1
        rw [Matrix.mulVec_sub, sub_eq_zero] at this
        exact this
    rw [hJu]
    exact hres
  · -- the loop stopped before: no direction was left
    obtain ⟨r1, r2, r3, ⟨l, r4, r5⟩, -⟩ := reach_frame svd hr
    obtain ⟨f1, f2, f3, f4, -⟩ := levelStep_frame svd h1
    have hlen : s.iterTask = pre1.length := by omega
    have hin : InRange stf.kernel d ∧ stf.kernel ≠ none := by
      have hs : InRange s.kernel d := by
        apply reach_complete svd hth hr (by rw [hd0]; simp) d hd
        intro j hj hn
        have hj' : j < (pre1 ++ p :: pre2).length := by simp; omega
        have := hJ j hj' (by
          rw [h0, Nat.zero_add] at hn
          rcases f4 with h | ⟨h, -⟩
          · rwa [h]
          · rw [h]; simp only [List.mem_append, not_or]
            refine ⟨hn, ?_⟩
            simp; omega)
        rwa [List.getElem_append_left hj] at this
      rcases f4 with h | ⟨h, -, hk, -⟩
      · refine ⟨?_, levelStep_not_last_kernel svd h1 h⟩
        apply kernel_complete svd hth h1 h d hs
        have hj' : pre1.length < (pre1 ++ p :: pre2).length := by simp
        have := hJ pre1.length hj' (by
          rw [h, r4, hd0]
          intro hi
          have := r5 _ (by simpa using hi)
          omega)
        have hget : (pre1 ++ p :: pre2)[pre1.length] = p := by simp
        rwa [hget] at this
      · rw [hk]
        refine ⟨hs, ?_⟩
        cases hr with
        | nil => 
          apply hker
          rw [h, hd0, h0]; simp
        | cons p ps st st' stp h1' hc hr =>
          intro hnone
          rcases reach_cols svd (Reach.cons p ps st st' s h1' hc hr) with ⟨h, -⟩ | h
          · simp at h
          · rw [hnone] at h; exact h rfl
    have := InRange.cols_zero hin.2 h2 hin.1
    subst this
    simp

end Verif.Sot
