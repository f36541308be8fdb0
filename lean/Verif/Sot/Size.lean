import Verif.Sot.Unique
import Verif.Sot.Feasible
import Mathlib.Analysis.InnerProductSpace.PiL2
import Mathlib.Tactic.FieldSimp

/-!
# C136: the size of the control, near the singularities too
-/

namespace Verif.Sot

open Matrix Verif.MultiBound

/-- The length of a vector. -/
noncomputable def len {p : ℕ} (v : Fin p → ℝ) : ℝ := Real.sqrt (v ⬝ᵥ v)

section
variable {p : ℕ}

theorem len_nonneg (v : Fin p → ℝ) : 0 ≤ len v := Real.sqrt_nonneg _

theorem len_sq (v : Fin p → ℝ) : len v ^ 2 = v ⬝ᵥ v := Real.sq_sqrt (dot_self_nonneg v)

theorem len_norm (v : Fin p → ℝ) : len v = ‖WithLp.toLp 2 v‖ := by
  rw [EuclideanSpace.norm_eq]
  unfold len dotProduct
  congr 1
  apply Finset.sum_congr rfl
  intro i _
  simp [pow_two]

theorem len_add (v w : Fin p → ℝ) : len (v + w) ≤ len v + len w := by
  rw [len_norm, len_norm, len_norm, WithLp.toLp_add]
  exact norm_add_le _ _

theorem len_sub (v w : Fin p → ℝ) : len (v - w) ≤ len v + len w := by
  rw [len_norm, len_norm, len_norm, WithLp.toLp_sub]
  exact norm_sub_le _ _

theorem len_zero : len (0 : Fin p → ℝ) = 0 := by simp [len]

end

section
variable {m c : ℕ} {A : Matrix (Fin m) (Fin c) ℝ}

/-- Projections on orthonormal columns do not lengthen. -/
theorem dot_U_le (S : Svd A) (e : Fin m → ℝ) : (S.Uᵀ *ᵥ e) ⬝ᵥ (S.Uᵀ *ᵥ e) ≤ e ⬝ᵥ e := by
  set z := S.Uᵀ *ᵥ e with hz
  have h6 : e ⬝ᵥ (S.U *ᵥ z) = z ⬝ᵥ z := by rw [Matrix.dotProduct_mulVec, ← Matrix.mulVec_transpose, ← hz]
  have h7 := dot_U S z
  have h8 := dot_self_nonneg (e - S.U *ᵥ z)
  rw [sub_dotProduct, dotProduct_sub, dotProduct_sub, dotProduct_comm (S.U *ᵥ z) e, h6, h7] at h8
  linarith

/-- The increment is at most the error divided by the threshold. -/
theorem increment_le (S : Svd A) {th : ℝ} (hth : 0 ≤ th) (e : Fin m → ℝ) :
    th ^ 2 * (increment S (rankJ th S.σ) e ⬝ᵥ increment S (rankJ th S.σ) e) ≤ e ⬝ᵥ e := by
  have h1 : increment S (rankJ th S.σ) e ⬝ᵥ increment S (rankJ th S.σ) e = tmpTask S (rankJ th S.σ) e ⬝ᵥ tmpTask S (rankJ th S.σ) e := by
    show (thinV S *ᵥ _) ⬝ᵥ (thinV S *ᵥ _) = _
    rw [Matrix.dotProduct_mulVec, ← Matrix.mulVec_transpose, Matrix.mulVec_mulVec, thinV_orth, Matrix.one_mulVec]
  rw [h1]
  refine le_trans ?_ (dot_U_le S e)
  unfold dotProduct
  rw [Finset.mul_sum]
  apply Finset.sum_le_sum
  intro k _
  unfold tmpTask
  split_ifs with hk
  · have h2 := (lt_rankJ_iff th S.σ S.antitone k).mp hk
    have h3 : 0 < S.σ k := lt_of_le_of_lt hth h2
    have h4 : th * (S.σ k)⁻¹ ≤ 1 := by
      rw [mul_inv_le_iff₀ h3, one_mul]; exact h2.le
    have h5 : 0 ≤ th * (S.σ k)⁻¹ := mul_nonneg hth (inv_nonneg.mpr h3.le)
    have h6 : (th * (S.σ k)⁻¹) ^ 2 ≤ 1 := pow_le_one₀ h5 h4
    have h7 := mul_self_nonneg ((S.Uᵀ *ᵥ e) k)
    nlinarith
  · rw [mul_zero, mul_zero]; exact mul_self_nonneg _

theorem increment_lin (S : Svd A) (r : ℕ) (a b : ℝ) (e e' : Fin m → ℝ) :
    increment S r (a • e + b • e') = a • increment S r e + b • increment S r e' := by
  unfold increment
  rw [← Matrix.mulVec_smul, ← Matrix.mulVec_smul, ← Matrix.mulVec_add]
  congr 1
  funext k
  unfold tmpTask
  simp only [Matrix.mulVec_add, Matrix.mulVec_smul, Pi.add_apply, Pi.smul_apply, smul_eq_mul]
  split_ifs <;> ring

end

variable {n : ℕ} (svd : ∀ {m c : ℕ} (A : Matrix (Fin m) (Fin c) ℝ), Svd A)

/-- One level of the general branch: what it adds is limited, by the limit and by the error left divided by the threshold, and orthogonal to what the
next levels may add. -/
theorem level_size {th maxSq : ℝ} (hth : 0 ≤ th) {last : Bool} {st st' : St n} {lv : Level n}
    (h : levelStep svd th maxSq false last st lv = .ok st') (ho : Orth st.kernel) (hz : st.controlIsZero = true → st.control = 0) :
    ∃ e, Requests lv e ∧
      th ^ 2 * ((st'.control - st.control) ⬝ᵥ (st'.control - st.control)) ≤
        (e - effJac lv *ᵥ st.control) ⬝ᵥ (e - effJac lv *ᵥ st.control) ∧
      (st'.disabled = st.disabled ∧ (st'.control - st.control) ⬝ᵥ (st'.control - st.control) ≤ maxSq ∨
        st'.disabled.length = st.disabled.length + 1 ∧ st'.control = st.control) ∧
      (last = false → ∀ d, InRange st'.kernel d → (st'.control - st.control) ⬝ᵥ d = 0) := by
  obtain ⟨e, he, ⟨-, hf, -, -⟩ | ⟨-, hg⟩⟩ := levelStep_cases svd h
  · simp at hf
  refine ⟨e, he, ?_⟩
  have hu := generalLevel_eq svd hg
  rw [correctedErr_eq hz] at hu
  set K := (basis st.kernel).K with hK
  set A := effJac lv * K with hA
  set e' := e - effJac lv *ᵥ st.control with he'
  have hoK : Kᵀ * K = 1 := ho
  have hle : th ^ 2 * ((K *ᵥ increment (svd A) (rankJ th (svd A).σ) e') ⬝ᵥ (K *ᵥ increment (svd A) (rankJ th (svd A).σ) e')) ≤ e' ⬝ᵥ e' := by
    rw [orth_dot hoK]; exact increment_le (svd A) hth e'
  rw [hu]
  obtain ⟨-, ⟨a1, a2, a3, a4, -⟩ | ⟨a1, a2, a3, a4, a5⟩⟩ := updateLevel_cases svd (th := th) (maxSq := maxSq) (last := last) (st := st)
    (K := K) (Jt := A) (e := e')
  · rw [a1, a3, a4, sub_self]
    refine ⟨?_, Or.inr ⟨by simp, rfl⟩, fun _ d _ => by simp⟩
    rw [zero_dotProduct, mul_zero]; exact dot_self_nonneg _
  · rw [a1, a3, a4, add_sub_cancel_left]
    refine ⟨hle, Or.inl ⟨rfl, a5⟩, fun hl d hd => ?_⟩
    rw [hl] at hd
    obtain ⟨w, rfl⟩ := inRange_some.mp hd
    rw [← Matrix.mulVec_mulVec, orth_dot hoK]
    exact increment_perp _ _ _ _

/-- The squared lengths of the changes add up. -/
theorem change_add {st st' stf : St n} (h : (st'.control - st.control) ⬝ᵥ (stf.control - st'.control) = 0) :
    (stf.control - st.control) ⬝ᵥ (stf.control - st.control) =
      (st'.control - st.control) ⬝ᵥ (st'.control - st.control) + (stf.control - st'.control) ⬝ᵥ (stf.control - st'.control) := by
  have : stf.control - st.control = (st'.control - st.control) + (stf.control - st'.control) := by abel
  rw [this, add_dotProduct, dotProduct_add, dotProduct_add, dotProduct_comm (stf.control - st'.control) (st'.control - st.control), h]
  ring

theorem loop_total {th maxSq : ℝ} (hth : 0 ≤ th) (hM : 0 ≤ maxSq) {lvs : List (Level n)} {st stf : St n}
    (h : loop svd th maxSq false lvs st = .ok stf) (ho : Orth st.kernel) (hz : st.controlIsZero = true → st.control = 0) :
    (stf.control - st.control) ⬝ᵥ (stf.control - st.control) + (stf.disabled.length - st.disabled.length : ℝ) * maxSq ≤ lvs.length * maxSq := by
  induction lvs generalizing st with
  | nil =>
    simp only [loop, Outcome.ok.injEq] at h
    subst h
    simp
  | cons lv rest ih =>
    obtain ⟨st', h1, h2⟩ := (loop_cons svd).mp h
    obtain ⟨e, -, -, g1, g2⟩ := level_size svd hth h1 ho hz
    have step : (st'.control - st.control) ⬝ᵥ (st'.control - st.control) + (st'.disabled.length - st.disabled.length : ℝ) * maxSq ≤ maxSq := by
      rcases g1 with ⟨b1, b2⟩ | ⟨b1, b2⟩
      · rw [b1, sub_self, zero_mul, add_zero]; exact b2
      · rw [b1, b2, sub_self, zero_dotProduct]
        push_cast
        linarith
    have hlen : ((lv :: rest).length : ℝ) = rest.length + 1 := by simp
    rw [hlen]
    have hr : (0 : ℝ) ≤ rest.length * maxSq := mul_nonneg (Nat.cast_nonneg _) hM
    rcases h2 with ⟨-, rfl⟩ | ⟨hne, -, h3⟩
    · linarith
    · have hl : rest.isEmpty = false := by simpa using hne
      rw [hl] at h1 g2
      have := ih h3 (levelStep_orth svd h1 ho) ((levelStep_frame svd h1).2.2.2.2 hz)
      rw [change_add (g2 rfl _ (loop_frame svd h3).1)]
      linarith

/-- The velocity plugged as first control, zero when none is. -/
def firstControl (n : ℕ) (q0 : Option DynVec) : Fin n → ℝ := fun i =>
  match q0 with
  | none => 0
  | some q => if h : i.val < q.size then q.v ⟨i.val, h⟩ else 0

theorem startSt_control (q0 : Option DynVec) (proj0 : Option DynMat) : (startSt n q0 proj0).control = firstControl n q0 := by
  cases q0 <;> rfl

/-- C136. What the stack adds to the first control has a squared length of at most the limit times the number of tasks that are not disabled: the
changes made by the tasks are orthogonal to each other. -/
theorem C136_total {th maxSq : ℝ} (hth : 0 ≤ th) (hM : 0 ≤ maxSq) {q0 : Option DynVec} {proj0 : Option DynMat} (ho : Orthonormal n proj0)
    {stack : List (Level n)} {u : Fin n → ℝ} {dis : List ℕ} (h : computeControlLaw svd n th maxSq false q0 proj0 stack = .ok (u, dis)) :
    (u - firstControl n q0) ⬝ᵥ (u - firstControl n q0) ≤ (stack.length - dis.length : ℝ) * maxSq := by
  obtain ⟨-, -, stf, h3, rfl, rfl⟩ := (computeControlLaw_eq svd).mp h
  obtain ⟨-, s2, s3⟩ := startSt_fields (n := n) q0 proj0
  have := loop_total svd hth hM h3 (by rw [s3]; exact orth_initKernel ho) (startSt_zero _ _)
  rw [startSt_control, s2] at this
  simp only [List.length_nil, Nat.cast_zero, sub_zero] at this
  linarith

/-- A bound on the length of what the stack adds, from bounds on the length of what each task asks for, and on how much each jacobian lengthens:
`b` bounds what the tasks above add. -/
noncomputable def sizeBound (th : ℝ) : ℝ → List (ℝ × ℝ) → ℝ
  | b, [] => b
  | b, (E, L) :: rest => sizeBound th (Real.sqrt (b ^ 2 + ((E + L * b) / th) ^ 2)) rest

theorem sizeBound_ge (th : ℝ) (l : List (ℝ × ℝ)) {b : ℝ} (hb : 0 ≤ b) : b ≤ sizeBound th b l := by
  induction l generalizing b with
  | nil => exact le_rfl
  | cons x l ih =>
    refine le_trans ?_ (ih (Real.sqrt_nonneg _))
    apply Real.le_sqrt_of_sq_le
    have := sq_nonneg ((x.1 + x.2 * b) / th)
    linarith

theorem loop_bound {th maxSq : ℝ} (hth : 0 < th) {lvs : List (Level n × ℝ × ℝ)} {st stf : St n} {c : Fin n → ℝ} {b : ℝ}
    (h : loop svd th maxSq false (lvs.map (·.1)) st = .ok stf) (ho : Orth st.kernel) (hz : st.controlIsZero = true → st.control = 0)
    (hb : len (st.control - c) ≤ b) (hp : ∀ d, InRange st.kernel d → (st.control - c) ⬝ᵥ d = 0)
    (hE : ∀ x ∈ lvs, ∀ e, Requests x.1 e → len (e - effJac x.1 *ᵥ c) ≤ x.2.1)
    (hL : ∀ x ∈ lvs, 0 ≤ x.2.2 ∧ ∀ d, len (effJac x.1 *ᵥ d) ≤ x.2.2 * len d) :
    len (stf.control - c) ≤ sizeBound th b (lvs.map (·.2)) := by
  induction lvs generalizing st b with
  | nil =>
    simp only [List.map_nil, loop, Outcome.ok.injEq] at h
    subst h
    exact hb
  | cons x rest ih =>
    obtain ⟨st', h1, h2⟩ := (loop_cons svd).mp h
    obtain ⟨e, he, g0, g1, g2⟩ := level_size svd hth.le h1 ho hz
    have hb0 : 0 ≤ b := le_trans (len_nonneg _) hb
    obtain ⟨hL0, hL1⟩ := hL x (by simp)
    have hin := (levelStep_frame svd h1).1
    have hE1 := hE x (by simp) e he
    have hE0 : 0 ≤ x.2.1 := le_trans (len_nonneg _) hE1
    have k1 : len (e - effJac x.1 *ᵥ st.control) ≤ x.2.1 + x.2.2 * b := by
      have : e - effJac x.1 *ᵥ st.control = (e - effJac x.1 *ᵥ c) - effJac x.1 *ᵥ (st.control - c) := by
        rw [Matrix.mulVec_sub]; abel
      rw [this]
      refine le_trans (len_sub _ _) (add_le_add hE1 ?_)
      exact le_trans (hL1 _) (mul_le_mul_of_nonneg_left hb hL0)
    have k2 : len (st'.control - st.control) ≤ (x.2.1 + x.2.2 * b) / th := by
      rw [le_div_iff₀ hth]
      refine le_trans ?_ k1
      rw [← len_sq, ← len_sq, ← mul_pow] at g0
      rw [mul_comm]
      exact le_trans (le_abs_self _) (abs_le_of_sq_le_sq g0 (len_nonneg _))
    have k3 : len (st'.control - c) ^ 2 = len (st.control - c) ^ 2 + len (st'.control - st.control) ^ 2 := by
      have : st'.control - c = (st.control - c) + (st'.control - st.control) := by abel
      rw [len_sq, len_sq, len_sq, this, add_dotProduct, dotProduct_add, dotProduct_add,
        dotProduct_comm (st'.control - st.control) (st.control - c), hp _ hin]
      ring
    have k4 : len (st'.control - c) ≤ Real.sqrt (b ^ 2 + ((x.2.1 + x.2.2 * b) / th) ^ 2) := by
      apply Real.le_sqrt_of_sq_le
      rw [k3]
      exact add_le_add (pow_le_pow_left₀ (len_nonneg _) hb 2) (pow_le_pow_left₀ (len_nonneg _) k2 2)
    show len (stf.control - c) ≤ sizeBound th _ (rest.map (·.2))
    rcases h2 with ⟨-, rfl⟩ | ⟨hne, -, h3⟩
    · exact le_trans k4 (sizeBound_ge _ _ (Real.sqrt_nonneg _))
    · have hl : (rest.map (·.1)).isEmpty = false := by simpa using hne
      rw [hl] at h1 g2
      refine ih h3 (levelStep_orth svd h1 ho) ((levelStep_frame svd h1).2.2.2.2 hz) k4 (fun d hd => ?_)
        (fun y hy => hE y (by simp [hy])) (fun y hy => hL y (by simp [hy]))
      have : st'.control - c = (st.control - c) + (st'.control - st.control) := by abel
      rw [this, add_dotProduct, hp d ((levelStep_frame svd h1).2.1 d hd), g2 rfl d hd, add_zero]

/-- C136. The length of what the stack adds to the first control is at most a number computed from the lengths of what the tasks ask for and of how
much their jacobians lengthen, whatever the directions: it does not grow near a singularity. -/
theorem C136_bounded {th maxSq : ℝ} (hth : 0 < th) {q0 : Option DynVec} {proj0 : Option DynMat} (ho : Orthonormal n proj0)
    {lvs : List (Level n × ℝ × ℝ)} {u : Fin n → ℝ} {dis : List ℕ}
    (h : computeControlLaw svd n th maxSq false q0 proj0 (lvs.map (·.1)) = .ok (u, dis))
    (hE : ∀ x ∈ lvs, ∀ e, Requests x.1 e → len (e - effJac x.1 *ᵥ firstControl n q0) ≤ x.2.1)
    (hL : ∀ x ∈ lvs, 0 ≤ x.2.2 ∧ ∀ d, len (effJac x.1 *ᵥ d) ≤ x.2.2 * len d) :
    len (u - firstControl n q0) ≤ sizeBound th 0 (lvs.map (·.2)) := by
  obtain ⟨-, -, stf, h3, rfl, rfl⟩ := (computeControlLaw_eq svd).mp h
  obtain ⟨-, s2, s3⟩ := startSt_fields (n := n) q0 proj0
  refine loop_bound svd hth h3 (by rw [s3]; exact orth_initKernel ho) (startSt_zero _ _) ?_ ?_ hE hL
  · rw [startSt_control, sub_self, len_zero]
  · intro d _
    rw [startSt_control, sub_self, zero_dotProduct]

/-- C136. The change that a task at the bottom of the stack makes is at most the velocity that it still misses, divided by the threshold. -/
theorem C136_change {th maxSq : ℝ} (hth : 0 ≤ th) {q0 : Option DynVec} {proj0 : Option DynMat} (ho : Orthonormal n proj0)
    {stack : List (Level n)} {lv : Level n} {e : Fin lv.m → ℝ} (he : Requests lv e) {u u1 : Fin n → ℝ} {dis dis1 : List ℕ}
    (h : computeControlLaw svd n th maxSq false q0 proj0 stack = .ok (u, dis))
    (h1 : computeControlLaw svd n th maxSq false q0 proj0 (stack ++ [lv]) = .ok (u1, dis1)) :
    th * len (u1 - u) ≤ len (e - effJac lv *ᵥ u) := by
  obtain ⟨-, -, stf, h3, rfl, -⟩ := (computeControlLaw_eq svd).mp h
  obtain ⟨-, -, stf1, h4, rfl, -⟩ := (computeControlLaw_eq svd).mp h1
  have hO : Orth (startSt n q0 proj0).kernel := by rw [(startSt_fields q0 proj0).2.2]; exact orth_initKernel ho
  have key : ∀ st st1 : St n, levelStep svd th maxSq false true st lv = .ok st1 → Orth st.kernel → (st.controlIsZero = true → st.control = 0) →
      th * len (st1.control - st.control) ≤ len (e - effJac lv *ᵥ st.control) := by
    intro st st1 hl hok hz
    obtain ⟨e', he', g0, -⟩ := level_size svd hth hl hok hz
    have : e' = e := by ext i; rw [← (he i).2, ← (he' i).2]
    subst this
    rw [← len_sq, ← len_sq, ← mul_pow] at g0
    exact le_trans (le_abs_self _) (abs_le_of_sq_le_sq g0 (len_nonneg _))
  rcases List.eq_nil_or_concat stack with rfl | ⟨pre, p, rfl⟩
  · simp only [loop, Outcome.ok.injEq] at h3
    obtain ⟨st', h5, h6⟩ := (loop_cons svd).mp (show loop svd th maxSq false (lv :: []) _ = _ from h4)
    rcases h6 with ⟨-, rfl⟩ | ⟨hne, -⟩
    · rw [← h3]; exact key _ _ h5 hO (startSt_zero _ _)
    · simp at hne
  · rw [List.concat_eq_append] at h3 h4
    rw [List.append_assoc] at h4
    rcases loop_split svd (show loop svd th maxSq false (pre ++ p :: [lv]) _ = _ from h4) with
      ⟨stp, stl, hr, ha, hb⟩ | ⟨pre1, q, pre2, s, hpre, -, -, -, hall⟩
    · obtain ⟨st1, hc, hd, -⟩ := levelStep_last svd ha (by simp) true
      have h5 : loop svd th maxSq false (pre ++ p :: []) (startSt n q0 proj0) = .ok st1 :=
        loop_append svd hr hc (Or.inl ⟨Or.inl rfl, rfl⟩)
      rw [h3] at h5
      simp only [Outcome.ok.injEq] at h5
      subst h5
      rcases hb with ⟨-, rfl⟩ | ⟨-, -, hb⟩
      · rw [← hd, sub_self, len_zero, mul_zero]; exact len_nonneg _
      · obtain ⟨st', h6, h7⟩ := (loop_cons svd).mp hb
        rcases h7 with ⟨-, rfl⟩ | ⟨hne, -⟩
        · have hz := (reach_frame svd hr).2.2.2.2 (startSt_zero _ _)
          have := key _ _ h6 (levelStep_orth svd ha (reach_orth svd hr hO)) ((levelStep_frame svd ha).2.2.2.2 hz)
          rwa [← hd] at this
        · simp at hne
    · have := hall p []
      rw [h3] at this
      simp only [Outcome.ok.injEq] at this
      rw [this, sub_self, len_zero, mul_zero]; exact len_nonneg _

end Verif.Sot
