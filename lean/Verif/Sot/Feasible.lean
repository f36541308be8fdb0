import Verif.Sot.ControlProps

/-!
# C125: stacks of compatible tasks
-/

namespace Verif.Sot

open Matrix Verif.MultiBound

section Increment
variable {m c : ℕ} {A : Matrix (Fin m) (Fin c) ℝ}

/-- The increment for a velocity that `y` gives is the part of `y` along the first right singular vectors. -/
theorem increment_range (S : Svd A) (r : ℕ) (hr : ∀ k : Fin (min m c), k.val < r → S.σ k ≠ 0) (y : Fin c → ℝ) :
    increment S r (A *ᵥ y) = thinV S *ᵥ (fun k => if k.val < r then ((thinV S)ᵀ *ᵥ y) k else 0) := by
  show thinV S *ᵥ tmpTask S r (A *ᵥ y) = _
  congr 1
  ext k
  unfold tmpTask
  split_ifs with h
  · rw [svd_mulVec S y, Matrix.mulVec_mulVec, S.U_orth, Matrix.one_mulVec, inv_mul_cancel_left₀ (hr k h)]
  · rfl

theorem dot_self_nonneg {p : ℕ} (v : Fin p → ℝ) : 0 ≤ v ⬝ᵥ v := by
  unfold dotProduct; exact Finset.sum_nonneg (fun i _ => mul_self_nonneg _)

/-- It is not longer than `y`. -/
theorem increment_range_le (S : Svd A) (r : ℕ) (hr : ∀ k : Fin (min m c), k.val < r → S.σ k ≠ 0) (y : Fin c → ℝ) :
    increment S r (A *ᵥ y) ⬝ᵥ increment S r (A *ᵥ y) ≤ y ⬝ᵥ y := by
  rw [increment_range S r hr y]
  set x : Fin (min m c) → ℝ := (thinV S)ᵀ *ᵥ y with hx
  set z : Fin (min m c) → ℝ := fun k => if k.val < r then x k else 0 with hz
  have h1 : (thinV S *ᵥ z) ⬝ᵥ (thinV S *ᵥ z) = z ⬝ᵥ z := by
    rw [Matrix.dotProduct_mulVec, ← Matrix.mulVec_transpose, Matrix.mulVec_mulVec, thinV_orth, Matrix.one_mulVec]
  have h2 : y ⬝ᵥ (thinV S *ᵥ z) = z ⬝ᵥ z := by
    rw [Matrix.dotProduct_mulVec, ← Matrix.mulVec_transpose, ← hx]
    unfold dotProduct
    apply Finset.sum_congr rfl
    intro k _
    simp only [hz]
    split_ifs <;> ring
  have h3 := dot_self_nonneg (y - thinV S *ᵥ z)
  rw [sub_dotProduct, dotProduct_sub, dotProduct_sub, dotProduct_comm (thinV S *ᵥ z) y, h1, h2] at h3
  rw [h1]
  linarith

end Increment

variable {n : ℕ} (svd : ∀ {m c : ℕ} (A : Matrix (Fin m) (Fin c) ℝ), Svd A)

/-- The levels of the loop can all be met by `w`, which is not too long. -/
theorem loop_compatible {th maxSq : ℝ} (hth : 0 ≤ th) {w : Fin n → ℝ} (hw : w ⬝ᵥ w ≤ maxSq) {lvs : List (Level n)} {st stf : St n}
    (h : loop svd th maxSq false lvs st = .ok stf) (ho : Orth st.kernel) (hp : ∀ d, InRange st.kernel d → st.control ⬝ᵥ d = 0)
    (hz : st.controlIsZero = true → st.control = 0) (hin : InRange st.kernel (w - st.control))
    (hreg : RegularFrom svd th maxSq false lvs st) (hf : ∀ lv ∈ lvs, Requests lv (effJac lv *ᵥ w)) :
    stf.disabled = st.disabled ∧ ∀ lv ∈ lvs, effJac lv *ᵥ stf.control = effJac lv *ᵥ w := by
  induction lvs generalizing st with
  | nil =>
    simp only [loop, Outcome.ok.injEq] at h
    exact ⟨by rw [h], by simp⟩
  | cons lv rest ih =>
    obtain ⟨st', h1, h2⟩ := (loop_cons svd).mp h
    obtain ⟨hreg1, hreg2⟩ := hreg
    obtain ⟨err, he, ⟨-, hf', -, -⟩ | ⟨-, hg⟩⟩ := levelStep_cases svd h1
    · simp at hf'
    have herr : err = effJac lv *ᵥ w := by
      funext i
      rw [← (he i).2, ← (hf lv (by simp) i).2]
    have hu := generalLevel_eq svd hg
    obtain ⟨y, hy⟩ := hin
    set K := (basis st.kernel).K with hK
    set A := effJac lv * K with hA
    have hcor : correctedErr st (effJac lv) err = A *ᵥ y := by
      rw [correctedErr_eq hz, herr, ← Matrix.mulVec_sub, hy, hA, Matrix.mulVec_mulVec]
    rw [hcor] at hu
    have hσ : ∀ k : Fin (min lv.m (basis st.kernel).c), k.val < rankJ th (svd A).σ → (svd A).σ k ≠ 0 := by
      intro k hk
      have := (lt_rankJ_iff th (svd A).σ (svd A).antitone k).mp hk
      linarith
    have hlen : (K *ᵥ increment (svd A) (rankJ th (svd A).σ) (A *ᵥ y)) ⬝ᵥ (K *ᵥ increment (svd A) (rankJ th (svd A).σ) (A *ᵥ y)) ≤ maxSq := by
      have hoK : Kᵀ * K = 1 := ho
      rw [orth_dot hoK]
      refine le_trans (increment_range_le (svd A) _ hσ y) ?_
      have h3 : y ⬝ᵥ y = (w - st.control) ⬝ᵥ (w - st.control) := by rw [hy, orth_dot hoK]
      have h4 := hp (w - st.control) ⟨y, hy⟩
      rw [h3]
      have h5 := dot_self_nonneg st.control
      rw [dotProduct_sub] at h4
      rw [sub_dotProduct, dotProduct_sub, dotProduct_sub, dotProduct_comm w st.control]
      linarith
    have hacc : st'.disabled = st.disabled := by
      rw [hu]
      obtain ⟨-, ⟨-, -, -, -, hb⟩ | ⟨-, -, -, hd, -⟩⟩ := updateLevel_cases svd (th := th) (maxSq := maxSq) (last := rest.isEmpty) (st := st)
        (K := K) (Jt := A) (e := A *ᵥ y)
      · exact absurd hlen (not_le.mpr hb)
      · exact hd
    have hcon : st'.control = st.control + K *ᵥ increment (svd A) (rankJ th (svd A).σ) (A *ᵥ y) := by
      rw [hu]
      obtain ⟨-, ⟨-, -, -, -, hb⟩ | ⟨hc, -⟩⟩ := updateLevel_cases svd (th := th) (maxSq := maxSq) (last := rest.isEmpty) (st := st)
        (K := K) (Jt := A) (e := A *ᵥ y)
      · exact absurd hlen (not_le.mpr hb)
      · exact hc
    have hdiff : w - st'.control = K *ᵥ (y - increment (svd A) (rankJ th (svd A).σ) (A *ᵥ y)) := by
      rw [hcon, Matrix.mulVec_sub, ← hy]; abel
    have hexact : effJac lv *ᵥ (w - st'.control) = 0 := by
      rw [hdiff, Matrix.mulVec_mulVec, ← hA, Matrix.mulVec_sub]
      have h3 := increment_residual (svd A) th hth hreg1 (A *ᵥ y) (y - increment (svd A) (rankJ th (svd A).σ) (A *ᵥ y))
      rw [Matrix.mulVec_sub] at h3
      exact dotProduct_self_eq_zero.mp h3
    have hin' : InRange st.kernel (w - st'.control) := ⟨_, hdiff⟩
    have hlv : effJac lv *ᵥ st'.control = effJac lv *ᵥ w := by
      rw [Matrix.mulVec_sub, sub_eq_zero] at hexact
      exact hexact.symm
    rcases List.eq_nil_or_concat rest with rfl | ⟨rest', x, hrest⟩
    · have hst : stf = st' := by
        rcases h2 with ⟨-, h2⟩ | ⟨hne, -⟩
        · exact h2.symm ▸ rfl
        · exact absurd rfl hne
      rw [hst]
      exact ⟨hacc, by simpa using hlv⟩
    · have hne : rest ≠ [] := by rw [hrest]; simp
      have hlast : rest.isEmpty = false := by rw [hrest]; simp
      rw [hlast] at h1
      have hk := kernel_complete svd hth h1 hacc _ hin' hexact
      rcases h2 with ⟨h2 | h2, rfl⟩ | ⟨-, -, h2⟩
      · exact absurd h2 hne
      · refine ⟨hacc, fun l _ => ?_⟩
        have := InRange.cols_zero (levelStep_not_last_kernel svd h1 hacc) h2 hk
        rw [sub_eq_zero.mp this]
      · obtain ⟨g1, g2⟩ := ih h2 (levelStep_orth svd h1 ho) (fun d hd => level_perp_kernel svd h1 ho hp d hd)
          ((levelStep_frame svd h1).2.2.2.2 hz) hk (hreg2 st' (by rw [hlast]; exact h1)) (fun l hl => hf l (by simp [hl]))
        refine ⟨by rw [g1, hacc], fun l hl => ?_⟩
        rcases List.mem_cons.mp hl with rfl | hl
        · have h3 := kernel_null svd h1 hacc hreg1 _ (loop_frame svd h2).1
          rw [Matrix.mulVec_sub, sub_eq_zero] at h3
          rw [h3, hlv]
        · exact g2 l hl

/-- C125. If some velocity in the image of the projector meets every task and is within the limit, then no task is disabled, every task is met
exactly, and the control is the shortest velocity in that image that meets them all: any other one is strictly longer. -/
theorem C125_compatible {th maxSq : ℝ} (hth : 0 ≤ th) {proj0 : Option DynMat} {stack : List (Level n)} (hne : stack ≠ [])
    (ho : Orthonormal n proj0) (hP : ∀ P, proj0 = some P → P.cols ≤ n)
    (hm : ∀ lv ∈ stack, ∀ s, lv.mem = some s → lv.m ≤ s.1 ∧ n ≤ s.2)
    (hreg : Regular svd n th maxSq false none proj0 stack) (w : Fin n → ℝ) (hall : Allowed proj0 w) (hw : w ⬝ᵥ w ≤ maxSq)
    (hf : ∀ lv ∈ stack, Requests lv (effJac lv *ᵥ w)) :
    ∃ u, computeControlLaw svd n th maxSq false none proj0 stack = .ok (u, []) ∧ Allowed proj0 u ∧
      (∀ lv ∈ stack, effJac lv *ᵥ u = effJac lv *ᵥ w) ∧
      ∀ w', Allowed proj0 w' → (∀ lv ∈ stack, effJac lv *ᵥ w' = effJac lv *ᵥ w) → w' ≠ u → u ⬝ᵥ u < w' ⬝ᵥ w' := by
  obtain ⟨s1, s2, s3⟩ := startSt_fields (n := n) none proj0
  have hc : (basis (startSt n none proj0).kernel).c ≤ n := by
    rw [s3]
    unfold initKernel
    cases proj0 with
    | none => exact le_rfl
    | some P =>
      by_cases h : P.rows = n
      · simp only [dif_pos h]; exact hP P rfl
      · simp only [dif_neg h]; exact le_rfl
  obtain ⟨stf, h3⟩ := (loop_no_ub svd (th := th) (maxSq := maxSq) (accel := false) (lvs := stack) (st := startSt n none proj0) hm hc
    (by simp)).2 (fun lv hl i => (hf lv hl i).1)
  have hin : InRange (startSt n none proj0).kernel (w - (startSt n none proj0).control) := by
    rw [s3]
    have : (startSt n none proj0).control = 0 := rfl
    rw [this, sub_zero]
    exact (allowed_iff proj0 w).mp hall
  have hoK : Orth (startSt n none proj0).kernel := by rw [s3]; exact orth_initKernel ho
  obtain ⟨g1, g2⟩ := loop_compatible svd hth hw h3 hoK (by intro d _; simp [startSt])
    (startSt_zero _ _) hin hreg hf
  have hrun : computeControlLaw svd n th maxSq false none proj0 stack = .ok (stf.control, []) :=
    (computeControlLaw_eq svd).mpr ⟨by simp, fun _ => hne, stf, h3, rfl, by rw [g1, s2]⟩
  have hu := (C11_inside_projector svd hrun).2 rfl
  refine ⟨stf.control, hrun, hu, g2, fun w' ha hw' hneq => ?_⟩
  have hd : InRange (startSt n none proj0).kernel (w' - stf.control) := by
    rw [s3]
    exact ((allowed_iff proj0 w').mp ha).sub ((allowed_iff proj0 _).mp hu)
  have hperp := loop_perp svd hth h3 (by simp) hoK (by intro d _; simp [startSt]) (by rw [s2]; simp) (w' - stf.control) hd
    (by
      intro j hj _
      rw [Matrix.mulVec_sub, hw' _ (List.getElem_mem hj), g2 _ (List.getElem_mem hj), sub_self])
  have h4 : w' ⬝ᵥ w' = stf.control ⬝ᵥ stf.control + 2 * (stf.control ⬝ᵥ (w' - stf.control)) + (w' - stf.control) ⬝ᵥ (w' - stf.control) := by
    simp only [dotProduct_sub, sub_dotProduct, dotProduct_comm stf.control w']
    ring
  have hpos : 0 < (w' - stf.control) ⬝ᵥ (w' - stf.control) := by
    rcases lt_or_eq_of_le (dot_self_nonneg (w' - stf.control)) with h | h
    · exact h
    · exact absurd (sub_eq_zero.mp (dotProduct_self_eq_zero.mp h.symm)) hneq
  rw [h4, hperp]
  linarith

/-- C125. The control of compatible tasks does not depend on the decomposition: two stacks that use different ones (and different thresholds) give
the same control. -/
theorem C125_same_control (svd' : ∀ {m c : ℕ} (A : Matrix (Fin m) (Fin c) ℝ), Svd A) {th th' maxSq : ℝ} (hth : 0 ≤ th) (hth' : 0 ≤ th')
    {proj0 : Option DynMat} {stack : List (Level n)} (hne : stack ≠ []) (ho : Orthonormal n proj0)
    (hP : ∀ P, proj0 = some P → P.cols ≤ n) (hm : ∀ lv ∈ stack, ∀ s, lv.mem = some s → lv.m ≤ s.1 ∧ n ≤ s.2)
    (hreg : Regular svd n th maxSq false none proj0 stack) (hreg' : Regular svd' n th' maxSq false none proj0 stack)
    (w : Fin n → ℝ) (hall : Allowed proj0 w) (hw : w ⬝ᵥ w ≤ maxSq) (hf : ∀ lv ∈ stack, Requests lv (effJac lv *ᵥ w)) :
    computeControlLaw svd n th maxSq false none proj0 stack = computeControlLaw svd' n th' maxSq false none proj0 stack := by
  obtain ⟨u, a1, a2, a3, a4⟩ := C125_compatible svd hth hne ho hP hm hreg w hall hw hf
  obtain ⟨v, b1, b2, b3, b4⟩ := C125_compatible svd' hth' hne ho hP hm hreg' w hall hw hf
  have : u = v := by
    by_contra h
    have h1 := a4 v b2 b3 (fun e => h e.symm)
    have h2 := b4 u a2 a3 h
    linarith
  rw [a1, b1, this]

/-! ### A margin that makes every run regular -/

theorem sigma_margin {m c : ℕ} {A : Matrix (Fin m) (Fin c) ℝ} (S : Svd A) {a : ℝ} (ha : 0 < a)
    (h : ∀ y : Fin m → ℝ, ∃ x : Fin c → ℝ, A *ᵥ x = y ∧ a ^ 2 * (x ⬝ᵥ x) ≤ y ⬝ᵥ y) (k : Fin (min m c)) : a ≤ S.σ k := by
  set ek : Fin (min m c) → ℝ := Pi.single k 1 with hek
  obtain ⟨x, hx, hle⟩ := h (S.U *ᵥ ek)
  rw [dot_U] at hle
  have h1 : ek ⬝ᵥ ek = 1 := by simp [hek]
  rw [h1] at hle
  have h2 : S.σ k * ((thinV S)ᵀ *ᵥ x) k = 1 := by
    have h3 : S.Uᵀ *ᵥ (A *ᵥ x) = S.Uᵀ *ᵥ (S.U *ᵥ ek) := by rw [hx]
    rw [svd_mulVec S, Matrix.mulVec_mulVec, S.U_orth, Matrix.one_mulVec, Matrix.mulVec_mulVec, S.U_orth, Matrix.one_mulVec] at h3
    have := congrFun h3 k
    simpa [hek] using this
  set z := (thinV S)ᵀ *ᵥ x with hz
  have h4 : z k * z k ≤ z ⬝ᵥ z := by
    unfold dotProduct
    exact Finset.single_le_sum (f := fun i => z i * z i) (fun i _ => mul_self_nonneg _) (Finset.mem_univ k)
  have h5 : z ⬝ᵥ z ≤ x ⬝ᵥ x := by
    have h6 : x ⬝ᵥ (thinV S *ᵥ z) = z ⬝ᵥ z := by rw [Matrix.dotProduct_mulVec, ← Matrix.mulVec_transpose, ← hz]
    have h7 : (thinV S *ᵥ z) ⬝ᵥ (thinV S *ᵥ z) = z ⬝ᵥ z := by
      rw [Matrix.dotProduct_mulVec, ← Matrix.mulVec_transpose, Matrix.mulVec_mulVec, thinV_orth, Matrix.one_mulVec]
    have h8 := dot_self_nonneg (x - thinV S *ᵥ z)
    rw [sub_dotProduct, dotProduct_sub, dotProduct_sub, dotProduct_comm (thinV S *ᵥ z) x, h6, h7] at h8
    linarith
  have h9 : a ^ 2 * (z k * z k) ≤ 1 := le_trans (mul_le_mul_of_nonneg_left (le_trans h4 h5) (sq_nonneg a)) hle
  have hnn := S.nonneg k
  by_contra hlt
  have hlt := not_le.mp hlt
  have hs : S.σ k ^ 2 * (z k * z k) = 1 := by
    calc S.σ k ^ 2 * (z k * z k) = (S.σ k * z k) * (S.σ k * z k) := by ring
      _ = 1 := by rw [h2, one_mul]
  have hzz : 0 < z k * z k := by
    rcases lt_or_eq_of_le (mul_self_nonneg (z k)) with h | h
    · exact h
    · rw [← h, mul_zero] at hs; exact absurd hs (by norm_num)
  have : S.σ k ^ 2 < a ^ 2 := by nlinarith
  nlinarith

/-- C125. If each task can be moved in any direction without moving the tasks above it, by velocities at most `1 / a` times longer than what they give,
with `a` above the threshold, then no singular value met is below the threshold. -/
theorem C125_margin_regular {th a maxSq : ℝ} (hth : 0 ≤ th) (ha : th < a) {stack : List (Level n)}
    (h : ∀ pre lv post, stack = pre ++ lv :: post → ∀ y : Fin lv.m → ℝ, ∃ d : Fin n → ℝ, (∀ p ∈ pre, effJac p *ᵥ d = 0) ∧
      effJac lv *ᵥ d = y ∧ a ^ 2 * (d ⬝ᵥ d) ≤ y ⬝ᵥ y) :
    Regular svd n th maxSq false none none stack := by
  have key : ∀ (lvs pre : List (Level n)) (st : St n), stack = pre ++ lvs → Orth st.kernel →
      (∀ d, (∀ p ∈ pre, effJac p *ᵥ d = 0) → InRange st.kernel d) → RegularFrom svd th maxSq false lvs st := by
    intro lvs
    induction lvs with
    | nil => intro _ _ _ _ _; trivial
    | cons lv rest ih =>
      intro pre st hs ho hin
      refine ⟨fun k hk => ?_, fun st' h1 => ?_⟩
      · exfalso
        have := sigma_margin (svd (effJac lv * (basis st.kernel).K)) (lt_of_le_of_lt hth ha) (fun y => by
          obtain ⟨d, d1, d2, d3⟩ := h pre lv rest hs y
          obtain ⟨x, rfl⟩ := hin d d1
          have hoK : (basis st.kernel).Kᵀ * (basis st.kernel).K = 1 := ho
          rw [orth_dot hoK] at d3
          exact ⟨x, by rw [← Matrix.mulVec_mulVec, d2], d3⟩) k
        linarith
      · by_cases hrest : rest = []
        · subst hrest; trivial
        have hlast : rest.isEmpty = false := by simpa using hrest
        rw [hlast] at h1
        refine ih (pre ++ [lv]) st' (by rw [hs]; simp) (levelStep_orth svd h1 ho) (fun d hd => ?_)
        have hd1 := hin d (fun p hp => hd p (by simp [hp]))
        rcases (levelStep_frame svd h1).2.2.2.1 with hacc | ⟨-, -, hk, -⟩
        · exact kernel_complete svd hth h1 hacc d hd1 (hd lv (by simp))
        · rw [hk]; exact hd1
  exact key stack [] _ rfl orth_none (fun d _ => InRange.none d)

/-! ### The hypotheses are met -/

/-- A task with one row on a robot with two joints. -/
noncomputable def rowLevel (a b v : ℝ) : Level 2 where
  m := 1
  jac := Matrix.of fun _ j => if j = 0 then a else b
  selec := none
  task := fun _ => ⟨.single, v, 0, 0, false, false⟩
  fullPosture := false
  mem := none

theorem rowLevel_mulVec (a b v : ℝ) (d : Fin 2 → ℝ) : effJac (rowLevel a b v) *ᵥ d = fun _ => a * d 0 + b * d 1 := by
  funext i
  show ∑ j : Fin 2, (if j = 0 then a else b) * d j = _
  simp [Fin.sum_univ_two]

/-- The first joint moves at one, the sum of both at three: the control is `(1, 2)` whatever the decomposition. -/
example : ∃ u, computeControlLaw svd 2 (1 / 10000) 10000 false none none [rowLevel 1 0 1, rowLevel 1 1 3] = .ok (u, []) ∧
    u 0 = 1 ∧ u 0 + u 1 = 3 := by
  have hreg : Regular svd 2 (1 / 10000) 10000 false none none [rowLevel 1 0 1, rowLevel 1 1 3] := by
    refine C125_margin_regular svd (a := 1 / 2) (by norm_num) (by norm_num) ?_
    rintro (_ | ⟨p, _ | ⟨p', pre⟩⟩) lv post h y
    · simp only [List.nil_append, List.cons.injEq] at h
      obtain ⟨rfl, -⟩ := h
      change Fin 1 → ℝ at y
      refine ⟨![y 0, 0], by simp, ?_, ?_⟩
      · rw [rowLevel_mulVec]
        funext i
        change Fin 1 at i
        have : i = 0 := Subsingleton.elim _ _
        simp [this]
      · have : y ⬝ᵥ y = y 0 * y 0 := by simp [dotProduct]
        show _ ≤ y ⬝ᵥ y
        rw [this]
        simp [dotProduct, Fin.sum_univ_two]
        nlinarith [mul_self_nonneg (y 0)]
    · simp only [List.cons_append, List.nil_append, List.cons.injEq] at h
      obtain ⟨rfl, rfl, -⟩ := h
      change Fin 1 → ℝ at y
      refine ⟨![0, y 0], ?_, ?_, ?_⟩
      · intro p hp
        rw [List.mem_singleton.mp hp, rowLevel_mulVec]
        funext i
        simp
      · rw [rowLevel_mulVec]
        funext i
        change Fin 1 at i
        have : i = 0 := Subsingleton.elim _ _
        simp [this]
      · have : y ⬝ᵥ y = y 0 * y 0 := by simp [dotProduct]
        show _ ≤ y ⬝ᵥ y
        rw [this]
        simp [dotProduct, Fin.sum_univ_two]
        nlinarith [mul_self_nonneg (y 0)]
    · simp at h
  obtain ⟨u, h1, -, h2, -⟩ := C125_compatible svd (by norm_num) (by simp) (by simp [Orthonormal]) (by simp)
    (by
      intro lv hl s hs
      simp only [List.mem_cons, List.not_mem_nil, or_false] at hl
      rcases hl with rfl | rfl <;> simp [rowLevel] at hs) hreg ![1, 2] (by simp [Allowed])
    (by simp [dotProduct, Fin.sum_univ_two]; norm_num)
    (by
      intro lv hl i
      simp only [List.mem_cons, List.not_mem_nil, or_false] at hl
      rcases hl with rfl | rfl
      · rw [rowLevel_mulVec]; exact ⟨rfl, by simp [rowLevel]⟩
      · rw [rowLevel_mulVec]; exact ⟨rfl, by simp [rowLevel]; norm_num⟩)
  refine ⟨u, h1, ?_, ?_⟩
  · have := congrFun (h2 _ (by simp : rowLevel 1 0 1 ∈ _)) (0 : Fin 1)
    rw [rowLevel_mulVec, rowLevel_mulVec] at this
    simpa using this
  · have := congrFun (h2 _ (by simp : rowLevel 1 1 3 ∈ _)) (0 : Fin 1)
    rw [rowLevel_mulVec, rowLevel_mulVec] at this
    simp at this
    rw [this]; norm_num

end Verif.Sot
