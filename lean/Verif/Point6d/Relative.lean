import Verif.Point6d.Examples

/-!
# The feature of a position relative to another frame (C96)
-/

namespace Verif.Point6d

open Matrix Verif.Geometry Verif.Features Verif.Spatial

/-- The position of one frame in another one. -/
noncomputable def inFrame (p q : Pose ℝ) : Pose ℝ := p.inv.mul q

/-- The relative position a reference asks for. -/
noncomputable def asked : Option RelRef → Pose ℝ
  | some (.relative p pref) => inFrame p pref
  | some (.absolute m) => m
  | none => Pose.one

/-- The frames of a reference are frames. -/
def RefOk : Option RelRef → Prop
  | some (.relative p pref) => IsRot p.R ∧ IsRot pref.R
  | some (.absolute m) => IsRot m.R
  | none => True

theorem asked_isRot {ref : Option RelRef} (h : RefOk ref) : IsRot (asked ref).R := by
  rcases ref with _ | ⟨p, pref⟩ | m
  · exact isRot_one
  · exact h.1.inv.mul h.2
  · exact h

theorem relError_eq (p q : Pose ℝ) (ref : Option RelRef) : relError p q ref = (inFrame p q).mul (asked ref).inv := by
  rcases ref with _ | ⟨a, b⟩ | m
  · apply Pose.ext <;> simp [relError, asked, inFrame, Pose.mul, Pose.inv, Pose.one]
  · rfl
  · rfl

theorem relError_isRot {p q : Pose ℝ} {ref : Option RelRef} (hp : IsRot p.R) (hq : IsRot q.R) (h : RefOk ref) :
    IsRot (relError p q ref).R := by
  rw [relError_eq]
  exact (hp.inv.mul hq).mul (asked_isRot h).inv

theorem mul_inv_eq_one {A B : Pose ℝ} (hB : IsRot B.R) : A.mul B.inv = Pose.one ↔ A = B := by
  constructor
  · intro h
    have hR : A.R * B.R⁻¹ = 1 := congrArg Pose.R h
    have ht : A.R *ᵥ (-(B.R⁻¹ *ᵥ B.t)) + A.t = 0 := congrArg Pose.t h
    have e1 : A.R = B.R := by
      have := congrArg (fun m => m * B.R) hR
      simpa [Matrix.mul_assoc, inv_mul_cancel' hB] using this
    refine Pose.ext e1 ?_
    rw [mulVec_neg, mulVec_mulVec, hR, one_mulVec] at ht
    rw [← sub_eq_zero, ← ht]
    abel
  · rintro rfl
    apply Pose.ext
    · exact mul_inv_cancel' hB
    · simp [Pose.mul, Pose.inv, Pose.one, mulVec_neg, mul_inv_cancel' hB]

/-- **C96.** The error of the relative feature is zero exactly when the position of the second frame in the first one is the one the
reference asks for. -/
theorem C96_error_zero (p q : Pose ℝ) (ref : Option RelRef) (hp : IsRot p.R) (hq : IsRot q.R) (h : RefOk ref) :
    relErrorFull p q ref = 0 ↔ inFrame p q = asked ref := by
  have hX := relError_isRot hp hq h
  rw [← mul_inv_eq_one (asked_isRot h), ← relError_eq]
  constructor
  · intro e
    have ht : (relError p q ref).t = 0 := by funext i; exact congrFun e (.inl i)
    have hR : rotVec (relError p q ref).R = 0 := by funext i; exact congrFun e (.inr i)
    exact Pose.ext ((rotVec_eq_zero hX).mp hR) ht
  · intro e
    funext r
    rcases r with i | i
    · change (relError p q ref).t i = 0
      rw [e]; rfl
    · change rotVec (relError p q ref).R i = 0
      rw [e, show rotVec (Pose.one : Pose ℝ).R = 0 from (rotVec_eq_zero isRot_one).mpr rfl]
      rfl

/-- **C96.** After `initSdes` the error is zero. -/
theorem C96_initSdes (p q : Pose ℝ) (hp : IsRot p.R) (hq : IsRot q.R) : relErrorFull p q (some (initSdes p q)) = 0 :=
  (C96_error_zero p q _ hp hq (show RefOk (some (initSdes p q)) from ⟨hp, hq⟩)).mpr rfl

/-- **C96.** Only relative positions matter: moving the two frames together, rigidly, does not change the error. -/
theorem C96_world_invariant (A p q : Pose ℝ) (ref : Option RelRef) (hA : IsRot A.R) (hp : IsRot p.R) :
    relErrorFull (A.mul p) (A.mul q) ref = relErrorFull p q ref := by
  have hi : (A.R * p.R)⁻¹ * A.R = p.R⁻¹ := by
    rw [(hA.mul hp).inv_eq, hp.inv_eq, Matrix.transpose_mul, Matrix.mul_assoc, hA.1, Matrix.mul_one]
  have key : inFrame (A.mul p) (A.mul q) = inFrame p q := by
    apply Pose.ext
    · simp only [inFrame, Pose.mul, Pose.inv]
      rw [← Matrix.mul_assoc, hi]
    · simp only [inFrame, Pose.mul, Pose.inv, mulVec_add, mulVec_mulVec, hi]
      abel
  simp only [relErrorFull, relError_eq, key]

/-- **C96.** The selected components. -/
theorem C96_selected {ι : Type} (sel : Nat → Bool) (p q : Pose ℝ) (ref : Option RelRef) (Jq JqRef : Matrix (Fin 3 ⊕ Fin 3) ι ℝ)
    (res : List ℝ) (rows : List (ι → ℝ)) (h1 : res.length = dimension sel) (h2 : rows.length = dimension sel) :
    relComputeError sel p q ref res = .ok ((picked sel 6).map (at6 (relErrorFull p q ref))) ∧
      relComputeJacobian sel p q Jq JqRef rows = .ok ((picked sel 6).map (at6 (relJacobianFull p q Jq JqRef))) :=
  ⟨fill_component sel _ res h1, fill_component sel _ rows h2⟩

/-! ### Motions -/

theorem worldOfBody {M : ℝ → Pose ℝ} {v w : Fin 3 → ℝ} {t : ℝ} (hM : IsRot (M t).R) (h : BodyTwist M v w t) :
    WorldTwist M ((M t).R *ᵥ v) ((M t).R *ᵥ w) t := by
  refine ⟨fun i j => ?_, h.pos⟩
  rw [hM.skew_comm]; exact h.rot i j

theorem twist_parts {ι : Type} [Fintype ι] (N : Pose ℝ) (Jq : Matrix (Fin 3 ⊕ Fin 3) ι ℝ) (u : ι → ℝ) :
    linPart (twist N * Jq) u = N.R *ᵥ linPart Jq u + N.t ⨯₃ (N.R *ᵥ angPart Jq u) ∧
      angPart (twist N * Jq) u = N.R *ᵥ angPart Jq u := by
  have : Jq *ᵥ u = Sum.elim (linPart Jq u) (angPart Jq u) := by funext k; cases k <;> rfl
  constructor
  · funext i
    simp only [linPart]
    rw [← mulVec_mulVec, this, twist, fromBlocks_mulVec]
    simp [← mulVec_mulVec, skew_mulVec]
  · funext i
    simp only [angPart]
    rw [← mulVec_mulVec, this, twist, fromBlocks_mulVec]
    simp

section
variable {ι : Type} [Fintype ι] (P Q : ℝ → Pose ℝ) (hP : ∀ s, IsRot (P s).R) (hQ : ∀ s, IsRot (Q s).R) (ref : Option RelRef)
  (href : RefOk ref)

include hP hQ

/-- The motion of the relative position, in terms of what the Jacobian announces. -/
theorem inFrame_motion (Jq JqRef : Matrix (Fin 3 ⊕ Fin 3) ι ℝ) (u : ι → ℝ) (t : ℝ)
    (hp : BodyTwist P (linPart Jq u) (angPart Jq u) t) (hq : BodyTwist Q (linPart JqRef u) (angPart JqRef u) t) :
    (∀ i j, HasDerivAt (fun s => (inFrame (P s) (Q s)).R i j)
      ((skew (rotPart (relJacobianFull (P t) (Q t) Jq JqRef *ᵥ u)) * (inFrame (P t) (Q t)).R) i j) t) ∧
    ∀ i, HasDerivAt (fun s => (inFrame (P s) (Q s)).t i)
      ((transPart (relJacobianFull (P t) (Q t) Jq JqRef *ᵥ u) +
        rotPart (relJacobianFull (P t) (Q t) Jq JqRef *ᵥ u) ⨯₃ (inFrame (P t) (Q t)).t) i) t := by
  obtain ⟨hr, ht⟩ := relative_motion .current P Q hP hQ hp (worldOfBody (hQ t) hq)
  have hN : IsRot (inFrame (P t) (Q t)).R := (hP t).inv.mul (hQ t)
  have hNR : (inFrame (P t) (Q t)).R = (P t).Rᵀ * (Q t).R := by simp [inFrame, Pose.mul, Pose.inv, (hP t).inv_eq]
  have hNt : (inFrame (P t) (Q t)).t = (P t).Rᵀ *ᵥ ((Q t).t - (P t).t) := by
    simp only [inFrame, Pose.mul, Pose.inv, (hP t).inv_eq, mulVec_sub]
    abel
  obtain ⟨e1, e2⟩ := twist_parts (inFrame (P t) (Q t)) JqRef u
  have hang : rotPart (relJacobianFull (P t) (Q t) Jq JqRef *ᵥ u)
      = (inFrame (P t) (Q t)).R *ᵥ angPart JqRef u - angPart Jq u := by
    rw [← e2]
    funext i
    simp [rotPart, relJacobianFull, sub_mulVec, angPart, inFrame]
  have hlin : transPart (relJacobianFull (P t) (Q t) Jq JqRef *ᵥ u)
      = (inFrame (P t) (Q t)).R *ᵥ linPart JqRef u +
        (inFrame (P t) (Q t)).t ⨯₃ ((inFrame (P t) (Q t)).R *ᵥ angPart JqRef u) - linPart Jq u := by
    rw [← e1]
    funext i
    simp [transPart, relJacobianFull, sub_mulVec, linPart, inFrame]
  constructor
  · intro i j
    refine (hr i j).congr_deriv ?_
    rw [rot_skew hN, hang]
    have e : (Q t).Rᵀ *ᵥ ((Q t).R *ᵥ angPart JqRef u) - ((Q t).Rᵀ * (P t).R) *ᵥ angPart Jq u
        = (inFrame (P t) (Q t)).Rᵀ *ᵥ ((inFrame (P t) (Q t)).R *ᵥ angPart JqRef u - angPart Jq u) := by
      rw [mulVec_sub, mulVec_mulVec, mulVec_mulVec, (hQ t).1, hN.1, hNR, transpose_mul, transpose_transpose]
    rw [← e]
    rfl
  · intro i
    refine (ht i).congr_deriv ?_
    have e : (P t).Rᵀ *ᵥ ((Q t).R *ᵥ linPart JqRef u) - linPart Jq u - angPart Jq u ⨯₃ ((P t).Rᵀ *ᵥ ((Q t).t - (P t).t))
        = transPart (relJacobianFull (P t) (Q t) Jq JqRef *ᵥ u) +
          rotPart (relJacobianFull (P t) (Q t) Jq JqRef *ᵥ u) ⨯₃ (inFrame (P t) (Q t)).t := by
      rw [hang, hlin, ← hNt, mulVec_mulVec, ← hNR, LinearMap.map_sub₂,
        ← cross_anticomm ((inFrame (P t) (Q t)).R *ᵥ angPart JqRef u)]
      abel
    rw [← e]

include href

theorem relError_motion (Jq JqRef : Matrix (Fin 3 ⊕ Fin 3) ι ℝ) (u : ι → ℝ) (t : ℝ)
    (hp : BodyTwist P (linPart Jq u) (angPart Jq u) t) (hq : BodyTwist Q (linPart JqRef u) (angPart JqRef u) t) :
    BodyRot (fun s => (relError (P s) (Q s) ref).R)
      ((relError (P t) (Q t) ref).Rᵀ *ᵥ rotPart (relJacobianFull (P t) (Q t) Jq JqRef *ᵥ u)) t ∧
    ∀ i, HasDerivAt (fun s => (relError (P s) (Q s) ref).t i)
      ((transPart (relJacobianFull (P t) (Q t) Jq JqRef *ᵥ u) +
        rotPart (relJacobianFull (P t) (Q t) Jq JqRef *ᵥ u) ⨯₃ (relError (P t) (Q t) ref).t) i) t := by
  obtain ⟨h1, h2⟩ := inFrame_motion P Q hP hQ Jq JqRef u t hp hq
  have hX := relError_isRot (hP t) (hQ t) href
  constructor
  · intro i j
    rw [← rot_skew hX]
    simp only [relError_eq]
    have hc : ∀ i j, HasDerivAt (fun _ : ℝ => (asked ref).inv.R i j) ((0 : Matrix (Fin 3) (Fin 3) ℝ) i j) t :=
      fun i j => hasDerivAt_const t _
    refine (hasDerivAt_mulMat h1 hc i j).congr_deriv ?_
    simp only [Matrix.mul_zero, add_zero, Pose.mul, Matrix.mul_assoc]
  · intro i
    simp only [relError_eq]
    have hc : ∀ i, HasDerivAt (fun _ : ℝ => (asked ref).inv.t i) ((0 : Fin 3 → ℝ) i) t :=
      fun i => hasDerivAt_const t _
    refine ((hasDerivAt_mulVec h1 hc i).add (h2 i)).congr_deriv ?_
    simp only [mulVec_zero, add_zero, Pose.mul, ← mulVec_mulVec, skew_mulVec, map_add, Pi.add_apply, Pi.zero_apply]
    ring

/-- **C96.** Away from the half turn, the Jacobian of the relative feature gives exactly the velocities of half of the squared norms
of the translation error and of the rotation error. -/
theorem C96_norm (Jq JqRef : Matrix (Fin 3 ⊕ Fin 3) ι ℝ) (u : ι → ℝ) (t : ℝ)
    (hp : BodyTwist P (linPart Jq u) (angPart Jq u) t) (hq : BodyTwist Q (linPart JqRef u) (angPart JqRef u) t) :
    HasDerivAt (fun s => (transPart (relErrorFull (P s) (Q s) ref) ⬝ᵥ transPart (relErrorFull (P s) (Q s) ref)) / 2)
      (transPart (relErrorFull (P t) (Q t) ref) ⬝ᵥ transPart (relJacobianFull (P t) (Q t) Jq JqRef *ᵥ u)) t ∧
    (rotPart (relErrorFull (P t) (Q t) ref) ⬝ᵥ rotPart (relErrorFull (P t) (Q t) ref) < Real.pi ^ 2 →
      HasDerivAt (fun s => (rotPart (relErrorFull (P s) (Q s) ref) ⬝ᵥ rotPart (relErrorFull (P s) (Q s) ref)) / 2)
        (rotPart (relErrorFull (P t) (Q t) ref) ⬝ᵥ rotPart (relJacobianFull (P t) (Q t) Jq JqRef *ᵥ u)) t) := by
  obtain ⟨h1, h2⟩ := relError_motion P Q hP hQ ref href Jq JqRef u t hp hq
  have hX := relError_isRot (hP t) (hQ t) href
  have hs : ∀ (f : ℝ → Fin 3 → ℝ) (f' : Fin 3 → ℝ), (∀ i, HasDerivAt (fun s => f s i) (f' i) t) →
      HasDerivAt (fun s => (f s ⬝ᵥ f s) / 2) (f t ⬝ᵥ f') t := by
    intro f f' hf
    have h3 := ((((hf 0).mul (hf 0)).add ((hf 1).mul (hf 1))).add ((hf 2).mul (hf 2))).div_const 2
    refine HasDerivAt.congr_deriv (f' := _) (h3.congr_of_eventuallyEq (Filter.Eventually.of_forall fun s => ?_)) ?_
    · simp [dotProduct, Fin.sum_univ_three]
    · simp [dotProduct, Fin.sum_univ_three]
      ring
  constructor
  · refine (hs (fun s => transPart (relErrorFull (P s) (Q s) ref)) _ h2).congr_deriv ?_
    have e : transPart (relErrorFull (P t) (Q t) ref) = (relError (P t) (Q t) ref).t := rfl
    rw [e, dotProduct_add, dot_cross_self, add_zero]
  · intro hlt
    obtain ⟨e', h3, h4⟩ := rotVec_deriv _ (fun s => relError_isRot (hP s) (hQ s) href) _ t h1 (by
      change rotVec _ ⬝ᵥ rotVec _ < _ at hlt
      rw [rotVec_sq hX] at hlt
      exact lt_of_pow_lt_pow_left₀ 2 Real.pi_pos.le hlt)
    refine (hs (fun s => rotPart (relErrorFull (P s) (Q s) ref)) _ h3).congr_deriv ?_
    have e : rotPart (relErrorFull (P t) (Q t) ref) = rotVec (relError (P t) (Q t) ref).R := rfl
    rw [e, ← dot_rightJac, h4, dotProduct_mulVec, vecMul_transpose, rotVec_fixed hX]

/-- **C96.** Expected: the translation rows give the velocity of the translation error. What holds: they do when the announced
angular velocity is along the translation error. -/
theorem C96_translation_partial (Jq JqRef : Matrix (Fin 3 ⊕ Fin 3) ι ℝ) (u : ι → ℝ) (t : ℝ)
    (hp : BodyTwist P (linPart Jq u) (angPart Jq u) t) (hq : BodyTwist Q (linPart JqRef u) (angPart JqRef u) t)
    (hc : rotPart (relJacobianFull (P t) (Q t) Jq JqRef *ᵥ u) ⨯₃ transPart (relErrorFull (P t) (Q t) ref) = 0) :
    ∀ i, HasDerivAt (fun s => relErrorFull (P s) (Q s) ref (.inl i)) ((relJacobianFull (P t) (Q t) Jq JqRef *ᵥ u) (.inl i)) t := by
  obtain ⟨-, h2⟩ := relError_motion P Q hP hQ ref href Jq JqRef u t hp hq
  intro i
  refine (h2 i).congr_deriv ?_
  rw [show (relError (P t) (Q t) ref).t = transPart (relErrorFull (P t) (Q t) ref) from rfl, hc, add_zero]
  rfl

/-- **C96.** The law that the task applies: when the joint velocities make the Jacobian announce `-lam` times the error, the lengths of
the translation error and of the rotation error decrease exponentially at the rate `lam`, exactly, from any error that is not a half
turn. -/
theorem C96_decay (Jq JqRef : ℝ → Matrix (Fin 3 ⊕ Fin 3) ι ℝ) (u : ℝ → ι → ℝ) (lam : ℝ) (hl : 0 ≤ lam)
    (hp : ∀ t, 0 ≤ t → BodyTwist P (linPart (Jq t) (u t)) (angPart (Jq t) (u t)) t)
    (hq : ∀ t, 0 ≤ t → BodyTwist Q (linPart (JqRef t) (u t)) (angPart (JqRef t) (u t)) t)
    (hc : ∀ t, 0 ≤ t → relJacobianFull (P t) (Q t) (Jq t) (JqRef t) *ᵥ u t = -lam • relErrorFull (P t) (Q t) ref)
    (h0 : rotPart (relErrorFull (P 0) (Q 0) ref) ⬝ᵥ rotPart (relErrorFull (P 0) (Q 0) ref) < Real.pi ^ 2) :
    ∀ t, 0 ≤ t →
      transPart (relErrorFull (P t) (Q t) ref) ⬝ᵥ transPart (relErrorFull (P t) (Q t) ref)
        = Real.exp (-(2 * lam * t)) * (transPart (relErrorFull (P 0) (Q 0) ref) ⬝ᵥ transPart (relErrorFull (P 0) (Q 0) ref)) ∧
      rotPart (relErrorFull (P t) (Q t) ref) ⬝ᵥ rotPart (relErrorFull (P t) (Q t) ref)
        = Real.exp (-(2 * lam * t)) * (rotPart (relErrorFull (P 0) (Q 0) ref) ⬝ᵥ rotPart (relErrorFull (P 0) (Q 0) ref)) := by
  set e := fun s => relErrorFull (P s) (Q s) ref with he
  set A := fun s => rotPart (e s) ⬝ᵥ rotPart (e s) with hA
  set B := fun s => transPart (e s) ⬝ᵥ transPart (e s) with hB
  have hAa : ∀ s, A s = angle (relError (P s) (Q s) ref).R ^ 2 := fun s => rotVec_sq (relError_isRot (hP s) (hQ s) href)
  have hcont : ∀ t, 0 ≤ t → ContinuousAt A t := by
    intro t ht
    have hr := (relError_motion P Q hP hQ ref href (Jq t) (JqRef t) (u t) t (hp t ht) (hq t ht)).1
    have := (continuousAt_angle (fun s => relError_isRot (hP s) (hQ s) href) hr).pow 2
    exact this.congr (Filter.Eventually.of_forall fun s => (hAa s).symm)
  have hder : ∀ t, 0 ≤ t → A t < Real.pi ^ 2 → HasDerivAt A (-(2 * lam * A t)) t := by
    intro t ht hlt
    have hk := (C96_norm P Q hP hQ ref href (Jq t) (JqRef t) (u t) t (hp t ht) (hq t ht)).2 hlt
    rw [hc t ht] at hk
    refine ((hk.const_mul 2).congr_of_eventuallyEq (Filter.Eventually.of_forall fun s => ?_)).congr_deriv ?_
    · simp only [hA, he]; ring
    · rw [show rotPart (-lam • relErrorFull (P t) (Q t) ref) = -lam • rotPart (e t) from rfl, dotProduct_smul]
      simp only [hA, he, smul_eq_mul]
      ring
  have hderB : ∀ t, 0 ≤ t → HasDerivAt B (-(2 * lam * B t)) t := by
    intro t ht
    have hk := (C96_norm P Q hP hQ ref href (Jq t) (JqRef t) (u t) t (hp t ht) (hq t ht)).1
    rw [hc t ht] at hk
    refine ((hk.const_mul 2).congr_of_eventuallyEq (Filter.Eventually.of_forall fun s => ?_)).congr_deriv ?_
    · simp only [hB, he]; ring
    · rw [show transPart (-lam • relErrorFull (P t) (Q t) ref) = -lam • transPart (e t) from rfl, dotProduct_smul]
      simp only [hB, he, smul_eq_mul]
      ring
  have hbound : ∀ t, 0 ≤ t → A t ≤ A 0 :=
    bounded_of_deriv (k := 2 * lam) (by linarith) (fun s => dot_self_nonneg _) hcont hder h0
  intro t ht
  exact ⟨exp_of_deriv hderB t ht, exp_of_deriv (fun s hs => hder s hs (lt_of_le_of_lt (hbound s hs) h0)) t ht⟩

end

/-! A concrete case, and the difference with the derivative. -/

/-- **C96.** The translation rows are not, in general, the derivative of the translation error: the second frame turns about the
first axis while it is asked to be one unit away along the third axis. -/
theorem C96_translation_counterexample :
    ∃ (P Q : ℝ → Pose ℝ) (ref : Option RelRef) (Jq JqRef : Matrix (Fin 3 ⊕ Fin 3) (Fin 3 ⊕ Fin 3) ℝ) (u : Fin 3 ⊕ Fin 3 → ℝ),
      (∀ s, IsRot (P s).R) ∧ (∀ s, IsRot (Q s).R) ∧ RefOk ref ∧
      BodyTwist P (linPart Jq u) (angPart Jq u) 0 ∧ BodyTwist Q (linPart JqRef u) (angPart JqRef u) 0 ∧
      ¬ HasDerivAt (fun s => relErrorFull (P s) (Q s) ref (.inl 1)) ((relJacobianFull (P 0) (Q 0) Jq JqRef *ᵥ u) (.inl 1)) 0 := by
  have h0 : skew (0 : Fin 3 → ℝ) = 0 := by ext i j; fin_cases i <;> fin_cases j <;> simp [skew]
  have hrot : ∀ s : ℝ, IsRot (turnX s) := turnX_isRot
  have hP : BodyTwist (fun _ => (⟨1, 0⟩ : Pose ℝ)) 0 0 0 := by
    constructor
    · intro i j; rw [h0]; simpa using hasDerivAt_const (0 : ℝ) ((1 : Matrix (Fin 3) (Fin 3) ℝ) i j)
    · intro i; simpa using hasDerivAt_const (0 : ℝ) (0 : ℝ)
  have hQ : BodyTwist (fun s => (⟨turnX s, 0⟩ : Pose ℝ)) 0 ![1, 0, 0] 0 := by
    have hs := Real.hasDerivAt_sin 0
    have hc := Real.hasDerivAt_cos 0
    constructor
    · intro i j
      fin_cases i <;> fin_cases j <;> simp [turnX, mul_apply, Fin.sum_univ_three, skew]
      · exact hasDerivAt_const (0 : ℝ) (1 : ℝ)
      · exact hasDerivAt_const (0 : ℝ) (0 : ℝ)
      · exact hasDerivAt_const (0 : ℝ) (0 : ℝ)
      · exact hasDerivAt_const (0 : ℝ) (0 : ℝ)
      · simpa using hc
      · exact hs.neg.congr_deriv (by simp)
      · exact hasDerivAt_const (0 : ℝ) (0 : ℝ)
      · simpa using hs
      · simpa using hc
    · intro i
      fin_cases i <;> simpa using hasDerivAt_const (0 : ℝ) (0 : ℝ)
  have hl0 : linPart (0 : Matrix (Fin 3 ⊕ Fin 3) (Fin 3 ⊕ Fin 3) ℝ) (Sum.elim (0 : Fin 3 → ℝ) ![1, 0, 0]) = 0 := by
    funext i; simp [linPart]
  have ha0 : angPart (0 : Matrix (Fin 3 ⊕ Fin 3) (Fin 3 ⊕ Fin 3) ℝ) (Sum.elim (0 : Fin 3 → ℝ) ![1, 0, 0]) = 0 := by
    funext i; simp [angPart]
  have hl1 : linPart (1 : Matrix (Fin 3 ⊕ Fin 3) (Fin 3 ⊕ Fin 3) ℝ) (Sum.elim (0 : Fin 3 → ℝ) ![1, 0, 0]) = 0 := by
    funext i; simp [linPart]
  have ha1 : angPart (1 : Matrix (Fin 3 ⊕ Fin 3) (Fin 3 ⊕ Fin 3) ℝ) (Sum.elim (0 : Fin 3 → ℝ) ![1, 0, 0]) = ![1, 0, 0] := by
    funext i; simp [angPart]
  refine ⟨fun _ => ⟨1, 0⟩, fun s => ⟨turnX s, 0⟩, some (.absolute ⟨1, ![0, 0, 1]⟩), 0, 1, Sum.elim 0 ![1, 0, 0], fun _ => isRot_one,
    hrot, isRot_one, by rw [hl0, ha0]; exact hP, by rw [hl1, ha1]; exact hQ, ?_⟩
  intro hd
  obtain ⟨-, h2⟩ := relError_motion (fun _ => ⟨1, 0⟩) (fun s => ⟨turnX s, 0⟩) (fun _ => isRot_one) hrot
    (some (.absolute ⟨1, ![0, 0, 1]⟩)) isRot_one 0 1 (Sum.elim (0 : Fin 3 → ℝ) ![1, 0, 0]) 0 (by rw [hl0, ha0]; exact hP)
    (by rw [hl1, ha1]; exact hQ)
  have hu := hd.unique (h2 1)
  have hz : rotPart (relJacobianFull ⟨1, 0⟩ ⟨turnX 0, 0⟩ 0 (1 : Matrix (Fin 3 ⊕ Fin 3) (Fin 3 ⊕ Fin 3) ℝ) *ᵥ
      Sum.elim (0 : Fin 3 → ℝ) ![1, 0, 0]) = ![1, 0, 0] := by
    have := (twist_parts (inFrame ⟨1, 0⟩ ⟨turnX 0, 0⟩) (1 : Matrix (Fin 3 ⊕ Fin 3) (Fin 3 ⊕ Fin 3) ℝ)
      (Sum.elim (0 : Fin 3 → ℝ) ![1, 0, 0])).2
    rw [ha1] at this
    have e : rotPart (relJacobianFull ⟨1, 0⟩ ⟨turnX 0, 0⟩ 0 (1 : Matrix (Fin 3 ⊕ Fin 3) (Fin 3 ⊕ Fin 3) ℝ) *ᵥ
      Sum.elim (0 : Fin 3 → ℝ) ![1, 0, 0]) = angPart (twist (inFrame ⟨1, 0⟩ ⟨turnX 0, 0⟩) * 1) (Sum.elim (0 : Fin 3 → ℝ) ![1, 0, 0]) := by
      simp only [relJacobianFull, sub_zero]; rfl
    rw [e, this]
    funext i
    fin_cases i <;> simp [inFrame, Pose.mul, Pose.inv, turnX, mulVec, dotProduct, Fin.sum_univ_three]
  have ht : (relError ⟨1, 0⟩ ⟨turnX 0, 0⟩ (some (.absolute ⟨1, ![0, 0, 1]⟩))).t = ![0, 0, -1] := by
    funext i
    fin_cases i <;> simp [relError, Pose.mul, Pose.inv, turnX, mulVec, dotProduct, Fin.sum_univ_three]
  rw [hz, ht] at hu
  have : transPart (relJacobianFull ⟨1, 0⟩ ⟨turnX 0, 0⟩ 0 (1 : Matrix (Fin 3 ⊕ Fin 3) (Fin 3 ⊕ Fin 3) ℝ) *ᵥ
      Sum.elim (0 : Fin 3 → ℝ) ![1, 0, 0]) 1 = (relJacobianFull ⟨1, 0⟩ ⟨turnX 0, 0⟩ 0
        (1 : Matrix (Fin 3 ⊕ Fin 3) (Fin 3 ⊕ Fin 3) ℝ) *ᵥ Sum.elim (0 : Fin 3 → ℝ) ![1, 0, 0]) (.inl 1) := rfl
  rw [Pi.add_apply, this] at hu
  simp [cross_apply] at hu

/-- **C96.** The method `computeErrorDot` of the class, which no signal calls, does not give the velocity of the translation: the sign
of one of its two terms is wrong. -/
theorem C96_method_counterexample :
    HasDerivAt (fun s : ℝ => (inFrame ⟨1, 0⟩ ⟨1, ![s, 0, 0]⟩).t 0) 1 0 ∧
      relDtr ⟨1, 0⟩ ⟨1, ![0, 0, 0]⟩ ⟨0, 0⟩ ⟨0, ![1, 0, 0]⟩ 0 = -1 := by
  constructor
  · have : (fun s : ℝ => (inFrame ⟨1, 0⟩ ⟨1, ![s, 0, 0]⟩).t 0) = id := by
      funext s; simp [inFrame, Pose.mul, Pose.inv]
    rw [this]
    exact hasDerivAt_id 0
  · simp [relDtr]

example : relErrorFull ⟨1, 0⟩ ⟨1, ![1, 2, 3]⟩ (some (.absolute ⟨1, ![1, 2, 4]⟩)) ≠ 0 := by
  rw [Ne, C96_error_zero _ _ _ isRot_one isRot_one (show RefOk (some (.absolute ⟨1, ![1, 2, 4]⟩)) from isRot_one)]
  intro h
  have := congrFun (congrArg Pose.t h) 2
  simp [inFrame, asked, Pose.mul, Pose.inv] at this

/-- The hypotheses of the decrease: the second frame comes back to the first one along the third axis. -/
example (t : ℝ) (ht : 0 ≤ t) :
    transPart (relErrorFull ⟨1, 0⟩ ⟨1, ![0, 0, Real.exp (-t)]⟩ none) ⬝ᵥ
        transPart (relErrorFull ⟨1, 0⟩ ⟨1, ![0, 0, Real.exp (-t)]⟩ none)
      = Real.exp (-(2 * 1 * t)) * (transPart (relErrorFull ⟨1, 0⟩ ⟨1, ![0, 0, Real.exp (-0)]⟩ none) ⬝ᵥ
        transPart (relErrorFull ⟨1, 0⟩ ⟨1, ![0, 0, Real.exp (-0)]⟩ none)) := by
  have h0 : skew (0 : Fin 3 → ℝ) = 0 := by ext i j; fin_cases i <;> fin_cases j <;> simp [skew]
  have hl0 : ∀ u, linPart (0 : Matrix (Fin 3 ⊕ Fin 3) (Fin 3 ⊕ Fin 3) ℝ) u = 0 := by
    intro u; funext i; simp [linPart]
  have ha0 : ∀ u, angPart (0 : Matrix (Fin 3 ⊕ Fin 3) (Fin 3 ⊕ Fin 3) ℝ) u = 0 := by
    intro u; funext i; simp [angPart]
  have hl1 : ∀ s, linPart (1 : Matrix (Fin 3 ⊕ Fin 3) (Fin 3 ⊕ Fin 3) ℝ) (Sum.elim ![0, 0, -Real.exp (-s)] (0 : Fin 3 → ℝ))
      = ![0, 0, -Real.exp (-s)] := by
    intro s; funext i; simp [linPart]
  have ha1 : ∀ s, angPart (1 : Matrix (Fin 3 ⊕ Fin 3) (Fin 3 ⊕ Fin 3) ℝ) (Sum.elim ![0, 0, -Real.exp (-s)] (0 : Fin 3 → ℝ)) = 0 := by
    intro s; funext i; simp [angPart]
  have herr : ∀ s : ℝ, relErrorFull ⟨1, 0⟩ ⟨1, ![0, 0, Real.exp (-s)]⟩ none = Sum.elim ![0, 0, Real.exp (-s)] (0 : Fin 3 → ℝ) := by
    intro s
    funext r
    rcases r with i | i
    · change (relError _ _ none).t i = _
      simp [relError, Pose.mul, Pose.inv]
    · change rotVec (relError _ _ none).R i = _
      have : (relError ⟨1, 0⟩ ⟨1, ![0, 0, Real.exp (-s)]⟩ none).R = 1 := by simp [relError, Pose.mul, Pose.inv]
      rw [this, (rotVec_eq_zero isRot_one).mpr rfl]
      rfl
  refine (C96_decay (fun _ => ⟨1, 0⟩) (fun s => ⟨1, ![0, 0, Real.exp (-s)]⟩) (fun _ => isRot_one) (fun _ => isRot_one) none trivial
    (fun _ => (0 : Matrix (Fin 3 ⊕ Fin 3) (Fin 3 ⊕ Fin 3) ℝ)) (fun _ => 1) (fun s => Sum.elim ![0, 0, -Real.exp (-s)] 0) 1 zero_le_one
    ?_ ?_ ?_ ?_ t ht).1
  · intro s _
    rw [hl0, ha0]
    constructor
    · intro i j; rw [h0]; simpa using hasDerivAt_const s ((1 : Matrix (Fin 3) (Fin 3) ℝ) i j)
    · intro i; simpa using hasDerivAt_const s (0 : ℝ)
  · intro s _
    rw [hl1, ha1]
    have he : HasDerivAt (fun s : ℝ => Real.exp (-s)) (-Real.exp (-s)) s := by
      simpa using (hasDerivAt_id s).neg.exp
    constructor
    · intro i j; rw [h0]; simpa using hasDerivAt_const s ((1 : Matrix (Fin 3) (Fin 3) ℝ) i j)
    · intro i
      fin_cases i
      · simpa using hasDerivAt_const s (0 : ℝ)
      · simpa using hasDerivAt_const s (0 : ℝ)
      · simpa using he
  · intro s _
    obtain ⟨e1, e2⟩ := twist_parts (inFrame ⟨1, 0⟩ ⟨1, ![0, 0, Real.exp (-s)]⟩) (1 : Matrix (Fin 3 ⊕ Fin 3) (Fin 3 ⊕ Fin 3) ℝ)
      (Sum.elim ![0, 0, -Real.exp (-s)] (0 : Fin 3 → ℝ))
    rw [hl1, ha1] at e1
    rw [ha1] at e2
    rw [herr]
    funext r
    simp only [relJacobianFull, sub_zero]
    rcases r with i | i
    · refine (congrFun e1 i).trans ?_
      fin_cases i <;> simp [inFrame, Pose.mul, Pose.inv]
    · refine (congrFun e2 i).trans ?_
      simp
  · rw [herr]
    have := Real.pi_pos
    change (0 : Fin 3 → ℝ) ⬝ᵥ 0 < _
    rw [dotProduct_zero]
    positivity

end Verif.Point6d
