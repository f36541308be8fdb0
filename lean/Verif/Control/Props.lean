import Verif.Control.Model
import Verif.Point6d.Jacobian

/-!
# Properties of the controllers (C103)
-/

namespace Verif.Control

variable {F : Type} [Add F] [Sub F] [Mul F]

/-- **C103.** The proportional-derivative control is computed exactly when all six vectors have the same size. -/
theorem C103_defined (Kp Kd q qd v vd : List F) :
    (∃ r, computePD Kp Kd q qd v vd = .ok r) ↔
      Kd.length = Kp.length ∧ q.length = Kp.length ∧ qd.length = Kp.length ∧ v.length = Kp.length ∧ vd.length = Kp.length := by
  constructor
  · rintro ⟨r, h⟩
    simp only [computePD, Outcome.bind_eq_ok, cwise, assign] at h
    obtain ⟨pe, ⟨x, hx, hpe⟩, ve, ⟨y, hy, hve⟩, a, ha, b, hb, tau, ⟨z, hz, ht⟩, -⟩ := h
    split_ifs at hx hpe hy hve ha hb hz ht
    cases hx; cases hpe; cases hy; cases hve; cases ha; cases hb; cases hz; cases ht
    simp at *
    omega
  · rintro ⟨h1, h2, h3, h4, h5⟩
    simp [computePD, cwise, assign, h1, h2, h3, h4, h5]

/-- **C103.** Otherwise the behaviour is undefined: no exception is raised. -/
theorem C103_sizes_counterexample {Kp Kd q qd v vd : List F}
    (h : ¬(Kd.length = Kp.length ∧ q.length = Kp.length ∧ qd.length = Kp.length ∧ v.length = Kp.length ∧ vd.length = Kp.length)) :
    computePD Kp Kd q qd v vd = .ub := by
  rw [← C103_defined] at h
  have key : ∀ (f : F → F → F) x y, cwise f x y ≠ .throw := by intro f x y; rw [cwise]; split_ifs <;> simp
  have key' : ∀ n (x : List F), assign n x ≠ .throw := by intro n x; rw [assign]; split_ifs <;> simp
  have hb : ∀ {α β : Type} {x : Outcome α} {f : α → Outcome β}, x ≠ .throw → (∀ a, f a ≠ .throw) → x.bind f ≠ .throw := by
    intro α β x f hx hf
    cases x <;> simp_all
  have ht : computePD Kp Kd q qd v vd ≠ .throw := by
    simp only [computePD]
    exact hb (hb (key _ _ _) (key' _)) fun pe => hb (hb (key _ _ _) (key' _)) fun ve => hb (key _ _ _) fun a => hb (key _ _ _) fun b =>
      hb (hb (key _ _ _) (key' _)) fun tau => by simp
  cases hc : computePD Kp Kd q qd v vd with
  | ok r => exact absurd ⟨r, hc⟩ h
  | throw => exact absurd hc ht
  | ub => rfl

/-- **C103.** The three outputs, for each joint, in any arithmetic. -/
theorem C103_components_any {Kp Kd q qd v vd : List F} {r : PD F} (h : computePD Kp Kd q qd v vd = .ok r) :
    r.tau.length = Kp.length ∧ r.positionError.length = Kp.length ∧ r.velocityError.length = Kp.length ∧
      ∀ i, i < Kp.length → ∃ kp kd p pd w wd, Kp[i]? = some kp ∧ Kd[i]? = some kd ∧ q[i]? = some p ∧ qd[i]? = some pd ∧ v[i]? = some w ∧
        vd[i]? = some wd ∧ r.positionError[i]? = some (pd - p) ∧ r.velocityError[i]? = some (wd - w) ∧
        r.tau[i]? = some ((pd - p) * kp + (wd - w) * kd) := by
  obtain ⟨h1, h2, h3, h4, h5⟩ := (C103_defined Kp Kd q qd v vd).1 ⟨r, h⟩
  simp [computePD, cwise, assign, h1, h2, h3, h4, h5] at h
  subst h
  refine ⟨by simp [h1, h2, h3, h4, h5], by simp [h2, h3], by simp [h4, h5], ?_⟩
  intro i hi
  refine ⟨Kp[i], Kd[i]'(by omega), q[i]'(by omega), qd[i]'(by omega), v[i]'(by omega), vd[i]'(by omega), ?_⟩
  have e1 : i < Kd.length := by omega
  have e2 : i < q.length := by omega
  have e3 : i < qd.length := by omega
  have e4 : i < v.length := by omega
  have e5 : i < vd.length := by omega
  simp [List.getElem?_zipWith, hi, e1, e2, e3, e4, e5]

/-- **C103.** The three outputs, for each joint. -/
theorem C103_components {Kp Kd q qd v vd : List ℝ} {r : PD ℝ} (h : computePD Kp Kd q qd v vd = .ok r) :
    r.tau.length = Kp.length ∧ r.positionError.length = Kp.length ∧ r.velocityError.length = Kp.length ∧
      ∀ i, i < Kp.length → ∃ kp kd p pd w wd, Kp[i]? = some kp ∧ Kd[i]? = some kd ∧ q[i]? = some p ∧ qd[i]? = some pd ∧ v[i]? = some w ∧
        vd[i]? = some wd ∧ r.positionError[i]? = some (pd - p) ∧ r.velocityError[i]? = some (wd - w) ∧
        r.tau[i]? = some (kp * (pd - p) + kd * (wd - w)) := by
  obtain ⟨h1, h2, h3, h4⟩ := C103_components_any h
  refine ⟨h1, h2, h3, fun i hi => ?_⟩
  obtain ⟨kp, kd, p, pd, w, wd, k1, k2, k3, k4, k5, k6, k7, k8, k9⟩ := h4 i hi
  exact ⟨kp, kd, p, pd, w, wd, k1, k2, k3, k4, k5, k6, k7, k8, by rw [k9]; congr 1; ring⟩

/-- **C103.** The error signals are those of the same evaluation of the control. -/
theorem C103_errors (Kp Kd q qd v vd : List ℝ) :
    positionError Kp Kd q qd v vd = (computePD Kp Kd q qd v vd).map (fun r => r.positionError) ∧
      velocityError Kp Kd q qd v vd = (computePD Kp Kd q qd v vd).map (fun r => r.velocityError) := ⟨rfl, rfl⟩

/-! ### The gravity control -/

/-- **C103.** The gravity control is computed exactly when the acceleration has as many components as the matrix has columns and the
gravity as many as it has rows; each component is the row times the acceleration, plus the gravity. -/
theorem C103_gravity {n m : Nat} (A : Matrix (Fin n) (Fin m) ℝ) (a g : List ℝ) :
    (∃ r, computeGR A a g = .ok r) ↔ a.length = m ∧ g.length = n := by
  rw [computeGR]
  split_ifs with h
  · by_cases hg : g.length = n
    · simp [cwise, h, hg]
    · simp [cwise, h, hg, Ne.symm hg]
  · simp [h]

/-- **C103.** The value of the gravity control. -/
theorem C103_gravity_value {n m : Nat} (A : Matrix (Fin n) (Fin m) ℝ) (a : Fin m → ℝ) (g : Fin n → ℝ) :
    computeGR A (List.ofFn a) (List.ofFn g) = .ok (List.ofFn fun i => (∑ j, A i j * a j) + g i) := by
  simp [computeGR, cwise]
  apply List.ext_getElem
  · simp
  · intro i h1 h2
    simp [Matrix.mulVec, dotProduct]

/-! ### The closed loop -/

/-- A function whose derivative is at most `-c` times itself decreases exponentially. -/
theorem le_exp_of_deriv {f f' : ℝ → ℝ} {c : ℝ} (hf : ∀ t, 0 ≤ t → HasDerivAt f (f' t) t) (hc : ∀ t, 0 ≤ t → f' t ≤ -c * f t) {t : ℝ}
    (ht : 0 ≤ t) : f t ≤ Real.exp (-c * t) * f 0 := by
  have hg : ∀ s, 0 ≤ s → HasDerivAt (fun s => f s * Real.exp (c * s)) ((f' s + c * f s) * Real.exp (c * s)) s := by
    intro s hs
    refine ((hf s hs).mul (((hasDerivAt_id s).const_mul c).exp)).congr_deriv ?_
    simp only [id]
    ring
  have hanti : AntitoneOn (fun s => f s * Real.exp (c * s)) (Set.Icc 0 t) := by
    apply antitoneOn_of_deriv_nonpos (convex_Icc 0 t)
    · exact fun s hs => (hg s hs.1).continuousAt.continuousWithinAt
    · intro s hs
      exact (hg s (interior_subset hs).1).differentiableAt.differentiableWithinAt
    · intro s hs
      have hs' := (interior_subset hs).1
      rw [(hg s hs').deriv]
      have := hc s hs'
      exact mul_nonpos_of_nonpos_of_nonneg (by linarith) (Real.exp_pos _).le
  have h := hanti (Set.left_mem_Icc.mpr ht) (Set.right_mem_Icc.mpr ht) ht
  simp only [mul_zero, Real.exp_zero, mul_one] at h
  have e : Real.exp (-c * t) * Real.exp (c * t) = 1 := by rw [← Real.exp_add]; simp
  have hp := Real.exp_pos (-c * t)
  calc f t = Real.exp (-c * t) * (f t * Real.exp (c * t)) := by linear_combination (-(f t)) * e
    _ ≤ Real.exp (-c * t) * f 0 := by gcongr

/-- The second order equation `x'' = -kp x - kd x'`: exponential decrease of the energy. -/
theorem second_order {x y : ℝ → ℝ} {kp kd : ℝ} (hp : 0 < kp) (hd : 0 < kd) (hx : ∀ t, 0 ≤ t → HasDerivAt x (y t) t)
    (hy : ∀ t, 0 ≤ t → HasDerivAt y (-kp * x t - kd * y t) t) {t : ℝ} (ht : 0 ≤ t) :
    y t ^ 2 + kp * x t ^ 2 ≤ 3 * Real.exp (-(2 * kd * kp / (3 * (2 * kp + kd ^ 2))) * t) * (y 0 ^ 2 + kp * x 0 ^ 2) := by
  set D := 2 * kp + kd ^ 2 with hD
  have hD0 : 0 < D := by positivity
  set ε := kd * kp / D with hε
  have hε0 : 0 < ε := by positivity
  have hεD : ε * D = kd * kp := by rw [hε]; field_simp
  -- 4 ε² ≤ kp
  have h4 : 4 * ε ^ 2 ≤ kp := by
    have h1 : 4 * (kd * kp) ^ 2 ≤ kp * D ^ 2 := by
      rw [hD]
      nlinarith [mul_pos hp hp, mul_nonneg hp.le (sq_nonneg (2 * kp - kd ^ 2)), mul_nonneg hp.le (sq_nonneg (kd ^ 2)),
        mul_pos hp (sq_pos_of_pos hd), mul_nonneg hp.le (sq_nonneg kp), mul_nonneg (mul_pos hp hp).le (sq_nonneg kd)]
    have h2 : 4 * ε ^ 2 * D ^ 2 ≤ kp * D ^ 2 := by
      calc 4 * ε ^ 2 * D ^ 2 = 4 * (ε * D) ^ 2 := by ring
        _ ≤ _ := by rw [hεD]; exact h1
    exact le_of_mul_le_mul_right h2 (by positivity)
  have hW : ∀ a b : ℝ, 0 ≤ b ^ 2 + kp * a ^ 2 := fun a b => by positivity
  have hcross : ∀ a b : ℝ, |2 * ε * (a * b)| ≤ (b ^ 2 + kp * a ^ 2) / 2 := by
    intro a b
    rw [abs_le]
    have h5 : 4 * ε ^ 2 * a ^ 2 ≤ kp * a ^ 2 := mul_le_mul_of_nonneg_right h4 (sq_nonneg a)
    constructor <;> nlinarith [sq_nonneg (b + 2 * ε * a), sq_nonneg (b - 2 * ε * a)]
  set V := fun s => y s ^ 2 + kp * x s ^ 2 + 2 * ε * (x s * y s) with hV
  have hVd : ∀ s, 0 ≤ s → HasDerivAt V (-2 * kd * y s ^ 2 + 2 * ε * (y s ^ 2 - kp * x s ^ 2 - kd * (x s * y s))) s := by
    intro s hs
    refine ((((hy s hs).pow 2).add (((hx s hs).pow 2).const_mul kp)).add (((hx s hs).mul (hy s hs)).const_mul (2 * ε))).congr_deriv ?_
    simp
    ring
  have hdec : ∀ s, 0 ≤ s → -2 * kd * y s ^ 2 + 2 * ε * (y s ^ 2 - kp * x s ^ 2 - kd * (x s * y s)) ≤ -(2 / 3 * ε) * V s := by
    intro s hs
    have h1 := (abs_le.1 (hcross (x s) (y s))).2
    have h2 : V s ≤ 3 / 2 * (y s ^ 2 + kp * x s ^ 2) := by
      simp only [hV]
      linarith
    -- it is enough to bound by -ε W
    have h3 : -2 * kd * y s ^ 2 + 2 * ε * (y s ^ 2 - kp * x s ^ 2 - kd * (x s * y s)) ≤ -ε * (y s ^ 2 + kp * x s ^ 2) := by
      -- (2 kd - 3 ε) y² + ε kp x² + 2 ε kd x y ≥ 0
      have h6 : 0 ≤ ((2 * kd - 3 * ε) * y s ^ 2 + ε * kp * x s ^ 2 + 2 * ε * kd * (x s * y s)) := by
        have e1 : (2 * kd - 3 * ε) * kp - ε * kd ^ 2 = kd * kp - ε * kp := by
          have : 2 * (kd * kp) = 2 * (ε * D) := by rw [hεD]
          rw [hD] at this
          nlinarith
        have e2 : ε ≤ kd := by
          have : ε * D ≤ kd * D := by
            rw [hεD, hD]
            nlinarith [mul_pos hd hp, pow_pos hd 3]
          exact le_of_mul_le_mul_right this hD0
        have e3 : 0 ≤ kp * ((2 * kd - 3 * ε) * y s ^ 2 + ε * kp * x s ^ 2 + 2 * ε * kd * (x s * y s)) := by
          have : kp * ((2 * kd - 3 * ε) * y s ^ 2 + ε * kp * x s ^ 2 + 2 * ε * kd * (x s * y s)) =
              ε * (kp * x s + kd * y s) ^ 2 + ((2 * kd - 3 * ε) * kp - ε * kd ^ 2) * y s ^ 2 := by ring
          rw [this, e1]
          have : 0 ≤ kd * kp - ε * kp := by nlinarith
          positivity
        exact nonneg_of_mul_nonneg_right e3 hp
      linarith
    nlinarith
  have h := le_exp_of_deriv hVd hdec ht
  have h1 := (abs_le.1 (hcross (x t) (y t))).1
  have h2 := (abs_le.1 (hcross (x 0) (y 0))).2
  have e : 2 * kd * kp / (3 * D) = 2 / 3 * ε := by rw [hε]; field_simp
  rw [e]
  have hexp := Real.exp_pos (-(2 / 3 * ε) * t)
  have h3 : V t ≤ Real.exp (-(2 / 3 * ε) * t) * (3 / 2 * (y 0 ^ 2 + kp * x 0 ^ 2)) := by
    refine h.trans ?_
    gcongr
    simp only [hV]
    linarith
  simp only [hV] at h3
  linarith

/-- **C103.** Closed loop: a robot whose joint accelerations are the control, with positive gains and a constant desired position (desired
velocity zero), converges to the desired position exponentially from every position and velocity, each joint at its own rate. -/
theorem C103_convergence {n : Nat} {Kp Kd qd : Fin n → ℝ} (hp : ∀ i, 0 < Kp i) (hd : ∀ i, 0 < Kd i) {q v : ℝ → Fin n → ℝ} {u : ℝ → PD ℝ}
    (hu : ∀ t, 0 ≤ t → computePD (List.ofFn Kp) (List.ofFn Kd) (List.ofFn (q t)) (List.ofFn qd) (List.ofFn (v t)) (List.ofFn fun _ : Fin n => 0) =
      .ok (u t))
    (hq : ∀ t, 0 ≤ t → ∀ i, HasDerivAt (fun s => q s i) (v t i) t)
    (hv : ∀ t, 0 ≤ t → ∀ i a, (u t).tau[i.1]? = some a → HasDerivAt (fun s => v s i) a t) {t : ℝ} (ht : 0 ≤ t) (i : Fin n) :
    v t i ^ 2 + Kp i * (qd i - q t i) ^ 2 ≤
      3 * Real.exp (-(2 * Kd i * Kp i / (3 * (2 * Kp i + Kd i ^ 2))) * t) * (v 0 i ^ 2 + Kp i * (qd i - q 0 i) ^ 2) := by
  have hx : ∀ t, 0 ≤ t → HasDerivAt (fun s => q s i - qd i) (v t i) t := fun t ht => (hq t ht i).sub_const _
  have hy : ∀ t, 0 ≤ t → HasDerivAt (fun s => v s i) (-Kp i * (q t i - qd i) - Kd i * v t i) t := by
    intro t ht
    obtain ⟨-, -, -, h⟩ := C103_components (hu t ht)
    obtain ⟨kp, kd, p, pd, w, wd, h1, h2, h3, h4, h5, h6, -, -, h7⟩ := h i.1 (by simp)
    simp at h1 h2 h3 h4 h5 h6
    refine hv t ht i _ (h7.trans ?_)
    rw [← h1, ← h2, ← h3, ← h4, ← h5, ← h6]
    congr 1
    ring
  have h := second_order (hp i) (hd i) hx hy ht
  have e : ∀ a b : ℝ, (a - b) ^ 2 = (b - a) ^ 2 := fun a b => by ring
  rwa [e (q t i), e (q 0 i)] at h

/-- **C103.** The same through the gravity control: if the torques are the gravity control of the proportional-derivative accelerations,
and the robot obeys `A q'' + g = torque` with the matrix and the gravity that the control uses, the matrix being injective, the
accelerations of the robot are those asked for. -/
theorem C103_computed_torque {n m : Nat} {A : Matrix (Fin n) (Fin m) ℝ} (hA : Function.Injective A.mulVec) (a acc : Fin m → ℝ) (g : Fin n → ℝ)
    {tau : Fin n → ℝ} (htau : computeGR A (List.ofFn a) (List.ofFn g) = .ok (List.ofFn tau)) (hr : ∀ i, (∑ j, A i j * acc j) + g i = tau i) :
    acc = a := by
  rw [C103_gravity_value] at htau
  have e : (fun i => (∑ j, A i j * a j) + g i) = tau := List.ofFn_injective (Outcome.ok.inj htau)
  apply hA
  funext i
  have := congrFun e i
  simp only [Matrix.mulVec, dotProduct]
  linarith [hr i]

/-! ### Cases -/

/-- Two joints. -/
theorem C103_case : computePD [2, 3] [1, 1] [0, 1] [1, 1] [0, 2] [0, 0] = .ok ⟨[2, -2], [1, 0], [0, -2]⟩ := by
  norm_num [computePD, cwise, assign]

/-- A solution of the closed loop with the gains 2 and 3: `q = 1 - exp (-t)`, with the desired position one. -/
theorem C103_convergence_case : ∀ t : ℝ, computePD (List.ofFn ![2]) (List.ofFn ![3]) (List.ofFn ![1 - Real.exp (-t)]) (List.ofFn ![1])
      (List.ofFn ![Real.exp (-t)]) (List.ofFn fun _ : Fin 1 => 0) = .ok ⟨[-Real.exp (-t)], [Real.exp (-t)], [-Real.exp (-t)]⟩ ∧
    HasDerivAt (fun s => 1 - Real.exp (-s)) (Real.exp (-t)) t ∧ HasDerivAt (fun s => Real.exp (-s)) (-Real.exp (-t)) t := by
  intro t
  refine ⟨?_, ?_, ?_⟩
  · simp [computePD, cwise, assign]
    ring
  · have := ((hasDerivAt_id t).neg.exp).const_sub 1
    simpa using this
  · have := (hasDerivAt_id t).neg.exp
    simpa using this

end Verif.Control
