import Verif.Sot.Size

/-!
# C136: the control is linear in what the tasks ask for, and jumps with the jacobians
-/

namespace Verif.Sot

open Matrix Verif.MultiBound

variable {n : ℕ} (svd : ∀ {m c : ℕ} (A : Matrix (Fin m) (Fin c) ℝ), Svd A)

/-- The same task asking for the velocity `e`. -/
def ask (lv : Level n) (e : Fin lv.m → ℝ) : Level n where
  m := lv.m
  jac := lv.jac
  selec := lv.selec
  task := fun i => ⟨.single, e i, 0, 0, false, false⟩
  fullPosture := lv.fullPosture
  mem := lv.mem

/-- A task and two velocities that it may be asked for. -/
abbrev Asked (n : ℕ) := (lv : Level n) × (Fin lv.m → ℝ) × (Fin lv.m → ℝ)

theorem ask_step {th maxSq : ℝ} {last : Bool} {st st' : St n} {lv : Level n} {e : Fin lv.m → ℝ}
    (h : levelStep svd th maxSq false last st (ask lv e) = .ok st') (hacc : st'.disabled = st.disabled)
    (hz : st.controlIsZero = true → st.control = 0) {k : Option (Kernel n)} (hk : st.kernel = k) :
    st'.control = st.control + (basis k).K *ᵥ increment (svd (effJac lv * (basis k).K)) (rankJ th (svd (effJac lv * (basis k).K)).σ)
      (e - effJac lv *ᵥ st.control) ∧
      (last = false → st'.kernel = some ⟨_, (basis k).K * rightCols (svd (effJac lv * (basis k).K)) (rankJ th (svd (effJac lv * (basis k).K)).σ)⟩) := by
  obtain ⟨err, he, h1, h2⟩ := levelStep_accepted svd h (by simp) hacc
  have heq : err = e := funext fun i => ((he i).2).symm
  rw [correctedErr_eq hz, heq] at h1
  rw [hk] at h1 h2
  exact ⟨h1, h2⟩

theorem loop_linear {th M1 M2 M3 : ℝ} (a b : ℝ) (lvs : List (Asked n)) {s1 s2 s3 f1 f2 f3 : St n} (hk2 : s2.kernel = s1.kernel)
    (hk3 : s3.kernel = s1.kernel) (hc : s3.control = a • s1.control + b • s2.control)
    (z1 : s1.controlIsZero = true → s1.control = 0) (z2 : s2.controlIsZero = true → s2.control = 0) (z3 : s3.controlIsZero = true → s3.control = 0)
    (h1 : loop svd th M1 false (lvs.map fun x => ask x.1 x.2.1) s1 = .ok f1)
    (h2 : loop svd th M2 false (lvs.map fun x => ask x.1 x.2.2) s2 = .ok f2)
    (h3 : loop svd th M3 false (lvs.map fun x => ask x.1 (a • x.2.1 + b • x.2.2)) s3 = .ok f3)
    (d1 : f1.disabled = s1.disabled) (d2 : f2.disabled = s2.disabled) (d3 : f3.disabled = s3.disabled) :
    f3.control = a • f1.control + b • f2.control := by
  induction lvs generalizing s1 s2 s3 with
  | nil =>
    simp only [List.map_nil, loop, Outcome.ok.injEq] at h1 h2 h3
    subst h1; subst h2; subst h3
    exact hc
  | cons x rest ih =>
    obtain ⟨t1, p1, q1⟩ := (loop_cons svd).mp h1
    obtain ⟨t2, p2, q2⟩ := (loop_cons svd).mp h2
    obtain ⟨t3, p3, q3⟩ := (loop_cons svd).mp h3
    have acc : ∀ {M : ℝ} {l : List (Level n)} {s t f : St n} {last : Bool} {lv : Level n}, levelStep svd th M false last s lv = .ok t →
        Tail svd th M false l t f → f.disabled = s.disabled → t.disabled = s.disabled ∧ f.disabled = t.disabled := by
      intro M l s t f last lv hl ht hd
      obtain ⟨-, l2, g2, -⟩ := tail_frame svd ht
      rcases (levelStep_frame svd hl).2.2.2.1 with h | ⟨h, -⟩
      · exact ⟨h, by rw [hd, h]⟩
      · rw [g2, h] at hd
        simp at hd
    obtain ⟨a1, b1⟩ := acc p1 q1 d1
    obtain ⟨a2, b2⟩ := acc p2 q2 d2
    obtain ⟨a3, b3⟩ := acc p3 q3 d3
    obtain ⟨c1, k1⟩ := ask_step svd p1 a1 z1 rfl
    obtain ⟨c2, k2⟩ := ask_step svd p2 a2 z2 hk2
    obtain ⟨c3, k3⟩ := ask_step svd p3 a3 z3 hk3
    have hcon : t3.control = a • t1.control + b • t2.control := by
      have he : a • x.2.1 + b • x.2.2 - effJac x.1 *ᵥ s3.control =
          a • (x.2.1 - effJac x.1 *ᵥ s1.control) + b • (x.2.2 - effJac x.1 *ᵥ s2.control) := by
        rw [hc, Matrix.mulVec_add, Matrix.mulVec_smul, Matrix.mulVec_smul, smul_sub, smul_sub]
        abel
      rw [c3, he, increment_lin, Matrix.mulVec_add, Matrix.mulVec_smul, Matrix.mulVec_smul, hc, c1, c2, smul_add, smul_add]
      abel
    rcases List.eq_nil_or_concat rest with rfl | ⟨rest', y, hy⟩
    · rcases q1 with ⟨-, rfl⟩ | ⟨hne, -⟩
      · rcases q2 with ⟨-, rfl⟩ | ⟨hne, -⟩
        · rcases q3 with ⟨-, rfl⟩ | ⟨hne, -⟩
          · exact hcon
          · exact absurd rfl hne
        · exact absurd rfl hne
      · exact absurd rfl hne
    · have hne : rest ≠ [] := by rw [hy]; simp
      have e1 : (rest.map fun x => ask x.1 x.2.1).isEmpty = false := by simpa using hne
      have e2 : (rest.map fun x => ask x.1 x.2.2).isEmpty = false := by simpa using hne
      have e3 : (rest.map fun x => ask x.1 (a • x.2.1 + b • x.2.2)).isEmpty = false := by simpa using hne
      have g1 := k1 e1
      have g2 : t2.kernel = t1.kernel := by rw [k2 e2, g1]
      have g3 : t3.kernel = t1.kernel := by rw [k3 e3, g1]
      by_cases h0 : cols t1.kernel = 0
      · rcases q1 with ⟨-, rfl⟩ | ⟨-, hcols, -⟩
        · rcases q2 with ⟨-, rfl⟩ | ⟨-, hcols, -⟩
          · rcases q3 with ⟨-, rfl⟩ | ⟨-, hcols, -⟩
            · exact hcon
            · rw [g3] at hcols; exact absurd h0 hcols
          · rw [g2] at hcols; exact absurd h0 hcols
        · exact absurd h0 hcols
      · have go : ∀ {M : ℝ} {l : List (Level n)} {t f : St n}, Tail svd th M false l t f → l.isEmpty = false → cols t.kernel ≠ 0 →
            loop svd th M false l t = .ok f := by
          intro M l t f ht hl hcols
          rcases ht with ⟨hh | hh, -⟩ | ⟨-, -, hh⟩
          · rw [hh] at hl; simp at hl
          · exact absurd hh hcols
          · exact hh
        exact ih g2 g3 hcon ((levelStep_frame svd p1).2.2.2.2 z1) ((levelStep_frame svd p2).2.2.2.2 z2) ((levelStep_frame svd p3).2.2.2.2 z3)
          (go q1 e1 h0) (go q2 e2 (by rw [g2]; exact h0)) (go q3 e3 (by rw [g3]; exact h0)) b1 b2 b3

/-- C136. With the same jacobians, the control is linear in the velocities that the tasks ask for, as long as no task is disabled; the limits may
differ. -/
theorem C136_linear {th M1 M2 M3 : ℝ} (a b : ℝ) {proj0 : Option DynMat} {lvs : List (Asked n)} {u1 u2 u3 : Fin n → ℝ}
    (h1 : computeControlLaw svd n th M1 false none proj0 (lvs.map fun x => ask x.1 x.2.1) = .ok (u1, []))
    (h2 : computeControlLaw svd n th M2 false none proj0 (lvs.map fun x => ask x.1 x.2.2) = .ok (u2, []))
    (h3 : computeControlLaw svd n th M3 false none proj0 (lvs.map fun x => ask x.1 (a • x.2.1 + b • x.2.2)) = .ok (u3, [])) :
    u3 = a • u1 + b • u2 := by
  obtain ⟨-, -, f1, g1, rfl, d1⟩ := (computeControlLaw_eq svd).mp h1
  obtain ⟨-, -, f2, g2, rfl, d2⟩ := (computeControlLaw_eq svd).mp h2
  obtain ⟨-, -, f3, g3, rfl, d3⟩ := (computeControlLaw_eq svd).mp h3
  exact loop_linear svd a b lvs rfl rfl (by show (0 : Fin n → ℝ) = a • 0 + b • 0; simp) (startSt_zero _ _) (startSt_zero _ _) (startSt_zero _ _)
    g1 g2 g3 d1 d2 d3

/-- C136. Two requests to tasks with the same jacobians: the controls differ by at most a number computed from the differences of the requests and from
how much the jacobians lengthen, however close to a singularity. -/
theorem C136_continuous {th M1 M2 : ℝ} (hth : 0 < th) {proj0 : Option DynMat} (ho : Orthonormal n proj0)
    (hP : ∀ P, proj0 = some P → P.cols ≤ n) {lvs : List (Asked n)} (hm : ∀ x ∈ lvs, x.1.mem = none) {u1 u2 : Fin n → ℝ}
    (h1 : computeControlLaw svd n th M1 false none proj0 (lvs.map fun x => ask x.1 x.2.1) = .ok (u1, []))
    (h2 : computeControlLaw svd n th M2 false none proj0 (lvs.map fun x => ask x.1 x.2.2) = .ok (u2, []))
    (L : Asked n → ℝ) (hL : ∀ x ∈ lvs, 0 ≤ L x ∧ ∀ d, len (effJac x.1 *ᵥ d) ≤ L x * len d) :
    len (u1 - u2) ≤ sizeBound th 0 (lvs.map fun x => (len (x.2.1 - x.2.2), L x)) := by
  have hne : lvs ≠ [] := by
    rintro rfl
    exact ((computeControlLaw_eq svd).mp h1).2.1 rfl rfl
  have hdiff : ∀ x : Asked n, (1 : ℝ) • x.2.1 + (-1 : ℝ) • x.2.2 = x.2.1 - x.2.2 := by
    intro x; rw [one_smul, neg_one_smul, sub_eq_add_neg]
  obtain ⟨M, u3, hM⟩ := C12_large_limit_accepts svd (th := th) (q0 := none) (proj0 := proj0)
    (stack := lvs.map fun x : Asked n => ask x.1 ((1 : ℝ) • x.2.1 + (-1 : ℝ) • x.2.2)) (fun lv hl => by
      obtain ⟨x, hx, rfl⟩ := List.mem_map.mp hl
      exact hm x hx) hP (fun lv hl i => by
      obtain ⟨x, hx, rfl⟩ := List.mem_map.mp hl
      rfl) (by simp) (by simpa using hne)
  have h3 := hM M le_rfl
  have hu := C136_linear svd 1 (-1) h1 h2 h3
  rw [one_smul, neg_one_smul, ← sub_eq_add_neg] at hu
  have hf : firstControl n none = 0 := rfl
  have := C136_bounded svd hth ho (q0 := none) (maxSq := M)
    (lvs := lvs.map fun x : Asked n => (ask x.1 ((1 : ℝ) • x.2.1 + (-1 : ℝ) • x.2.2), len (x.2.1 - x.2.2), L x)) (u := u3) (dis := [])
    (by rw [List.map_map]; exact h3)
    (fun y hy e he => by
      obtain ⟨x, hx, rfl⟩ := List.mem_map.mp hy
      have : e = x.2.1 - x.2.2 := by
        rw [← hdiff]
        exact funext fun i => ((he i).2).symm
      subst this
      rw [hf, Matrix.mulVec_zero]
      show len ((x.2.1 - x.2.2) - (0 : Fin x.1.m → ℝ)) ≤ len (x.2.1 - x.2.2)
      rw [sub_zero])
    (fun y hy => by
      obtain ⟨x, hx, rfl⟩ := List.mem_map.mp hy
      exact hL x hx)
  rw [hf, sub_zero, hu, List.map_map] at this
  exact this

/-! ### One joint -/

/-- A task on one joint, with the jacobian `a`, asking for `v`. -/
def scalar (a v : ℝ) : Level 1 where
  m := 1
  jac := Matrix.of fun _ _ => a
  selec := none
  task := fun _ => ⟨.single, v, 0, 0, false, false⟩
  fullPosture := false
  mem := none

theorem scalar_increment {A : Matrix (Fin 1) (Fin 1) ℝ} (S : Svd A) {th : ℝ} (hth : 0 ≤ th) (e : Fin 1 → ℝ) :
    (th < |A 0 0| → increment S (rankJ th S.σ) e = fun _ => e 0 / A 0 0) ∧ (|A 0 0| ≤ th → increment S (rankJ th S.σ) e = 0) := by
  have hsq : S.sq 0 = A 0 0 ^ 2 := by
    have h1 := congrFun (congrFun S.gram 0) 0
    have h2 := congrFun (congrFun S.V_orth 0) 0
    simp [Matrix.mul_apply] at h1 h2
    have : S.V 0 0 * S.sq 0 * S.V 0 0 = S.sq 0 * (S.V 0 0 * S.V 0 0) := by ring
    rw [this, h2, mul_one] at h1
    rw [← h1]; ring
  have hinc : increment S (rankJ th S.σ) e = fun _ => keepInv th (A 0 0 ^ 2) * (A 0 0 * e 0) := by
    rw [increment_eq S hth]
    funext i
    have hi : i = 0 := Subsingleton.elim _ _
    subst hi
    have h2 := congrFun (congrFun S.V_orth 0) 0
    simp [Matrix.mul_apply] at h2
    simp [Matrix.mulVec, dotProduct, Matrix.mul_apply, hsq]
    calc S.V 0 0 * keepInv th (A 0 0 ^ 2) * S.V 0 0 * A 0 0 * e 0 = keepInv th (A 0 0 ^ 2) * (A 0 0 * e 0) * (S.V 0 0 * S.V 0 0) := by ring
      _ = _ := by rw [h2, mul_one]
  have habs : th ^ 2 < A 0 0 ^ 2 ↔ th < |A 0 0| := by
    rw [← sq_abs (A 0 0)]
    exact (above_iff hth (abs_nonneg _)).symm
  constructor
  · intro h
    rw [hinc]
    funext _
    unfold keepInv
    rw [if_pos (habs.mpr h)]
    have : A 0 0 ≠ 0 := by
      intro h0
      rw [h0, abs_zero] at h
      linarith
    field_simp
  · intro h
    rw [hinc]
    funext _
    unfold keepInv
    rw [if_neg (fun h' => absurd (habs.mp h') (not_lt.mpr h))]
    simp

theorem scalar_update {th maxSq a v : ℝ} (hth : 0 ≤ th) (hM : 0 ≤ maxSq) (A : Matrix (Fin 1) (Fin 1) ℝ) (hA : A 0 0 = a) :
    (|a| ≤ th → (updateLevel svd th maxSq true (startSt 1 none none) (1 : Matrix (Fin 1) (Fin 1) ℝ) A (fun _ => v)).control = 0 ∧
      (updateLevel svd th maxSq true (startSt 1 none none) (1 : Matrix (Fin 1) (Fin 1) ℝ) A (fun _ => v)).disabled = []) ∧
    (th < |a| → (v / a) ^ 2 ≤ maxSq →
      (updateLevel svd th maxSq true (startSt 1 none none) (1 : Matrix (Fin 1) (Fin 1) ℝ) A (fun _ => v)).control = (fun _ => v / a) ∧
      (updateLevel svd th maxSq true (startSt 1 none none) (1 : Matrix (Fin 1) (Fin 1) ℝ) A (fun _ => v)).disabled = []) := by
  subst hA
  constructor
  · intro h
    have hi := (scalar_increment (svd A) hth (fun _ => v)).2 h
    unfold updateLevel
    simp only
    rw [hi, Matrix.mulVec_zero, zero_dotProduct, if_neg (not_lt.mpr hM)]
    simp [startSt]
  · intro h hle
    have hi := (scalar_increment (svd A) hth (fun _ => v)).1 h
    unfold updateLevel
    simp only
    rw [hi, Matrix.one_mulVec, if_neg (not_lt.mpr (by simpa [dotProduct, pow_two] using hle))]
    simp [startSt]

theorem scalar_control {th maxSq a v : ℝ} (hth : 0 ≤ th) (hM : 0 ≤ maxSq) :
    (|a| ≤ th → computeControlLaw svd 1 th maxSq false none none [scalar a v] = .ok (0, [])) ∧
    (th < |a| → (v / a) ^ 2 ≤ maxSq → computeControlLaw svd 1 th maxSq false none none [scalar a v] = .ok (fun _ => v / a, [])) := by
  have hstep : levelStep svd th maxSq false true (startSt 1 none none) (scalar a v) =
      .ok (updateLevel svd th maxSq true (startSt 1 none none) (1 : Matrix (Fin 1) (Fin 1) ℝ)
        (effJac (scalar a v) * (1 : Matrix (Fin 1) (Fin 1) ℝ)) (fun _ => v)) := by
    unfold levelStep
    rw [taskVector_single (by intro i; rfl)]
    simp only [Outcome.bind_ok, Bool.and_false, Bool.false_and, Bool.false_eq_true, if_false]
    rw [generalLevel_ok svd (by intro s hs; simp [scalar] at hs) (by exact le_rfl)]
    rfl
  have hA : (effJac (scalar a v) * (1 : Matrix (Fin 1) (Fin 1) ℝ)) (0 : Fin 1) 0 = a := by
    rw [Matrix.mul_one]
    rfl
  have hu := scalar_update svd (v := v) hth hM (effJac (scalar a v) * (1 : Matrix (Fin 1) (Fin 1) ℝ)) hA
  exact ⟨fun h => (computeControlLaw_eq svd).mpr ⟨by simp, by simp, _, (loop_cons svd).mpr ⟨_, hstep, Or.inl ⟨Or.inl rfl, rfl⟩⟩, hu.1 h⟩,
    fun h hle => (computeControlLaw_eq svd).mpr ⟨by simp, by simp, _, (loop_cons svd).mpr ⟨_, hstep, Or.inl ⟨Or.inl rfl, rfl⟩⟩, hu.2 h hle⟩⟩

/-- C136. Counterexample to continuity in the jacobian: two one-joint tasks that ask for the same velocity, with jacobians as close as wanted, on both
sides of the threshold; with the first one the joint does not move, with the second one it moves at the velocity one. -/
theorem C136_jump_counterexample {th maxSq δ : ℝ} (hth : 0 < th) (hM : 1 ≤ maxSq) (hδ : 0 < δ) :
    ∃ a a' v : ℝ, |a - a'| < δ ∧ computeControlLaw svd 1 th maxSq false none none [scalar a v] = .ok (0, []) ∧
      computeControlLaw svd 1 th maxSq false none none [scalar a' v] = .ok (fun _ => 1, []) := by
  have hpos : 0 < th + δ / 2 := by linarith
  refine ⟨th, th + δ / 2, th + δ / 2, ?_, (scalar_control svd hth.le (by linarith)).1 (by rw [abs_of_pos hth]), ?_⟩
  · rw [show th - (th + δ / 2) = -(δ / 2) by ring, abs_neg, abs_of_pos (by linarith)]
    linarith
  · have := (scalar_control svd (th := th) (maxSq := maxSq) (a := th + δ / 2) (v := th + δ / 2) hth.le (by linarith)).2
      (by rw [abs_of_pos hpos]; linarith) (by rw [div_self hpos.ne']; simpa using hM)
    rwa [div_self hpos.ne'] at this

/-- C136. The unit of a task matters: a task in metres that the stack leaves out, because its jacobian is below the threshold, is met exactly when the
same task is written in millimetres. -/
theorem C136_unit_counterexample (v : ℝ) (hv : (v * 10000) ^ 2 ≤ 10000) :
    computeControlLaw svd 1 (1 / 1000) 10000 false none none [scalar (1 / 10000) v] = .ok (0, []) ∧
      computeControlLaw svd 1 (1 / 1000) 10000 false none none [scalar (1000 * (1 / 10000)) (1000 * v)] = .ok (fun _ => v * 10000, []) := by
  refine ⟨(scalar_control svd (by norm_num) (by norm_num)).1 (by rw [abs_of_pos] <;> norm_num), ?_⟩
  have h : 1000 * v / (1000 * (1 / 10000)) = v * 10000 := by ring
  have := (scalar_control svd (th := 1 / 1000) (maxSq := 10000) (a := 1000 * (1 / 10000)) (v := 1000 * v) (by norm_num) (by norm_num)).2
    (by rw [abs_of_pos] <;> norm_num) (by rw [h]; exact hv)
  rwa [h] at this

/-! ### Cases meeting the hypotheses -/

/-- A joint asked for 2 rad/s, then for 4 rad/s, through a jacobian of 2. -/
noncomputable def twoAsked : List (Asked 1) := [⟨scalar 2 0, fun _ => 2, fun _ => 4⟩]

theorem twoAsked_runs (a b : ℝ) (h : (a + 2 * b) ^ 2 ≤ 100) :
    computeControlLaw svd 1 (1 / 1000) 100 false none none (twoAsked.map fun x => ask x.1 (a • x.2.1 + b • x.2.2)) =
      .ok (fun _ => a + 2 * b, []) := by
  have h1 : (a * 2 + b * 4) / 2 = a + 2 * b := by ring
  have := (scalar_control svd (th := 1 / 1000) (maxSq := 100) (a := 2) (v := a * 2 + b * 4) (by norm_num) (by norm_num)).2
    (by rw [abs_of_pos] <;> norm_num) (by rw [h1]; exact h)
  rw [h1] at this
  exact this

example : computeControlLaw svd 1 (1 / 1000) 100 false none none (twoAsked.map fun x => ask x.1 x.2.1) = .ok (fun _ => 1, []) ∧
    computeControlLaw svd 1 (1 / 1000) 100 false none none (twoAsked.map fun x => ask x.1 x.2.2) = .ok (fun _ => 2, []) ∧
    computeControlLaw svd 1 (1 / 1000) 100 false none none (twoAsked.map fun x => ask x.1 ((1 : ℝ) • x.2.1 + (1 : ℝ) • x.2.2)) =
      .ok (fun _ => 3, []) := by
  refine ⟨?_, ?_, ?_⟩
  · have := twoAsked_runs svd 1 0 (by norm_num)
    simpa using this
  · have := twoAsked_runs svd 0 1 (by norm_num)
    simpa using this
  · have := twoAsked_runs svd 1 1 (by norm_num)
    norm_num at this
    simpa using this

example : Sot.Orthonormal 1 none ∧ (∀ P : DynMat, (none : Option DynMat) = some P → P.cols ≤ 1) ∧ (∀ x ∈ twoAsked, x.1.mem = none) ∧
    ∀ x ∈ twoAsked, (0 : ℝ) ≤ 2 ∧ ∀ d, len (effJac x.1 *ᵥ d) ≤ 2 * len d := by
  refine ⟨fun P h => by simp at h, by simp, by simp [twoAsked, scalar], ?_⟩
  intro x hx
  simp only [twoAsked, List.mem_singleton] at hx
  subst hx
  refine ⟨by norm_num, fun d => le_of_eq ?_⟩
  have h1 : effJac (scalar 2 0) *ᵥ d = (2 : ℝ) • d := by
    refine funext fun (i : Fin 1) => ?_
    show (fun j => (2 : ℝ)) ⬝ᵥ d = 2 * d i
    rw [Subsingleton.elim i 0]
    simp [dotProduct]
  rw [h1]
  show Real.sqrt (((2 : ℝ) • d) ⬝ᵥ ((2 : ℝ) • d)) = _
  rw [smul_dotProduct, dotProduct_smul, smul_smul, smul_eq_mul, show (2 : ℝ) * 2 = 2 ^ 2 by norm_num, Real.sqrt_mul (by norm_num),
    Real.sqrt_sq (by norm_num)]
  rfl

/-- The same task, written along the opposite direction, and the projector of one joint, turned over. -/
example : (∀ w ∈ [(⟨scalar 2 4, -1⟩ : Written 1)], w.2ᵀ * w.2 = 1) ∧
    (coords (scalar 2 4) (-1)).jac (0 : Fin 1) 0 = -2 ∧
    ((coords (scalar 2 4) (-1)).task (0 : Fin 1)).boundSingle = -4 ∧ (-1 : Matrix (Fin 1) (Fin 1) ℝ)ᵀ * (-1) = 1 := by
  refine ⟨?_, ?_, ?_, by simp⟩
  · intro w hw
    simp only [List.mem_singleton] at hw
    subst hw
    show (-1 : Matrix (Fin 1) (Fin 1) ℝ)ᵀ * (-1) = 1
    simp
  · show ((-1 : Matrix (Fin 1) (Fin 1) ℝ) * (Matrix.of fun _ _ => 2 : Matrix (Fin 1) (Fin 1) ℝ)) 0 0 = -2
    simp
  · show ∑ j : Fin 1, (-1 : Matrix (Fin 1) (Fin 1) ℝ) 0 j * 4 = -4
    simp

end Verif.Sot
