import Verif.Common.SvdUnique
import Verif.Sot.ControlProps

/-!
# C137: the control does not depend on the singular value decomposition

The decompositions are not unique: the library may return any of them, and another one at the next level.
-/

namespace Verif.Sot

open Matrix Verif.MultiBound

section
variable {m c : ℕ} {A : Matrix (Fin m) (Fin c) ℝ}

theorem above_iff {th s : ℝ} (hth : 0 ≤ th) (hs : 0 ≤ s) : th < s ↔ th ^ 2 < s ^ 2 :=
  (pow_lt_pow_iff_left₀ hth hs (by norm_num)).symm

/-- A column is among the first `rankJ` ones when its squared singular value is above the squared threshold. -/
theorem col_rank (S : Svd A) {th : ℝ} (hth : 0 ≤ th) (j : Fin c) : j.val < rankJ th S.σ ↔ th ^ 2 < S.sq j := by
  unfold Svd.sq
  split_ifs with h
  · rw [← above_iff hth (S.nonneg _)]
    exact lt_rankJ_iff th S.σ S.antitone ⟨j.val, h⟩
  · constructor
    · intro h1
      have := rankJ_le th S.σ
      omega
    · intro h1
      have := sq_nonneg th
      linarith

theorem rankJ_le_cols (S : Svd A) (th : ℝ) : rankJ th S.σ ≤ c := le_trans (rankJ_le th S.σ) (Nat.min_le_right m c)

open scoped Classical in
/-- Is it above the squared threshold? -/
noncomputable def keep (th x : ℝ) : ℝ := if th ^ 2 < x then 1 else 0

open scoped Classical in
/-- Its inverse when above the squared threshold. -/
noncomputable def keepInv (th x : ℝ) : ℝ := if th ^ 2 < x then x⁻¹ else 0

theorem rankJ_sum (S : Svd A) {th : ℝ} (hth : 0 ≤ th) :
    (rankJ th S.σ : ℝ) = ∑ j, keep th (S.sq j) := by
  classical
  simp only [keep, ← col_rank S hth]
  rw [Finset.sum_boole]
  congr 1
  have : (Finset.univ.filter fun j : Fin c => j.val < rankJ th S.σ).card = ((Finset.range c).filter fun j => j < rankJ th S.σ).card := by
    rw [← Finset.card_map Fin.valEmbedding]
    congr 1
    ext x
    simp only [Finset.mem_map, Finset.mem_filter, Finset.mem_univ, true_and, Fin.valEmbedding_apply, Finset.mem_range]
    constructor
    · rintro ⟨a, ha, rfl⟩; exact ⟨a.isLt, ha⟩
    · rintro ⟨h1, h2⟩; exact ⟨⟨x, h1⟩, h2, rfl⟩
  rw [this]
  have h2 : (Finset.range c).filter (fun j => j < rankJ th S.σ) = Finset.range (rankJ th S.σ) := by
    ext x
    have := rankJ_le_cols S th
    simp only [Finset.mem_filter, Finset.mem_range]
    omega
  rw [h2, Finset.card_range]

theorem rankJ_unique (S S' : Svd A) {th : ℝ} (hth : 0 ≤ th) : rankJ th S.σ = rankJ th S'.σ := by
  have := rankJ_sum S hth
  rw [S.sum_unique S' (keep th), ← rankJ_sum S' hth] at this
  exact_mod_cast this

theorem increment_eq (S : Svd A) {th : ℝ} (hth : 0 ≤ th) (e : Fin m → ℝ) :
    increment S (rankJ th S.σ) e =
      (S.V * diagonal (fun j => keepInv th (S.sq j)) * S.Vᵀ * Aᵀ) *ᵥ e := by
  rw [← S.between (fun k => if k.val < rankJ th S.σ then (S.σ k)⁻¹ else 0) (keepInv th)]
  · unfold increment
    rw [← Matrix.mulVec_mulVec, ← Matrix.mulVec_mulVec]
    congr 1
    funext k
    rw [Matrix.mulVec_diagonal]
    unfold tmpTask
    split_ifs <;> simp
  · intro k
    have h1 : k.val < rankJ th S.σ ↔ th ^ 2 < S.σ k ^ 2 := by rw [← S.sq_col]; exact col_rank S hth (svdCol k)
    unfold keepInv
    by_cases h : th ^ 2 < S.σ k ^ 2
    · have h2 := (above_iff hth (S.nonneg k)).mpr h
      have : S.σ k ≠ 0 := by linarith
      rw [if_pos (h1.mpr h), if_pos h]
      field_simp
    · rw [if_neg (fun h2 => h (h1.mp h2)), if_neg h]
      ring

theorem increment_unique (S S' : Svd A) {th : ℝ} (hth : 0 ≤ th) (e : Fin m → ℝ) :
    increment S (rankJ th S.σ) e = increment S' (rankJ th S'.σ) e := by
  rw [increment_eq S hth, increment_eq S' hth, S.function_unique S' (keepInv th)]

theorem right_eq (S : Svd A) {th : ℝ} (hth : 0 ≤ th) :
    rightCols S (rankJ th S.σ) * (rightCols S (rankJ th S.σ))ᵀ =
      S.V * diagonal (fun j => (fun x => 1 - keep th x) (S.sq j)) * S.Vᵀ := by
  ext a b
  rw [Matrix.mul_apply, Matrix.mul_apply]
  refine Fintype.sum_of_injective (fun k : Fin (c - rankJ th S.σ) => (⟨rankJ th S.σ + k.val, by omega⟩ : Fin c)) ?_ _ _ ?_ ?_
  · intro x y h
    have := congrArg Fin.val h
    exact Fin.ext (by simpa using this)
  · intro j hj
    have : j.val < rankJ th S.σ := by
      by_contra hlt
      exact hj ⟨⟨j.val - rankJ th S.σ, by have := j.isLt; omega⟩, Fin.ext (by show rankJ th S.σ + (j.val - rankJ th S.σ) = j.val; omega)⟩
    simp only [mul_diagonal]
    rw [keep, if_pos ((col_rank S hth j).mp this)]
    ring
  · intro k
    simp only [mul_diagonal]
    rw [keep, if_neg (fun h => by have := (col_rank S hth _).mpr h; simp at this)]
    simp [rightCols]

theorem right_unique (S S' : Svd A) {th : ℝ} (hth : 0 ≤ th) :
    rightCols S (rankJ th S.σ) * (rightCols S (rankJ th S.σ))ᵀ = rightCols S' (rankJ th S'.σ) * (rightCols S' (rankJ th S'.σ))ᵀ := by
  rw [right_eq S hth, right_eq S' hth, S.function_unique S' (fun x => 1 - keep th x)]

end

/-- Two kernels whose columns span the same space with the same lengths and angles. -/
def Turned {n : ℕ} (k k' : Kernel n) : Prop :=
  ∃ Q : Matrix (Fin k.c) (Fin k'.c) ℝ, Qᵀ * Q = 1 ∧ Q * Qᵀ = 1 ∧ k'.K = k.K * Q

theorem Turned.refl {n : ℕ} (k : Kernel n) : Turned k k := ⟨1, by simp, by simp, by simp⟩

theorem Turned.cols {n : ℕ} {k k' : Kernel n} (h : Turned k k') : k.c = k'.c := by
  obtain ⟨Q, h1, h2, -⟩ := h
  have h3 : (Matrix.trace (Q * Qᵀ) : ℝ) = Matrix.trace (Qᵀ * Q) := Matrix.trace_mul_comm _ _
  rw [h1, h2, Matrix.trace_one, Matrix.trace_one] at h3
  simpa using h3

variable {n : ℕ} (svd svd' : ∀ {m c : ℕ} (A : Matrix (Fin m) (Fin c) ℝ), Svd A)

/-- The same state up to the choice of the columns of the kernel. -/
structure Alike (s s' : St n) : Prop where
  control : s'.control = s.control
  isZero : s'.controlIsZero = s.controlIsZero
  iter : s'.iterTask = s.iterTask
  disabled : s'.disabled = s.disabled
  kernel : (s.kernel = none ∧ s'.kernel = none) ∨ ∃ k k', s.kernel = some k ∧ s'.kernel = some k' ∧ Turned k k'

/-- Two outcomes that correspond. -/
def Match (a b : Outcome (St n)) : Prop :=
  match a, b with
  | .ok s, .ok s' => Alike s s'
  | .throw, .throw => True
  | .ub, .ub => True
  | _, _ => False

theorem updateLevel_alike {th maxSq : ℝ} (hth : 0 ≤ th) (last : Bool) {s s' : St n} (h : Alike s s') {m : ℕ}
    (J : Matrix (Fin m) (Fin n) ℝ) (e : Fin m → ℝ) (R : Matrix (Fin m) (Fin m) ℝ) (hR : Rᵀ * R = 1) {k k' : Kernel n} (ht : Turned k k') :
    Alike (updateLevel svd th maxSq last s k.K (J * k.K) e) (updateLevel svd' th maxSq last s' k'.K (R * J * k'.K) (R *ᵥ e)) ∧
      rankJ th (svd (J * k.K)).σ = rankJ th (svd' (R * J * k'.K)).σ := by
  obtain ⟨c, K⟩ := k
  obtain ⟨c', K'⟩ := k'
  obtain rfl : c = c' := ht.cols
  obtain ⟨Q, h1, h2, rfl⟩ : ∃ Q : Matrix (Fin c) (Fin c) ℝ, Qᵀ * Q = 1 ∧ Q * Qᵀ = 1 ∧ K' = K * Q := ht
  show Alike (updateLevel svd th maxSq last s K (J * K) e) (updateLevel svd' th maxSq last s' (K * Q) (R * J * (K * Q)) (R *ᵥ e)) ∧
    rankJ th (svd (J * K)).σ = rankJ th (svd' (R * J * (K * Q))).σ
  rw [Matrix.mul_assoc R, ← Matrix.mul_assoc J]
  set S := svd (J * K) with hS
  set S' := svd' (R * (J * K * Q)) with hS'
  have r1 : rankJ th S.σ = rankJ th S'.σ := rankJ_unique ((S.rotate Q h1).turn R hR) S' hth
  have i1 : increment S' (rankJ th S'.σ) (R *ᵥ e) = Qᵀ *ᵥ increment S (rankJ th S.σ) e := by
    rw [← increment_unique ((S.rotate Q h1).turn R hR) S' hth]
    have ht : tmpTask ((S.rotate Q h1).turn R hR) (rankJ th S.σ) (R *ᵥ e) = tmpTask S (rankJ th S.σ) e := by
      funext k
      show (if k.val < rankJ th S.σ then (S.σ k)⁻¹ * ((R * S.U)ᵀ *ᵥ (R *ᵥ e)) k else 0) = _
      rw [Matrix.transpose_mul, Matrix.mulVec_mulVec, Matrix.mul_assoc, hR, Matrix.mul_one]
      rfl
    unfold increment
    rw [Matrix.mulVec_mulVec, ← ht]
    rfl
  have p1 : rightCols S' (rankJ th S'.σ) * (rightCols S' (rankJ th S'.σ))ᵀ =
      Qᵀ * rightCols S (rankJ th S.σ) * (Qᵀ * rightCols S (rankJ th S.σ))ᵀ := by
    rw [← right_unique ((S.rotate Q h1).turn R hR) S' hth]
    rfl
  have d1 : (K * Q) *ᵥ increment S' (rankJ th S'.σ) (R *ᵥ e) = K *ᵥ increment S (rankJ th S.σ) e := by
    rw [i1, Matrix.mulVec_mulVec, Matrix.mul_assoc, h2, Matrix.mul_one]
  refine ⟨?_, r1⟩
  unfold updateLevel
  simp only [← hS, ← hS']
  rw [d1]
  split_ifs with hd hl
  · exact ⟨h.control, h.isZero, by simp [h.iter], by simp [h.iter, h.disabled], h.kernel⟩
  · exact ⟨by simp [h.control], rfl, by simp [h.iter], h.disabled, h.kernel⟩
  · refine ⟨by simp [h.control], rfl, by simp [h.iter], h.disabled, Or.inr ⟨_, _, rfl, rfl, ?_⟩⟩
    set N := rightCols S (rankJ th S.σ) with hN
    set N' := rightCols S' (rankJ th S'.σ) with hN'
    have o1 : Nᵀ * N = 1 := rightCols_orth _ _
    have o2 : N'ᵀ * N' = 1 := rightCols_orth _ _
    have p2 : Q * (N' * N'ᵀ) * Qᵀ = N * Nᵀ := by
      rw [p1, Matrix.transpose_mul, Matrix.transpose_transpose]
      calc Q * (Qᵀ * N * (Nᵀ * Q)) * Qᵀ = (Q * Qᵀ) * N * Nᵀ * (Q * Qᵀ) := by simp only [Matrix.mul_assoc]
        _ = N * Nᵀ := by rw [h2, Matrix.one_mul, Matrix.mul_one]
    refine ⟨Nᵀ * (Q * N'), ?_, ?_, ?_⟩
    · show (Nᵀ * (Q * N'))ᵀ * (Nᵀ * (Q * N')) = 1
      calc (Nᵀ * (Q * N'))ᵀ * (Nᵀ * (Q * N')) = N'ᵀ * Qᵀ * (N * Nᵀ) * Q * N' := by
            simp only [Matrix.transpose_mul, Matrix.transpose_transpose, Matrix.mul_assoc]
        _ = N'ᵀ * (Qᵀ * Q) * N' * N'ᵀ * (Qᵀ * Q) * N' := by rw [← p2]; simp only [Matrix.mul_assoc]
        _ = N'ᵀ * N' * (N'ᵀ * N') := by rw [h1, Matrix.mul_one, Matrix.mul_one]; simp only [Matrix.mul_assoc]
        _ = 1 := by rw [o2, Matrix.one_mul]
    · show Nᵀ * (Q * N') * (Nᵀ * (Q * N'))ᵀ = 1
      calc Nᵀ * (Q * N') * (Nᵀ * (Q * N'))ᵀ = Nᵀ * (Q * (N' * N'ᵀ) * Qᵀ) * N := by
            simp only [Matrix.transpose_mul, Matrix.transpose_transpose, Matrix.mul_assoc]
        _ = (Nᵀ * N) * (Nᵀ * N) := by rw [p2]; simp only [Matrix.mul_assoc]
        _ = 1 := by rw [o1, Matrix.one_mul]
    · show K * Q * N' = K * N * (Nᵀ * (Q * N'))
      calc K * Q * N' = K * Q * N' * (N'ᵀ * N') := by rw [o2, Matrix.mul_one]
        _ = K * (Q * (N' * N'ᵀ) * Qᵀ) * Q * N' := by
            rw [show K * (Q * (N' * N'ᵀ) * Qᵀ) * Q * N' = K * Q * N' * N'ᵀ * (Qᵀ * Q) * N' by simp only [Matrix.mul_assoc], h1, Matrix.mul_one]
            simp only [Matrix.mul_assoc]
        _ = K * N * (Nᵀ * (Q * N')) := by rw [p2]; simp only [Matrix.mul_assoc]

/-- The same task in other coordinates: the rows of the jacobian and the velocity asked for are multiplied by a matrix. -/
noncomputable def coords (lv : Level n) (R : Matrix (Fin lv.m) (Fin lv.m) ℝ) : Level n where
  m := lv.m
  jac := R * lv.jac
  selec := lv.selec
  task := fun i => { lv.task i with boundSingle := ∑ j, R i j * (lv.task j).boundSingle }
  fullPosture := lv.fullPosture
  mem := lv.mem

theorem effJac_coords (lv : Level n) (R : Matrix (Fin lv.m) (Fin lv.m) ℝ) : effJac (coords lv R) = R * effJac lv := by
  refine Matrix.ext fun (i : Fin lv.m) j => ?_
  have h : effJac (coords lv R) i j = (match lv.selec with
      | none => (R * lv.jac) i j
      | some f => open Classical in if Flags.call f ((j : ℕ) : Int) = .ok true then (R * lv.jac) i j else 0) := rfl
  rw [h]
  cases hs : lv.selec with
  | none =>
    simp only [Matrix.mul_apply]
    apply Finset.sum_congr rfl
    intro k _
    simp only [effJac, of_apply, hs]
  | some f =>
    simp only [Matrix.mul_apply, effJac, of_apply, hs]
    split_ifs
    · rfl
    · simp

theorem taskVector_coords (lv : Level n) (R : Matrix (Fin lv.m) (Fin lv.m) ℝ) :
    taskVector (coords lv R) = (taskVector lv).map (fun e => R *ᵥ e) := by
  classical
  by_cases h : AllSingle lv
  · have h' : AllSingle (coords lv R) := h
    rw [taskVector_single h, taskVector_single h']
    rfl
  · have h' : ¬ AllSingle (coords lv R) := h
    rw [taskVector_not_single h, taskVector_not_single h']
    rfl

/-- The general branch, for any jacobian. -/
noncomputable def solveAt (th maxSq : ℝ) (last : Bool) (st : St n) {m : ℕ} (J : Matrix (Fin m) (Fin n) ℝ) (sizes : ℕ × ℕ) (e : Fin m → ℝ) :
    Outcome (St n) :=
  match st.kernel with
  | none =>
    if sizes.1 < rankJ th (svd J).σ then .ub
    else .ok (updateLevel svd th maxSq last st (1 : Matrix (Fin n) (Fin n) ℝ) J e)
  | some ⟨c, K⟩ =>
    if sizes.1 < rankJ th (svd (J * K)).σ ∨ sizes.2 < c then .ub
    else .ok (updateLevel svd th maxSq last st K (J * K) e)

theorem generalLevel_alike {th maxSq : ℝ} (hth : 0 ≤ th) (last : Bool) {s s' : St n} (h : Alike s s') (lv : Level n) (err : Fin lv.m → ℝ)
    (R : Matrix (Fin lv.m) (Fin lv.m) ℝ) (hR : Rᵀ * R = 1) :
    Match (generalLevel svd th maxSq last s lv err) (generalLevel svd' th maxSq last s' (coords lv R) (R *ᵥ err)) := by
  have hJ : activated (coords lv R) = R * activated lv := by rw [activated_eq_effJac, activated_eq_effJac, effJac_coords]
  have he : correctedErr s' (R * activated lv) (R *ᵥ err) = R *ᵥ correctedErr s (activated lv) err := by
    unfold correctedErr
    rw [h.isZero, h.control]
    split_ifs
    · rfl
    · rw [Matrix.mulVec_sub, Matrix.mulVec_mulVec]
  have hm : (coords lv R).mem.getD ((coords lv R).m, n) = lv.mem.getD (lv.m, n) := rfl
  have hg : generalLevel svd' th maxSq last s' (coords lv R) (R *ᵥ err) =
      solveAt svd' th maxSq last s' (R * activated lv) (lv.mem.getD (lv.m, n)) (R *ᵥ correctedErr s (activated lv) err) := by
    rw [← he, ← hJ]
    rfl
  rw [hg]
  unfold generalLevel solveAt
  simp only
  rcases h.kernel with ⟨h1, h2⟩ | ⟨⟨c, K⟩, ⟨c', K'⟩, h1, h2, ht⟩
  · rw [h1, h2]
    obtain ⟨g1, g2⟩ := updateLevel_alike svd svd' (maxSq := maxSq) hth last h (activated lv) (correctedErr s (activated lv) err) R hR
      (Turned.refl ⟨n, 1⟩)
    have e1 : activated lv * (1 : Matrix (Fin n) (Fin n) ℝ) = activated lv := Matrix.mul_one _
    have e2 : R * activated lv * (1 : Matrix (Fin n) (Fin n) ℝ) = R * activated lv := Matrix.mul_one _
    have r1 : rankJ th (svd (activated lv)).σ = rankJ th (svd' (R * activated lv)).σ := rankJ_unique ((svd (activated lv)).turn R hR) _ hth
    simp only [Matrix.mul_one] at g1
    simp only [r1]
    split_ifs with hu hu
    · trivial
    · exact g1
  · rw [h1, h2]
    obtain ⟨g1, g2⟩ := updateLevel_alike svd svd' (maxSq := maxSq) hth last h (activated lv) (correctedErr s (activated lv) err) R hR ht
    have hc : c = c' := ht.cols
    simp only at g1 g2
    simp only [g2, hc]
    split_ifs
    · trivial
    · exact g1

theorem turn_rows {c p : ℕ} (K : Matrix (Fin n) (Fin c) ℝ) (Q : Matrix (Fin c) (Fin c) ℝ) (h : Q * Qᵀ = 1) (sh : Fin p → Fin n) (e : Fin p → ℝ) :
    (K * Q) *ᵥ (fun j => ∑ i, (K * Q) (sh i) j * e i) = K *ᵥ (fun j => ∑ i, K (sh i) j * e i) := by
  have h1 : ∀ M : Matrix (Fin n) (Fin c) ℝ, (fun j => ∑ i, M (sh i) j * e i) = (M.submatrix sh id)ᵀ *ᵥ e := fun M => rfl
  have h2 : (K * Q).submatrix sh id = K.submatrix sh id * Q := rfl
  rw [h1, h1, h2, Matrix.transpose_mul, Matrix.mulVec_mulVec, Matrix.mulVec_mulVec, ← Matrix.mul_assoc, Matrix.mul_assoc K, h, Matrix.mul_one]

theorem postureLevel_alike {s s' : St n} (h : Alike s s') (lv : Level n) (err : Fin lv.m → ℝ) :
    Match (postureLevel s lv err) (postureLevel s' lv err) := by
  unfold postureLevel
  rcases h.kernel with ⟨h1, h2⟩ | ⟨⟨c, K⟩, ⟨c', K'⟩, h1, h2, ht⟩
  · rw [h1, h2]; trivial
  · rw [h1, h2]
    obtain rfl : c = c' := ht.cols
    have ht' := ht
    obtain ⟨Q, q1, q2, rfl⟩ : ∃ Q : Matrix (Fin c) (Fin c) ℝ, Qᵀ * Q = 1 ∧ Q * Qᵀ = 1 ∧ K' = K * Q := ht
    simp only [h.isZero, h.control]
    split_ifs with a b
    · trivial
    all_goals first
      | trivial
      | exact ⟨by simp only [turn_rows K Q q2], rfl, by simp [h.iter], h.disabled, Or.inr ⟨_, _, rfl, rfl, ht'⟩⟩

theorem levelStep_alike {th maxSq : ℝ} (hth : 0 ≤ th) (accel last : Bool) {s s' : St n} (h : Alike s s') (lv : Level n)
    (R : Matrix (Fin lv.m) (Fin lv.m) ℝ) (hR : Rᵀ * R = 1) (hp : accel = true → lv.fullPosture = true → R = 1) :
    Match (levelStep svd th maxSq accel last s lv) (levelStep svd' th maxSq accel last s' (coords lv R)) := by
  unfold levelStep
  rw [taskVector_coords]
  cases ht : taskVector lv with
  | ok err =>
    simp only [Outcome.bind_ok, Outcome.map_ok]
    have hf : (coords lv R).fullPosture = lv.fullPosture := rfl
    rw [hf]
    split_ifs with hc
    · simp only [Bool.and_eq_true] at hc
      obtain rfl := hp hc.1.2 hc.2
      have e1 : (1 : Matrix (Fin lv.m) (Fin lv.m) ℝ) *ᵥ err = err := Matrix.one_mulVec err
      show Match (postureLevel s lv err) (postureLevel s' lv ((1 : Matrix (Fin lv.m) (Fin lv.m) ℝ) *ᵥ err))
      rw [e1]
      exact postureLevel_alike h lv err
    · exact generalLevel_alike svd svd' hth last h lv err R hR
  | throw => trivial
  | ub => trivial

/-- A task of the stack with the coordinates in which it is written. -/
abbrev Written (n : ℕ) := (lv : Level n) × Matrix (Fin lv.m) (Fin lv.m) ℝ

theorem loop_alike {th maxSq : ℝ} (hth : 0 ≤ th) (accel : Bool) (lvs : List (Written n))
    (hR : ∀ w ∈ lvs, w.2ᵀ * w.2 = 1 ∧ (accel = true → w.1.fullPosture = true → w.2 = 1)) {s s' : St n} (h : Alike s s') :
    Match (loop svd th maxSq accel (lvs.map (·.1)) s) (loop svd' th maxSq accel (lvs.map fun w => coords w.1 w.2) s') := by
  induction lvs generalizing s s' with
  | nil => exact h
  | cons w rest ih =>
    obtain ⟨hw1, hw2⟩ := hR w (by simp)
    have h1 := levelStep_alike svd svd' (maxSq := maxSq) hth accel rest.isEmpty h w.1 w.2 hw1 hw2
    simp only [List.map_cons]
    unfold loop
    simp only [List.isEmpty_map]
    revert h1
    cases levelStep svd th maxSq accel rest.isEmpty s w.1 <;> cases levelStep svd' th maxSq accel rest.isEmpty s' (coords w.1 w.2) <;> intro h1
    case ok.ok a b =>
      have h2 : Alike a b := h1
      have hc : cols b.kernel = cols a.kernel := by
        rcases h2.kernel with ⟨g1, g2⟩ | ⟨k, k', g1, g2, gt⟩
        · rw [g1, g2]
        · rw [g1, g2]; exact gt.cols.symm
      simp only [Outcome.bind_ok, hc]
      split_ifs
      · exact h2
      · exact ih (fun w hw => hR w (by simp [hw])) h2
    all_goals first | trivial | exact absurd h1 id

theorem coords_one (lv : Level n) : coords lv 1 = lv := by
  have h1 : ∀ i, (∑ j, (1 : Matrix (Fin lv.m) (Fin lv.m) ℝ) i j * (lv.task j).boundSingle) = (lv.task i).boundSingle := by
    intro i
    simp [Matrix.one_apply]
  unfold coords
  simp only [h1, Matrix.one_mul]

/-- The projector with its columns turned. -/
def turnProj (P : DynMat) (Q : Matrix (Fin P.cols) (Fin P.cols) ℝ) : DynMat := ⟨P.rows, P.cols, P.M * Q⟩

theorem initKernel_turn (P : DynMat) (Q : Matrix (Fin P.cols) (Fin P.cols) ℝ) (hQ : Qᵀ * Q = 1) :
    (initKernel n (some P) = none ∧ initKernel n (some (turnProj P Q)) = none) ∨
      ∃ k k', initKernel n (some P) = some k ∧ initKernel n (some (turnProj P Q)) = some k' ∧ Turned k k' := by
  unfold initKernel turnProj
  by_cases h : P.rows = n
  · simp only [dif_pos h]
    exact Or.inr ⟨_, _, rfl, rfl, Q, hQ, mul_eq_one_comm.mp hQ, rfl⟩
  · simp only [dif_neg h]
    exact Or.inl ⟨trivial, trivial⟩

theorem control_alike {th maxSq : ℝ} (hth : 0 ≤ th) (accel : Bool) (q0 : Option DynVec) (proj0 proj0' : Option DynMat) (lvs : List (Written n))
    (hR : ∀ w ∈ lvs, w.2ᵀ * w.2 = 1 ∧ (accel = true → w.1.fullPosture = true → w.2 = 1))
    (hk : (initKernel n proj0 = none ∧ initKernel n proj0' = none) ∨
      ∃ k k', initKernel n proj0 = some k ∧ initKernel n proj0' = some k' ∧ Turned k k') :
    computeControlLaw svd n th maxSq accel q0 proj0 (lvs.map (·.1)) =
      computeControlLaw svd' n th maxSq accel q0 proj0' (lvs.map fun w => coords w.1 w.2) := by
  have key : ∀ (u : Fin n → ℝ) (z : Bool),
      (loop svd th maxSq accel (lvs.map (·.1)) ⟨u, z, initKernel n proj0, 0, []⟩).map (fun st : St n => (st.control, st.disabled)) =
      (loop svd' th maxSq accel (lvs.map fun w => coords w.1 w.2) ⟨u, z, initKernel n proj0', 0, []⟩).map
        (fun st : St n => (st.control, st.disabled)) := by
    intro u z
    have h := loop_alike svd svd' (maxSq := maxSq) hth accel lvs hR (s := ⟨u, z, initKernel n proj0, 0, []⟩)
      (s' := ⟨u, z, initKernel n proj0', 0, []⟩) ⟨rfl, rfl, rfl, rfl, hk⟩
    revert h
    cases loop svd th maxSq accel (lvs.map (·.1)) ⟨u, z, initKernel n proj0, 0, []⟩ <;>
      cases loop svd' th maxSq accel (lvs.map fun w => coords w.1 w.2) ⟨u, z, initKernel n proj0', 0, []⟩ <;> intro h
    case ok.ok a b =>
      have h2 : Alike a b := h
      simp [Outcome.map_ok, h2.control, h2.disabled]
    all_goals first | rfl | exact absurd h id
  unfold computeControlLaw
  cases q0 with
  | none => simp only [key, List.isEmpty_map]
  | some q => simp only [key]

theorem initKernel_self (proj0 : Option DynMat) : (initKernel n proj0 = none ∧ initKernel n proj0 = none) ∨
      ∃ k k', initKernel n proj0 = some k ∧ initKernel n proj0 = some k' ∧ Turned k k' := by
  cases hk : initKernel n proj0 with
  | none => exact Or.inl ⟨rfl, rfl⟩
  | some k => exact Or.inr ⟨k, k, rfl, rfl, Turned.refl k⟩

/-- The tasks in the coordinates in which they are given. -/
def asGiven (stack : List (Level n)) : List (Written n) := stack.map fun lv => ⟨lv, 1⟩

theorem asGiven_fst (stack : List (Level n)) : (asGiven stack).map (·.1) = stack := by
  simp [asGiven, Function.comp_def]

theorem asGiven_coords (stack : List (Level n)) : ((asGiven stack).map fun w => coords w.1 w.2) = stack := by
  simp [asGiven, Function.comp_def, coords_one]

theorem asGiven_orth (accel : Bool) (stack : List (Level n)) :
    ∀ w ∈ asGiven stack, w.2ᵀ * w.2 = 1 ∧ (accel = true → w.1.fullPosture = true → w.2 = 1) := by
  intro w hw
  obtain ⟨lv, -, rfl⟩ := List.mem_map.mp hw
  exact ⟨by simp, fun _ _ => rfl⟩

/-- C137. The control, the levels reported as disabled, and the exceptions, do not depend on the decompositions returned by the library: not on the
signs of the vectors, nor on their choice for equal or null singular values. No hypothesis on the tasks: they may be incompatible, singular, limited. -/
theorem C137_decomposition {th maxSq : ℝ} (hth : 0 ≤ th) (accel : Bool) (q0 : Option DynVec) (proj0 : Option DynMat) (stack : List (Level n)) :
    computeControlLaw svd n th maxSq accel q0 proj0 stack = computeControlLaw svd' n th maxSq accel q0 proj0 stack := by
  have := control_alike svd svd' (maxSq := maxSq) hth accel q0 proj0 proj0 (asGiven stack) (asGiven_orth accel stack) (initKernel_self proj0)
  rwa [asGiven_fst, asGiven_coords] at this

/-- C137. Nor does it depend on which columns the projector uses to span its image, when they are turned by an orthogonal matrix. -/
theorem C137_projector {th maxSq : ℝ} (hth : 0 ≤ th) (accel : Bool) (q0 : Option DynVec) (P : DynMat) (Q : Matrix (Fin P.cols) (Fin P.cols) ℝ)
    (hQ : Qᵀ * Q = 1) (stack : List (Level n)) :
    computeControlLaw svd n th maxSq accel q0 (some ⟨P.rows, P.cols, P.M * Q⟩) stack =
      computeControlLaw svd n th maxSq accel q0 (some P) stack := by
  have := control_alike svd svd (maxSq := maxSq) hth accel q0 (some P) (some (turnProj P Q)) (asGiven stack) (asGiven_orth accel stack)
    (initKernel_turn P Q hQ)
  rw [asGiven_fst, asGiven_coords] at this
  exact this.symm

/-- C137. Nor on the orthonormal frame in which each task is written: multiplying the jacobian and the velocity asked for of each task by an
orthogonal matrix of its own changes nothing (the accelerated branch for a posture is left out: it does not read the jacobian). -/
theorem C137_frame {th maxSq : ℝ} (hth : 0 ≤ th) (accel : Bool) (q0 : Option DynVec) (proj0 : Option DynMat) (lvs : List (Written n))
    (hR : ∀ w ∈ lvs, w.2ᵀ * w.2 = 1) (hp : accel = true → ∀ w ∈ lvs, w.1.fullPosture = false) :
    computeControlLaw svd n th maxSq accel q0 proj0 (lvs.map fun w => coords w.1 w.2) =
      computeControlLaw svd n th maxSq accel q0 proj0 (lvs.map (·.1)) :=
  (control_alike svd svd (maxSq := maxSq) hth accel q0 proj0 proj0 lvs
    (fun w hw => ⟨hR w hw, fun ha hf => by rw [hp ha w hw] at hf; simp at hf⟩) (initKernel_self proj0)).symm

end Verif.Sot
