import Verif.Task.JacobianProps
import Verif.Task.ErrorProps
import Verif.Features.Posture
import Verif.Sot.ControlSpec
import Verif.Loop.Control
import Verif.Loop.DeviceStep

/-!
# What the stack reads from a task with one feature
-/

namespace Verif.Loop

open Matrix Verif.Sot Verif.Features Verif.Device

/-- What a task of size `m` keeps fits a robot of `n` joints. -/
def Good (n m : Nat) (b : Buf) : Prop :=
  (b.jac.cols = n ∨ (b.jac.rows = 0 ∧ b.jac.cols = 0)) ∧ ∀ s, b.mem = some s → m ≤ s.1 ∧ n ≤ s.2

theorem good_new (n m : Nat) : Good n m .new := ⟨.inr ⟨rfl, rfl⟩, by intro s h; cases h⟩

theorem numbers_nums (q : List ℝ) : numbers (nums q) = .ok q := by
  induction q with
  | nil => rfl
  | cons x q ih =>
    show (numbers (nums q)).map (x :: ·) = _
    rw [ih]; rfl

theorem evalTask_single (n : Nat) (hn : 0 < n) (q : List ℝ) (f : Feat) (g : ℝ) (sel : Flags.Flags) (b : Buf) (e : List ℝ)
    (J : Task.DMat ℝ) (he : f.err q = .ok e) (hJ : f.jac q = .ok J) (hr : J.rows = e.length) (hc : J.cols = n)
    (hs : ∀ i < e.length, ∀ j < n, J.at_ i j ≠ none) (hb : Good n e.length b) :
    ∃ (lv : Level n) (b' : Buf), evalTask n q ⟨[f], g, sel⟩ b = .ok (lv, b') ∧ Good n e.length b' ∧ lv.m = e.length ∧ lv.selec = some sel ∧
      lv.fullPosture = false ∧ (∀ s, lv.mem = some s → lv.m ≤ s.1 ∧ n ≤ s.2) ∧ Requests lv (fun i => -(e.getD i.val 0) * g) ∧
      ∀ (i : Fin lv.m) (j : Fin n), J.at_ i.val j.val = some (lv.jac i j) := by
  obtain ⟨J', hJ', hst⟩ : ∃ J', Task.computeJacobian b.jac [J] = .ok J' ∧ Task.IsStack J' [J] n := by
    rcases hb.1 with h | h
    · exact Task.C15_stack_partial b.jac [J] n hn h (by simp) (by simpa using hc)
    · exact Task.C15_stack_fresh_partial b.jac [J] n hn h (by simp) (by simpa using hc)
  obtain ⟨s1, s2, s3⟩ := hst
  have hrows : Task.totalRows [J] = e.length := by simp [Task.totalRows, hr]
  rw [hrows] at s1 s3
  have s4 : ∀ i j, i < e.length → j < n → J'.at_ i j = J.at_ i j := by
    intro i j hi hj
    rw [s3 i j hi hj, Task.stackAt, if_pos (by omega)]
  set t : List (MultiBound.MultiBound ℝ) := e.map fun x => MultiBound.ofSingle 0 (-x * g) with ht
  have htl : t.length = e.length := by simp [ht]
  have hcond : J'.rows = t.length ∧ J'.cols = n ∧ ∀ i < t.length, ∀ j < n, J'.at_ i j ≠ none := by
    refine ⟨by rw [s1, htl], s2, fun i hi j hj => ?_⟩
    rw [s4 i j (by omega) hj]
    exact hs i (by omega) j hj
  refine ⟨⟨t.length, Matrix.of fun i j => (J'.at_ i.val j.val).getD 0, some sel, fun i => t[i], false, b.mem⟩, ⟨e, J', some (b.mem.getD (t.length, n))⟩, ?_, ⟨.inl s2, ?_⟩, htl, rfl, rfl, ?_, ?_, ?_⟩
  · simp only [evalTask, collect, he, hJ, Outcome.bind_ok, Outcome.map_ok, Task.C14_single_feature, Task.computeTask,
      Bool.false_eq_true, if_false, hJ', ← ht, level, if_pos hcond]
    rfl
  · rintro s h
    simp only [Option.some.injEq] at h
    subst h
    cases hm : b.mem with
    | none => simp [htl]
    | some s => exact hb.2 s hm
  · intro s h
    obtain ⟨h1, h2⟩ := hb.2 s h
    exact ⟨by show t.length ≤ _; omega, h2⟩
  · intro i
    have hi : i.val < e.length := by have := i.isLt; simp only at this; omega
    simp only [ht, Fin.getElem_fin, List.getElem_map]
    refine ⟨rfl, ?_⟩
    simp [MultiBound.ofSingle, List.getD, List.getElem?_eq_getElem hi]
  · intro i j
    have hi : i.val < e.length := by have := i.isLt; simp only at this; omega
    have h1 := hs i.val hi j.val j.isLt
    simp only [Matrix.of_apply]
    rw [s4 i.val j.val hi j.isLt]
    cases hx : J.at_ i.val j.val with
    | none => exact absurd hx h1
    | some x => rfl

/-! ### Matrices that select joints -/

section Select
variable {m n : ℕ} (f : Fin m → Fin n) (s : Fin n → Prop)

open scoped Classical in
/-- Row `i` is the row `f i` of the identity, or zero when the joint is not selected. -/
noncomputable def selMat : Matrix (Fin m) (Fin n) ℝ := Matrix.of fun i j => if j = f i ∧ s j then 1 else 0

theorem selMat_isometry (hf : Function.Injective f) : selMat f s * (selMat f s)ᵀ * selMat f s = selMat f s := by
  classical
  have h : selMat f s * (selMat f s)ᵀ = diagonal fun i => if s (f i) then (1 : ℝ) else 0 := by
    ext i k
    rw [Matrix.mul_apply, Matrix.diagonal_apply]
    simp only [selMat, Matrix.transpose_apply, Matrix.of_apply]
    rw [Finset.sum_eq_single (f i)]
    · by_cases hik : i = k
      · subst hik; by_cases h : s (f i) <;> simp [h]
      · have : f i ≠ f k := fun h => hik (hf h)
        simp [hik, this]
    · intro j _ hj; simp [hj]
    · simp
  rw [h]
  ext i j
  rw [Matrix.diagonal_mul]
  simp only [selMat, Matrix.of_apply]
  by_cases hj : j = f i
  · subst hj; by_cases h : s (f i) <;> simp [h]
  · simp [hj]

theorem selMat_transpose_mulVec (hf : Function.Injective f) (e : Fin m → ℝ) (w : Fin n → ℝ) (hw : ∀ i, e i = w (f i))
    (j : Fin n) [Decidable ((∃ i, f i = j) ∧ s j)] :
    ((selMat f s)ᵀ *ᵥ e) j = if (∃ i, f i = j) ∧ s j then w j else 0 := by
  classical
  simp only [Matrix.mulVec, dotProduct, selMat, Matrix.transpose_apply, Matrix.of_apply]
  split_ifs with h
  · obtain ⟨⟨i, rfl⟩, hs⟩ := h
    rw [Finset.sum_eq_single i]
    · simp [hs, hw]
    · intro k _ hk
      have : f i ≠ f k := fun h => hk (hf h).symm
      simp [this]
    · simp
  · apply Finset.sum_eq_zero
    intro i _
    have : ¬ (j = f i ∧ s j) := fun ⟨h1, h2⟩ => h ⟨⟨i, h1.symm⟩, h2⟩
    simp [this]

end Select

/-! ### The posture -/

theorem requests_jacCols (N : Nat) (hist : List (Nat × Bool)) (h : ∃ r ∈ hist, r.1 < N) :
    ((Posture.new : Posture ℝ).requests N hist).jacCols = N := by
  have key : ∀ hist : List (Nat × Bool), ((Posture.new : Posture ℝ).requests N hist).Counted ∧
      ((∃ r ∈ hist, r.1 < N) → ((Posture.new : Posture ℝ).requests N hist).jacCols = N) := by
    intro hist
    induction hist using List.reverseRecOn with
    | nil => exact ⟨rfl, by simp⟩
    | append_singleton hist r ih =>
      obtain ⟨hc, ih⟩ := ih
      rw [Posture.requests, List.foldl_append] at *
      simp only [List.foldl_cons, List.foldl_nil]
      obtain ⟨h1, _, _, h4, h5⟩ := selectDof_cases _ hc N N r.1 r.2
      refine ⟨h1, fun h => ?_⟩
      by_cases hd : N ≤ r.1
      · rw [(h4 rfl hd).2.2.2]
        apply ih
        obtain ⟨x, hx, hlt⟩ := h
        rcases List.mem_append.mp hx with hx | hx
        · exact ⟨x, hx, hlt⟩
        · simp only [List.mem_singleton] at hx; subst hx; omega
      · exact (h5 rfl (by omega)).2.2.2
  exact (key hist).2 h

/-- What the stack reads from a task with one posture: as many rows as active joints, each of them the row of the
identity for its joint; the velocity is the gain times the distance to the posture. -/
theorem posture_level (N : Nat) (hN : 0 < N) (hist : List (Nat × Bool)) (hh : ∃ r ∈ hist, r.1 < N) (q target : List ℝ)
    (hq : q.length = N) (ht : target.length = N) (g : ℝ) (sel : Flags.Flags) (b : Buf)
    (hb : Good N (picked (wanted hist) N).length b) :
    ∃ (lv : Level N) (b' : Buf) (f : Fin lv.m → Fin N),
      evalTask N q ⟨[postureFeat ((Posture.new : Posture ℝ).requests N hist) target], g, sel⟩ b = .ok (lv, b') ∧
      Good N (picked (wanted hist) N).length b' ∧ (∀ s, lv.mem = some s → lv.m ≤ s.1 ∧ N ≤ s.2) ∧
      Function.Injective f ∧ (∀ j : Fin N, (∃ i, f i = j) ↔ wanted hist j.val = true) ∧
      Requests lv (fun i => -(q.getD (f i).val 0 - target.getD (f i).val 0) * g) ∧
      effJac lv = selMat f (fun j => Flags.call sel ((j.val : ℕ) : Int) = .ok true) := by
  set p := (Posture.new : Posture ℝ).requests N hist with hp
  obtain ⟨p1, p2, p3, p4⟩ := C51_history (F := ℝ) N hist
  rw [← hp] at p1 p2 p3 p4
  have hpc := requests_jacCols N hist hh
  rw [← hp] at hpc
  have hal : p.active.length = N := p4 (by rintro rfl; simp at hh)
  set idx := picked (wanted hist) N with hidx
  have hpick : picked (fun i => p.active.getD i false) p.active.length = idx := by
    rw [hal, hidx]
    apply List.filter_congr
    intro i hi
    exact p1 i (List.mem_range.mp hi)
  have hmem : ∀ k ∈ idx, k < N := fun k hk => by
    rw [hidx] at hk
    exact List.mem_range.mp (List.mem_filter.mp hk).1
  have hnd : idx.Nodup := by rw [hidx]; exact List.Nodup.filter _ List.nodup_range
  set e : List ℝ := idx.map fun i => q.getD i 0 - target.getD i 0 with hedef
  have hel : e.length = idx.length := by simp [hedef]
  have herr : (postureFeat p target).err q = .ok e := by
    show p.error q target (List.replicate p.nb 0) = _
    rw [C51_error p q target _ (by omega) (by omega) (by rw [hpick, List.length_replicate, p3]), hpick]
  have hget : ∀ (i : Nat) (hi : i < idx.length) (j : Nat), j < N →
      ((p.jac[i]?).bind fun r => r[j]?) = some (if j = idx[i] then (1 : ℝ) else 0) := by
    intro i hi j hj
    rw [p2, List.getElem?_map, List.getElem?_eq_getElem hi]
    simp [unitRow, hj]
  obtain ⟨lv, b', h1, h2, h3, h4, -, h6, h7, h8⟩ := evalTask_single N hN q (postureFeat p target) g sel b e
    ⟨p.jac.length, p.jacCols, fun i j => (p.jac[i]?).bind fun r => r[j]?⟩ herr rfl
    (by simp [p2, hel]) hpc (by
      intro i hi j hj
      have := hget i (by omega) j hj
      exact fun h => by rw [show ((p.jac[i]?).bind fun r => r[j]?) = none from h] at this; cases this) (by rw [hel]; exact hb)
  have hlt : ∀ i : Fin lv.m, i.val < idx.length := fun i => by have := i.isLt; omega
  refine ⟨lv, b', fun i => ⟨idx[i.val]'(hlt i), hmem _ (List.getElem_mem _)⟩, h1, by rw [hel] at h2; exact h2, h6, ?_, ?_, ?_, ?_⟩
  · intro i k hik
    simp only [Fin.mk.injEq] at hik
    exact Fin.ext ((List.Nodup.getElem_inj_iff hnd).mp hik)
  · intro j
    constructor
    · rintro ⟨i, rfl⟩
      have : ∀ k ∈ idx, wanted hist k = true := fun k hk => by
        rw [hidx] at hk
        exact (List.mem_filter.mp hk).2
      exact this _ (List.getElem_mem _)
    · intro hw
      have : j.val ∈ idx := by
        rw [hidx]; exact List.mem_filter.mpr ⟨List.mem_range.mpr j.isLt, hw⟩
      obtain ⟨i, hi, hij⟩ := List.getElem_of_mem this
      exact ⟨⟨i, by omega⟩, Fin.ext hij⟩
  · intro i
    obtain ⟨r1, r2⟩ := h7 i
    refine ⟨r1, r2.trans ?_⟩
    have : e.getD i.val 0 = q.getD (idx[i.val]'(hlt i)) 0 - target.getD (idx[i.val]'(hlt i)) 0 := by
      rw [hedef, List.getD, List.getElem?_map, List.getElem?_eq_getElem (hlt i)]; rfl
    show -(e.getD i.val 0) * g = _
    rw [this]
  · classical
    ext i j
    have h9 : ((p.jac[i.val]?).bind fun r => r[j.val]?) = some (lv.jac i j) := h8 i j
    rw [hget i.val (hlt i) j.val j.isLt] at h9
    simp only [Option.some.injEq] at h9
    simp only [effJac, h4, selMat, Matrix.of_apply, ← h9, Fin.ext_iff]
    by_cases ha : j.val = idx[i.val]'(hlt i) <;> by_cases hb : Flags.call sel ((j.val : ℕ) : Int) = .ok true <;> simp [ha, hb]

end Verif.Loop
