import Verif.Features.Lemmas
import Mathlib.Data.List.Perm.Subperm
import Mathlib.Data.List.Nodup
import Mathlib.Algebra.Ring.Rat

/-!
# C50 and C83: the generic feature and the error derivative
-/

namespace Verif.Features

variable {F : Type}

/-! ### Dimension -/

/-- The dimension is the number of selected components, as long as the size of the error is the one at the first
evaluation. -/
theorem C50_dimension (sel : Nat → Bool) (n dd : Nat) (h : dd = 0 ∨ dd = n) :
    genericDim dd sel n = ((picked sel n).length, n) := by
  unfold genericDim
  rcases h with rfl | rfl
  · simp [countLoop_zero]
  · by_cases h0 : dd = 0 <;> simp [h0, countLoop_zero]

/-- After any number of evaluations with errors of size `n`, the dimension is still right. -/
theorem C50_dimension_history (sels : List (Nat → Bool)) (sel : Nat → Bool) (n : Nat) :
    (genericDim (sels.foldl (fun dd s => (genericDim dd s n).2) 0) sel n).1 = (picked sel n).length := by
  have h : ∀ dd, dd = 0 ∨ dd = n →
      let dd' := sels.foldl (fun dd s => (genericDim dd s n).2) dd; dd' = 0 ∨ dd' = n := by
    induction sels with
    | nil => intro dd h; exact h
    | cons s ss ih =>
      intro dd h
      simp only [List.foldl_cons]
      exact ih _ (Or.inr (by rw [C50_dimension s n dd h]))
  rw [C50_dimension sel n _ (h 0 (Or.inl rfl))]

/-- The dimension keeps the size of the first error: when the size changes the count is wrong. -/
theorem C50_dimension_counterexample :
    (genericDim (genericDim 0 (fun _ => true) 1).2 (fun _ => true) 2).1 = 1 ∧ (picked (fun _ => true) 2).length = 2 :=
  ⟨rfl, rfl⟩

/-! ### Error -/

/-- Without reference, the error is made of the selected components in order, as many as the dimension. -/
theorem C50_error [Sub F] [Zero F] (sel : Nat → Bool) (err res : List F)
    (hres : res.length = (picked sel err.length).length) :
    genericError sel (picked sel err.length).length err none res =
      .ok ((picked sel err.length).map fun i => err.getD i 0) := by
  have hle : ¬ err.length < (picked sel err.length).length := by
    have := List.length_filter_le sel (List.range err.length)
    rw [List.length_range] at this
    unfold picked; omega
  simp only [genericError, if_neg hle]
  exact fillLoop_exact _ _ (fun k hk => rd_getD _ _ _ (mem_picked.mp hk).1) hres

/-- With a reference at least as large as the last selected component, the error is the difference of the selected
components. -/
theorem C50_error_reference [Sub F] [Zero F] (sel : Nat → Bool) (err des res : List F)
    (hres : res.length = (picked sel err.length).length) (hdes : ∀ i ∈ picked sel err.length, i < des.length) :
    genericError sel (picked sel err.length).length err (some des) res =
      .ok ((picked sel err.length).map fun i => err.getD i 0 - des.getD i 0) := by
  have hle : ¬ err.length < (picked sel err.length).length := by
    have := List.length_filter_le sel (List.range err.length)
    rw [List.length_range] at this
    unfold picked; omega
  have hd : ¬ des.length < (picked sel err.length).length := by
    have hsub : (picked sel err.length).length ≤ (List.range des.length).length := by
      exact (List.subperm_of_subset (List.Nodup.filter _ List.nodup_range)
        (fun i hi => List.mem_range.mpr (hdes i hi))).length_le
    rw [List.length_range] at hsub; omega
  simp only [genericError, if_neg hle, if_neg hd]
  refine fillLoop_exact _ _ (fun k hk => ?_) hres
  rw [rd_getD _ _ 0 (mem_picked.mp hk).1, rd_getD _ _ 0 (hdes k hk)]
  rfl

/-- Whatever the reference: too few components is an exception, a missing selected component undefined, otherwise the
difference. -/
theorem C50_error_cases [Sub F] [Zero F] (sel : Nat → Bool) (err des res : List F)
    (hres : res.length = (picked sel err.length).length) :
    genericError sel (picked sel err.length).length err (some des) res =
      if des.length < (picked sel err.length).length then .throw
      else if ∀ i ∈ picked sel err.length, i < des.length then
        .ok ((picked sel err.length).map fun i => err.getD i 0 - des.getD i 0)
      else .ub := by
  by_cases h : ∀ i ∈ picked sel err.length, i < des.length
  · rw [C50_error_reference sel err des res hres h]
    have hd : ¬ des.length < (picked sel err.length).length := by
      have hsub : (picked sel err.length).length ≤ (List.range des.length).length := by
        exact (List.subperm_of_subset (List.Nodup.filter _ List.nodup_range)
          (fun i hi => List.mem_range.mpr (h i hi))).length_le
      rw [List.length_range] at hsub; omega
    rw [if_neg hd, if_pos h]
  · have hle : ¬ err.length < (picked sel err.length).length := by
      have := List.length_filter_le sel (List.range err.length)
      rw [List.length_range] at this
      unfold picked; omega
    simp only [genericError, if_neg hle]
    split_ifs with hd
    · rfl
    · push Not at h
      obtain ⟨i, hi, hlen⟩ := h
      refine fillLoop_ub (k := i) ?_ _ _ _ _ (by rw [pickedFrom_zero]; exact hi) ?_
      · intro k
        have h1 := rd_ne_throw err k
        have h2 := rd_ne_throw des k
        cases ha : rd err k <;> cases hb : rd des k <;> simp_all
      · rw [rd_getD _ _ 0 (mem_picked.mp hi).1, rd_eq_ub.mpr hlen]; rfl

/-- The size check is not enough: a reference of one component passes it and is read out of range when only the second is
selected. -/
theorem C50_short_reference_counterexample :
    genericError (F := ℚ) (fun i => i == 1) 1 [1, 2] (some [5]) [0] = .ub := by
  simp [genericError, fillLoop, rd]

/-- After a change of size of the error the buffer is too small: writing past its end. -/
theorem C50_resized_error_counterexample :
    genericError (F := ℚ) (fun _ => true) (genericDim (genericDim 0 (fun _ => true) 1).2 (fun _ => true) 2).1 [1, 2] none
      [0] = .ub := by
  simp [genericError, genericDim, countLoop, fillLoop, rd, wr]

/-- A concrete case: the mask 101 of an error of three components, with a reference. -/
example : genericError (F := ℚ) (fun i => i != 1) 2 [1, 2, 3] (some [5, 7, 9]) [0, 0] = .ok [1 - 5, 3 - 9] := by
  have h := C50_error_reference (F := ℚ) (fun i => i != 1) [1, 2, 3] [5, 7, 9] [0, 0] (by simp [picked, List.range_succ])
    (by simp [picked, List.range_succ])
  simpa [picked, List.range_succ] using h

/-! ### Jacobian -/

/-- The rows of the Jacobian are those of the selected components, in the same order and number as in the error. -/
theorem C50_jacobian (sel : Nat → Bool) (n cols fuel : Nat) (J res : List (List F)) (hfuel : n ≤ fuel)
    (hJ : n ≤ J.length) (hcols : ∀ r ∈ J, r.length = cols) (hres : res.length = (picked sel n).length) :
    genericJacobian fuel sel (picked sel n).length cols J res =
      some (.ok ((picked sel n).map fun i => J.getD i [])) := by
  unfold genericJacobian
  have h := jacLoop_ok (sel := sel) (row := rowRead cols J) (g := fun i => J.getD i []) n 0 0 fuel res hfuel
    (fun k hk => by
      have hk' : k < J.length := by
        rw [pickedFrom_zero] at hk
        have := (mem_picked.mp hk).1; omega
      unfold rowRead
      split_ifs with hc
      · have h1 : (J.getD k []).length = 0 := by
          rw [← hc]; apply hcols
          simp [List.getD, List.getElem?_eq_getElem hk']
        rw [List.eq_nil_of_length_eq_zero h1]
      · exact rd_getD _ _ _ hk')
    (by rw [pickedFrom_zero]; omega)
  rw [hres, pickedFrom_zero] at h
  simpa using h

/-- Error and Jacobian agree: as many rows as components, and both empty when nothing is selected. -/
theorem C50_consistent [Sub F] [Zero F] (sel : Nat → Bool) (err : List F) (cols fuel dd : Nat) (J : List (List F))
    (hdd : dd = 0 ∨ dd = err.length) (hfuel : err.length ≤ fuel) (hJ : J.length = err.length)
    (hcols : ∀ r ∈ J, r.length = cols) (buf : List F) (jbuf : List (List F))
    (hb : buf.length = (genericDim dd sel err.length).1) (hjb : jbuf.length = (genericDim dd sel err.length).1) :
    ∃ e j, genericError sel (genericDim dd sel err.length).1 err none buf = .ok e ∧
      genericJacobian fuel sel (genericDim dd sel err.length).1 cols J jbuf = some (.ok j) ∧
      e.length = (genericDim dd sel err.length).1 ∧ j.length = (genericDim dd sel err.length).1 := by
  rw [C50_dimension sel _ dd hdd] at hb hjb ⊢
  exact ⟨_, _, C50_error sel err buf hb, C50_jacobian sel _ cols fuel J jbuf hfuel (by omega) hcols hjb, by simp, by simp⟩

/-- A Jacobian with too few rows is read out of range. -/
theorem C50_short_jacobian_counterexample :
    genericJacobian (F := ℚ) 5 (fun _ => true) 2 1 [[1]] [[0], [0]] = some .ub := by
  simp [genericJacobian, jacLoop, rowRead, rd, wr]

example : genericJacobian (F := ℚ) 3 (fun i => i != 1) 2 1 [[1], [2], [3]] [[0], [0]] = some (.ok [[1], [3]]) := by
  have h := C50_jacobian (F := ℚ) (fun i => i != 1) 3 1 3 [[1], [2], [3]] [[0], [0]] (by simp) (by simp) (by simp)
    (by simp [picked, List.range_succ])
  simpa [picked, List.range_succ] using h

/-! ### Error derivative -/

/-- Without reference, or when its derivative is not plugged, the derivative of the error is zero, of the dimension. -/
theorem C83_no_reference [Neg F] [Zero F] (sel : Nat → Bool) (dim : Nat) (res : List F) :
    errorDot sel dim none res = .ok (List.replicate dim 0) := rfl

/-- With the derivative of the reference, of the size of the error, it is the opposite of its selected components. -/
theorem C83_reference [Neg F] [Zero F] (sel : Nat → Bool) (des res : List F)
    (hres : res.length = (picked sel des.length).length) :
    errorDot sel (picked sel des.length).length (some des) res =
      .ok ((picked sel des.length).map fun i => -des.getD i 0) := by
  have hle : ¬ des.length < (picked sel des.length).length := by
    have := List.length_filter_le sel (List.range des.length)
    rw [List.length_range] at this
    unfold picked; omega
  simp only [errorDot, if_neg hle]
  refine fillLoop_exact _ _ (fun k hk => ?_) hres
  rw [rd_getD _ _ 0 (mem_picked.mp hk).1]; rfl

/-- A derivative with fewer components than the dimension is refused. -/
theorem C83_too_short [Neg F] [Zero F] (sel : Nat → Bool) (dim : Nat) (des res : List F) (h : des.length < dim) :
    errorDot sel dim (some des) res = .throw := by simp [errorDot, h]

/-- A derivative with more selected components than the dimension is written past the end. -/
theorem C83_too_long [Neg F] [Zero F] (sel : Nat → Bool) (dim : Nat) (des res : List F) (hres : res.length = dim)
    (h : dim < (picked sel des.length).length) : errorDot sel dim (some des) res = .ub := by
  have hle : ¬ des.length < dim := by
    have := List.length_filter_le sel (List.range des.length)
    rw [List.length_range] at this
    unfold picked at h; omega
  simp only [errorDot, if_neg hle]
  refine fillLoop_overflow ?_ _ _ _ _ (by omega) (by rw [pickedFrom_zero]; omega)
  intro k
  have := rd_ne_throw des k
  cases hk : rd des k <;> simp_all

/-- A derivative that passes the check but lacks a selected component leaves the end of the buffer as it was: the result
depends on what was in memory. -/
theorem C83_garbage_counterexample (g : ℚ) :
    errorDot (F := ℚ) (fun i => i != 0) 2 (some [1, 2]) [0, g] = .ok [-2, g] := by
  simp [errorDot, fillLoop, rd, wr]

example : errorDot (F := ℚ) (fun i => i != 1) 2 (some [1, 2, 3]) [0, 0] = .ok [-1, -3] := by
  have h := C83_reference (F := ℚ) (fun i => i != 1) [1, 2, 3] [0, 0] (by simp [picked, List.range_succ])
  simpa [picked, List.range_succ] using h

end Verif.Features
