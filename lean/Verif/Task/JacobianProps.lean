import Verif.Task.Model
import Mathlib.Tactic.Set
import Mathlib.Tactic.Conv
import Mathlib.Data.List.Forall2

/-!
# Properties of the jacobian of a task (C15)
-/

namespace Verif.Task

variable {R : Type}

/-! ## Specification -/

/-- Number of rows of a vertical stack of matrices. -/
def totalRows (fs : List (DMat R)) : Nat := (fs.map DMat.rows).sum

/-- Entry `(i, j)` of the vertical stack of a list of matrices. -/
def stackAt : List (DMat R) → Nat → Nat → Option R
  | [], _, _ => none
  | m :: ms, i, j => if i < m.rows then m.at_ i j else stackAt ms (i - m.rows) j

/-- `J` is the vertical stack of the matrices `fs`, all with `c` columns. -/
def IsStack (J : DMat R) (fs : List (DMat R)) (c : Nat) : Prop :=
  J.rows = totalRows fs ∧ J.cols = c ∧ ∀ i j, i < totalRows fs → j < c → J.at_ i j = stackAt fs i j

/-! ## Loop -/

theorem growRows_spec (need nbc d : Nat) (J : DMat R) (hd : 0 < d) (hr : J.rows = d)
    (hc : J.cols = nbc) :
    let g := growRows need nbc d J
    g.1.rows = g.2 ∧ g.1.cols = nbc ∧ need < g.2 ∧ d ≤ g.2 ∧
      ∀ i j, i < d → j < nbc → g.1.at_ i j = J.at_ i j := by
  induction hk : need + 1 - d using Nat.strong_induction_on generalizing d J with
  | _ k ih =>
    simp only
    rw [growRows]
    by_cases h : d ≤ need ∧ 0 < d
    · rw [dif_pos h]
      have := ih (need + 1 - 2 * d) (by omega) (2 * d) (conservativeResize J (2 * d) nbc) (by omega)
        rfl rfl rfl
      simp only at this
      obtain ⟨h1, h2, h3, h4, h5⟩ := this
      refine ⟨h1, h2, h3, by omega, ?_⟩
      intro i j hi hj
      rw [h5 i j (by omega) hj]
      simp only [conservativeResize]
      rw [if_pos ⟨by omega, by omega⟩]
    · rw [dif_neg h]
      refine ⟨hr, hc, by omega, by omega, ?_⟩
      intros; rfl

/-- The loop invariant on the shape of the buffer: it has the tracked shape, except before anything was
written in a buffer tracked as one row high. -/
def ShapeInv (J : DMat R) (dimJ nbc cursor : Nat) : Prop :=
  (J.rows = dimJ ∧ J.cols = nbc) ∨ (cursor = 0 ∧ dimJ = 1)

theorem jacLoop_step (f : DMat R) (fs : List (DMat R)) (J : DMat R) (dimJ nbc cursor : Nat)
    (hn : 0 < nbc) (hd : cursor < dimJ) (hinv : ShapeInv J dimJ nbc cursor) (hf : f.cols = nbc) :
    ∃ J1 d1, jacLoop (f :: fs) J dimJ nbc cursor = jacLoop fs J1 d1 nbc (cursor + f.rows) ∧
      cursor + f.rows < d1 ∧ ShapeInv J1 d1 nbc (cursor + f.rows) ∧
      ∀ i j, i < cursor + f.rows → j < nbc →
        J1.at_ i j = if i < cursor then J.at_ i j else f.at_ (i - cursor) j := by
  have hstep : jacLoop (f :: fs) J dimJ nbc cursor =
      (writeBlock (growRows (cursor + f.rows) nbc dimJ J).1 cursor f.rows nbc f).bind fun J' =>
        jacLoop fs J' (growRows (cursor + f.rows) nbc dimJ J).2 nbc (cursor + f.rows) := by
    rw [jacLoop, if_neg (by omega), if_neg (by simp [hf])]
  have key : ∀ g : DMat R × Nat, growRows (cursor + f.rows) nbc dimJ J = g →
      g.1.rows = g.2 → g.1.cols = nbc → cursor + f.rows < g.2 →
      (∀ i j, i < cursor → j < nbc → g.1.at_ i j = J.at_ i j) →
      ∃ J1 d1, jacLoop (f :: fs) J dimJ nbc cursor = jacLoop fs J1 d1 nbc (cursor + f.rows) ∧
      cursor + f.rows < d1 ∧ ShapeInv J1 d1 nbc (cursor + f.rows) ∧
      ∀ i j, i < cursor + f.rows → j < nbc →
        J1.at_ i j = if i < cursor then J.at_ i j else f.at_ (i - cursor) j := by
    intro g hg h1 h2 h3 h4
    refine ⟨{ g.1 with at_ := fun i j =>
      if cursor ≤ i ∧ i < cursor + f.rows ∧ j < nbc then f.at_ (i - cursor) j else g.1.at_ i j },
      g.2, ?_, h3, Or.inl ⟨h1, h2⟩, ?_⟩
    · rw [hstep, hg, writeBlock, if_pos (by right; right; omega)]
      rfl
    · intro i j hi hj
      simp only
      by_cases hic : i < cursor
      · rw [if_pos hic, if_neg (by omega), h4 i j hic hj]
      · rw [if_neg hic, if_pos ⟨by omega, hi, hj⟩]
  rcases hinv with ⟨hr, hc⟩ | ⟨hc0, hd1⟩
  · obtain ⟨h1, h2, h3, h4, h5⟩ := growRows_spec (cursor + f.rows) nbc dimJ J (by omega) hr hc
    exact key _ rfl h1 h2 h3 fun i j hi hj => h5 i j (by omega) hj
  · subst hc0 hd1
    by_cases hfr : f.rows = 0
    · refine ⟨{ J with at_ := fun i j =>
        if 0 ≤ i ∧ i < 0 + f.rows ∧ j < nbc then f.at_ (i - 0) j else J.at_ i j },
        1, ?_, by omega, Or.inr ⟨by omega, rfl⟩, ?_⟩
      · rw [hstep, growRows, dif_neg (by omega), writeBlock, if_pos (by left; exact hfr)]
        rfl
      · intro i j hi; omega
    · obtain ⟨h1, h2, h3, -, -⟩ := growRows_spec (0 + f.rows) nbc 2 (conservativeResize J 2 nbc)
        (by omega) rfl rfl
      refine key _ (by rw [growRows, dif_pos (by omega)]) h1 h2 h3 ?_
      intro i j hi; omega

theorem totalRows_cons (f : DMat R) (fs : List (DMat R)) :
    totalRows (f :: fs) = f.rows + totalRows fs := by simp [totalRows]

theorem jacLoop_spec (fs : List (DMat R)) (J : DMat R) (dimJ nbc cursor : Nat)
    (hn : 0 < nbc) (hd : cursor < dimJ) (hinv : ShapeInv J dimJ nbc cursor)
    (hall : ∀ f ∈ fs, f.cols = nbc) :
    ∃ J' d', jacLoop fs J dimJ nbc cursor = .ok (J', nbc, cursor + totalRows fs) ∧
      cursor + totalRows fs < d' ∧ ShapeInv J' d' nbc (cursor + totalRows fs) ∧
      ∀ i j, i < cursor + totalRows fs → j < nbc →
        J'.at_ i j = if i < cursor then J.at_ i j else stackAt fs (i - cursor) j := by
  induction fs generalizing J dimJ cursor with
  | nil =>
    refine ⟨J, dimJ, by simp [jacLoop, totalRows], by simpa [totalRows] using hd,
      by simpa [totalRows] using hinv, ?_⟩
    intro i j hi hj
    simp only [totalRows, List.map_nil, List.sum_nil, Nat.add_zero] at hi
    rw [if_pos hi]
  | cons f fs ih =>
    obtain ⟨J1, d1, e1, hd1, hinv1, hat1⟩ :=
      jacLoop_step f fs J dimJ nbc cursor hn hd hinv (hall f (by simp))
    obtain ⟨J', d', e2, hd', hinv', hat'⟩ := ih J1 d1 (cursor + f.rows) hd1 hinv1
      (fun g hg => hall g (by simp [hg]))
    rw [totalRows_cons, ← Nat.add_assoc]
    refine ⟨J', d', by rw [e1, e2], hd', hinv', ?_⟩
    intro i j hi hj
    rw [hat' i j hi hj]
    by_cases h1 : i < cursor
    · rw [if_pos (by omega), hat1 i j (by omega) hj, if_pos h1, if_pos h1]
    · rw [if_neg h1, stackAt]
      by_cases h2 : i < cursor + f.rows
      · rw [if_pos h2, hat1 i j h2 hj, if_neg h1, if_pos (by omega)]
      · rw [if_neg h2, if_neg (by omega), Nat.sub_sub]

theorem jacLoop_throw (fs : List (DMat R)) (J : DMat R) (dimJ nbc cursor : Nat)
    (hn : 0 < nbc) (hd : cursor < dimJ) (hinv : ShapeInv J dimJ nbc cursor)
    (hex : ∃ f ∈ fs, f.cols ≠ nbc) : jacLoop fs J dimJ nbc cursor = .throw := by
  induction fs generalizing J dimJ cursor with
  | nil => simp at hex
  | cons f fs ih =>
    by_cases hf : f.cols = nbc
    · obtain ⟨J1, d1, e1, hd1, hinv1, -⟩ := jacLoop_step f fs J dimJ nbc cursor hn hd hinv hf
      rw [e1]
      refine ih J1 d1 _ hd1 hinv1 ?_
      obtain ⟨g, hg, hgc⟩ := hex
      rcases List.mem_cons.mp hg with rfl | h
      · exact absurd hf hgc
      · exact ⟨g, h, hgc⟩
    · rw [jacLoop, if_neg (by omega), if_pos hf]

/-! ## C15 -/

theorem start_shape (prev : DMat R) (c : Nat) (hc : prev.cols = c) :
    let J0 := if prev.rows = 0 then resize 1 prev.cols else prev
    0 < J0.rows ∧ ShapeInv J0 J0.rows c 0 := by
  intro J0
  by_cases h : prev.rows = 0
  · have : J0 = resize 1 prev.cols := by simp [J0, h]
    rw [this]
    exact ⟨by simp [resize], Or.inl ⟨rfl, hc⟩⟩
  · have : J0 = prev := by simp [J0, h]
    rw [this]
    exact ⟨by omega, Or.inl ⟨rfl, hc⟩⟩

theorem finish (fs : List (DMat R)) (J : DMat R) (c d : Nat)
    (hd : totalRows fs < d) (hinv : ShapeInv J d c (totalRows fs))
    (hat : ∀ i j, i < totalRows fs → j < c → J.at_ i j = stackAt fs i j) :
    IsStack (conservativeResize J (totalRows fs) c) fs c := by
  refine ⟨rfl, rfl, ?_⟩
  intro i j hi hj
  simp only [conservativeResize]
  rcases hinv with ⟨h1, h2⟩ | ⟨h1, -⟩
  · rw [if_pos ⟨by omega, by omega⟩, hat i j hi hj]
  · omega

/-- C15. When the output buffer already has the column count of the features, the jacobian of the task is
the vertical stack of the jacobians of its features, whatever the number of rows and the content of the
buffer.

Partial: the full property has no condition on the previous column count; see
`C15_stale_columns_counterexample` and `C15_no_columns_counterexample`. -/
theorem C15_stack_partial (prev : DMat R) (feats : List (DMat R)) (c : Nat) (hc : 0 < c)
    (hprev : prev.cols = c) (hne : feats ≠ []) (hall : ∀ f ∈ feats, f.cols = c) :
    ∃ J, computeJacobian prev feats = .ok J ∧ IsStack J feats c := by
  obtain ⟨hr, hinv⟩ := start_shape prev c hprev
  set J0 := (if prev.rows = 0 then resize 1 prev.cols else prev) with hJ0
  obtain ⟨J', d', e, hd', hinv', hat⟩ := jacLoop_spec feats J0 J0.rows c 0 hc hr hinv hall
  simp only [Nat.zero_add, Nat.not_lt_zero, if_false, Nat.sub_zero] at e hd' hinv' hat
  refine ⟨conservativeResize J' (totalRows feats) c, ?_, finish feats J' c d' hd' hinv' hat⟩
  have : feats.isEmpty = false := by simpa using hne
  rw [← hprev] at e
  simp only [computeJacobian, this, Bool.false_eq_true, if_false, ← hJ0]
  rw [e, ← hprev]; rfl

/-- Two features with three columns, used as a witness. -/
def witness : List (DMat Int) :=
  [⟨2, 3, fun i j => some (10 * i + j)⟩, ⟨1, 3, fun i j => some (100 + 10 * i + j)⟩]

example : stackAt witness 1 2 = some 12 ∧ stackAt witness 2 0 = some 100 ∧ totalRows witness = 3 := by
  decide

example : (0 < 3) ∧ (⟨5, 3, fun _ _ => none⟩ : DMat Int).cols = 3 ∧ witness ≠ [] ∧
    ∀ f ∈ witness, f.cols = 3 := by
  refine ⟨by omega, rfl, by simp [witness], ?_⟩
  intro f hf; simp [witness] at hf; rcases hf with rfl | rfl <;> rfl

/-- C15. The same on the first evaluation, when the output buffer has never been written. -/
theorem C15_stack_fresh_partial (prev : DMat R) (feats : List (DMat R)) (c : Nat) (hc : 0 < c)
    (hprev : prev.rows = 0 ∧ prev.cols = 0) (hne : feats ≠ []) (hall : ∀ f ∈ feats, f.cols = c) :
    ∃ J, computeJacobian prev feats = .ok J ∧ IsStack J feats c := by
  obtain ⟨f, fs, rfl⟩ := List.exists_cons_of_ne_nil hne
  have hf : f.cols = c := hall f (by simp)
  obtain ⟨J', d', e, hd', hinv', hat⟩ := jacLoop_spec (f :: fs) (resize c 1) 1 c 0 hc (by omega)
    (Or.inr ⟨rfl, rfl⟩) hall
  simp only [Nat.zero_add, Nat.not_lt_zero, if_false, Nat.sub_zero] at e hd' hinv' hat
  refine ⟨conservativeResize J' (totalRows (f :: fs)) c, ?_, finish _ J' c d' hd' hinv' hat⟩
  have h0 : jacLoop (f :: fs) (resize 1 0) 1 0 0 = jacLoop (f :: fs) (resize c 1) 1 c 0 := by
    conv_lhs => rw [jacLoop, if_pos rfl]
    conv_rhs => rw [jacLoop, if_neg (by omega), if_neg (by simp [hf])]
    rw [hf]
  simp only [computeJacobian, List.isEmpty_cons, Bool.false_eq_true, if_false, hprev.1, hprev.2,
    if_true]
  show (jacLoop (f :: fs) (resize 1 0) 1 0 0).map _ = _
  rw [h0, e]; rfl

example : ∃ J, computeJacobian ⟨0, 0, fun _ _ => none⟩ witness = .ok J ∧ IsStack J witness 3 :=
  C15_stack_fresh_partial _ _ 3 (by omega) ⟨rfl, rfl⟩ (by simp [witness]) (by
    intro f hf; simp [witness] at hf; rcases hf with rfl | rfl <;> rfl)

/-- A history of evaluations in one buffer: every evaluation starts from the result of the previous
one. -/
def runJac : DMat R → List (List (DMat R)) → Outcome (List (DMat R))
  | _, [] => .ok []
  | prev, fs :: rest =>
    (computeJacobian prev fs).bind fun J => (runJac J rest).map fun Js => J :: Js

/-- C15. Along any history of evaluations that starts with a new buffer, with feature lists that change
at will and keep `c` columns, every jacobian is the vertical stack of its features. -/
theorem C15_stack_history (hist : List (List (DMat R))) (c : Nat) (hc : 0 < c)
    (hall : ∀ fs ∈ hist, fs ≠ [] ∧ ∀ f ∈ fs, f.cols = c) :
    ∃ Js, runJac ⟨0, 0, fun _ _ => none⟩ hist = .ok Js ∧
      List.Forall₂ (fun J fs => IsStack J fs c) Js hist := by
  have key : ∀ (hist : List (List (DMat R))) (prev : DMat R),
      (∀ fs ∈ hist, fs ≠ [] ∧ ∀ f ∈ fs, f.cols = c) →
      (prev.cols = c ∨ (prev.rows = 0 ∧ prev.cols = 0)) →
      ∃ Js, runJac prev hist = .ok Js ∧ List.Forall₂ (fun J fs => IsStack J fs c) Js hist := by
    intro hist
    induction hist with
    | nil => intro _ _ _; exact ⟨[], rfl, .nil⟩
    | cons fs rest ih =>
      intro prev hall hprev
      obtain ⟨hne, hfs⟩ := hall fs (by simp)
      have : ∃ J, computeJacobian prev fs = .ok J ∧ IsStack J fs c := by
        rcases hprev with h | h
        · exact C15_stack_partial prev fs c hc h hne hfs
        · exact C15_stack_fresh_partial prev fs c hc h hne hfs
      obtain ⟨J, hJ, hs⟩ := this
      obtain ⟨Js, hJs, hF⟩ := ih J (fun g hg => hall g (by simp [hg])) (Or.inl hs.2.1)
      exact ⟨J :: Js, by simp [runJac, hJ, hJs], .cons hs hF⟩
  exact key hist _ hall (Or.inr ⟨rfl, rfl⟩)

example : ∀ fs ∈ [witness, witness.tail, witness ++ witness], fs ≠ [] ∧ ∀ f ∈ fs, f.cols = 3 := by
  decide

/-- C15. With a buffer of `c` columns, any feature with another column count makes the computation raise
an exception, before any out-of-range access. -/
theorem C15_mismatch_throws (prev : DMat R) (feats : List (DMat R)) (c : Nat) (hc : 0 < c)
    (hprev : prev.cols = c) (hex : ∃ f ∈ feats, f.cols ≠ c) :
    computeJacobian prev feats = .throw := by
  obtain ⟨hr, hinv⟩ := start_shape prev c hprev
  have hne : feats.isEmpty = false := by
    obtain ⟨f, hf, -⟩ := hex
    cases feats with
    | nil => simp at hf
    | cons => rfl
  have e := jacLoop_throw feats _ _ c 0 hc hr hinv hex
  simp only [computeJacobian, hne, Bool.false_eq_true, if_false]
  rw [← hprev] at e
  rw [e]; rfl

/-- C15. On a fresh buffer, features with different column counts make the computation raise an
exception. -/
theorem C15_mismatch_throws_fresh (prev : DMat R) (f : DMat R) (fs : List (DMat R))
    (hc : 0 < f.cols) (hprev : prev.rows = 0 ∧ prev.cols = 0) (hex : ∃ g ∈ fs, g.cols ≠ f.cols) :
    computeJacobian prev (f :: fs) = .throw := by
  have e := jacLoop_throw (f :: fs) (resize f.cols 1) 1 f.cols 0 hc (by omega) (Or.inr ⟨rfl, rfl⟩)
    (by obtain ⟨g, hg, h⟩ := hex; exact ⟨g, by simp [hg], h⟩)
  have h0 : jacLoop (f :: fs) (resize 1 0) 1 0 0 = jacLoop (f :: fs) (resize f.cols 1) 1 f.cols 0 := by
    conv_lhs => rw [jacLoop, if_pos rfl]
    conv_rhs => rw [jacLoop, if_neg (by omega), if_neg (by simp)]
  simp only [computeJacobian, List.isEmpty_cons, Bool.false_eq_true, if_false, hprev.1, hprev.2,
    if_true]
  show (jacLoop (f :: fs) (resize 1 0) 1 0 0).map _ = _
  rw [h0, e]; rfl

example : ∃ g ∈ witness.tail, g.cols ≠ (⟨1, 2, fun _ _ => some 0⟩ : DMat Int).cols := by
  refine ⟨_, List.mem_singleton.mpr rfl, ?_⟩
  show (3 : Nat) ≠ 2
  omega

/-- C15. A task without feature raises an exception. -/
theorem C15_empty_throws (prev : DMat R) : computeJacobian prev [] = .throw := rfl

/-- C15, disagreement with the property: features that agree on their column count, but not with the
column count left in the output buffer by an earlier evaluation, are rejected, for ever. -/
theorem C15_stale_columns_counterexample :
    ∃ (prev : DMat Int) (feats : List (DMat Int)), feats ≠ [] ∧ (∀ f ∈ feats, f.cols = 3) ∧
      (∃ fs0, computeJacobian ⟨0, 0, fun _ _ => none⟩ fs0 = .ok prev) ∧
      computeJacobian prev feats = .throw := by
  obtain ⟨J, hJ, hs⟩ := C15_stack_fresh_partial (⟨0, 0, fun _ _ => none⟩ : DMat Int)
    [⟨1, 2, fun _ _ => some 1⟩] 2 (by omega) ⟨rfl, rfl⟩ (by simp) (by simp)
  refine ⟨J, witness, by simp [witness], ?_, ⟨_, hJ⟩, ?_⟩
  · intro f hf; simp [witness] at hf; rcases hf with rfl | rfl <;> rfl
  · refine C15_mismatch_throws J witness 2 (by omega) hs.2.1 ⟨_, List.mem_cons_self, ?_⟩
    show (3 : Nat) ≠ 2
    omega

/-- C15, disagreement with the property: after an evaluation whose jacobian had three rows and no column,
a feature with two rows and one column is written outside the buffer (`J.resize(nbc, dimJ)` exchanges
the two sizes). -/
theorem C15_no_columns_counterexample :
    computeJacobian (⟨3, 0, fun _ _ => none⟩ : DMat Int) [⟨2, 1, fun _ _ => some 1⟩] = .ub := by
  have hg : growRows 2 1 3 (resize 1 3 : DMat Int) = (resize 1 3, 3) := by
    rw [growRows, dif_neg (by omega)]
  simp [computeJacobian, jacLoop, hg, writeBlock]
  simp [resize]

/-- The buffer of the previous counterexample is reachable. -/
theorem C15_no_columns_reachable :
    ∃ J, computeJacobian (⟨0, 0, fun _ _ => none⟩ : DMat Int) [⟨3, 0, fun _ _ => none⟩] = .ok J ∧
      J.rows = 3 ∧ J.cols = 0 := by
  simp [computeJacobian, jacLoop, writeBlock, conservativeResize]

end Verif.Task
