import Verif.Task.Model
import Mathlib.Tactic.Set

/-!
# Property C14: the task error
-/

namespace Verif.Task

variable {R : Type}

theorem growDim_spec (need d : Nat) (hd : 0 < d) :
    need ≤ growDim need d ∧ d ≤ growDim need d := by
  fun_induction growDim need d with
  | case1 d h ih => have := ih (by omega); omega
  | case2 d h => omega

theorem writeVec_ok (xs buf : List R) (cursor : Nat) (h : cursor + xs.length ≤ buf.length) :
    writeVec buf cursor xs =
      .ok (buf.take cursor ++ xs ++ buf.drop (cursor + xs.length)) := by
  induction xs generalizing buf cursor with
  | nil => simp [writeVec]
  | cons x xs ih =>
    simp only [List.length_cons] at h
    rw [writeVec, if_pos (by omega), ih _ _ (by simp; omega)]
    congr 1
    apply List.ext_getElem?
    intro i
    simp only [List.getElem?_append, List.getElem?_take, List.getElem?_drop, List.length_append,
      List.length_take, List.length_set, List.getElem?_set, List.length_cons]
    grind

/-- Everything the loop guarantees. -/
theorem errorLoop_spec [Zero R] (fs : List (List R)) (buf : List R) (cursor : Nat)
    (hb : 0 < buf.length) (hc : cursor ≤ buf.length) :
    ∃ b, errorLoop fs buf cursor = .ok (b, cursor + fs.flatten.length) ∧
      cursor + fs.flatten.length ≤ b.length ∧
      (∀ i, i < cursor + fs.flatten.length →
        b[i]? = (buf.take cursor ++ fs.flatten)[i]? ∨ b[i]? = some 0) ∧
      (cursor + fs.flatten.length ≤ buf.length →
        b.take (cursor + fs.flatten.length) = buf.take cursor ++ fs.flatten) := by
  induction fs generalizing buf cursor with
  | nil =>
    refine ⟨buf, by simp [errorLoop], by simpa using hc, ?_, by simp⟩
    intro i hi
    left
    simp at hi ⊢
    rw [List.getElem?_take, if_pos hi]
  | cons f fs ih =>
    set g := growBuf (cursor + f.length) buf with hg
    have hgl : cursor + f.length ≤ g.length ∧ buf.length ≤ g.length := by
      rw [hg]; unfold growBuf
      split
      · have := growDim_spec (cursor + f.length) buf.length hb
        simpa using this
      · omega
    have hgz : g = buf ∨ ∀ i, i < g.length → g[i]? = some 0 := by
      rw [hg]; unfold growBuf
      split
      · right
        intro i hi
        simp only [List.length_replicate] at hi
        rw [List.getElem?_replicate, if_pos hi]
      · left; rfl
    have hnogrow : cursor + f.length ≤ buf.length → g = buf := by
      intro h; rw [hg]; unfold growBuf; rw [if_neg (by omega)]
    set b1 := g.take cursor ++ f ++ g.drop (cursor + f.length) with hb1
    have hb1l : b1.length = g.length := by
      rw [hb1]; simp; omega
    obtain ⟨b, h1, h2, h3, h4⟩ := ih b1 (cursor + f.length) (by omega) (by omega)
    have htake : b1.take (cursor + f.length) = g.take cursor ++ f := by
      rw [hb1, List.take_append_of_le_length (by simp; omega)]
      apply List.take_of_length_le
      simp only [List.length_append, List.length_take]
      omega
    refine ⟨b, ?_, ?_, ?_, ?_⟩
    · rw [errorLoop, ← hg, writeVec_ok f g cursor hgl.1]
      simp only [Outcome.bind_ok]
      rw [← hb1, h1]
      simp [Nat.add_assoc]
    · simp only [List.flatten_cons, List.length_append]; omega
    · intro i hi
      simp only [List.flatten_cons, List.length_append] at hi
      rcases h3 i (by omega) with h | h
      · rw [h, htake]
        rcases hgz with hz | hz
        · left; rw [hz]; simp
        · by_cases hic : i < cursor
          · right
            rw [List.getElem?_append_left (by simp only [List.length_append, List.length_take]; omega),
              List.getElem?_append_left (by rw [List.length_take]; omega), List.getElem?_take, if_pos hic,
              hz i (by omega)]
          · left
            simp only [List.flatten_cons]
            have e1 : (g.take cursor).length = cursor := by rw [List.length_take]; omega
            have e2 : (buf.take cursor).length = cursor := by rw [List.length_take]; omega
            rw [List.append_assoc, List.getElem?_append_right (by omega : (g.take cursor).length ≤ i),
              List.getElem?_append_right (by omega : (buf.take cursor).length ≤ i), e1, e2]
      · exact Or.inr h
    · intro hle
      simp only [List.flatten_cons, List.length_append] at hle
      have hgb := hnogrow (by omega)
      have h5 := h4 (by rw [hb1l, hgb]; omega)
      rw [htake, hgb] at h5
      simp only [List.flatten_cons, List.length_append]
      rw [← Nat.add_assoc, h5, List.append_assoc]

/-- C14. Whatever the previous content of the buffer, the computation of the error of a task with at
least one feature never goes out of its buffer, has the total size of the feature errors, and each of
its components is either the expected component of the concatenation or zero. -/
theorem C14_size_and_components_partial [Zero R] (prev : List R) (feats : List (List R))
    (hne : feats ≠ []) :
    ∃ e, computeError prev feats = .ok e ∧ e.length = feats.flatten.length ∧
      ∀ i (hi : i < e.length), some e[i] = feats.flatten[i]? ∨ e[i] = 0 := by
  set buf := (if prev.length = 0 then [0] else prev) with hbuf
  have hb : 0 < buf.length := by
    rw [hbuf]
    split
    · simp
    · omega
  obtain ⟨b, h1, h2, h3, -⟩ := errorLoop_spec feats buf 0 hb (by omega)
  simp only [Nat.zero_add, List.take_zero, List.nil_append] at h1 h2 h3
  refine ⟨b.take feats.flatten.length, ?_, ?_, ?_⟩
  · unfold computeError
    have : feats.isEmpty = false := by simpa using hne
    simp only [this, Bool.false_eq_true, if_false, ← hbuf]
    rw [h1]; rfl
  · rw [List.length_take]; omega
  · intro i hi
    have hi' : i < feats.flatten.length := by rw [List.length_take] at hi; omega
    rcases h3 i hi' with h | h
    · left
      rw [← h, List.getElem_take, List.getElem?_eq_getElem]
    · right
      rw [List.getElem_take]
      rw [List.getElem?_eq_getElem (by omega)] at h
      simpa using h

example : computeError [7, 7, 7, 7, 7] [[1, 2], [], [3]] = .ok [(1 : Int), 2, 3] := by decide

/-- C14. When the buffer already has room for all the features, the error is the concatenation of the
feature errors.

Partial: the full property has no condition on the previous size; see the counterexample. -/
theorem C14_concatenation_partial [Zero R] (prev : List R) (feats : List (List R))
    (hne : feats ≠ []) (hroom : feats.flatten.length ≤ prev.length) :
    computeError prev feats = .ok feats.flatten := by
  set buf := (if prev.length = 0 then [0] else prev) with hbuf
  have hb : 0 < buf.length ∧ feats.flatten.length ≤ buf.length := by
    rw [hbuf]
    split
    · simp only [List.length_cons, List.length_nil]; omega
    · omega
  obtain ⟨b, h1, h2, -, h4⟩ := errorLoop_spec feats buf 0 hb.1 (by omega)
  simp only [Nat.zero_add, List.take_zero, List.nil_append] at h1 h2 h4
  unfold computeError
  have : feats.isEmpty = false := by simpa using hne
  simp only [this, Bool.false_eq_true, if_false, ← hbuf]
  rw [h1]
  simp only [Outcome.map_ok]
  rw [h4 hb.2]

example : ([[1, 2], [3]] : List (List Int)).flatten.length ≤ ([0, 0, 0] : List Int).length := by decide

/-- C14. In particular, once the error has been computed in a buffer, computing it again in that buffer
is exact as long as the total size does not grow. -/
theorem C14_exact_once_allocated [Zero R] (prev : List R) (feats feats' : List (List R)) (e : List R)
    (h : computeError prev feats = .ok e) (hne : feats' ≠ [])
    (hsize : feats'.flatten.length ≤ feats.flatten.length) :
    computeError e feats' = .ok feats'.flatten := by
  have hf : feats ≠ [] := by
    rintro rfl; simp [computeError] at h
  obtain ⟨e', h1, h2, -⟩ := C14_size_and_components_partial prev feats hf
  rw [h] at h1
  simp only [Outcome.ok.injEq] at h1
  subst h1
  exact C14_concatenation_partial e feats' hne (by omega)

/-- C14. A task with a single feature has the error of that feature, whatever the previous content. -/
theorem C14_single_feature [Zero R] (prev f : List R) : computeError prev [f] = .ok f := by
  set buf := (if prev.length = 0 then [0] else prev) with hbuf
  have hb : 0 < buf.length := by
    rw [hbuf]
    split
    · simp
    · omega
  unfold computeError
  simp only [List.isEmpty_cons, Bool.false_eq_true, if_false, ← hbuf, errorLoop, Nat.zero_add]
  have hl : f.length ≤ (growBuf f.length buf).length := by
    unfold growBuf
    split
    · have := growDim_spec f.length buf.length hb
      simpa using this.1
    · omega
  rw [writeVec_ok f _ 0 (by omega)]
  simp

/-- C14. A task without feature raises an exception. -/
theorem C14_empty_throws [Zero R] (prev : List R) : computeError prev [] = .throw := rfl

/-- C14. Counterexample to the full property: the growth of the buffer erases the errors already
copied. On the first evaluation (empty buffer) of a task with two one-dimensional features the first
error is lost. -/
theorem C14_growth_erases_counterexample :
    computeError ([] : List Int) [[1], [2]] = .ok [0, 2] := by
  have h2 : growDim 2 2 = 2 := by rw [growDim, dif_neg (by omega)]
  have h1 : growDim 2 1 = 2 := by rw [growDim, dif_pos (by omega)]; exact h2
  have hb : growBuf (0 + 1) [(0 : Int)] = [0] := by simp [growBuf]
  have hb' : growBuf (1 + 1) [(1 : Int)] = [0, 0] := by
    simp only [growBuf, List.length_cons, List.length_nil]
    rw [if_pos (by omega), h1]; rfl
  simp [computeError, errorLoop, writeVec, hb, hb']

end Verif.Task
