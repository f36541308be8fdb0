import Verif.Variadic.Model
import Mathlib.Data.List.Nodup
import Std.Data.String.ToNat

/-!
# Invariant of the entities with a variable number of inputs
-/
set_option linter.unusedSimpArgs false

namespace Verif.Variadic

/-- What a caller relies on: every position holds an input, under distinct names different from those of the entity;
the names registered are these and nothing else; the output depends on these inputs and on no other. -/
def Good (reserved : List String) (s : State) : Prop :=
  ∃ l : List Sig, s.inputs = l.map .live ∧ (l.map Sig.name).Nodup ∧ (l.map Sig.id).Nodup ∧
    (∀ g ∈ l, g.id < s.next ∧ g.name ∉ reserved) ∧
    (∀ n, n ∈ s.registered ↔ n ∈ reserved ∨ n ∈ l.map Sig.name) ∧
    (∀ k, k ∈ s.deps ↔ k ∈ l.map Sig.id)

theorem removeAt_ok (s : State) (A B : List Slot) (g : Sig) (h : s.inputs = A ++ .live g :: B)
    (hr : g.name ∈ s.registered) :
    removeAt s A.length = (.ok (), ⟨A ++ .freed :: B, s.registered.filter (· ≠ g.name), s.deps.filter (· ≠ g.id),
      s.next⟩) := by
  unfold removeAt
  rw [h]
  simp [hr]

theorem removeFrom_ok (l : List Sig) (s : State) (A : List Slot) (h : s.inputs = A ++ l.map .live)
    (hn : (l.map Sig.name).Nodup) (hr : ∀ g ∈ l, g.name ∈ s.registered) :
    ∃ s', removeFrom s A.length l.length = (.ok (), s') ∧ s'.inputs = A ++ List.replicate l.length .freed ∧
      (∀ n, n ∈ s'.registered ↔ n ∈ s.registered ∧ n ∉ l.map Sig.name) ∧
      (∀ k, k ∈ s'.deps ↔ k ∈ s.deps ∧ k ∉ l.map Sig.id) ∧ s'.next = s.next := by
  induction l generalizing s A with
  | nil => exact ⟨s, rfl, by simpa using h, by simp, by simp, rfl⟩
  | cons g l ih =>
    rw [List.map_cons] at h
    rw [List.map_cons, List.nodup_cons] at hn
    have e := removeAt_ok s A (l.map .live) g h (hr g (by simp))
    obtain ⟨s', i1, i2, i3, i4, i5⟩ := ih
      { s with registered := s.registered.filter (· ≠ g.name), deps := s.deps.filter (· ≠ g.id),
               inputs := A ++ .freed :: l.map .live } (A ++ [.freed]) (by simp) hn.2 (by
        intro g' hg'
        simp only [ne_eq, decide_not, List.mem_filter, Bool.not_eq_eq_eq_not, Bool.not_true, decide_eq_false_iff_not]
        refine ⟨hr g' (by simp [hg']), ?_⟩
        intro e
        exact hn.1 (List.mem_map.mpr ⟨g', hg', e⟩))
    refine ⟨s', ?_, ?_, ?_, ?_, ?_⟩
    · rw [List.length_cons, removeFrom, e]
      simp only [Res.andThen]
      rw [← i1]
      simp
    · rw [i2]
      simp [List.replicate_succ]
    · intro n
      rw [i3]
      simp only [ne_eq, decide_not, List.mem_filter, Bool.not_eq_eq_eq_not, Bool.not_true, decide_eq_false_iff_not,
        List.map_cons, List.mem_cons, not_or]
      tauto
    · intro k
      rw [i4]
      simp only [ne_eq, decide_not, List.mem_filter, Bool.not_eq_eq_eq_not, Bool.not_true, decide_eq_false_iff_not,
        List.map_cons, List.mem_cons, not_or]
      tauto
    · rw [i5]

theorem declare_ok (s : State) (g : Sig) (h : g.name ∉ s.registered) :
    declare s g = (.ok (), { s with registered := g.name :: s.registered, deps := g.id :: s.deps }) := by
  unfold declare
  rw [if_neg h]

/-- The signals created for the positions from `i`. -/
def newSigs (next i : Nat) : Nat → List Sig
  | 0 => []
  | k + 1 => ⟨next, defaultName i⟩ :: newSigs (next + 1) (i + 1) k

theorem newSigs_succ (next i k : Nat) :
    newSigs next i (k + 1) = ⟨next, defaultName i⟩ :: newSigs (next + 1) (i + 1) k := rfl

theorem newSigs_length (next i k : Nat) : (newSigs next i k).length = k := by
  induction k generalizing next i with
  | zero => rfl
  | succ k ih => simp [newSigs, ih]

theorem newSigs_get (next i k j : Nat) (h : j < k) : (newSigs next i k)[j]? = some ⟨next + j, defaultName (i + j)⟩ := by
  induction k generalizing next i j with
  | zero => omega
  | succ k ih =>
    cases j with
    | zero => simp [newSigs]
    | succ j =>
      rw [newSigs_succ, List.getElem?_cons_succ, ih _ _ _ (by omega)]
      simp only [Option.some.injEq, Sig.mk.injEq]
      exact ⟨by omega, by congr 1; omega⟩

theorem newSigs_mem {next i k : Nat} {g : Sig} (h : g ∈ newSigs next i k) :
    ∃ j < k, g = ⟨next + j, defaultName (i + j)⟩ := by
  obtain ⟨j, hj⟩ := List.mem_iff_getElem?.mp h
  have hl : j < k := by
    have := (List.getElem?_eq_some_iff.mp hj).1
    rwa [newSigs_length] at this
  rw [newSigs_get _ _ _ _ hl] at hj
  exact ⟨j, hl, by simpa using hj.symm⟩

theorem defaultName_injective {i j : Nat} (h : defaultName i = defaultName j) : i = j := by
  unfold defaultName at h
  have := congrArg String.toList h
  simp only [String.toList_append, List.append_cancel_left_eq] at this
  have := String.toList_injective this
  exact Nat.repr_injective this

theorem declareFrom_ok (k : Nat) (s : State) (i : Nat) (A : List Slot) (hA : A.length = i)
    (h : s.inputs = A ++ List.replicate k .null) (hn : ∀ j, i ≤ j → j < i + k → defaultName j ∉ s.registered) :
    ∃ s', declareFrom s i k = (.ok (), s') ∧ s'.inputs = A ++ (newSigs s.next i k).map .live ∧
      (∀ n, n ∈ s'.registered ↔ n ∈ s.registered ∨ n ∈ (newSigs s.next i k).map Sig.name) ∧
      (∀ d, d ∈ s'.deps ↔ d ∈ s.deps ∨ d ∈ (newSigs s.next i k).map Sig.id) ∧ s'.next = s.next + k := by
  induction k generalizing s i A with
  | zero => exact ⟨s, rfl, by simpa [newSigs] using h, by simp [newSigs], by simp [newSigs], rfl⟩
  | succ k ih =>
    have hset : s.inputs.set i (.live ⟨s.next, defaultName i⟩) =
        (A ++ [.live ⟨s.next, defaultName i⟩]) ++ List.replicate k .null := by
      rw [h, ← hA]
      simp [List.replicate_succ]
    obtain ⟨s', i1, i2, i3, i4, i5⟩ := ih
      { s with next := s.next + 1, inputs := s.inputs.set i (.live ⟨s.next, defaultName i⟩),
               registered := defaultName i :: s.registered, deps := s.next :: s.deps } (i + 1)
      (A ++ [.live ⟨s.next, defaultName i⟩]) (by simp [hA]) hset (by
        intro j h1 h2
        simp only [List.mem_cons, not_or]
        refine ⟨?_, hn j (by omega) (by omega)⟩
        intro e
        have := defaultName_injective e
        omega)
    refine ⟨s', ?_, ?_, ?_, ?_, ?_⟩
    · rw [declareFrom]
      rw [declare_ok _ _ (hn i (Nat.le_refl _) (by omega))]
      simp only [Res.andThen]
      exact i1
    · rw [i2, newSigs_succ]
      simp
    · intro n
      rw [i3, newSigs_succ]
      simp only [List.mem_cons, List.map_cons]
      tauto
    · intro n
      rw [i4, newSigs_succ]
      simp only [List.mem_cons, List.map_cons]
      tauto
    · rw [i5]
      simp only
      omega

end Verif.Variadic
