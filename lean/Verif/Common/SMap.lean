import Verif.Common.Outcome
import Mathlib.Order.Basic
import Mathlib.Order.Defs.LinearOrder

/-!
# `std::map`

An ordered map is the list of its entries in the order of an iteration, sorted by key.
-/

namespace Verif

/-- The entries of a `std::map`, in iteration order. -/
abbrev SMap (K V : Type) := List (K × V)

namespace SMap

variable {K V : Type} [LinearOrder K]

/-- `m[k] = v`. -/
def put (k : K) (v : V) : SMap K V → SMap K V
  | [] => [(k, v)]
  | (k', v') :: m =>
    if k < k' then (k, v) :: (k', v') :: m
    else if k = k' then (k, v) :: m
    else (k', v') :: put k v m

/-- `m.find(k)`, `none` being `m.end()`. -/
def find (k : K) : SMap K V → Option V
  | [] => none
  | (k', v') :: m => if k = k' then some v' else find k m

/-- `m.erase(k)`. -/
def erase (k : K) (m : SMap K V) : SMap K V := m.filter fun p => p.1 ≠ k

theorem find_put (k k' : K) (v : V) (m : SMap K V) :
    find k' (put k v m) = if k' = k then some v else find k' m := by
  induction m with
  | nil => simp [put, find]
  | cons p m ih =>
    obtain ⟨a, b⟩ := p
    rw [put]
    split
    · simp only [find]
    · split
      · rename_i h1 h2
        subst h2
        simp only [find]
        split <;> rfl
      · rename_i h1 h2
        simp only [find, ih]
        by_cases h3 : k' = a
        · subst h3
          simp [Ne.symm h2]
        · simp [h3]

theorem find_erase (k k' : K) (m : SMap K V) :
    find k' (erase k m) = if k' = k then none else find k' m := by
  unfold erase
  induction m with
  | nil => simp [find]
  | cons p m ih =>
    obtain ⟨a, b⟩ := p
    by_cases h : a = k
    · subst h
      simp only [ne_eq, not_true_eq_false, decide_false, Bool.false_eq_true, not_false_eq_true, List.filter_cons_of_neg, ih,
        find]
      split <;> simp_all
    · simp only [ne_eq, h, not_false_eq_true, decide_true, List.filter_cons_of_pos, find, ih]
      split
      · rename_i h'
        subst h'
        simp [h]
      · rfl

theorem find_some_mem {k : K} {v : V} {m : SMap K V} (h : find k m = some v) : (k, v) ∈ m := by
  induction m with
  | nil => simp [find] at h
  | cons p m ih =>
    obtain ⟨a, b⟩ := p
    rw [find] at h
    split at h
    · rename_i h'
      simp_all
    · exact List.mem_cons_of_mem _ (ih h)

/-- Sorted by key, strictly: what a `std::map` guarantees. -/
def Sorted (m : SMap K V) : Prop := m.Pairwise fun a b => a.1 < b.1

theorem mem_put {k : K} {v : V} {m : SMap K V} {p : K × V} (h : p ∈ put k v m) : p = (k, v) ∨ p ∈ m := by
  induction m with
  | nil => simpa [put] using h
  | cons q m ih =>
    obtain ⟨a, b⟩ := q
    rw [put] at h
    split at h
    · simpa using h
    · split at h
      · rcases List.mem_cons.mp h with h | h
        · exact .inl h
        · exact .inr (List.mem_cons_of_mem _ h)
      · rcases List.mem_cons.mp h with h | h
        · exact .inr (h ▸ List.mem_cons_self ..)
        · rcases ih h with h | h
          · exact .inl h
          · exact .inr (List.mem_cons_of_mem _ h)

theorem Sorted.put {m : SMap K V} (hm : Sorted m) (k : K) (v : V) : Sorted (put k v m) := by
  unfold Sorted at *
  induction m with
  | nil => simp [SMap.put]
  | cons q m ih =>
    obtain ⟨a, b⟩ := q
    rw [List.pairwise_cons] at hm
    rw [SMap.put]
    split
    · rename_i h
      rw [List.pairwise_cons]
      refine ⟨?_, List.pairwise_cons.mpr hm⟩
      intro p hp
      rcases List.mem_cons.mp hp with rfl | hp
      · exact h
      · exact lt_trans h (hm.1 p hp)
    · split
      · rename_i h
        subst h
        exact List.pairwise_cons.mpr ⟨hm.1, hm.2⟩
      · rename_i h1 h2
        rw [List.pairwise_cons]
        refine ⟨?_, ih hm.2⟩
        intro p hp
        rcases mem_put hp with rfl | hp
        · exact lt_of_le_of_ne (not_lt.mp h1) (Ne.symm h2)
        · exact hm.1 p hp

theorem Sorted.erase {m : SMap K V} (hm : Sorted m) (k : K) : Sorted (erase k m) := List.Pairwise.filter _ hm

theorem Sorted.mem_iff {m : SMap K V} (hm : Sorted m) {k : K} {v : V} : (k, v) ∈ m ↔ find k m = some v := by
  refine ⟨fun h => ?_, find_some_mem⟩
  unfold Sorted at hm
  induction m with
  | nil => simp at h
  | cons q m ih =>
    obtain ⟨a, b⟩ := q
    rw [List.pairwise_cons] at hm
    rw [find]
    rcases List.mem_cons.mp h with h | h
    · simp_all
    · have := hm.1 _ h
      rw [if_neg (by intro e; subst e; exact lt_irrefl _ this)]
      exact ih hm.2 h

end SMap

end Verif
