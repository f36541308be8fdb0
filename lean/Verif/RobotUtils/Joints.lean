import Verif.RobotUtils.Model

/-!
# Property C43: joint reordering between conventions
-/
set_option linter.unusedSimpArgs false

namespace Verif.RobotUtils

variable {F : Type}

/-- `m` lists every index from 0 to `m.length - 1` exactly once. -/
def IsPermutation (m : List Int) : Prop := m.Perm ((List.range m.length).map fun (i : Nat) => (i : Int))

theorem IsPermutation.exists_nat {m : List Int} (h : IsPermutation m) :
    ∃ σ : List Nat, m = σ.map (fun (i : Nat) => (i : Int)) ∧ σ.Nodup ∧ ∀ k, k < m.length ↔ k ∈ σ := by
  refine ⟨m.map Int.toNat, ?_, ?_, ?_⟩
  · rw [List.map_map]
    have : ∀ x ∈ m, ((fun (i : Nat) => (i : Int)) ∘ Int.toNat) x = x := by
      intro x hx
      have := h.mem_iff.mp hx
      simp only [List.mem_map, List.mem_range] at this
      obtain ⟨i, _, rfl⟩ := this
      simp
    rw [List.map_congr_left this, List.map_id']
  · have := h.map Int.toNat
    rw [List.map_map] at this
    have e : (Int.toNat ∘ fun (i : Nat) => (i : Int)) = id := by funext x; simp
    rw [e, List.map_id] at this
    exact this.nodup_iff.mpr List.nodup_range
  · intro k
    have := h.map Int.toNat
    rw [List.map_map] at this
    have e : (Int.toNat ∘ fun (i : Nat) => (i : Int)) = id := by funext x; simp
    rw [e, List.map_id] at this
    rw [this.mem_iff]
    simp

theorem scatter_ok (σ : List Nat) (qu : List F) (hnd : σ.Nodup) : ∀ (n i : Nat) (qs : List F),
    i + n ≤ σ.length → i + n ≤ qu.length → (∀ k ∈ σ, k < qs.length) →
    ∃ r, scatter (σ.map fun (i : Nat) => (i : Int)) qu i n qs = .ok r ∧ r.length = qs.length ∧
      (∀ j (_ : i ≤ j) (_ : j < i + n) (h : j < σ.length), r[σ[j]]? = qu[j]?) ∧
      (∀ k, (∀ j (_ : i ≤ j) (_ : j < i + n) (h : j < σ.length), σ[j] ≠ k) → r[k]? = qs[k]?) := by
  intro n
  induction n with
  | zero => intro i qs _ _ _; exact ⟨qs, rfl, rfl, fun j h1 h2 => by omega, fun _ _ => rfl⟩
  | succ n ih =>
    intro i qs h1 h2 h3
    have hi : i < σ.length := by omega
    have hs : σ[i] < qs.length := h3 _ (List.getElem_mem hi)
    obtain ⟨r, hr, hl, ha, hb⟩ := ih (i + 1) (qs.set σ[i] (qu[i]'(by omega))) (by omega) (by omega)
      (by simpa using h3)
    refine ⟨r, ?_, by simpa using hl, ?_, ?_⟩
    · rw [scatter, rd_of_lt _ _ (by simpa using hi), Outcome.bind_ok, rd_of_lt _ _ (by omega), Outcome.bind_ok]
      simp only [List.getElem_map]
      rw [wrI_natCast, wr_of_lt _ _ _ hs, Outcome.bind_ok, hr]
    · intro j hj1 hj2 hj
      by_cases e : j = i
      · subst e
        rw [hb]
        · rw [List.getElem?_set_self hs, List.getElem?_eq_getElem]
        · intro j' h1' _ hj' e'
          have := (List.Nodup.getElem_inj_iff hnd).mp e'
          omega
      · exact ha j (by omega) (by omega) hj
    · intro k hk
      rw [hb k (fun j h1' h2' => hk j (by omega) (by omega)), List.getElem?_set_ne (hk i (by omega) (by omega) hi)]

theorem gather_ok (σ : List Nat) (qs : List F) : ∀ (n i : Nat) (qu : List F),
    i + n ≤ σ.length → i + n ≤ qu.length → (∀ k ∈ σ, k < qs.length) →
    ∃ r, gather (σ.map fun (i : Nat) => (i : Int)) qs i n qu = .ok r ∧ r.length = qu.length ∧
      (∀ j (_ : i ≤ j) (_ : j < i + n) (h : j < σ.length), r[j]? = qs[σ[j]]?) ∧
      (∀ k, (k < i ∨ i + n ≤ k) → r[k]? = qu[k]?) := by
  intro n
  induction n with
  | zero => intro i qu _ _ _; exact ⟨qu, rfl, rfl, fun j h1 h2 => by omega, fun _ _ => rfl⟩
  | succ n ih =>
    intro i qu h1 h2 h3
    have hi : i < σ.length := by omega
    have hs : σ[i] < qs.length := h3 _ (List.getElem_mem hi)
    obtain ⟨r, hr, hl, ha, hb⟩ := ih (i + 1) (qu.set i (qs[σ[i]])) (by omega) (by simp; omega) h3
    refine ⟨r, ?_, by simpa using hl, ?_, ?_⟩
    · rw [gather, rd_of_lt _ _ (by simpa using hi), Outcome.bind_ok]
      simp only [List.getElem_map]
      rw [rdI_natCast, rd_of_lt _ _ hs, Outcome.bind_ok, wr_of_lt _ _ _ (by omega), Outcome.bind_ok, hr]
    · intro j hj1 hj2 hj
      by_cases e : j = i
      · subst e
        rw [hb j (by omega), List.getElem?_set_self (by omega), List.getElem?_eq_getElem]
      · exact ha j (by omega) (by omega) hj
    · intro k hk
      rw [hb k (by omega), List.getElem?_set_ne (by omega)]

/-- What both conversions do with a permutation: component `i` of one ordering is component `m[i]` of the other. -/
theorem urdfToSot_spec (j : Joints) {m : List Int} (hm : IsPermutation m) (h0 : m ≠ []) (qu qs : List F)
    (hu : qu.length = m.length) (hs : qs.length = m.length) :
    ∃ r, jointsUrdfToSot (setUrdfToSot j m) qu qs = .ok (true, r) ∧ r.length = m.length ∧
      ∀ i (h : i < m.length), r[m[i].toNat]? = qu[i]? := by
  obtain ⟨σ, e, hnd, hmem⟩ := hm.exists_nat
  have hl : σ.length = m.length := by rw [e]; simp
  obtain ⟨r, hr, hrl, ha, -⟩ := scatter_ok σ qu hnd m.length 0 qs (by omega) (by omega)
    (fun k hk => by rw [hs]; exact (hmem k).mpr hk)
  refine ⟨r, ?_, by omega, ?_⟩
  · have hz : m.length ≠ 0 := by simpa using h0
    simp only [jointsUrdfToSot, setUrdfToSot, if_neg hz, hu, hs, ne_eq, not_true_eq_false, or_self, if_false]
    rw [← e] at hr
    rw [hr]
    rfl
  · intro i h
    have := ha i (by omega) (by omega) (by omega)
    have e2 : m[i].toNat = σ[i]'(by omega) := by simp [e]
    rw [e2, this]

theorem sotToUrdf_spec (j : Joints) {m : List Int} (hm : IsPermutation m) (h0 : m ≠ []) (qs qu : List F)
    (hu : qu.length = m.length) (hs : qs.length = m.length) :
    ∃ r, jointsSotToUrdf (setUrdfToSot j m) qs qu = .ok (true, r) ∧ r.length = m.length ∧
      ∀ i (h : i < m.length), r[i]? = qs[m[i].toNat]? := by
  obtain ⟨σ, e, hnd, hmem⟩ := hm.exists_nat
  have hl : σ.length = m.length := by rw [e]; simp
  obtain ⟨r, hr, hrl, ha, -⟩ := gather_ok σ qs m.length 0 qu (by omega) (by omega)
    (fun k hk => by rw [hs]; exact (hmem k).mpr hk)
  refine ⟨r, ?_, by omega, ?_⟩
  · have hz : m.length ≠ 0 := by simpa using h0
    simp only [jointsSotToUrdf, setUrdfToSot, if_neg hz, hu, hs, ne_eq, not_true_eq_false, or_self, if_false]
    rw [← e] at hr
    rw [hr]
    rfl
  · intro i h
    have := ha i (by omega) (by omega) (by omega)
    have e2 : m[i].toNat = σ[i]'(by omega) := by simp [e]
    rw [this, e2]

/-- Every index is hit by a permutation. -/
theorem IsPermutation.surj {m : List Int} (hm : IsPermutation m) {k : Nat} (hk : k < m.length) :
    ∃ i, ∃ h : i < m.length, m[i].toNat = k := by
  obtain ⟨σ, e, hnd, hmem⟩ := hm.exists_nat
  obtain ⟨i, hi, h⟩ := List.getElem_of_mem ((hmem k).mp hk)
  have hl : σ.length = m.length := by rw [e]; simp
  exact ⟨i, by omega, by simp [e, h]⟩

/-- **C43.** With a permutation as mapping, both conversions succeed, and each undoes the other, whatever the result
vectors held before. -/
theorem C43_roundtrip (j : Joints) {m : List Int} (hm : IsPermutation m) (h0 : m ≠ []) (q b1 b2 : List F)
    (hq : q.length = m.length) (h1 : b1.length = m.length) (h2 : b2.length = m.length) :
    (∃ s, jointsUrdfToSot (setUrdfToSot j m) q b1 = .ok (true, s) ∧
      jointsSotToUrdf (setUrdfToSot j m) s b2 = .ok (true, q)) ∧
    (∃ u, jointsSotToUrdf (setUrdfToSot j m) q b1 = .ok (true, u) ∧
      jointsUrdfToSot (setUrdfToSot j m) u b2 = .ok (true, q)) := by
  constructor
  · obtain ⟨s, hs, hsl, ha⟩ := urdfToSot_spec j hm h0 q b1 hq h1
    obtain ⟨r, hr, hrl, hb⟩ := sotToUrdf_spec j hm h0 s b2 h2 hsl
    refine ⟨s, hs, ?_⟩
    rw [hr]
    have : r = q := by
      apply List.ext_getElem? 
      intro i
      by_cases hi : i < m.length
      · rw [hb i hi, ha i hi]
      · rw [List.getElem?_eq_none (by omega), List.getElem?_eq_none (by omega)]
    rw [this]
  · obtain ⟨u, hu, hul, ha⟩ := sotToUrdf_spec j hm h0 q b1 h1 hq
    obtain ⟨r, hr, hrl, hb⟩ := urdfToSot_spec j hm h0 u b2 hul h2
    refine ⟨u, hu, ?_⟩
    rw [hr]
    have : r = q := by
      apply List.ext_getElem?
      intro k
      by_cases hk : k < m.length
      · obtain ⟨i, hi, rfl⟩ := hm.surj hk
        rw [hb i hi, ha i hi]
      · rw [List.getElem?_eq_none (by omega), List.getElem?_eq_none (by omega)]
    rw [this]

example : IsPermutation [2, 0, 1] ∧ ([2, 0, 1] : List Int) ≠ [] := by
  refine ⟨?_, by simp⟩
  unfold IsPermutation
  decide

/-- Test of the two directions on a mapping that is not its own inverse. -/
example : jointsUrdfToSot (setUrdfToSot .new [2, 0, 1]) ["a", "b", "c"] ["", "", ""] = .ok (true, ["b", "c", "a"]) ∧
    jointsSotToUrdf (setUrdfToSot .new [2, 0, 1]) ["b", "c", "a"] ["", "", ""] = .ok (true, ["a", "b", "c"]) := by
  decide

/-- **C43.** The component exchanged: what is read at index `i` on one side is found at index `m[i]` on the other. -/
theorem C43_components (j : Joints) {m : List Int} (hm : IsPermutation m) (h0 : m ≠ []) (qu qs : List F)
    (hu : qu.length = m.length) (hs : qs.length = m.length) :
    (∃ r, jointsUrdfToSot (setUrdfToSot j m) qu qs = .ok (true, r) ∧ r.length = m.length ∧
      ∀ i (h : i < m.length), r[m[i].toNat]? = qu[i]?) ∧
    (∃ r, jointsSotToUrdf (setUrdfToSot j m) qs qu = .ok (true, r) ∧ r.length = m.length ∧
      ∀ i (h : i < m.length), r[i]? = qs[m[i].toNat]?) :=
  ⟨urdfToSot_spec j hm h0 qu qs hu hs, sotToUrdf_spec j hm h0 qs qu hu hs⟩

/-- **C43.** A mapping of size zero is rejected: both conversions report failure and write nothing. -/
theorem C43_empty_mapping_rejected (j : Joints) (qu qs : List F) :
    jointsUrdfToSot (setUrdfToSot j []) qu qs = .ok (false, qs) ∧
    jointsSotToUrdf (setUrdfToSot j []) ([] : List F) [] = .ok (false, []) := by
  simp [jointsUrdfToSot, jointsSotToUrdf, setUrdfToSot]

theorem scatter_bad (m : List Int) (qu : List F) : ∀ (n i : Nat) (qs : List F), i + n = m.length → qu.length = m.length →
    (∃ k, ∃ h : k < m.length, i ≤ k ∧ ¬ (0 ≤ m[k] ∧ m[k] < qs.length)) → scatter m qu i n qs = .ub := by
  intro n
  induction n with
  | zero => rintro i qs h1 _ ⟨k, hk, hik, -⟩; omega
  | succ n ih =>
    rintro i qs h1 h2 ⟨k, hk, hik, hbad⟩
    have hi : i < m.length := by omega
    rw [scatter, rd_of_lt _ _ hi, Outcome.bind_ok, rd_of_lt _ _ (by omega), Outcome.bind_ok, wrI]
    split
    · rename_i hok
      rw [Outcome.bind_ok]
      apply ih _ _ (by omega) h2
      refine ⟨k, hk, ?_, by simpa using hbad⟩
      rcases Nat.lt_or_ge i k with h | h
      · omega
      · have : k = i := by omega
        subst this
        exact absurd hok hbad
    · rfl

theorem gather_bad (m : List Int) (qs : List F) : ∀ (n i : Nat) (qu : List F), i + n = m.length → qu.length = m.length →
    (∃ k, ∃ h : k < m.length, i ≤ k ∧ ¬ (0 ≤ m[k] ∧ m[k] < qs.length)) → gather m qs i n qu = .ub := by
  intro n
  induction n with
  | zero => rintro i qu h1 _ ⟨k, hk, hik, -⟩; omega
  | succ n ih =>
    rintro i qu h1 h2 ⟨k, hk, hik, hbad⟩
    have hi : i < m.length := by omega
    rw [gather, rd_of_lt _ _ hi, Outcome.bind_ok]
    by_cases hok : 0 ≤ m[i] ∧ m[i] < qs.length
    · have e : rdI qs m[i] = .ok (qs[m[i].toNat]'(by omega)) := by
        rw [rdI, if_neg (by omega), rd_of_lt]
      rw [e, Outcome.bind_ok, wr_of_lt _ _ _ (by omega), Outcome.bind_ok]
      apply ih _ _ (by omega) (by simpa using h2)
      refine ⟨k, hk, ?_, hbad⟩
      rcases Nat.lt_or_ge i k with h | h
      · omega
      · have : k = i := by omega
        subst this
        exact absurd hok hbad
    · have e : rdI qs m[i] = .ub := by
        rw [rdI]
        split
        · rfl
        · rw [rd_eq_ub]; omega
      rw [e]
      rfl

/-- **C43 fails as stated: a mapping that leaves the range is not rejected.** It is accepted by `set_urdf_to_sot`, and
then every conversion, for every vector of the announced size, accesses memory outside of the vectors. -/
theorem C43_out_of_range_not_rejected (j : Joints) (m : List Int) (k : Nat) (hk : k < m.length)
    (hbad : ¬ (0 ≤ m[k] ∧ m[k] < m.length)) (qu qs : List F) (hu : qu.length = m.length) (hs : qs.length = m.length) :
    jointsUrdfToSot (setUrdfToSot j m) qu qs = .ub ∧ jointsSotToUrdf (setUrdfToSot j m) qs qu = .ub := by
  have hz : m.length ≠ 0 := by omega
  constructor
  · simp only [jointsUrdfToSot, setUrdfToSot, if_neg hz, hu, hs, ne_eq, not_true_eq_false, or_self, if_false]
    rw [scatter_bad m qu m.length 0 qs (by omega) hu ⟨k, hk, by omega, by rw [hs]; exact hbad⟩]
    rfl
  · simp only [jointsSotToUrdf, setUrdfToSot, if_neg hz, hu, hs, ne_eq, not_true_eq_false, or_self, if_false]
    rw [gather_bad m qs m.length 0 qu (by omega) hu ⟨k, hk, by omega, by rw [hs]; exact hbad⟩]
    rfl

/-- The hypotheses are met by the mapping that counts from one. -/
example : ∃ h : 1 < ([1, 2] : List Int).length, ¬ (0 ≤ ([1, 2] : List Int)[1] ∧ ([1, 2] : List Int)[1] < 2) := by
  decide

/-- **C43.** Before any mapping is set the conversions read an uninitialised member. -/
theorem C43_before_mapping_counterexample (q b : List F) :
    jointsUrdfToSot .new q b = .ub ∧ jointsSotToUrdf .new q b = .ub := ⟨rfl, rfl⟩

/-- **C43.** A mapping that repeats an index is accepted too, and then the round trip loses a component. -/
theorem C43_repeated_index_counterexample :
    jointsUrdfToSot (setUrdfToSot .new [0, 0]) [1, 2] [7, 8] = .ok (true, [2, 8]) ∧
    jointsSotToUrdf (setUrdfToSot .new [0, 0]) [2, 8] [0, 0] = .ok (true, [2, 2]) := by decide

theorem castAll_nat (m : List Nat) (h : ∀ k ∈ m, k < 4294967296) :
    castAll (m.map fun (k : Nat) => (k : Rat)) = .ok (m.map fun (k : Nat) => (k : Int)) := by
  induction m with
  | nil => rfl
  | cons k m ih =>
    have hk := h k (List.mem_cons_self ..)
    have e : castUnsigned (k : Rat) = .ok (k : Int) := by
      have h1 : ¬ ((k : Rat) < 0) := by simp
      have h2 : ⌊(k : Rat)⌋ = (k : Int) := by simp
      simp only [castUnsigned, if_neg h1, h2]
      rw [if_pos (by omega)]
    rw [List.map_cons, castAll, e, Outcome.bind_ok, ih (fun x hx => h x (List.mem_cons_of_mem _ hx))]
    rfl

/-- **C43.** A mapping given as a vector of doubles that are small natural numbers is the same as one given as indices. -/
theorem C43_vector_mapping (j : Joints) (m : List Nat) (h : ∀ k ∈ m, k < 4294967296) :
    setUrdfToSotVector j (m.map fun (k : Nat) => (k : Rat)) = .ok (setUrdfToSot j (m.map fun (k : Nat) => (k : Int))) := by
  simp [setUrdfToSotVector, setUrdfToSot, castAll_nat m h]

example : ∀ k ∈ [2, 0, 1], k < 4294967296 := by decide

/-- **C43.** A negative entry of such a vector is undefined behaviour already when the mapping is set. -/
theorem C43_negative_vector_entry_counterexample : setUrdfToSotVector .new [0, -1] = .ub := by
  have h : castUnsigned (-1) = .ub := by
    simp only [castUnsigned]
    norm_num
  have h0 : castUnsigned 0 = .ok 0 := by
    simp only [castUnsigned]
    norm_num
  simp [setUrdfToSotVector, castAll, h, h0]

end Verif.RobotUtils
