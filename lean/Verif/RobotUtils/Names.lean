import Verif.RobotUtils.Model
import Verif.Common.Lists

/-!
# Property C44: joint name and id tables
-/
set_option linter.unusedSimpArgs false

namespace Verif.RobotUtils

open SMap

/-- After writing `map` in the order of its names, an id has the name written last, if any was written. -/
theorem find_createIdToName (toId : SMap String Int) (toName : SMap Int String) (i : Int) :
    find i (createIdToName toId toName) =
      ((toId.filter fun p => p.2 = i).getLast?.map Prod.fst).or (find i toName) := by
  unfold createIdToName
  induction toId generalizing toName with
  | nil => simp
  | cons p l ih =>
    rw [List.foldl_cons, ih, find_put]
    by_cases h : p.2 = i
    · subst h
      rw [List.filter_cons_of_pos (by simp), List.getLast?_cons]
      cases List.getLast? (l.filter fun q => q.2 = p.2) <;> simp
    · rw [List.filter_cons_of_neg (by simpa using h)]
      rw [if_neg (fun e => h e.symm)]

/-- The names known, as a function: the id of the last registration. -/
theorem find_toId (regs : List (String × Int)) (n : String) :
    find n (register regs).toId = ((regs.filter fun r => r.1 = n).getLast?.map Prod.snd) := by
  induction regs using snoc_induction with
  | nil => rfl
  | snoc l r ih =>
    have e : register (l ++ [r]) = setNameToId (register l) r.1 r.2 := by simp [register]
    rw [e]
    simp only [setNameToId, find_put, List.filter_append]
    by_cases h : r.1 = n
    · subst h; simp
    · rw [if_neg (fun e => h e.symm), ih, List.filter_cons_of_neg (by simpa using h)]
      simp

theorem sorted_toId (regs : List (String × Int)) : Sorted (register regs).toId := by
  induction regs using snoc_induction with
  | nil => exact List.Pairwise.nil
  | snoc l r ih =>
    have e : register (l ++ [r]) = setNameToId (register l) r.1 r.2 := by simp [register]
    rw [e]
    exact ih.put _ _

/-- The id table always agrees with the last registration, and an id in use has a name that is in use with it. -/
theorem find_toName_used (regs : List (String × Int)) (n : String) (i : Int)
    (h : find n (register regs).toId = some i) :
    ∃ n', find i (register regs).toName = some n' ∧ find n' (register regs).toId = some i ∧ n ≤ n' := by
  rcases List.eq_nil_or_concat regs with rfl | ⟨l, r, rfl⟩
  · simp [register, find] at h
  · have hs := sorted_toId (l ++ [r])
    have e : register (l ++ [r]) = setNameToId (register l) r.1 r.2 := by simp [register]
    rw [List.concat_eq_append] at h ⊢
    rw [e] at h hs ⊢
    simp only [setNameToId] at h hs ⊢
    rw [find_createIdToName]
    generalize put r.1 r.2 (register l).toId = t at h hs
    have hm : (n, i) ∈ t.filter fun p => p.2 = i := by simpa using hs.mem_iff.mpr h
    have hne : (t.filter fun p => p.2 = i) ≠ [] := List.ne_nil_of_mem hm
    rw [List.getLast?_eq_getLast hne]
    set z := (t.filter fun p => p.2 = i).getLast hne with hz
    have hzm : z ∈ t.filter fun p => p.2 = i := List.getLast_mem hne
    have hz2 : z ∈ t ∧ z.2 = i := by simpa using hzm
    refine ⟨z.1, by simp, ?_, ?_⟩
    · apply hs.mem_iff.mp
      rw [← hz2.2]
      exact hz2.1
    · -- the last entry of a sorted list has the greatest key
      have hp : (t.filter fun p => p.2 = i).Pairwise fun a b => a.1 < b.1 := List.Pairwise.filter _ hs
      rw [← List.dropLast_append_getLast hne] at hp hm
      rw [List.pairwise_append] at hp
      rcases List.mem_append.mp hm with h' | h'
      · exact le_of_lt (hp.2.2 _ h' _ (by simp [hz]))
      · have : (n, i) = z := by simpa [hz] using h'
        rw [← this]

/-- An id never registered has no name. -/
theorem find_toName_unknown (regs : List (String × Int)) (i : Int) (h : ∀ r ∈ regs, r.2 ≠ i) :
    find i (register regs).toName = none := by
  induction regs using snoc_induction with
  | nil => rfl
  | snoc l r ih =>
    have e : register (l ++ [r]) = setNameToId (register l) r.1 r.2 := by simp [register]
    rw [e]
    simp only [setNameToId]
    rw [find_createIdToName, ih (fun x hx => h x (by simp [hx]))]
    have : (put r.1 r.2 (register l).toId).filter (fun p => p.2 = i) = [] := by
      rw [List.filter_eq_nil_iff]
      intro p hp
      rcases mem_put hp with rfl | hp
      · simpa using h r (by simp)
      · have := (sorted_toId l).mem_iff.mp (show (p.1, p.2) ∈ _ from hp)
        rw [find_toId] at this
        simp only [Option.map_eq_some_iff] at this
        obtain ⟨x, hx, hx2⟩ := this
        have hx3 := List.mem_of_getLast? hx
        have := h x (by simp [List.mem_of_mem_filter hx3])
        simpa [hx2] using this
    rw [this]
    rfl

/-- **C44.** In every history where the same names and ids always go together (in particular when all names and all ids
are distinct), the lookups are inverse of each other on what was registered. -/
theorem C44_inverse (dflt : String) (regs : List (String × Int)) (h : ∀ r ∈ regs, ∀ r' ∈ regs, r.1 = r'.1 ↔ r.2 = r'.2)
    (r : String × Int) (hr : r ∈ regs) :
    getId (register regs) r.1 = r.2 ∧ getName dflt (register regs) r.2 = r.1 := by
  have hid : find r.1 (register regs).toId = some r.2 := by
    rw [find_toId]
    have hne : (regs.filter fun x => x.1 = r.1) ≠ [] := List.ne_nil_of_mem (a := r) (by simpa using hr)
    rw [List.getLast?_eq_getLast hne]
    have hm := List.getLast_mem hne
    simp only [List.mem_filter, decide_eq_true_eq] at hm
    simp only [Option.map_some, Option.some.injEq]
    exact (h _ hm.1 r hr).mp hm.2
  refine ⟨by simp [getId, hid], ?_⟩
  obtain ⟨n', hn, hn', -⟩ := find_toName_used regs r.1 r.2 hid
  rw [find_toId] at hn'
  simp only [Option.map_eq_some_iff] at hn'
  obtain ⟨x, hx, hx2⟩ := hn'
  have hx3 := List.mem_of_getLast? hx
  simp only [List.mem_filter, decide_eq_true_eq] at hx3
  have := (h x hx3.1 r hr).mpr hx2
  simp [getName, hn, ← hx3.2, this]

example : ∀ r ∈ [("b", (3 : Int)), ("a", 1), ("b", 3)], ∀ r' ∈ [("b", (3 : Int)), ("a", 1), ("b", 3)],
    r.1 = r'.1 ↔ r.2 = r'.2 := by decide

/-- Distinct names and distinct ids are a case of the previous theorem. -/
theorem C44_inverse_distinct (dflt : String) (regs : List (String × Int))
    (h1 : (regs.map Prod.fst).Nodup) (h2 : (regs.map Prod.snd).Nodup) (r : String × Int) (hr : r ∈ regs) :
    getId (register regs) r.1 = r.2 ∧ getName dflt (register regs) r.2 = r.1 := by
  apply C44_inverse dflt regs _ r hr
  intro a ha b hb
  constructor
  · intro e; rw [List.inj_on_of_nodup_map h1 ha hb e]
  · intro e; rw [List.inj_on_of_nodup_map h2 ha hb e]

example : (([("b", (3 : Int)), ("a", 1)] : List (String × Int)).map Prod.fst).Nodup ∧
    (([("b", (3 : Int)), ("a", 1)] : List (String × Int)).map Prod.snd).Nodup := by decide

/-- **C44.** Unknown entries are reported, after any history. -/
theorem C44_unknown_reported (dflt : String) (regs : List (String × Int)) :
    (∀ n, (∀ r ∈ regs, r.1 ≠ n) → getId (register regs) n = -1) ∧
    (∀ i, (∀ r ∈ regs, r.2 ≠ i) → getName dflt (register regs) i = dflt) := by
  constructor
  · intro n hn
    have : (regs.filter fun r => r.1 = n) = [] := by
      rw [List.filter_eq_nil_iff]
      intro r hr
      simpa using hn r hr
    simp [getId, find_toId, this]
  · intro i hi
    simp [getName, find_toName_unknown regs i hi]

example : (∀ r ∈ [("b", (3 : Int)), ("a", 1)], r.1 ≠ "c") ∧ (∀ r ∈ [("b", (3 : Int)), ("a", 1)], r.2 ≠ 2) := by decide

/-- **C44.** After any history at all: the id of a name is the one registered last for it, and the name of the id of a
registered name is the greatest of the names that have this id now. -/
theorem C44_any_history (dflt : String) (regs : List (String × Int)) (n : String) (hn : ∃ r ∈ regs, r.1 = n) :
    (regs.filter fun r => r.1 = n).getLast? = some (n, getId (register regs) n) ∧
    getId (register regs) (getName dflt (register regs) (getId (register regs) n)) = getId (register regs) n ∧
    ∀ n', (∃ r ∈ regs, r.1 = n') → getId (register regs) n' = getId (register regs) n →
      n' ≤ getName dflt (register regs) (getId (register regs) n) := by
  have hk : ∀ n, (∃ r ∈ regs, r.1 = n) → find n (register regs).toId = some (getId (register regs) n) ∧
      (regs.filter fun r => r.1 = n).getLast? = some (n, getId (register regs) n) := by
    rintro n ⟨r, hr, rfl⟩
    have hne : (regs.filter fun x => x.1 = r.1) ≠ [] := List.ne_nil_of_mem (a := r) (by simpa using hr)
    have hm := List.getLast_mem hne
    simp only [List.mem_filter, decide_eq_true_eq] at hm
    have : find r.1 (register regs).toId = some ((regs.filter fun x => x.1 = r.1).getLast hne).2 := by
      rw [find_toId, List.getLast?_eq_getLast hne]; rfl
    refine ⟨by simp [getId, this], ?_⟩
    simp only [getId, this, Option.getD_some]
    rw [List.getLast?_eq_getLast hne]
    exact congrArg some (Prod.ext hm.2 rfl)
  have key : ∀ n', (∃ r ∈ regs, r.1 = n') → getId (register regs) n' = getId (register regs) n →
      n' ≤ getName dflt (register regs) (getId (register regs) n) := by
    intro n' h' he
    obtain ⟨m, hm1, hm2, hm3⟩ := find_toName_used regs n' _ (hk n' h').1
    rw [he] at hm1
    simp only [getName, hm1, Option.getD_some]
    exact hm3
  refine ⟨(hk n hn).2, ?_, key⟩
  obtain ⟨m, hm1, hm2, -⟩ := find_toName_used regs n _ (hk n hn).1
  simp only [getName, hm1, Option.getD_some]
  simp only [getId, hm2, Option.getD_some]

example : ∃ r ∈ [("b", (3 : Int)), ("a", 1), ("b", 4), ("c", 1)], r.1 = "b" := by decide

/-- **C44 needs the ids and names to go together.** After a name is registered again with another id, its former id
still gives the name, though the name gives the new id. -/
theorem C44_stale_id_counterexample :
    let s := register [("knee", 1), ("knee", 2)]
    getName "Joint name not found" s 1 = "knee" ∧ getId s "knee" = 2 := by decide

end Verif.RobotUtils
