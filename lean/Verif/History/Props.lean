import Verif.History.Model
import Mathlib.Tactic.FieldSimp
import Mathlib.Tactic.Ring
import Mathlib.Algebra.Order.Ring.Rat

/-!
# C116: the history of an execution
-/

namespace Verif.History

variable {α : Type}

theorem fmod_zero (a b : Int) : Int.fmod a b = 0 ↔ b ∣ a := ⟨Int.dvd_of_fmod_eq_zero, Int.fmod_eq_zero_of_dvd⟩

theorem records_acc (freq : Int) (hf : freq ≠ 0) (l : List (Sample α)) : ∀ h : H α,
    records freq l h = .ok ⟨h.q ++ (l.filter fun x => freq ∣ x.time).map (·.position), h.qdot ++ (l.filter fun x => freq ∣ x.time).map (·.velocity)⟩ := by
  induction l with
  | nil => intro h; simp [records]
  | cons x l ih =>
    intro h
    rw [records, record, if_neg hf]
    by_cases hx : freq ∣ x.time
    · rw [if_pos ((fmod_zero _ _).mpr hx), Outcome.bind_ok, ih]
      simp [hx]
    · rw [if_neg (fun h => hx ((fmod_zero _ _).mp h)), Outcome.bind_ok, ih]
      simp [hx]

/-- After any execution the lists hold the positions and the velocities of the records whose time is a multiple of the period, in their order. A
null period is an exception at the first record. -/
theorem C116_records (freq : Int) (l : List (Sample α)) :
    (freq ≠ 0 → records freq l ⟨[], []⟩ =
      .ok ⟨(l.filter fun x => freq ∣ x.time).map (·.position), (l.filter fun x => freq ∣ x.time).map (·.velocity)⟩) ∧
      (freq = 0 → l ≠ [] → records freq l ⟨[], []⟩ = .throw) := by
  refine ⟨fun hf => by simpa using records_acc freq hf l ⟨[], []⟩, fun hf hl => ?_⟩
  cases l with
  | nil => exact absurd rfl hl
  | cons x l => simp [records, record, hf]

theorem multiples (f : Nat) (hf : 0 < f) (T : Nat) : ((List.range (T + 1)).filter fun n => f ∣ n) = (List.range (T / f + 1)).map (f * ·) := by
  induction T with
  | zero => simp
  | succ T ih =>
    rw [List.range_succ, List.filter_append, ih]
    by_cases h : f ∣ T + 1
    · rw [Nat.succ_div_of_dvd h, List.range_succ (n := T / f + 1), List.map_append]
      simp [h, Nat.succ_div_of_dvd h ▸ Nat.mul_div_cancel' h]
    · rw [Nat.succ_div_of_not_dvd h]
      simp [h]

/-- The records made at all times from the start to the time `T`, of an execution `p`, `v`, which started at the time `s`. -/
def execution (s T : Nat) (p v : Nat → α) : List (Sample α) := (List.range (T + 1)).map fun n => ⟨((s + n : Nat) : Int), p (s + n), v (s + n)⟩

theorem filter_execution (f k T : Nat) (hf : 0 < f) (p v : Nat → α) :
    ((execution (f * k) T p v).filter fun x => (f : Int) ∣ x.time) =
      (List.range (T / f + 1)).map fun n => ⟨((f * k + f * n : Nat) : Int), p (f * k + f * n), v (f * k + f * n)⟩ := by
  have h : (execution (f * k) T p v).filter (fun x => (f : Int) ∣ x.time) =
      ((List.range (T + 1)).filter fun n => f ∣ n).map fun n => ⟨((f * k + n : Nat) : Int), p (f * k + n), v (f * k + n)⟩ := by
    rw [execution, List.filter_map]
    congr 1
    apply List.filter_congr
    intro n _
    simp only [Function.comp, Int.natCast_dvd_natCast]
    exact decide_eq_decide.mpr (Nat.dvd_add_right (Nat.dvd_mul_right f k))
  rw [h, multiples f hf, List.map_map]
  rfl

theorem restore_execution (f k T t : Nat) (hf : 0 < f) (ht : t ≤ T) (p v : Nat → α) :
    (records f (execution (f * k) T p v) ⟨[], []⟩).bind (fun h => restore f h t) =
      .ok (p (f * k + f * (t / f)), v (f * k + f * (t / f)), ((t / f : Nat) : Int)) := by
  have hf' : (f : Int) ≠ 0 := by omega
  rw [(C116_records (f : Int) _).1 hf', Outcome.bind_ok, filter_execution f k T hf, restore, if_neg hf']
  have hd : Int.tdiv (t : Int) (f : Int) = ((t / f : Nat) : Int) := rfl
  have hlt : t / f < T / f + 1 := Nat.lt_succ_of_le (Nat.div_le_div_right ht)
  have hi : ∀ g : Nat → α, pyIndex ((List.range (T / f + 1)).map g) ((t / f : Nat) : Int) = .ok (g (t / f)) := by
    intro g
    rw [pyIndex, if_pos (Int.natCast_nonneg _), Int.toNat_natCast, List.getElem?_map, List.getElem?_range hlt]
    rfl
  rw [hd]
  simp only [List.map_map, hi, Outcome.bind_ok, Function.comp]

/-- If the history recorded at all times since the start, what is restored for a time that was reached is the state at the last multiple of the
period that does not exceed it. -/
theorem C116_restore (f T t : Nat) (hf : 0 < f) (ht : t ≤ T) (p v : Nat → α) :
    ∃ m T0, f ∣ m ∧ m ≤ t ∧ t < m + f ∧ (records f (execution 0 T p v) ⟨[], []⟩).bind (fun h => restore f h t) = .ok (p m, v m, T0) := by
  refine ⟨f * (t / f), ((t / f : Nat) : Int), Nat.dvd_mul_right _ _, Nat.mul_div_le t f, Nat.lt_mul_div_succ t hf, ?_⟩
  have := restore_execution f 0 T t hf ht p v
  simpa using this

/-- The time `T0` that is printed with the state is the number of the record, not the time of the state: they agree only for the first record or
when all times are recorded. -/
theorem C116_time_counterexample (f T t : Nat) (hf : 0 < f) (ht : t ≤ T) (p v : Nat → α) :
    ∃ m T0, m ≤ t ∧ t < m + f ∧ (records f (execution 0 T p v) ⟨[], []⟩).bind (fun h => restore f h t) = .ok (p m, v m, T0) ∧
      (T0 = (m : Int) ↔ f = 1 ∨ t < f) := by
  refine ⟨f * (t / f), ((t / f : Nat) : Int), Nat.mul_div_le t f, Nat.lt_mul_div_succ t hf, ?_, ?_⟩
  · have := restore_execution f 0 T t hf ht p v
    simpa using this
  · rw [Int.natCast_inj]
    constructor
    · intro h
      by_cases h1 : f = 1
      · exact Or.inl h1
      · refine Or.inr ((Nat.div_eq_zero_iff_lt hf).mp ?_)
        by_contra h0
        have h2 : 2 * (t / f) ≤ f * (t / f) := Nat.mul_le_mul_right _ (by omega)
        omega
    · rintro (rfl | h)
      · simp
      · rw [Nat.div_eq_of_lt h]
        rfl

/-- A history that starts to record later restores states that are later by as much. -/
theorem C116_late_counterexample (f k T t : Nat) (hf : 0 < f) (ht : t ≤ T) (p v : Nat → α) :
    ∃ m T0, f * k + m ≤ f * k + t ∧ t < m + f ∧ (records f (execution (f * k) T p v) ⟨[], []⟩).bind (fun h => restore f h t) =
      .ok (p (f * k + m), v (f * k + m), T0) :=
  ⟨f * (t / f), ((t / f : Nat) : Int), by have := Nat.mul_div_le t f; omega, Nat.lt_mul_div_succ t hf, restore_execution f k T t hf ht p v⟩

/-- A time recorded twice shifts what is restored for the following ones. -/
theorem C116_twice_counterexample (p v : Nat → α) :
    (records 1 [⟨0, p 0, v 0⟩, ⟨0, p 0, v 0⟩, ⟨1, p 1, v 1⟩] ⟨[], []⟩).bind (fun h => restore 1 h 1) = .ok (p 0, v 0, 1) := rfl

/-- Restoring returns exactly for the times whose quotient by the period is the number of a record, counted from the start or, for a negative time,
from the end. -/
theorem C116_range (f : Int) (hf : f ≠ 0) (l : List (Sample α)) (t : Int) :
    (∃ x, (records f l ⟨[], []⟩).bind (fun h => restore f h t) = .ok x) ↔
      -((l.filter fun x => f ∣ x.time).length : Int) ≤ t.tdiv f ∧ t.tdiv f < ((l.filter fun x => f ∣ x.time).length : Int) := by
  rw [(C116_records f l).1 hf, Outcome.bind_ok, restore, if_neg hf]
  generalize l.filter (fun x => f ∣ x.time) = m
  generalize t.tdiv f = i
  simp only [pyIndex, List.length_map]
  by_cases h0 : 0 ≤ i
  · rw [if_pos h0]
    by_cases h1 : i < m.length
    · have h2 : i.toNat < m.length := by omega
      simp [h2, h0, h1]
      omega
    · have h2 : m.length ≤ i.toNat := by omega
      simp [List.getElem?_eq_none, h2]
      omega
  · rw [if_neg h0]
    by_cases h1 : 0 ≤ i + m.length
    · have h2 : (i + m.length).toNat < m.length := by omega
      simp [h1, h2, h0]
      omega
    · simp [h1]
      omega

/-! ### Files -/

variable {F : Type} [Field F]

theorem dumpLoop_spec (qs : List (List F)) : ∀ n, ((∃ r, dumpLoop n qs = .ok r) ↔ ∀ q ∈ qs, 36 ≤ q.length) ∧
    ∀ r, dumpLoop n qs = .ok r → r.1.length = qs.length ∧ r.2.1.length = qs.length ∧ r.2.2.length = qs.length ∧
      ∀ (k : Nat) (q : List F), qs[k]? = some q →
        r.1[k]? = some ([5 / 1000 * ((n + k : Nat) : F)] ++ (List.range' 6 30).map (fun j => q.getD j 0) ++ List.replicate 10 0) ∧
        r.2.1[k]? = some [5 / 1000 * ((n + k : Nat) : F), q.getD 3 0, q.getD 4 0, q.getD 5 0] ∧
        r.2.2[k]? = some [5 / 1000 * ((n + k : Nat) : F), q.getD 0 0, q.getD 1 0, q.getD 2 0, q.getD 3 0, q.getD 4 0, q.getD 5 0] := by
  induction qs with
  | nil =>
    intro n
    refine ⟨by simp [dumpLoop], fun r hr => ?_⟩
    simp only [dumpLoop, Outcome.ok.injEq] at hr
    subst hr
    simp
  | cons q qs ih =>
    intro n
    obtain ⟨i1, i2⟩ := ih (n + 1)
    by_cases hq : q.length < 36
    · have e : dumpLoop n (q :: qs) = .throw := by
        rw [dumpLoop, posLine, if_pos hq]
        by_cases h6 : q.length < 6 <;> simp [hipLine, waistLine, h6]
      rw [e]
      simp [hq]
    · have h6 : ¬ q.length < 6 := by omega
      rw [dumpLoop, posLine, hipLine, waistLine, if_neg hq, if_neg h6, if_neg h6]
      simp only [Outcome.bind_ok]
      constructor
      · rw [List.forall_mem_cons, ← i1]
        constructor
        · rintro ⟨r, hr⟩
          obtain ⟨r', h1, _⟩ := Outcome.bind_eq_ok.mp hr
          exact ⟨by omega, r', h1⟩
        · rintro ⟨_, r', h1⟩
          rw [h1]
          exact ⟨_, rfl⟩
      · intro r hr
        obtain ⟨r', h1, h2⟩ := Outcome.bind_eq_ok.mp hr
        cases h2
        obtain ⟨l1, l2, l3, l4⟩ := i2 r' h1
        refine ⟨by simp [l1], by simp [l2], by simp [l3], fun k q' hk => ?_⟩
        rcases k with _ | k
        · simp only [List.getElem?_cons_zero, Option.some.injEq] at hk
          subst hk
          simp
        · have := l4 k q' (by simpa using hk)
          simpa [Nat.add_right_comm n 1 k, Nat.add_assoc] using this

/-- The files can be written exactly if there is a record and all the positions have thirty-six coordinates or more. Then each file has a line for
each record: five thousandths of its number, and the thirty joints after the free flyer followed by ten zeros, the three angles, or the six
coordinates of the free flyer. -/
theorem C116_dump (pi : F) (h : H (List F)) (sample : Nat) :
    ((∃ r, dump pi h sample = .ok r) ↔ h.q ≠ [] ∧ ∀ q ∈ h.q, 36 ≤ q.length) ∧
      ∀ r, dump pi h sample = .ok r → r.1.length = h.q.length ∧ r.2.1.length = h.q.length ∧ r.2.2.1.length = h.q.length ∧
        ∀ (k : Nat) (q : List F), h.q[k]? = some q →
          (∃ line, r.1[k]? = some line ∧ line.length = 41 ∧ line[0]? = some (5 / 1000 * (k : F)) ∧ (∀ j < 30, line[1 + j]? = q[6 + j]?) ∧
            ∀ j < 10, line[31 + j]? = some 0) ∧
          (∃ line, r.2.1[k]? = some line ∧ line.length = 4 ∧ line[0]? = some (5 / 1000 * (k : F)) ∧ ∀ j < 3, line[1 + j]? = q[3 + j]?) ∧
          ∃ line, r.2.2.1[k]? = some line ∧ line.length = 7 ∧ line[0]? = some (5 / 1000 * (k : F)) ∧ ∀ j < 6, line[1 + j]? = q[j]? := by
  obtain ⟨d1, d2⟩ := dumpLoop_spec h.q 0
  have e : ∀ r, dump pi h sample = .ok r ↔ ∃ r' q qs, dumpLoop 0 h.q = .ok r' ∧ h.q = q :: qs ∧
      r = (r'.1, r'.2.1, r'.2.2, ((q.drop 6).take 30).map fun x => x * 180 / pi) := by
    intro r
    rw [dump, Outcome.bind_eq_ok]
    rcases hq : h.q with _ | ⟨q, qs⟩
    · simp
    · simp only [Outcome.ok.injEq, List.cons.injEq]
      constructor
      · rintro ⟨r', h1, h2⟩
        exact ⟨r', q, qs, h1, ⟨rfl, rfl⟩, h2.symm⟩
      · rintro ⟨r', q', qs', h1, ⟨rfl, rfl⟩, h2⟩
        exact ⟨r', h1, h2.symm⟩
  constructor
  · rw [← d1]
    constructor
    · rintro ⟨r, hr⟩
      obtain ⟨r', q, qs, h1, h2, _⟩ := (e r).mp hr
      exact ⟨by rw [h2]; simp, r', h1⟩
    · rintro ⟨h1, r', h2⟩
      obtain ⟨q, qs, h3⟩ := List.exists_cons_of_ne_nil h1
      exact ⟨_, (e _).mpr ⟨r', q, qs, h2, h3, rfl⟩⟩
  · intro r hr
    obtain ⟨r', q0, qs, h1, h2, rfl⟩ := (e r).mp hr
    obtain ⟨l1, l2, l3, l4⟩ := d2 r' h1
    refine ⟨l1, l2, l3, fun k q hk => ?_⟩
    obtain ⟨m1, m2, m3⟩ := l4 k q hk
    rw [Nat.zero_add] at m1 m2 m3
    have hlen : 36 ≤ q.length := d1.mp ⟨r', h1⟩ q (List.mem_of_getElem? hk)
    have hget : ∀ j, j < 36 → q[j]? = some (q.getD j 0) := by
      intro j hj
      rw [List.getD, List.getElem?_eq_getElem (by omega), Option.getD_some]
    refine ⟨⟨_, m1, by simp, by simp, fun j hj => ?_, fun j hj => ?_⟩, ⟨_, m2, by simp, by simp, fun j hj => ?_⟩, _, m3, by simp, by simp, fun j hj => ?_⟩
    · rw [hget (6 + j) (by omega), List.append_assoc, List.singleton_append, Nat.add_comm 1 j, List.getElem?_cons_succ,
        List.getElem?_append_left (by simpa using hj)]
      simp [hj]
    · rw [List.append_assoc, List.singleton_append, show 31 + j = 30 + j + 1 by omega, List.getElem?_cons_succ,
        List.getElem?_append_right (by simp)]
      simp only [List.length_map, List.length_range']
      rw [show 30 + j - 30 = j by omega, List.getElem?_replicate, if_pos hj]
    · rw [hget (3 + j) (by omega)]
      have : j = 0 ∨ j = 1 ∨ j = 2 := by omega
      rcases this with rfl | rfl | rfl <;> rfl
    · rw [hget j (by omega)]
      have : j = 0 ∨ j = 1 ∨ j = 2 ∨ j = 3 ∨ j = 4 ∨ j = 5 := by omega
      rcases this with rfl | rfl | rfl | rfl | rfl | rfl <;> rfl

/-- The first posture is written in degrees. -/
theorem C116_degrees (pi : F) (h : H (List F)) (sample : Nat) {r : List (List F) × List (List F) × List (List F) × List F}
    (hr : dump pi h sample = .ok r) : ∃ q, h.q[0]? = some q ∧ r.2.2.2.length = 30 ∧ ∀ j < 30, r.2.2.2[j]? = (q[6 + j]?).map fun x => x * 180 / pi := by
  have hl := (C116_dump pi h sample).1.mp ⟨r, hr⟩
  rw [dump, Outcome.bind_eq_ok] at hr
  obtain ⟨r', _, h2⟩ := hr
  rcases hq : h.q with _ | ⟨q, qs⟩
  · exact absurd hq hl.1
  · rw [hq] at h2
    cases h2
    have h36 : 36 ≤ q.length := hl.2 q (by rw [hq]; simp)
    refine ⟨q, by simp, by simp; omega, fun j hj => ?_⟩
    simp [List.getElem?_take, hj]

/-- The times that are written are those of the records only if the period of the records lasts five milliseconds: neither the period nor the sample
given is used. -/
theorem C116_sample_counterexample (f : Nat) (dt pi : ℚ) (h : H (List ℚ)) (q0 q1 : List ℚ) (hq : h.q = [q0, q1]) (h0 : 36 ≤ q0.length) (h1 : 36 ≤ q1.length)
    (hdt : f * dt ≠ 5 / 1000) (s1 s2 : Nat) :
    dump pi h s1 = dump pi h s2 ∧ ∃ r line, dump pi h s1 = .ok r ∧ r.1[1]? = some line ∧ line[0]? ≠ some (f * dt) := by
  refine ⟨rfl, ?_⟩
  obtain ⟨d1, d2⟩ := C116_dump pi h s1
  obtain ⟨r, hr⟩ := d1.mpr ⟨by rw [hq]; simp, by rw [hq]; simp [h0, h1]⟩
  obtain ⟨line, l1, _, l2, _⟩ := ((d2 r hr).2.2.2 1 q1 (by rw [hq]; rfl)).1
  refine ⟨r, line, hr, l1, ?_⟩
  rw [l2]
  simpa using fun h => hdt h.symm

/-- A case: seven steps recorded every third. -/
theorem C116_case : records 3 (execution 0 6 (fun n => n) (fun n => 10 * n)) ⟨[], []⟩ = .ok ⟨[0, 3, 6], [0, 30, 60]⟩ := by decide

end Verif.History
