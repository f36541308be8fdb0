import Verif.Event.Model
import Verif.Common.Lists
import Mathlib.Tactic.ByContra

/-!
# Property C28: event triggers

The specification is about the history of the values of the condition: `streak vals` is the number of
consecutive true values at its end.
-/

namespace Verif.Event

/-- Number of true values at the end of a history. -/
def streak (vals : List Bool) : Nat := (vals.reverse.takeWhile id).length

theorem streak_true (vals : List Bool) : streak (vals ++ [true]) = streak vals + 1 := by
  simp [streak]

theorem streak_false (vals : List Bool) : streak (vals ++ [false]) = 0 := by
  simp [streak]

theorem streak_le (vals : List Bool) : streak vals ≤ vals.length := by
  have := (List.takeWhile_sublist (p := id) (l := vals.reverse)).length_le
  simpa [streak] using this

theorem run_snoc (e : Ev) (vals : List Bool) (v : Bool) :
    run e (vals ++ [v]) = (check (run e vals) v).1 := by simp [run]

theorem run_repeat (e : Ev) (vals : List Bool) : (run e vals).repeatAfter = e.repeatAfter := by
  induction vals using snoc_induction with
  | nil => rfl
  | snoc vals v ih => rw [run_snoc, check, ih]

theorem run_lastVal (n : Int) (vals : List Bool) :
    (run (setRepeat init n) vals).lastVal = vals.getLast?.getD true := by
  induction vals using snoc_induction with
  | nil => rfl
  | snoc vals v ih =>
    rw [run_snoc]
    simp only [check, List.getLast?_append, List.getLast?_singleton, Option.some_or, Option.getD_some]
    cases v <;> cases h : (run (setRepeat init n) vals).lastVal <;> rfl

theorem getLast_of_streak_pos {vals : List Bool} (h : 0 < streak vals) :
    vals.getLast?.getD true = true := by
  induction vals using snoc_induction with
  | nil => rfl
  | snoc vals v ih =>
    cases v
    · rw [streak_false] at h; omega
    · simp

theorem getLast_of_streak_zero {vals : List Bool} (h : streak vals = 0) (hne : vals ≠ []) :
    vals.getLast?.getD true = false := by
  induction vals using snoc_induction with
  | nil => exact absurd rfl hne
  | snoc vals v ih =>
    cases v
    · simp
    · rw [streak_true] at h; omega

/-- The output signal tells whether the condition differs from the value at the previous evaluation; before
the first evaluation the value counts as true. -/
theorem C28_output_is_change (n : Int) (before : List Bool) (v : Bool) :
    (outcome (setRepeat init n) before v).1 = (v != before.getLast?.getD true) := by
  rw [outcome, check, run_lastVal]

/-- Without repetition, the event triggers exactly when the condition is true and was false at the previous
evaluation. -/
theorem C28_triggers_on_rising_edges (n : Int) (hn : n ≤ 0) (before : List Bool) (v : Bool) :
    (outcome (setRepeat init n) before v).2 = true ↔ v = true ∧ before.getLast? = some false := by
  have h1 : (run (setRepeat init n) before).repeatAfter = n := run_repeat _ _
  have h2 := run_lastVal n before
  simp only [outcome, check, h1, h2]
  have : decide (n > 0) = false := by simp; omega
  rw [this]
  cases hb : before.getLast? with
  | none => simp
  | some b => cases b <;> cases v <;> simp

theorem emod_succ (k n : Int) (hn : 0 < n) :
    (k + 1) % n = if n ≤ k % n + 1 then 0 else k % n + 1 := by
  have h1 := Int.emod_nonneg k (Int.ne_of_gt hn)
  have h2 := Int.emod_lt_of_pos k hn
  rw [← Int.emod_add_emod]
  split
  · have : k % n + 1 = n := by omega
    rw [this, Int.emod_self]
  · exact Int.emod_eq_of_lt (by omega) (by omega)

/-- Invariant with repetition: the counter in terms of the history. -/
theorem run_counter (n : Int) (hn : 0 < n) (vals : List Bool) :
    (0 ≤ (run (setRepeat init n) vals).timeSinceUp ∧ (run (setRepeat init n) vals).timeSinceUp < n) ∧
    (streak vals = vals.length → (run (setRepeat init n) vals).timeSinceUp = (streak vals : Int) % n) ∧
    (0 < streak vals → streak vals ≠ vals.length →
      (run (setRepeat init n) vals).timeSinceUp = ((streak vals : Int) - 1) % n) := by
  induction vals using snoc_induction with
  | nil => simp [run, setRepeat, init, streak]; omega
  | snoc vals v ih =>
    obtain ⟨i1, i2, i3⟩ := ih
    have h1 : (run (setRepeat init n) vals).repeatAfter = n := run_repeat _ _
    have h2 := run_lastVal n vals
    rw [run_snoc]
    simp only [check, h1, h2]
    generalize (run (setRepeat init n) vals).timeSinceUp = c at i1 i2 i3 ⊢
    have hle := streak_le vals
    cases v with
    | false =>
      have hc : ¬ (c ≥ n) := by omega
      simp [streak_false, hc]
      omega
    | true =>
      rw [streak_true]
      by_cases hup : streak vals = 0 ∧ vals ≠ []
      · have hl := getLast_of_streak_zero hup.1 hup.2
        have hlen : vals.length ≠ 0 := by simpa using hup.2
        simp [hl, hup.1, hlen]
        omega
      · have hl : vals.getLast?.getD true = true := by
          by_cases h0 : streak vals = 0
          · have : vals = [] := by
              by_contra hne
              exact hup ⟨h0, hne⟩
            subst this
            rfl
          · exact getLast_of_streak_pos (Nat.pos_of_ne_zero h0)
        have key : ∀ k : Int, c = k % n →
            (if (decide (n > 0) && decide (c + 1 ≥ n)) = true then (0 : Int) else c + 1) = (k + 1) % n := by
          intro k hk
          rw [emod_succ k n hn, ← hk]
          simp [hn]
        have hgoal : (if (!true && true || decide (n > 0) && decide ((if (!true && true) = true then 0
            else if true = true then c + 1 else c) ≥ n)) = true then (0 : Int) else
            if (!true && true) = true then 0 else if true = true then c + 1 else c) =
            if (decide (n > 0) && decide (c + 1 ≥ n)) = true then (0 : Int) else c + 1 := by
          simp
        rw [hl, hgoal]
        refine ⟨?_, ?_, ?_⟩
        · split <;> rename_i hc <;> simp [hn] at hc <;> omega
        · intro he
          rw [List.length_append, List.length_singleton] at he
          rw [key _ (i2 (by omega))]
          push_cast
          rfl
        · intro _ he
          rw [List.length_append, List.length_singleton] at he
          have h0 : streak vals ≠ 0 := by
            intro h0
            apply hup
            refine ⟨h0, ?_⟩
            rintro rfl
            simp [h0] at he
          rw [key _ (i3 (by omega) (by omega))]
          congr 1
          omega

/-- With a repetition every `n` evaluations, set before the first one, the event triggers exactly when the
condition is true and
* the streak of true values started after a false value and its length is 1, 1 + n, 1 + 2n, ...; or
* the condition has been true since the first evaluation and the length is n, 2n, ... -/
theorem C28_triggers_with_repetition (n : Int) (hn : 0 < n) (before : List Bool) (v : Bool) :
    (outcome (setRepeat init n) before v).2 = true ↔
      v = true ∧ (if streak (before ++ [v]) = (before ++ [v]).length
        then n ∣ (streak (before ++ [v]) : Int) else n ∣ (streak (before ++ [v]) : Int) - 1) := by
  obtain ⟨i1, i2, i3⟩ := run_counter n hn before
  have h1 : (run (setRepeat init n) before).repeatAfter = n := run_repeat _ _
  have h2 := run_lastVal n before
  simp only [outcome, check, h1, h2]
  generalize (run (setRepeat init n) before).timeSinceUp = c at i1 i2 i3 ⊢
  have hle := streak_le before
  cases v with
  | false =>
    have hc : ¬ (c ≥ n) := by omega
    simp [hc]
  | true =>
    rw [streak_true]
    have key : ∀ k : Int, c = k % n → (n ≤ c + 1 ↔ n ∣ k + 1) := by
      intro k hk
      rw [Int.dvd_iff_emod_eq_zero, emod_succ k n hn, ← hk]
      split <;> omega
    by_cases hup : streak before = 0 ∧ before ≠ []
    · have hl := getLast_of_streak_zero hup.1 hup.2
      simp [hl, hup.1]
      exact fun h => absurd h hup.2
    · have hl : before.getLast?.getD true = true := by
        by_cases h0 : streak before = 0
        · have : before = [] := by
            by_contra hne
            exact hup ⟨h0, hne⟩
          subst this
          rfl
        · exact getLast_of_streak_pos (Nat.pos_of_ne_zero h0)
      have hlhs : (!before.getLast?.getD true && true || decide (n > 0) && decide
          ((if (!before.getLast?.getD true && true) = true then (0 : Int) else
            if true = true then c + 1 else c) ≥ n)) = true ↔ n ≤ c + 1 := by
        rw [hl]
        simp [hn]
      rw [hlhs]
      simp only [true_and, List.length_append, List.length_singleton]
      split
      · rename_i he
        rw [key _ (i2 (by omega))]
        push_cast
        rfl
      · rename_i he
        have h0 : streak before ≠ 0 := by
          intro h0
          apply hup
          refine ⟨h0, ?_⟩
          rintro rfl
          simp [h0] at he
        rw [key _ (i3 (by omega) (by omega))]
        have : ((streak before : Int) - 1 + 1) = ((streak before + 1 : Nat) : Int) - 1 := by push_cast; omega
        rw [this]

/-- With a repetition set before the first evaluation, the event never triggers while the condition is false. -/
theorem C28_never_triggers_while_false (n : Int) (before : List Bool) :
    (outcome (setRepeat init n) before false).2 = false := by
  by_cases hn : 0 < n
  · have := C28_triggers_with_repetition n hn before false
    simpa using this
  · have := C28_triggers_on_rising_edges n (by omega) before false
    simpa using this

example : outcome (setRepeat init 0) [false, true, true, false] true = (true, true) ∧
    outcome (setRepeat init 0) [false, true] true = (false, false) ∧
    outcome (setRepeat init 2) [false, true, true] true = (false, true) ∧
    outcome (setRepeat init 2) [true] true = (false, true) := by decide

/-- When the repetition is shortened while the condition is false, the event can trigger on a false condition. -/
theorem C28_repeat_change_counterexample :
    let e := run (setRepeat init 10) [false, true, true, true, false]
    (check (setRepeat e 1) false).2 = (false, true) := by decide

/-- The first evaluation with a true condition is not reported as a change and does not trigger, although the
constructor means the initial value to differ from both true and false. -/
theorem C28_first_evaluation_counterexample : (check init true).2 = (false, false) := by decide

end Verif.Event
