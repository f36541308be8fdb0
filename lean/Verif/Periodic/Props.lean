import Verif.Periodic.Model
import Verif.Common.Lists
import Mathlib.Order.Lattice
import Mathlib.Data.String.Basic

/-!
# Property C27: periodic calls run at their period and in name order
-/

set_option linter.unusedSectionVars false

namespace Verif.Periodic

variable {K S : Type} [LinearOrder K]

/-- The last command about a name in a history given from its end. -/
def lastAbout (name : K) : List (Op K S) → Option (S × Nat)
  | [] => none
  | .addDownsampled n s df :: older => if n = name then some (s, df) else lastAbout name older
  | .add n s :: older => if n = name then some (s, 1) else lastAbout name older
  | .rm n :: older => if n = name then none else lastAbout name older
  | .clear :: _ => none

/-- Specification: the signal and factor registered under a name after a history. -/
def registered (ops : List (Op K S)) (name : K) : Option (S × Nat) := lastAbout name ops.reverse

theorem mem_put {m : Calls K S} (hm : m.Pairwise fun a b => a.1 < b.1) (name n : K) (v x : S × Nat) :
    (n, x) ∈ put name v m ↔ (n = name ∧ x = v) ∨ (n ≠ name ∧ (n, x) ∈ m) := by
  induction m with
  | nil => simp [put]
  | cons p m ih =>
    obtain ⟨k, y⟩ := p
    rw [List.pairwise_cons] at hm
    have ih := ih hm.2
    simp only [put]
    split_ifs with h1 h2
    · simp only [List.mem_cons, Prod.mk.injEq]
      constructor
      · rintro (h | h | h)
        · exact .inl h
        · refine .inr ⟨?_, .inl h⟩
          rintro rfl
          rw [h.1] at h1
          exact lt_irrefl _ h1
        · refine .inr ⟨?_, .inr h⟩
          rintro rfl
          exact lt_irrefl _ (h1.trans (hm.1 _ h))
      · rintro (h | ⟨_, h⟩)
        · exact .inl h
        · exact .inr h
    · subst h2
      simp only [List.mem_cons, Prod.mk.injEq]
      constructor
      · rintro (h | h)
        · exact .inl h
        · refine .inr ⟨?_, .inr h⟩
          rintro rfl
          exact absurd (hm.1 (n, x) h) (lt_irrefl _)
      · rintro (h | ⟨hn, h | h⟩)
        · exact .inl h
        · exact absurd h.1 hn
        · exact .inr h
    · simp only [List.mem_cons, Prod.mk.injEq, ih]
      constructor
      · rintro (h | h | h)
        · refine .inr ⟨?_, .inl h⟩
          rintro rfl
          exact h2 h.1
        · exact .inl h
        · exact .inr ⟨h.1, .inr h.2⟩
      · rintro (h | ⟨hn, h | h⟩)
        · exact .inr (.inl h)
        · exact .inl h
        · exact .inr (.inr ⟨hn, h⟩)

theorem put_sorted {m : Calls K S} (hm : m.Pairwise fun a b => a.1 < b.1) (name : K) (v : S × Nat) :
    (put name v m).Pairwise fun a b => a.1 < b.1 := by
  induction m with
  | nil => simp [put]
  | cons p m ih =>
    obtain ⟨k, y⟩ := p
    have hm0 := hm
    rw [List.pairwise_cons] at hm
    have ih := ih hm.2
    simp only [put]
    split_ifs with h1 h2
    · rw [List.pairwise_cons]
      refine ⟨?_, hm0⟩
      intro a ha
      rcases List.mem_cons.mp ha with rfl | ha
      · exact h1
      · exact h1.trans (hm.1 a ha)
    · subst h2
      rw [List.pairwise_cons]
      exact ⟨fun a ha => hm.1 a ha, hm.2⟩
    · rw [List.pairwise_cons]
      refine ⟨?_, ih⟩
      rintro ⟨n, x⟩ ha
      rw [mem_put hm.2] at ha
      rcases ha with ⟨rfl, rfl⟩ | ⟨_, ha⟩
      · exact lt_of_le_of_ne (not_lt.mp h1) (fun h => h2 h.symm)
      · exact hm.1 _ ha

/-- The map holds what the history registered, in increasing order of names. -/
theorem run_spec (ops : List (Op K S)) :
    (run ops).Pairwise (fun a b => a.1 < b.1) ∧
      ∀ n x, (n, x) ∈ run ops ↔ registered ops n = some x := by
  induction ops using snoc_induction with
  | nil => simp [run, registered, lastAbout]
  | snoc ops op ih =>
    obtain ⟨hs, hr⟩ := ih
    have hrun : run (ops ++ [op]) = step (run ops) op := by simp [run]
    have hreg : ∀ n, registered (ops ++ [op]) n = lastAbout n (op :: ops.reverse) := by
      intro n; simp [registered]
    rw [hrun]
    cases op with
    | addDownsampled n s df =>
      refine ⟨put_sorted hs _ _, ?_⟩
      intro k x
      rw [hreg, step, addDownsampledSignal, mem_put hs, lastAbout, hr]
      by_cases h : k = n
      · subst h; simp [eq_comm]
      · simp [h, Ne.symm h, registered]
    | add n s =>
      refine ⟨put_sorted hs _ _, ?_⟩
      intro k x
      rw [hreg, step, addSignal, mem_put hs, lastAbout, hr]
      by_cases h : k = n
      · subst h; simp [eq_comm]
      · simp [h, Ne.symm h, registered]
    | rm n =>
      refine ⟨hs.filter _, ?_⟩
      intro k x
      rw [hreg, step, rmSignal, List.mem_filter, lastAbout, hr]
      by_cases h : k = n
      · subst h; simp
      · simp [h, Ne.symm h, registered]
    | clear =>
      refine ⟨by simp [step], ?_⟩
      intro k x
      rw [hreg]
      simp [step, lastAbout]

theorem remainder_pos {t : Int} (h0 : 0 ≤ t) (h1 : t < 2147483648) {df : Nat} (hdf : 0 < df) :
    ∃ r, remainder t df = some r ∧ (r = 0 ↔ (df : Int) ∣ t) := by
  refine ⟨_, by rw [remainder, if_neg (by omega)], ?_⟩
  have e : t % 4294967296 = t := Int.emod_eq_of_lt h0 (by omega)
  rw [e]
  obtain ⟨n, rfl⟩ := Int.eq_ofNat_of_zero_le h0
  simp only [Int.toNat_natCast]
  rw [Int.natCast_dvd_natCast, Nat.dvd_iff_mod_eq_zero]

/-- At every tick `t ≥ 0` (an `int`), after any history in which only positive factors were registered, and when
no signal throws, the calls done are exactly the registered ones whose factor divides `t`, each once, in
increasing order of names. -/
theorem C27_calls_at_tick (ops : List (Op K S)) (throws : S → Bool) (t : Int) (h0 : 0 ≤ t)
    (h1 : t < 2147483648) (hdf : ∀ n s df, registered ops n = some (s, df) → 0 < df)
    (hth : ∀ s, throws s = false) :
    (runSignals throws t (run ops)).2 = .ok () ∧
    (runSignals throws t (run ops)).1.Pairwise (fun a b => a.1 < b.1) ∧
    ∀ n s, (n, s) ∈ (runSignals throws t (run ops)).1 ↔
      ∃ df, registered ops n = some (s, df) ∧ (df : Int) ∣ t := by
  obtain ⟨hs, hr⟩ := run_spec ops
  have hdf' : ∀ n s df, (n, s, df) ∈ run ops → 0 < df := fun n s df h => hdf n s df ((hr n (s, df)).mp h)
  simp only [← hr]
  clear hr
  generalize run ops = m at hs hdf'
  induction m with
  | nil => simp [runSignals]
  | cons p m ih =>
    obtain ⟨k, s, df⟩ := p
    rw [List.pairwise_cons] at hs
    obtain ⟨i1, i2, i3⟩ := ih hs.2 (fun n s' df' h => hdf' n s' df' (by simp [h]))
    obtain ⟨r, hr, hr0⟩ := remainder_pos h0 h1 (hdf' k s df (by simp))
    cases r with
    | zero =>
      have hd : (df : Int) ∣ t := hr0.mp rfl
      simp only [runSignals, hr, hth s]
      refine ⟨by simpa using i1, ?_, ?_⟩
      · simp only [Bool.false_eq_true, if_false, List.pairwise_cons]
        refine ⟨?_, i2⟩
        rintro ⟨n, s'⟩ ha
        obtain ⟨df', hm, _⟩ := (i3 n s').mp ha
        exact hs.1 _ hm
      · intro n s'
        simp only [Bool.false_eq_true, if_false, List.mem_cons, Prod.mk.injEq, i3]
        constructor
        · rintro (⟨rfl, rfl⟩ | ⟨df', h, hd'⟩)
          · exact ⟨df, .inl ⟨rfl, rfl, rfl⟩, hd⟩
          · exact ⟨df', .inr h, hd'⟩
        · rintro ⟨df', ⟨rfl, rfl, rfl⟩ | h, hd'⟩
          · exact .inl ⟨rfl, rfl⟩
          · exact .inr ⟨df', h, hd'⟩
    | succ r =>
      have hd : ¬ (df : Int) ∣ t := fun h => by simpa using hr0.mpr h
      simp only [runSignals, hr]
      refine ⟨i1, i2, ?_⟩
      intro n s'
      rw [i3]
      constructor
      · rintro ⟨df', h, hd'⟩
        exact ⟨df', by simp [h], hd'⟩
      · rintro ⟨df', h, hd'⟩
        rcases List.mem_cons.mp h with h | h
        · simp only [Prod.mk.injEq] at h
          obtain ⟨_, _, rfl⟩ := h
          exact absurd hd' hd
        · exact ⟨df', h, hd'⟩

/-- When a signal throws, the calls of that tick are those up to and including the first signal that throws:
the calls that would have been done without exception start with the calls done, of which only the last
throws. The others are skipped at that tick. -/
theorem C27_exception_skips_the_rest (ops : List (Op K S)) (throws : S → Bool) (t : Int)
    (hdf : ∀ n s df, registered ops n = some (s, df) → 0 < df)
    (hth : (runSignals throws t (run ops)).2 ≠ .ok ()) :
    (runSignals throws t (run ops)).2 = .throw ∧
    ∃ done n s rest, (runSignals throws t (run ops)).1 = done ++ [(n, s)] ∧ throws s = true ∧
      (∀ p ∈ done, throws p.2 = false) ∧
      (runSignals (fun _ => false) t (run ops)).1 = done ++ (n, s) :: rest := by
  obtain ⟨hs, hr⟩ := run_spec ops
  have hdf' : ∀ n s df, (n, s, df) ∈ run ops → 0 < df := fun n s df h => hdf n s df ((hr n (s, df)).mp h)
  clear hr hs
  generalize run ops = m at hdf' hth
  induction m with
  | nil => simp [runSignals] at hth
  | cons p m ih =>
    obtain ⟨k, s, df⟩ := p
    have ih := ih (fun n s' df' h => hdf' n s' df' (by simp [h]))
    have hne : remainder t df = some ((t % 4294967296).toNat % df) := by
      have := hdf' k s df (by simp)
      rw [remainder, if_neg (by omega)]
    rcases hrem : (t % 4294967296).toNat % df with _ | r
    · rw [hrem] at hne
      simp only [runSignals, hne] at hth ⊢
      by_cases ht : throws s = true
      · simp only [ht, if_true]
        exact ⟨trivial, [], k, s, (runSignals (fun _ => false) t m).1, by simp, ht, by simp, by simp⟩
      · simp only [ht, if_false, Bool.false_eq_true] at hth ⊢
        obtain ⟨j1, done, n, s', rest, j2, j3, j4, j5⟩ := ih hth
        refine ⟨j1, (k, s) :: done, n, s', rest, by simp [j2], j3, ?_, by simp [j5]⟩
        intro p hp
        rcases List.mem_cons.mp hp with rfl | hp
        · simpa using ht
        · exact j4 p hp
    · rw [hrem] at hne
      simp only [runSignals, hne] at hth ⊢
      exact ih hth

/-- A factor 0 is accepted by the command and the next tick divides by zero. -/
theorem C27_zero_factor_counterexample (name : K) (sig : S) (throws : S → Bool) (t : Int) :
    (runSignals throws t (run [Op.addDownsampled name sig 0])).2 = .ub := rfl

/-- At negative ticks the conversion to `unsigned` makes the test differ from divisibility: a call of period 3
is not done at tick -3. -/
theorem C27_negative_tick_counterexample (name : K) (sig : S) (throws : S → Bool) :
    (runSignals throws (-3) (run [Op.addDownsampled name sig 3])).1 = [] := rfl

example :
    let ops := [Op.addDownsampled "b" 1 2, .add "a" 2, .addDownsampled "c" 3 5, .add "d" 4, .rm "d",
      .addDownsampled "b" 7 3]
    runSignals (fun _ => false) 6 (run ops) = ([("a", 2), ("b", 7)], .ok ()) ∧
      runSignals (fun s => s == 2) 6 (run ops) = ([("a", 2)], .throw) ∧
      registered ops "b" = some (7, 3) ∧ registered ops "d" = none := by
  decide +kernel

end Verif.Periodic
