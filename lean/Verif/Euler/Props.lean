import Verif.Euler.Model
import Verif.Common.Lists
import Mathlib.Algebra.BigOperators.Group.Finset.Basic
import Mathlib.Algebra.BigOperators.Group.List.Basic
import Mathlib.Algebra.BigOperators.Intervals
import Mathlib.Algebra.Module.Basic
import Mathlib.Algebra.Field.Rat
import Mathlib.Tactic.Abel
import Mathlib.Tactic.Module
import Mathlib.Tactic.NormNum

/-!
# Properties C34 (Euler integrator) and C67 (integrator at rest)
-/

set_option linter.unusedSectionVars false

namespace Verif.Euler

open Finset

variable {F V C : Type} [Field F] [AddCommGroup V] [Module F V]

/-! ## Specification -/

/-- The `i`-th backward difference quotient of a sequence at step `t`: `D 0 f = f`, `D (i+1) f t = (D i f t - D i f (t-1)) / dt`. -/
def D (dt : F) : Nat → (Nat → V) → Nat → V
  | 0, f, t => f t
  | i + 1, f, t => (1 / dt) • (D dt i f t - D dt i f (t - 1))

/-- The sequence of the elements of a list. -/
def seq (l : List V) (t : Nat) : V := l.getD t 0

theorem D_congr (dt : F) (i : Nat) (f g : Nat → V) (t : Nat) (h : ∀ k, k ≤ t → f k = g k) :
    D dt i f t = D dt i g t := by
  induction i generalizing t with
  | zero => exact h t (Nat.le_refl t)
  | succ i ih =>
    simp only [D]
    rw [ih t h, ih (t - 1) (fun k hk => h k (by omega))]

theorem seq_append (l : List V) (x : V) (t : Nat) (h : t < l.length) : seq (l ++ [x]) t = seq l t := by
  simp only [seq, List.getD_eq_getElem?_getD]
  rw [List.getElem?_append_left h]

theorem seq_last (l : List V) (x : V) : seq (l ++ [x]) l.length = x := by
  simp [seq, List.getD_eq_getElem?_getD]

/-! ## The loops -/

theorem inputLoop_ok (act : C → V → V) (invdt : F) (mem : List V) (num : List C) (new old sum : V)
    (h : num.length = mem.length) :
    ∃ mem', inputLoop act invdt new old mem num sum = .ok (mem', sum + (List.zipWith act num mem').sum) ∧
      mem'.length = mem.length ∧
      ∀ (i : Nat) a b, (new :: mem')[i]? = some a → (old :: mem)[i]? = some b → i < mem.length →
        mem'[i]? = some (invdt • (a - b)) := by
  induction num generalizing mem new old sum with
  | nil =>
    cases mem with
    | nil => exact ⟨[], by simp [inputLoop], rfl, by simp⟩
    | cons m mem => simp at h
  | cons c num ih =>
    cases mem with
    | nil => simp at h
    | cons m mem =>
      obtain ⟨mem', h1, h2, h3⟩ := ih mem (invdt • (new - old)) m (sum + act c (invdt • (new - old)))
        (by simpa using h)
      refine ⟨(invdt • (new - old)) :: mem', ?_, by simp [h2], ?_⟩
      · simp only [inputLoop, h1, Outcome.map_ok, List.zipWith_cons_cons, List.sum_cons, add_assoc]
      · intro i a b ha hb hi
        cases i with
        | zero =>
          simp only [List.getElem?_cons_zero, Option.some.injEq] at ha hb ⊢
          rw [ha, hb]
        | succ i =>
          simp only [List.getElem?_cons_succ] at ha hb ⊢
          exact h3 i a b ha hb (by simpa using hi)

theorem outputSum_ok (act : C → V → V) (den : List C) (out : List V) (sum : V) (hd : den ≠ [])
    (h : den.length = out.length) :
    outputSum act den out sum = .ok (sum - (List.zipWith act den.dropLast out).sum) := by
  induction den generalizing out sum with
  | nil => exact absurd rfl hd
  | cons c den ih =>
    cases den with
    | nil => simp [outputSum]
    | cons c' den =>
      cases out with
      | nil => simp at h
      | cons o out =>
        rw [outputSum, ih out _ (by simp) (by simpa using h)]
        congr 1
        simp only [List.dropLast_cons_cons, List.zipWith_cons_cons, List.sum_cons]
        abel

theorem advance_ok (dt : F) (k : Nat) (out : List V) (top : V) (h : out.length = k + 1) :
    ∃ out', advance dt k out top = .ok out' ∧ out'.length = k + 1 ∧ out'[k]? = some top ∧
      ∀ (i : Nat) a b, i < k → out[i]? = some a → out'[i + 1]? = some b → out'[i]? = some (a + dt • b) := by
  induction k generalizing out with
  | zero =>
    cases out with
    | nil => simp at h
    | cons o out => exact ⟨top :: out, rfl, by simpa using h, rfl, by intro i _ _ hi; omega⟩
  | succ k ih =>
    cases out with
    | nil => simp at h
    | cons o out =>
      obtain ⟨out', h1, h2, h3, h4⟩ := ih out (by simpa using h)
      cases out' with
      | nil => simp at h2
      | cons n r =>
        refine ⟨(o + dt • n) :: n :: r, ?_, by simpa using h2, by simpa using h3, ?_⟩
        · rw [advance, h1, Outcome.bind_ok]
        · intro i a b hi ha hb
          cases i with
          | zero =>
            simp only [List.getElem?_cons_zero, List.getElem?_cons_succ, Option.some.injEq] at ha hb ⊢
            rw [ha, hb]
          | succ i =>
            simp only [List.getElem?_cons_succ] at ha hb ⊢
            exact h4 i a b (by omega) ha hb

theorem run_snoc (act : C → V → V) (s s' : St F V C) (us ys : List V) (u : V) (h : run act s us = .ok (ys, s')) :
    run act s (us ++ [u]) = (integrate act s' u).map fun r => (ys ++ [r.1], r.2) := by
  induction us generalizing s ys with
  | nil =>
    simp only [run, Outcome.ok.injEq, Prod.mk.injEq] at h
    obtain ⟨rfl, rfl⟩ := h
    simp only [List.nil_append, run]
    cases integrate act s u <;> rfl
  | cons v us ih =>
    simp only [run] at h
    obtain ⟨⟨y, s1⟩, h1, h2⟩ := Outcome.bind_eq_ok.mp h
    obtain ⟨⟨ys', s2⟩, h3, h4⟩ := Outcome.map_eq_ok.mp h2
    simp only [Prod.mk.injEq] at h4
    obtain ⟨rfl, rfl⟩ := h4
    simp only [List.cons_append, run, h1, Outcome.bind_ok]
    rw [ih s1 ys' h3]
    cases integrate act s2 u <;> simp

/-- The state after `initialize`: memories of the right sizes. -/
structure Ready (s : St F V C) : Prop where
  num : s.num ≠ []
  den : s.den ≠ []
  lin : s.inMem.length = s.num.length
  lout : s.outMem.length = s.den.length
  inv : s.invdt = 1 / s.dt

/-- One integration from a ready state. -/
theorem integrate_ok (act : C → V → V) (s : St F V C) (u : V) (h : Ready s) :
    ∃ y s', integrate act s u = .ok (y, s') ∧ Ready s' ∧ s'.num = s.num ∧ s'.den = s.den ∧ s'.dt = s.dt ∧
      s'.inMem[0]? = some u ∧ s'.outMem[0]? = some y ∧
      (∀ (i : Nat) a b, i + 1 < s.num.length → s'.inMem[i]? = some a → s.inMem[i]? = some b →
        s'.inMem[i + 1]? = some ((1 / s.dt) • (a - b))) ∧
      (∀ (i : Nat) a b, i + 1 < s.den.length → s.outMem[i]? = some a → s'.outMem[i + 1]? = some b →
        s'.outMem[i]? = some (a + s.dt • b)) ∧
      ∃ top, s'.outMem[s.den.length - 1]? = some top ∧
        top + (List.zipWith act s.den.dropLast s.outMem).sum = (List.zipWith act s.num s'.inMem).sum := by
  obtain ⟨h1, h2, h3, h4, h5⟩ := h
  obtain ⟨c0, num, hnum⟩ := List.exists_cons_of_ne_nil h1
  cases hmem : s.inMem with
  | nil => rw [hmem, hnum] at h3; simp at h3
  | cons m0 mem =>
    have hl : num.length = mem.length := by
      have := h3
      rw [hmem, hnum] at this
      simpa using this.symm
    have hd : 0 < s.den.length := List.length_pos_iff.mpr h2
    obtain ⟨mem', g1, g2, g3⟩ := inputLoop_ok act s.invdt mem num u m0 (act c0 u) hl
    have g4 := outputSum_ok act s.den s.outMem (act c0 u + (List.zipWith act num mem').sum) h2 h4.symm
    obtain ⟨out', k1, k2, k3, k4⟩ := advance_ok s.dt (s.den.length - 1) s.outMem
      (act c0 u + (List.zipWith act num mem').sum - (List.zipWith act s.den.dropLast s.outMem).sum) (by omega)
    have hout : 0 < out'.length := by omega
    refine ⟨out'[0], { s with inMem := u :: mem', outMem := out' }, ?_, ?_, rfl, rfl, rfl, rfl, ?_, ?_, ?_, _, k3, ?_⟩
    · simp only [integrate, hmem, hnum, g1, Outcome.bind_ok, g4, k1, rd_of_lt _ _ hout, Outcome.map_ok]
    · exact ⟨h1, h2, by simp [hnum, g2, hl], by simp only; omega, h5⟩
    · exact List.getElem?_eq_getElem hout
    · intro i a b hi ha hb
      simp only [List.getElem?_cons_succ]
      rw [← h5]
      exact g3 i a b ha (by simpa using hb) (by rw [hnum] at hi; simp at hi; omega)
    · intro i a b hi ha hb
      exact k4 i a b (by omega) ha hb
    · simp only [hnum, List.zipWith_cons_cons, List.sum_cons]
      abel

theorem zipWith_eq_sum (act : C → V → V) (cs : List C) (l : List V) (c0 : C) (g : Nat → V) (h : cs.length ≤ l.length)
    (hg : ∀ k, k < cs.length → l[k]? = some (g k)) :
    (List.zipWith act cs l).sum = ∑ i ∈ range cs.length, act (cs.getD i c0) (g i) := by
  induction cs generalizing l g with
  | nil => simp
  | cons c cs ih =>
    cases l with
    | nil => simp at h
    | cons x l =>
      have h0 := hg 0 (by simp)
      simp only [List.getElem?_cons_zero, Option.some.injEq] at h0
      rw [List.zipWith_cons_cons, List.sum_cons, List.length_cons, Finset.sum_range_succ',
        ih l (fun k => g (k + 1)) (by simpa using h) (fun k hk => by
          have := hg (k + 1) (by simpa using hk)
          simpa using this)]
      simp only [List.getD_cons_zero, List.getD_cons_succ, h0]
      rw [add_comm]

/-! ## C34 -/

/-- The equation solved by the integrator at step `t`: with `n = den.length - 1`,
`D^n y(t) + Σ_{i<n} a_i D^i y(t-1) = Σ_i b_i D^i u(t)`. -/
def Equation (act : C → V → V) (c0 : C) (dt : F) (num den : List C) (u y : Nat → V) (t : Nat) : Prop :=
  D dt (den.length - 1) y t + ∑ i ∈ range (den.length - 1), act (den.getD i c0) (D dt i y (t - 1)) =
    ∑ i ∈ range num.length, act (num.getD i c0) (D dt i u t)

/-- Specification: the sampling period after a history. -/
def period (p : F) : List (Op F V C) → F
  | [] => p
  | .setSamplingPeriod q :: os => period q os
  | _ :: os => period p os

theorem start_eq (isOne : C → Bool) (s : St F V C) (u : V) (s' : St F V C) (h : start isOne s u = .ok s') :
    s'.dt = s.dt ∧ s'.invdt = s.invdt := by
  rw [start] at h
  split at h
  · cases h
  · split at h
    · cases h
    · split at h
      · simp only [Outcome.ok.injEq] at h
        subst h
        exact ⟨rfl, rfl⟩
      · cases h

theorem integrate_eq (act : C → V → V) (s : St F V C) (u y : V) (s' : St F V C) (h : integrate act s u = .ok (y, s')) :
    s'.dt = s.dt ∧ s'.invdt = s.invdt := by
  rw [integrate] at h
  split at h
  · obtain ⟨r, _, h⟩ := Outcome.bind_eq_ok.mp h
    obtain ⟨sum, _, h⟩ := Outcome.bind_eq_ok.mp h
    obtain ⟨out, _, h⟩ := Outcome.bind_eq_ok.mp h
    obtain ⟨y', _, h⟩ := Outcome.map_eq_ok.mp h
    simp only [Prod.mk.injEq] at h
    rw [← h.2]
    exact ⟨rfl, rfl⟩
  · cases h

theorem history_period (act : C → V → V) (isOne : C → Bool) (os : List (Op F V C)) (s s' : St F V C)
    (hi : s.invdt = 1 / s.dt) (h : history act isOne s os = .ok s') :
    s'.invdt = 1 / s'.dt ∧ s'.dt = period s.dt os := by
  induction os generalizing s with
  | nil =>
    simp only [history, Outcome.ok.injEq] at h
    subst h
    exact ⟨hi, rfl⟩
  | cons o os ih =>
    simp only [history] at h
    obtain ⟨s1, h1, h2⟩ := Outcome.bind_eq_ok.mp h
    cases o with
    | pushNum c =>
      simp only [step, Outcome.ok.injEq] at h1
      subst h1
      have h9 := ih _ (by exact hi) h2
      exact h9
    | pushDen c =>
      simp only [step, Outcome.ok.injEq] at h1
      subst h1
      have h9 := ih _ (by exact hi) h2
      exact h9
    | popNum =>
      simp only [step, popNum] at h1
      split at h1
      · cases h1
      · simp only [Outcome.ok.injEq] at h1
        subst h1
        have h9 := ih _ (by exact hi) h2
        exact h9
    | popDen =>
      simp only [step, popDen] at h1
      split at h1
      · cases h1
      · simp only [Outcome.ok.injEq] at h1
        subst h1
        have h9 := ih _ (by exact hi) h2
        exact h9
    | setSamplingPeriod p =>
      simp only [step, Outcome.ok.injEq] at h1
      subst h1
      exact ih _ rfl h2
    | start u =>
      have : s1.dt = s.dt ∧ s1.invdt = s.invdt := by
        simp only [step] at h1
        cases hs : start isOne s u with
        | ok s2 =>
          rw [hs] at h1
          simp only [Outcome.ok.injEq] at h1
          subst h1
          exact start_eq isOne s u s2 hs
        | throw =>
          rw [hs] at h1
          simp only [Outcome.ok.injEq] at h1
          subst h1
          exact ⟨rfl, rfl⟩
        | ub => rw [hs] at h1; cases h1
      have := ih s1 (by rw [this.1, this.2]; exact hi) h2
      rename_i hh
      rw [hh.1] at this
      exact this
    | integrate u =>
      simp only [step] at h1
      obtain ⟨⟨y, s2⟩, h3, rfl⟩ := Outcome.map_eq_ok.mp h1
      have hh := integrate_eq act s u y s2 h3
      have := ih s2 (by rw [hh.1, hh.2]; exact hi) h2
      rw [hh.1] at this
      exact this

/-- From a state reached by any history, for any coefficients accepted by `initialize`, any sampling period other than zero and any inputs, the outputs satisfy the
discretised differential equation at every step that has as many predecessors as the orders of the equation. The value of the
input at initialisation does not matter for these steps. -/
theorem C34_euler_equation (act : C → V → V) (isOne : C → Bool) (c0 : C) (p0 : F) (os : List (Op F V C))
    (s0 s : St F V C) (u0 : V) (hist : history act isOne (init p0) os = .ok s0) (hp : period p0 os ≠ 0)
    (hinit : start isOne s0 u0 = .ok s) (us : List V) :
    ∃ ys s', run act s us = .ok (ys, s') ∧ ys.length = us.length ∧
      ∀ t, t < us.length → s0.num.length ≤ t + 1 → s0.den.length ≤ t + 1 →
        Equation act c0 (period p0 os) s0.num s0.den (seq us) (seq ys) t := by
  obtain ⟨hinv, hper⟩ := history_period act isOne os _ _ rfl hist
  have hper' : period (init p0 : St F V C).dt os = period p0 os := rfl
  rw [hper'] at hper
  rw [← hper] at hp ⊢
  have hdt := hp
  clear hp hper hper' hist
  have hs : Ready s ∧ s.num = s0.num ∧ s.den = s0.den ∧ s.dt = s0.dt := by
    rw [start] at hinit
    split at hinit
    · cases hinit
    · rename_i hne
      cases hl : s0.den.getLast? with
      | none => rw [hl] at hinit; cases hinit
      | some c =>
        rw [hl] at hinit
        simp only at hinit
        split at hinit
        · simp only [Outcome.ok.injEq] at hinit
          subst hinit
          refine ⟨⟨hne, ?_, by simp, by simp, hinv⟩, rfl, rfl, rfl⟩
          intro he
          simp only at he
          rw [he] at hl
          simp at hl
        · cases hinit
  obtain ⟨hr, hnum, hden, hdts⟩ := hs
  rw [← hnum, ← hden, ← hdts]
  rw [← hdts] at hdt
  clear hinit hnum hden hinv u0
  have key : ∃ ys s', run act s us = .ok (ys, s') ∧ ys.length = us.length ∧ Ready s' ∧ s'.num = s.num ∧
      s'.den = s.den ∧ s'.dt = s.dt ∧
      (∀ (i : Nat), i < s.num.length → i + 1 ≤ us.length → s'.inMem[i]? = some (D s.dt i (seq us) (us.length - 1))) ∧
      (∀ (i : Nat), i < s.den.length → i + 1 ≤ us.length → s'.outMem[i]? = some (D s.dt i (seq ys) (us.length - 1))) ∧
      ∀ t, t < us.length → s.num.length ≤ t + 1 → s.den.length ≤ t + 1 →
        Equation act c0 s.dt s.num s.den (seq us) (seq ys) t := by
    induction us using Verif.snoc_induction with
    | nil => exact ⟨[], s, rfl, rfl, hr, rfl, rfl, rfl, by intro i _ h; simp at h, by intro i _ h; simp at h, by simp⟩
    | snoc us u ih =>
      obtain ⟨ys, s1, h1, h2, h3, h4, h5, h6, h7, h8, h9⟩ := ih
      obtain ⟨y, s2, k1, k2, k3, k4, k5, k6, k7, k8, k9, top, k10, k11⟩ := integrate_ok act s1 u h3
      have hn0 : 0 < s.num.length := by rw [← h4]; exact List.length_pos_iff.mpr h3.num
      have hd0 : 0 < s.den.length := by rw [← h5]; exact List.length_pos_iff.mpr h3.den
      have hcu : ∀ i, i + 1 ≤ us.length →
          D s.dt i (seq (us ++ [u])) (us.length - 1) = D s.dt i (seq us) (us.length - 1) := by
        intro i hi
        exact D_congr _ _ _ _ _ (fun k hk => seq_append us u k (by omega))
      have hcy : ∀ i, i + 1 ≤ us.length →
          D s.dt i (seq (ys ++ [y])) (us.length - 1) = D s.dt i (seq ys) (us.length - 1) := by
        intro i hi
        exact D_congr _ _ _ _ _ (fun k hk => seq_append ys y k (by omega))
      have hin : ∀ (i : Nat), i < s.num.length → i ≤ us.length →
          s2.inMem[i]? = some (D s.dt i (seq (us ++ [u])) us.length) := by
        intro i
        induction i with
        | zero =>
          intro _ _
          rw [k6, D, seq_last]
        | succ i ihi =>
          intro hi hle
          have a1 := ihi (by omega) (by omega)
          have a2 := h7 i (by omega) hle
          rw [k8 i _ _ (by rw [h4]; exact hi) a1 a2, h6]
          simp only [D]
          rw [hcu i hle]
      have hout : ∀ (i : Nat), i < s.den.length → i ≤ us.length →
          s2.outMem[i]? = some (D s.dt i (seq (ys ++ [y])) us.length) := by
        intro i
        induction i with
        | zero =>
          intro _ _
          rw [k7, D, ← h2, seq_last]
        | succ i ihi =>
          intro hi hle
          have a1 := ihi (by omega) (by omega)
          have a2 := h8 i (by omega) hle
          have hlen : i + 1 < s2.outMem.length := by rw [k2.lout, k4, h5]; exact hi
          have a3 : s2.outMem[i + 1]? = some s2.outMem[i + 1] := List.getElem?_eq_getElem hlen
          have a4 := k9 i _ _ (by rw [h5]; exact hi) a2 a3
          rw [a1] at a4
          simp only [Option.some.injEq] at a4
          rw [a3]
          congr 1
          simp only [D]
          rw [hcy i hle, a4, h6, add_sub_cancel_left, smul_smul, one_div, inv_mul_cancel₀ hdt, one_smul]
      refine ⟨ys ++ [y], s2, ?_, by simp [h2], k2, by rw [k3, h4], by rw [k4, h5], by rw [k5, h6], ?_, ?_, ?_⟩
      · rw [run_snoc act s s1 us ys u h1, k1, Outcome.map_ok]
      · intro i hi hle
        simp only [List.length_append, List.length_singleton] at hle ⊢
        exact hin i hi (by omega)
      · intro i hi hle
        simp only [List.length_append, List.length_singleton] at hle ⊢
        exact hout i hi (by omega)
      · intro t ht hn hd
        simp only [List.length_append, List.length_singleton] at ht
        by_cases htl : t < us.length
        · have e := h9 t htl hn hd
          rw [Equation] at e ⊢
          have c1 : ∀ i, D s.dt i (seq (us ++ [u])) t = D s.dt i (seq us) t := fun i =>
            D_congr _ _ _ _ _ (fun k hk => seq_append us u k (by omega))
          have c2 : ∀ i, D s.dt i (seq (ys ++ [y])) t = D s.dt i (seq ys) t := fun i =>
            D_congr _ _ _ _ _ (fun k hk => seq_append ys y k (by omega))
          have c3 : ∀ i, D s.dt i (seq (ys ++ [y])) (t - 1) = D s.dt i (seq ys) (t - 1) := fun i =>
            D_congr _ _ _ _ _ (fun k hk => seq_append ys y k (by omega))
          simp only [c1, c2, c3]
          exact e
        · have ht' : t = us.length := by omega
          subst ht'
          rw [Equation]
          have e1 : top = D s.dt (s.den.length - 1) (seq (ys ++ [y])) us.length := by
            have := hout (s.den.length - 1) (by omega) (by omega)
            rw [h5] at k10
            rw [k10] at this
            exact Option.some.inj this
          rw [← e1]
          rw [h4, h5] at k11
          rw [zipWith_eq_sum act s.num s2.inMem c0 (fun i => D s.dt i (seq (us ++ [u])) us.length)
            (by rw [k2.lin, k3, h4]) (fun k hk => hin k hk (by omega))] at k11
          rw [zipWith_eq_sum act s.den.dropLast s1.outMem c0 (fun i => D s.dt i (seq (ys ++ [y])) (us.length - 1))
            (by rw [h3.lout, h5, List.length_dropLast]; omega) (fun k hk => by
              rw [List.length_dropLast] at hk
              rw [hcy k (by omega)]
              exact h8 k (by omega) (by omega)), List.length_dropLast] at k11
          rw [← k11]
          congr 1
          apply Finset.sum_congr rfl
          intro i hi
          rw [Finset.mem_range] at hi
          simp only [List.getD_eq_getElem?_getD]
          rw [List.getElem?_dropLast, if_pos (by omega)]
  obtain ⟨ys, s', h1, h2, _, _, _, _, _, _, h9⟩ := key
  exact ⟨ys, s', h1, h2, h9⟩

/-- `initialize` is accepted exactly when both lists of coefficients are given and the last denominator coefficient is the
identity; it then sets every memory to the current input. -/
theorem C34_initialize (isOne : C → Bool) (s : St F V C) (u : V) :
    (∀ s', start isOne s u = .ok s' → (∀ x ∈ s'.inMem, x = u) ∧ (∀ x ∈ s'.outMem, x = u) ∧
      s'.inMem.length = s.num.length ∧ s'.outMem.length = s.den.length ∧ s'.num = s.num ∧ s'.den = s.den) ∧
    ((∃ s', start isOne s u = .ok s') ↔
      s.num ≠ [] ∧ ∃ c, s.den.getLast? = some c ∧ isOne c = true) ∧
    (start isOne s u ≠ .ub) := by
  rw [start]
  by_cases hn : s.num = []
  · simp [hn]
  · cases hl : s.den.getLast? with
    | none => simp [hn]
    | some c =>
      by_cases hc : isOne c = true
      · simp only [hn, if_false, hc, if_true]
        refine ⟨?_, by simp [hc, hn], by simp⟩
        intro s' h
        simp only [Outcome.ok.injEq] at h
        subst h
        exact ⟨fun x hx => List.eq_of_mem_replicate hx, fun x hx => List.eq_of_mem_replicate hx, by simp, by simp, rfl,
          rfl⟩
      · simp [hn, hc]

/-- Using the output before `initialize` (or after adding a numerator coefficient since then) reads out of range. -/
theorem C34_uninitialised_counterexample (act : C → V → V) (p0 : F) (c : C) (u : V) :
    integrate act (pushDen (pushNum (init p0 : St F V C) c) c) u = .ub := by
  simp [integrate, pushDen, pushNum, init]

example : ((start (fun c => c == 1) (pushDen (pushDen (pushNum (init (1/2) : St ℚ ℚ ℚ) 3) 2) 1) 0).bind
    fun s => (run (fun c x => c * x) s [4, 4]).map (·.1)) = .ok [6, 6] := by decide +kernel

/-! ## C67: integrator at rest -/

/-- First-order equations: initialised with the input `u0` that is an equilibrium (`b_0 u0 = a_0 u0`), the output stays at
`u0` as long as the input does. Missing: equations of higher order, for which it is false (next theorem). -/
theorem C67_rest_first_order_partial (act : C → V → V) (isOne : C → Bool) (dt : F) (b0 a0 a1 : C) (u0 : V)
    (h1 : isOne a1 = true) (heq : act b0 u0 = act a0 u0) (n : Nat) :
    ∃ s s', start isOne (⟨[b0], [a0, a1], [], [], dt, 1 / dt⟩ : St F V C) u0 = .ok s ∧
      run act s (List.replicate n u0) = .ok (List.replicate n u0, s') := by
  refine ⟨⟨[b0], [a0, a1], [u0], [u0, u0], dt, 1 / dt⟩, ?_⟩
  have key : ∀ (n : Nat) (v : V), ∃ s', run act (⟨[b0], [a0, a1], [u0], [u0, v], dt, 1 / dt⟩ : St F V C)
      (List.replicate n u0) = .ok (List.replicate n u0, s') := by
    intro n
    induction n with
    | zero => intro v; exact ⟨_, rfl⟩
    | succ n ih =>
      intro v
      have hstep : integrate act (⟨[b0], [a0, a1], [u0], [u0, v], dt, 1 / dt⟩ : St F V C) u0 =
          .ok (u0, ⟨[b0], [a0, a1], [u0], [u0, 0], dt, 1 / dt⟩) := by
        simp [integrate, inputLoop, outputSum, advance, heq, rd]
      obtain ⟨s', h⟩ := ih 0
      exact ⟨s', by simp only [List.replicate_succ, run, hstep, Outcome.bind_ok, h, Outcome.map_ok]⟩
  obtain ⟨s', h⟩ := key n u0
  exact ⟨s', by simp [start, h1], h⟩

/-- For a second-order equation the derivative memories are also set to the input, so the integrator does not start at rest:
with `y'' + y' + y = u`, period 1/2, initialised at the equilibrium 1 and input 1, the first output is 5/4. -/
theorem C67_second_order_counterexample :
    ((start (fun c => c == 1) (⟨[1], [1, 1, 1], [], [], 1/2, 2⟩ : St ℚ ℚ ℚ) 1).bind fun s =>
      (run (fun c x => c * x) s [1]).map (·.1)) = .ok [5/4] := by
  decide +kernel

end Verif.Euler
