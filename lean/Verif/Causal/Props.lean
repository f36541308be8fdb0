import Verif.Causal.Model
import Mathlib.Algebra.BigOperators.Group.Finset.Basic
import Mathlib.Algebra.BigOperators.Intervals
import Mathlib.Algebra.Module.BigOperators
import Mathlib.Algebra.Module.Rat
import Mathlib.Algebra.Field.Rat
import Mathlib.Tactic.Module
import Mathlib.Tactic.NormNum
import Mathlib.Tactic.Conv

/-!
# Property C32 (causal filter) and C66 (change of filter)
-/

set_option linter.unusedSectionVars false

namespace Verif.Causal

open Finset

variable {F V : Type} [Field F] [AddCommGroup V] [Module F V]

/-! ## Specification -/

/-- The element of a sequence `k` steps before step `t`; before the beginning the sequence is constant. -/
def ago (start : V) (s : List V) (t k : Nat) : V := if k ≤ t then s.getD (t - k) 0 else start

/-- The difference equation at step `t`, between the inputs `us` and the outputs `ys`; before the beginning the input is `u0` and
the output `y0`:
`a[0] y(t) + a[1] y(t-1) + ... + a[n-1] y(t-n+1) = b[0] u(t) + ... + b[m-1] u(t-m+1)`. -/
def DifferenceEquation (b a : List F) (u0 y0 : V) (us ys : List V) (t : Nat) : Prop :=
  ∑ j ∈ range a.length, a.getD j 0 • ago y0 ys t j = ∑ j ∈ range b.length, b.getD j 0 • ago u0 us t j

/-! ## The buffers -/

/-- The columns of a buffer whose latest column is `p`, the most recent first. -/
def unroll {α : Type} (p : Nat) (l : List α) : List α := (l.take (p + 1)).reverse ++ (l.drop (p + 1)).reverse

theorem combine_arrange (p : Nat) (c : List F) (cols : List V) (h : cols.length = c.length) :
    combine (arrange p c) cols = combine c (unroll p cols) := by
  have h1 : (c.take (p + 1)).length = (cols.take (p + 1)).length := by simp [h]
  have h2 : (c.drop (p + 1)).length = (cols.drop (p + 1)).length := by simp [h]
  have e1 : combine (arrange p c) cols =
      (List.zipWith (· • ·) (c.take (p + 1)).reverse (cols.take (p + 1))).sum +
        (List.zipWith (· • ·) (c.drop (p + 1)).reverse (cols.drop (p + 1))).sum := by
    rw [combine, arrange]
    conv_lhs => rw [← List.take_append_drop (p + 1) cols]
    rw [List.zipWith_append (by simpa using h1), List.sum_append]
  have e2 : combine c (unroll p cols) =
      (List.zipWith (· • ·) (c.take (p + 1)) (cols.take (p + 1)).reverse).sum +
        (List.zipWith (· • ·) (c.drop (p + 1)) (cols.drop (p + 1)).reverse).sum := by
    rw [combine, unroll]
    conv_lhs => rw [← List.take_append_drop (p + 1) c]
    rw [List.zipWith_append (by simpa using h1), List.sum_append]
  have rev : ∀ (l : List F) (r : List V), l.length = r.length →
      (List.zipWith (· • ·) l.reverse r).sum = (List.zipWith (· • ·) l r.reverse).sum := by
    intro l r hl
    have := List.reverse_zipWith (f := fun (a : F) (b : V) => a • b) (l := l) (l' := r.reverse) (by simpa using hl)
    rw [List.reverse_reverse] at this
    rw [← this, List.sum_reverse]
  rw [e1, e2, rev _ _ h1, rev _ _ h2]

theorem unroll_length {α : Type} (p : Nat) (l : List α) : (unroll p l).length = l.length := by
  simp only [unroll, List.length_append, List.length_reverse, List.length_take, List.length_drop]
  omega

theorem unroll_cons {α : Type} (p : Nat) (l : List α) (h : p < l.length) :
    unroll p l = l[p] :: ((l.take p).reverse ++ (l.drop (p + 1)).reverse) := by
  rw [unroll, List.take_succ_eq_append_getElem h, List.reverse_append, List.reverse_singleton]
  rfl

/-- Writing at the position of the latest column changes the first element. -/
theorem unroll_set {α : Type} (p : Nat) (l : List α) (x : α) (h : p < l.length) :
    unroll p (l.set p x) = x :: (unroll p l).tail := by
  rw [unroll_cons p l h, unroll_cons p _ (by simpa using h)]
  simp [List.take_set_of_le, List.drop_set_of_lt]

/-- Moving the position to the next column shifts the history by one. -/
theorem unroll_next {α : Type} (p : Nat) (l : List α) (x : α) (h : p < l.length) :
    unroll (if p + 1 < l.length then p + 1 else 0) (l.set (if p + 1 < l.length then p + 1 else 0) x) =
      x :: (unroll p l).dropLast := by
  split
  · rename_i hlt
    rw [unroll_set _ _ _ hlt, unroll_cons _ _ hlt, List.tail_cons, unroll]
    congr 1
    rw [List.dropLast_append_of_ne_nil (by simp; omega)]
    congr 1
    rw [List.drop_eq_getElem_cons hlt, List.reverse_cons, List.dropLast_concat]
  · have hl : p + 1 = l.length := by omega
    have h0 : 0 < l.length := by omega
    rw [unroll_set _ _ _ h0, unroll_cons _ _ h0, List.tail_cons, unroll, hl, List.take_length, List.drop_length]
    simp only [List.take_zero, List.reverse_nil, List.nil_append, List.append_nil]
    congr 1
    cases l with
    | nil => simp at h0
    | cons y l => simp

theorem combine_eq_sum (c : List F) (l : List V) (g : Nat → V) (hl : l.length = c.length)
    (h : ∀ k, k < c.length → l[k]? = some (g k)) :
    combine c l = ∑ k ∈ range c.length, c.getD k 0 • g k := by
  induction c generalizing l g with
  | nil => simp [combine]
  | cons a c ih =>
    cases l with
    | nil => simp at hl
    | cons x l =>
      have h0 := h 0 (by simp)
      simp only [List.getElem?_cons_zero, Option.some.injEq] at h0
      have := ih l (fun k => g (k + 1)) (by simpa using hl) (fun k hk => by
        have := h (k + 1) (by simpa using hk)
        simpa using this)
      rw [combine] at this ⊢
      rw [List.zipWith_cons_cons, List.sum_cons, this, List.length_cons, Finset.sum_range_succ']
      simp only [List.getD_cons_zero, List.getD_cons_succ, h0]
      rw [add_comm]

/-! ## The invariant -/

/-- The buffers contain the histories `hin` and `hout` (index 0: the latest). -/
structure Inv (f : Filter F V) (num den : List F) (dt : F) (hin hout : Nat → V) : Prop where
  hnum : f.num = num
  hden : f.den = den
  hdt : f.dt = dt
  first : f.firstSample = false
  ptn : f.ptn < num.length
  ptd : f.ptd + 1 < den.length
  lin : f.input.length = num.length
  lout : f.output.length = den.length - 1
  hist_in : ∀ k, k + 1 < num.length → (unroll f.ptn f.input)[k + 1]? = some (hin k)
  hist_out : ∀ k, k + 1 < den.length → (unroll f.ptd f.output)[k]? = some (hout k)

/-- A new latest element. -/
def push (x : V) (h : Nat → V) : Nat → V
  | 0 => x
  | k + 1 => h k

theorem sum_replicate_ago (c : List F) (x : V) : ∑ k ∈ range c.length, c.getD k 0 • x = c.sum • x := by
  rw [← Finset.sum_smul]
  congr 1
  induction c with
  | nil => simp
  | cons a c ih =>
    rw [List.length_cons, Finset.sum_range_succ']
    simp only [List.getD_cons_zero, List.getD_cons_succ, List.sum_cons]
    rw [ih, add_comm]

theorem sample_inv (f : Filter F V) (num den : List F) (dt : F) (hin hout : Nat → V)
    (h : Inv f num den dt hin hout) (ha : den.getD 0 0 ≠ 0) (x : V) :
    ∃ o f', sample f x = .ok (o, f') ∧ Inv f' num den dt (push x hin) (push o.x hout) ∧
      ∑ j ∈ range den.length, den.getD j 0 • push o.x hout j =
        ∑ j ∈ range num.length, num.getD j 0 • push x hin j ∧
      o.dx = dt⁻¹ • (o.x - hout 0) ∧
      (3 ≤ den.length → o.ddx = dt⁻¹ • dt⁻¹ • (o.x - (2 : F) • hout 0 + hout 1)) := by
  obtain ⟨rfl, rfl, rfl, h4, h5, h6, h7, h8, h9, h10⟩ := h
  have hfill : fill f x = f := by simp [fill, h4]
  have hq : f.ptd < f.output.length := by omega
  have hden : 0 < f.den.length := by omega
  have hprev : (if f.ptd = 0 then f.den.length - 2 else f.ptd - 1) < f.output.length := by split <;> omega
  have hy1 : f.output[f.ptd] = hout 0 := by
    have := h10 0 (by omega)
    rw [unroll_cons _ _ hq] at this
    simpa using this
  have hy2 : 3 ≤ f.den.length →
      f.output[if f.ptd = 0 then f.den.length - 2 else f.ptd - 1] = hout 1 := by
    intro h3
    have e := h10 1 (by omega)
    rw [unroll_cons _ _ hq, List.getElem?_cons_succ] at e
    by_cases hz : f.ptd = 0
    · simp only [hz, if_true]
      rw [hz] at e
      simp only [List.take_zero, List.reverse_nil, List.nil_append] at e
      rw [List.getElem?_reverse (by simp; omega)] at e
      simp only [List.length_drop, List.getElem?_drop] at e
      have e2 : 0 + 1 + (f.output.length - (0 + 1) - 1 - 0) = f.den.length - 2 := by omega
      rw [e2, List.getElem?_eq_getElem (by omega)] at e
      exact Option.some.inj e
    · simp only [hz, if_false]
      rw [List.getElem?_append_left (by simp; omega), List.getElem?_reverse (by simp; omega)] at e
      rw [List.length_take, Nat.min_eq_left (by omega), List.getElem?_take_of_lt (by omega)] at e
      have e2 : f.ptd - 1 - 0 = f.ptd - 1 := by omega
      rw [e2, List.getElem?_eq_getElem (by omega)] at e
      exact Option.some.inj e
  have ha0 : f.den[0]'hden ≠ 0 := by
    simpa [List.getD_eq_getElem?_getD, List.getElem?_eq_getElem hden] using ha
  -- the sum over the inputs
  have hin' : ∀ k, k < f.num.length → (unroll f.ptn (f.input.set f.ptn x))[k]? = some (push x hin k) := by
    intro k hk
    rw [unroll_set _ _ _ (by omega)]
    cases k with
    | zero => rfl
    | succ k =>
      rw [List.getElem?_cons_succ, List.getElem?_tail]
      exact h9 k hk
  have hB : combine (arrange f.ptn f.num) (f.input.set f.ptn x) =
      ∑ j ∈ range f.num.length, f.num.getD j 0 • push x hin j := by
    rw [combine_arrange _ _ _ (by simp [h7])]
    exact combine_eq_sum _ _ _ (by rw [unroll_length]; simp [h7]) hin'
  have hA : combine (arrange f.ptd f.den.tail) f.output =
      ∑ j ∈ range (f.den.length - 1), f.den.getD (j + 1) 0 • hout j := by
    rw [combine_arrange _ _ _ (by simp [h8])]
    rw [combine_eq_sum f.den.tail (unroll f.ptd f.output) hout (by rw [unroll_length]; simp [h8])
      (fun k hk => h10 k (by simp at hk; omega))]
    rw [List.length_tail]
    apply Finset.sum_congr rfl
    intro j _
    congr 1
    simp [List.getD_eq_getElem?_getD, List.getElem?_tail]
  refine ⟨_, _, by
    rw [sample, hfill]
    simp only
    rw [if_pos ⟨h5, h6⟩, rd_of_lt _ _ hden, Outcome.bind_ok, rd_of_lt _ _ hq, Outcome.bind_ok, rd_of_lt _ _ hprev,
      Outcome.bind_ok], ?_, ?_, ?_, ?_⟩
  · refine ⟨rfl, rfl, rfl, h4, ?_, ?_, by simp [h7], by simp [h8], ?_, ?_⟩
    · simp only; split <;> omega
    · simp only; split <;> omega
    · intro k hk
      simp only
      have hp : f.ptn < (f.input.set f.ptn x).length := by simp; omega
      have e := unroll_next f.ptn (f.input.set f.ptn x) x hp
      simp only [List.length_set, h7] at e
      have e2 := congrArg (fun l => l[k + 1]?) e
      simp only [List.getElem?_cons_succ] at e2
      have hlt : k < (unroll f.ptn (f.input.set f.ptn x)).length - 1 := by
        rw [unroll_length]; simp [h7]; omega
      rw [List.getElem?_dropLast, if_pos hlt, hin' k (by omega)] at e2
      rw [← e2]
      have hp2 : (if f.ptn + 1 < f.num.length then f.ptn + 1 else 0) < (f.input.set f.ptn x).length := by
        simp only [List.length_set]; split <;> omega
      rw [unroll_set _ _ _ hp2, List.getElem?_cons_succ, List.getElem?_tail]
    · intro k hk
      simp only
      have e := unroll_next f.ptd f.output
        ((f.den[0]'hden)⁻¹ • (combine (arrange f.ptn f.num) (f.input.set f.ptn x) -
          combine (arrange f.ptd f.den.tail) f.output)) hq
      simp only [h8] at e
      rw [e]
      cases k with
      | zero => rfl
      | succ k =>
        rw [List.getElem?_cons_succ, List.getElem?_dropLast, if_pos (by rw [unroll_length]; omega)]
        exact h10 k (by omega)
  · simp only
    obtain ⟨n, hn⟩ : ∃ n, f.den.length = n + 1 := ⟨f.den.length - 1, by omega⟩
    rw [hn, Finset.sum_range_succ']
    rw [hn, Nat.add_sub_cancel] at hA
    rw [← hB]
    simp only [push]
    have ed : f.den.getD 0 0 = f.den[0] := by
      simp [List.getD_eq_getElem?_getD, List.getElem?_eq_getElem hden]
    rw [← hA, ed, smul_smul, mul_inv_cancel₀ ha0, one_smul]
    rw [add_comm, sub_add_cancel]
  · simp only
    rw [hy1]
  · intro h3
    simp only
    rw [hy1, hy2 h3]

/-- The element `k` steps before step `t` of a sequence continuing the history `h`. -/
def agoH (h : Nat → V) (s : List V) (t k : Nat) : V := if k ≤ t then s.getD (t - k) 0 else h (k - t - 1)

theorem agoH_zero (h : Nat → V) (x : V) (s : List V) (k : Nat) : agoH h (x :: s) 0 k = push x h k := by
  cases k with
  | zero => simp [agoH, push]
  | succ k => simp [agoH, push]

theorem agoH_succ (h : Nat → V) (x : V) (s : List V) (t k : Nat) :
    agoH h (x :: s) (t + 1) k = agoH (push x h) s t k := by
  rcases Nat.lt_trichotomy k (t + 1) with hk | hk | hk
  · have e : t + 1 - k = (t - k) + 1 := by omega
    rw [agoH, agoH, if_pos (by omega), if_pos (by omega), e, List.getD_cons_succ]
  · subst hk
    simp [agoH, push]
  · rw [agoH, agoH, if_neg (by omega), if_neg (by omega)]
    obtain ⟨j, rfl⟩ : ∃ j, k = t + 1 + 1 + j := ⟨k - (t + 1 + 1), by omega⟩
    have e1 : t + 1 + 1 + j - (t + 1) - 1 = j := by omega
    have e2 : t + 1 + 1 + j - t - 1 = j + 1 := by omega
    rw [e1, e2]
    rfl

theorem run_inv (num den : List F) (dt : F) (ha : den.getD 0 0 ≠ 0) (us : List V) (f : Filter F V)
    (hin hout : Nat → V) (h : Inv f num den dt hin hout) :
    ∃ os f', run f us = .ok (os, f') ∧ os.length = us.length ∧ f'.firstSample = false ∧
      ∀ t o, os[t]? = some o →
        ∑ j ∈ range den.length, den.getD j 0 • agoH hout (os.map (·.x)) t j =
          ∑ j ∈ range num.length, num.getD j 0 • agoH hin us t j ∧
        o.dx = dt⁻¹ • (o.x - agoH hout (os.map (·.x)) t 1) ∧
        (3 ≤ den.length → o.ddx = dt⁻¹ • dt⁻¹ •
          (o.x - (2 : F) • agoH hout (os.map (·.x)) t 1 + agoH hout (os.map (·.x)) t 2)) := by
  induction us generalizing f hin hout with
  | nil => exact ⟨[], f, rfl, rfl, h.first, by simp⟩
  | cons u us ih =>
    obtain ⟨o, f1, h1, h2, h3, h4, h5⟩ := sample_inv f num den dt hin hout h ha u
    obtain ⟨os, f', g1, g2, g3, g4⟩ := ih f1 _ _ h2
    refine ⟨o :: os, f', ?_, by simp [g2], g3, ?_⟩
    · simp only [run, h1, Outcome.bind_ok, g1, Outcome.map_ok]
    · intro t o' ho
      cases t with
      | zero =>
        simp only [List.getElem?_cons_zero, Option.some.injEq] at ho
        subst ho
        simp only [List.map_cons, agoH_zero]
        exact ⟨h3, h4, h5⟩
      | succ t =>
        simp only [List.getElem?_cons_succ] at ho
        simp only [List.map_cons, agoH_succ]
        exact g4 t o' ho

theorem agoH_const (x : V) (s : List V) (t k : Nat) : agoH (fun _ => x) s t k = ago x s t k := rfl

theorem unroll_replicate {α : Type} (p n : Nat) (x : α) : unroll p (List.replicate n x) = List.replicate n x := by
  rw [unroll, List.take_replicate, List.drop_replicate, List.reverse_replicate, List.reverse_replicate,
    ← List.replicate_add]
  congr 1
  omega

/-- Buffers filled with a constant. -/
theorem inv_const (num den : List F) (dt : F) (u y : V) (hn : 0 < num.length) (hd : 2 ≤ den.length) :
    Inv ⟨dt, num, den, false, 0, 0, List.replicate num.length u, List.replicate (den.length - 1) y⟩ num den dt
      (fun _ => u) (fun _ => y) := by
  refine ⟨rfl, rfl, rfl, rfl, hn, by simp; omega, by simp, by simp, ?_, ?_⟩
  · intro k hk
    simp only [unroll_replicate]
    rw [List.getElem?_replicate, if_pos (by omega)]
  · intro k hk
    simp only [unroll_replicate]
    rw [List.getElem?_replicate, if_pos (by omega)]

theorem run_init (num den : List F) (dt : F) (u : V) (us : List V) :
    run (init V dt num den) (u :: us) =
      run ⟨dt, num, den, false, 0, 0, List.replicate num.length u,
        List.replicate (den.length - 1) (steady num den u)⟩ (u :: us) := rfl

/-! ## C32 -/

/-- For every history of inputs, the outputs of a new filter satisfy the difference equation at each step, the sequences being
constant before the first sample (the output at its steady value for the first input); the two derivatives are the backward
differences of the outputs. Stated for at least one coefficient above and three below. -/
theorem C32_difference_equation (num den : List F) (dt : F) (u : V) (us : List V) (hn : 0 < num.length)
    (hd : 3 ≤ den.length) (ha : den.getD 0 0 ≠ 0) :
    ∃ os f, run (init V dt num den) (u :: us) = .ok (os, f) ∧ os.length = us.length + 1 ∧
      ∀ t o, os[t]? = some o →
        DifferenceEquation num den u (den.sum⁻¹ • num.sum • u) (u :: us) (os.map (·.x)) t ∧
        o.dx = dt⁻¹ • (o.x - ago (den.sum⁻¹ • num.sum • u) (os.map (·.x)) t 1) ∧
        o.ddx = dt⁻¹ • dt⁻¹ • (o.x - (2 : F) • ago (den.sum⁻¹ • num.sum • u) (os.map (·.x)) t 1 +
          ago (den.sum⁻¹ • num.sum • u) (os.map (·.x)) t 2) := by
  obtain ⟨os, f, h1, h2, _, h3⟩ := run_inv num den dt ha (u :: us) _ _ _
    (inv_const num den dt u (steady num den u) hn (by omega))
  refine ⟨os, f, by rw [run_init]; exact h1, by simpa using h2, fun t o ho => ?_⟩
  obtain ⟨g1, g2, g3⟩ := h3 t o ho
  exact ⟨g1, g2, g3 hd⟩

/-- With two coefficients in the denominator the difference equation and the first derivative still hold (the second
derivative does not: see the counterexample). -/
theorem C32_difference_equation_first_order (num den : List F) (dt : F) (u : V) (us : List V) (hn : 0 < num.length)
    (hd : den.length = 2) (ha : den.getD 0 0 ≠ 0) :
    ∃ os f, run (init V dt num den) (u :: us) = .ok (os, f) ∧ os.length = us.length + 1 ∧
      ∀ t o, os[t]? = some o →
        DifferenceEquation num den u (den.sum⁻¹ • num.sum • u) (u :: us) (os.map (·.x)) t ∧
        o.dx = dt⁻¹ • (o.x - ago (den.sum⁻¹ • num.sum • u) (os.map (·.x)) t 1) := by
  obtain ⟨os, f, h1, h2, _, h3⟩ := run_inv num den dt ha (u :: us) _ _ _
    (inv_const num den dt u (steady num den u) hn (by omega))
  refine ⟨os, f, by rw [run_init]; exact h1, by simpa using h2, fun t o ho => ?_⟩
  obtain ⟨g1, g2, _⟩ := h3 t o ho
  exact ⟨g1, g2⟩

/-- One sample equal to the constant content of the buffers: the output is the steady value, and stays so. -/
theorem run_steady (num den : List F) (dt : F) (u : V) (hd : 3 ≤ den.length)
    (ha : den.getD 0 0 ≠ 0) (hs : den.sum ≠ 0) (N : Nat) (f : Filter F V)
    (h : Inv f num den dt (fun _ => u) (fun _ => steady num den u)) :
    ∃ f', run f (List.replicate N u) = .ok (List.replicate N ⟨steady num den u, 0, 0⟩, f') ∧
      Inv f' num den dt (fun _ => u) (fun _ => steady num den u) := by
  induction N generalizing f with
  | zero => exact ⟨f, rfl, h⟩
  | succ N ih =>
    obtain ⟨o, f1, h1, h2, h3, h4, h5⟩ := sample_inv f num den dt _ _ h ha u
    have hpush : ∀ x : V, push x (fun _ => x) = fun _ => x := by
      intro x; funext k; cases k <;> rfl
    have hy : o.x = steady num den u := by
      rw [hpush u, sum_replicate_ago] at h3
      obtain ⟨n, hn'⟩ : ∃ n, den.length = n + 1 := ⟨den.length - 1, by omega⟩
      have hsum : ∑ k ∈ range den.length, den.getD k 0 • steady num den u = den.sum • steady num den u :=
        sum_replicate_ago den _
      rw [hn', Finset.sum_range_succ'] at h3 hsum
      simp only [push] at h3
      have e1 : den.sum • steady num den u = num.sum • u := by
        rw [steady, smul_smul, mul_inv_cancel₀ hs, one_smul]
      rw [e1, ← h3] at hsum
      have e2 := add_left_cancel hsum
      have e3 := congrArg (fun v => (den.getD 0 0)⁻¹ • v) e2
      simp only [smul_smul, inv_mul_cancel₀ ha, one_smul] at e3
      exact e3.symm
    have ho : o = ⟨steady num den u, 0, 0⟩ := by
      have e4 : o.dx = 0 := by rw [h4, hy]; simp
      have e5 : o.ddx = 0 := by
        rw [h5 hd, hy]
        have : steady num den u - (2 : F) • steady num den u + steady num den u = 0 := by module
        rw [this]
        simp
      cases o
      simp only at hy e4 e5
      rw [hy, e4, e5]
    rw [hpush, hy, hpush] at h2
    obtain ⟨f', g1, g2⟩ := ih f1 h2
    exact ⟨f', by simp only [List.replicate_succ, run, h1, Outcome.bind_ok, g1, Outcome.map_ok, ho], g2⟩

/-- A constant input gives the steady-state output with zero derivatives from the first sample on. -/
theorem C32_constant_input (num den : List F) (dt : F) (u : V) (N : Nat) (hn : 0 < num.length) (hd : 3 ≤ den.length)
    (ha : den.getD 0 0 ≠ 0) (hs : den.sum ≠ 0) :
    ∃ f, run (init V dt num den) (List.replicate (N + 1) u) =
      .ok (List.replicate (N + 1) ⟨den.sum⁻¹ • num.sum • u, 0, 0⟩, f) := by
  obtain ⟨f, h, _⟩ := run_steady num den dt u hd ha hs (N + 1) _
    (inv_const num den dt u (steady num den u) hn (by omega))
  exact ⟨f, by rw [List.replicate_succ, run_init, ← List.replicate_succ]; exact h⟩

/-- With a denominator of two coefficients the second derivative is wrong: the filter `y(t) = u(t)` (b = 1, a = 1, 0), with
inputs 0, 1, 2, 3 and time step 1, has the second derivative 1 at the third and fourth steps, when it should be 0. -/
theorem C32_second_derivative_counterexample :
    ((run (init ℚ (1 : ℚ) [1] [1, 0]) [0, 1, 2, 3]).map fun r => r.1.map fun o => (o.x, o.dx, o.ddx)) =
      .ok [(0, 0, 0), (1, 1, 1), (2, 1, 1), (3, 1, 1)] := by
  decide +kernel

/-- A denominator of one coefficient (a pure moving average) is accepted at construction and the first sample reads out of
range. -/
theorem C32_moving_average_counterexample (num : List F) (a0 dt : F) (u : V) :
    sample (init V dt num [a0]) u = .ub := by
  simp [sample, fill, init]

example : ∃ (num den : List ℚ), 0 < num.length ∧ 3 ≤ den.length ∧ den.getD 0 0 ≠ 0 ∧ den.sum ≠ 0 :=
  ⟨[1, 2], [2, 1, 1], by decide, by decide, by decide, by norm_num⟩

example : ((run (init ℚ (1 : ℚ) [1, 2] [2, 1, 1]) [4, 0]).map fun r => r.1.map fun o => (o.x, o.dx, o.ddx)) =
    .ok [(3, 0, 0), (1, -2, -2)] := by
  decide +kernel

/-! ## C66: change of filter -/

/-- At rest (any number of equal inputs), a change of filter gives at once, and for ever, the steady output of the new
filter for this input, with zero derivatives. Missing: that the new filter starts from the latest input when the input
is not constant, which is false (next theorem). -/
theorem C66_switch_at_rest_partial (num den num' den' : List F) (dt : F) (u : V) (N M : Nat) (hn : 0 < num.length)
    (hd : 3 ≤ den.length) (ha : den.getD 0 0 ≠ 0) (hs : den.sum ≠ 0) (hn' : 0 < num'.length)
    (hd' : 3 ≤ den'.length) (ha' : den'.getD 0 0 ≠ 0) (hs' : den'.sum ≠ 0) :
    ∃ os f f' g, run (init V dt num den) (List.replicate (N + 1) u) = .ok (os, f) ∧
      switchFilter f num' den' = .ok f' ∧
      run f' (List.replicate M u) = .ok (List.replicate M ⟨den'.sum⁻¹ • num'.sum • u, 0, 0⟩, g) := by
  have hpush : ∀ x : V, push x (fun _ => x) = fun _ => x := by
    intro x; funext k; cases k <;> rfl
  obtain ⟨f, h, hf⟩ := run_steady num den dt u hd ha hs (N + 1) _
    (inv_const num den dt u (steady num den u) hn (by omega))
  -- every column of the input buffer is `u`
  have hcols : ∀ (M : Nat) (f f' : Filter F V) (os : List (Out V)), (∀ x ∈ f.input, x = u) →
      f.firstSample = false → run f (List.replicate M u) = .ok (os, f') → ∀ x ∈ f'.input, x = u := by
    intro M
    induction M with
    | zero =>
      intro f f' os h1 _ h2
      simp only [List.replicate_zero, run, Outcome.ok.injEq, Prod.mk.injEq] at h2
      rw [← h2.2]; exact h1
    | succ M ih =>
      intro f f' os h1 hfs h2
      simp only [List.replicate_succ, run] at h2
      obtain ⟨⟨o, f1⟩, h3, h4⟩ := Outcome.bind_eq_ok.mp h2
      obtain ⟨⟨os', f2⟩, h5, h6⟩ := Outcome.map_eq_ok.mp h4
      simp only [Prod.mk.injEq] at h6
      obtain ⟨_, rfl⟩ := h6
      have hfill : fill f u = f := by simp [fill, hfs]
      rw [sample, hfill] at h3
      simp only at h3
      split at h3
      · obtain ⟨a0, _, h7⟩ := Outcome.bind_eq_ok.mp h3
        obtain ⟨y1, _, h8⟩ := Outcome.bind_eq_ok.mp h7
        obtain ⟨y2, _, h9⟩ := Outcome.bind_eq_ok.mp h8
        simp only [Outcome.ok.injEq, Prod.mk.injEq] at h9
        refine ih f1 f2 os' ?_ ?_ h5
        · rw [← h9.2]
          intro x hx
          rcases List.mem_or_eq_of_mem_set hx with hx | hx
          · exact h1 x hx
          · exact hx
        · rw [← h9.2]; exact hfs
      · cases h3
  have hall := hcols (N + 1) _ f _ (by intro x hx; exact List.eq_of_mem_replicate hx) rfl h
  have hlt : f.ptn < f.input.length := by rw [hf.lin]; exact hf.ptn
  have hx : f.input[f.ptn] = u := hall _ (List.getElem_mem hlt)
  obtain ⟨g, hg, _⟩ := run_steady num' den' dt u hd' ha' hs' M _
    (inv_const num' den' dt u (steady num' den' u) hn' (by omega))
  refine ⟨_, f, _, g, by rw [List.replicate_succ, run_init, ← List.replicate_succ]; exact h, ?_, hg⟩
  rw [switchFilter, rd_of_lt _ _ hlt, Outcome.bind_ok, if_neg (by omega), hx, hf.hdt, hf.first]

/-- When the input varies, the new filter starts from the *oldest* input of the buffer instead of the latest: after inputs
0 and 1 on a filter of two numerator coefficients, switching to the filter `y(t) = (u(t) + u(t-1)) / 2` and keeping the input
at 1 gives the output 1/2 at the next step, although both last inputs are 1. -/
theorem C66_switch_counterexample :
    ((run (init ℚ (1 : ℚ) [1/2, 1/2] [1, 0, 0]) [0, 1]).bind fun r =>
      (switchFilter r.2 [1/2, 1/2] [1, 0, 0]).bind fun f =>
        (sample f 1).map fun o => o.1.x) = .ok (1/2) := by
  decide +kernel

/-- A change of filter before any sample has no lasting effect on the buffers: the first sample fills them. -/
theorem C66_switch_before_first_sample (num den num' den' : List F) (dt : F) (u : V) (us : List V)
    (hn : 0 < num.length) (hd' : 0 < den'.length) :
    ((switchFilter (init V dt num den) num' den').bind fun f => run f (u :: us)) =
      run (init V dt num' den') (u :: us) := by
  have hlt : (init V dt num den).ptn < (init V dt num den).input.length := by simpa [init] using hn
  rw [switchFilter, rd_of_lt _ _ hlt, Outcome.bind_ok, if_neg (by omega), Outcome.bind_ok]
  rfl

end Verif.Causal
