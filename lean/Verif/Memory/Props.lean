import Verif.Memory.Model
import Verif.Common.Lists
import Mathlib.Algebra.Order.Field.Basic
import Mathlib.Algebra.BigOperators.Group.List.Basic
import Mathlib.Algebra.BigOperators.Ring.List
import Mathlib.Tactic.ByContra
import Mathlib.Tactic.Ring
import Mathlib.Tactic.Linarith
import Mathlib.Tactic.NormNum
import Mathlib.Tactic.FieldSimp

/-!
# Properties C33 (moving average), C34 (derivator), C68 (gradient ascent), C69 (latch)
-/

set_option linter.unusedSectionVars false

namespace Verif.Memory

variable {F : Type} [Field F] [DecidableEq F]

theorem vzip_ok (f : F → F → F) (a b : List F) (h : a.length = b.length) :
    vzip f a b = .ok (List.zipWith f a b) := by simp [vzip, h]

/-! ## C33 -/

/-- Specification: the exponentially weighted sum of a history of scalars (oldest first) with a fixed weight:
`Σ (1 - α) α^(n-1-k) u_k`. -/
def weightedSum (α : F) (us : List F) : F :=
  ((us.zipIdx).map fun p => (1 - α) * α ^ (us.length - 1 - p.2) * p.1).sum

theorem weightedSum_snoc (α : F) (us : List F) (x : F) :
    weightedSum α (us ++ [x]) = α * weightedSum α us + (1 - α) * x := by
  simp only [weightedSum, List.zipIdx_append, List.map_append, List.sum_append, List.length_append, List.length_singleton]
  congr 1
  · rw [← List.sum_map_mul_left]
    congr 1
    apply List.map_congr_left
    intro p hp
    have hlt : p.2 < us.length := by
      have := List.mem_zipIdx hp
      omega
    have e : us.length + 1 - 1 - p.2 = (us.length - 1 - p.2) + 1 := by omega
    rw [e, pow_succ]
    ring
  · simp

theorem zipWith_getElem? {α β γ : Type} (f : α → β → γ) (a : List α) (b : List β) (i : Nat) (x : α) (y : β)
    (hx : a[i]? = some x) (hy : b[i]? = some y) : (List.zipWith f a b)[i]? = some (f x y) := by
  rw [List.getElem?_zipWith, hx, hy]

theorem ema_update_ok (e : Ema F) (n : Nat) (u : List F) (hu : u.length = n) (hl : e.init = true → e.average.length = n) :
    ∃ e', e.update u = .ok e' ∧ e'.init = true ∧ e'.average.length = n ∧ e'.alpha = e.alpha ∧
      ∀ (i : Nat) (a x : F), (e.init = true → e.average[i]? = some a) → (e.init = false → a = 0) → u[i]? = some x →
        e'.average[i]? = some (e.alpha * a + (1 - e.alpha) * x) := by
  have hlen : (if e.init then e.average else List.replicate u.length 0).length = u.length := by
    split
    · rename_i h; rw [hl h, hu]
    · simp
  refine ⟨⟨List.zipWith (fun a x => e.alpha * a + (1 - e.alpha) * x)
      (if e.init then e.average else List.replicate u.length 0) u, e.alpha, true⟩,
    by simp only [Ema.update]; rw [vzip_ok _ _ _ hlen, Outcome.map_ok], rfl, ?_, rfl, ?_⟩
  · simp only [List.length_zipWith]
    rw [hlen, hu, Nat.min_self]
  · intro i a x h1 h2 hx
    simp only
    refine zipWith_getElem? _ _ _ i a x ?_ hx
    split
    · rename_i h; exact h1 h
    · rename_i h
      rw [h2 (by simpa using h)]
      have hi := (List.getElem?_eq_some_iff.mp hx).1
      rw [List.getElem?_replicate, if_pos hi]

/-- With a fixed weight, after any history of inputs of the same size, each component of the average is the
exponentially weighted sum of the inputs of this component. -/
theorem C33_average_is_weighted_sum (α : F) (n : Nat) (us : List (List F)) (hu : ∀ u ∈ us, u.length = n)
    (hne : us ≠ []) :
    ∃ e, Ema.run Ema.new (EmaOp.setAlpha α :: us.map EmaOp.update) = .ok e ∧ e.average.length = n ∧
      ∀ i, i < n → e.average[i]? = some (weightedSum α (us.map fun u => u.getD i 0)) := by
  have key : ∀ us : List (List F), (∀ u ∈ us, u.length = n) →
      ∃ e, Ema.run (Ema.new.setAlpha α) (us.map EmaOp.update) = .ok e ∧ e.alpha = α ∧ (e.init = true ↔ us ≠ []) ∧
        (e.init = true → e.average.length = n) ∧
        (e.init = true → ∀ i, i < n → e.average[i]? = some (weightedSum α (us.map fun u => u.getD i 0))) := by
    intro us
    induction us using Verif.snoc_induction with
    | nil =>
      intro _
      exact ⟨_, rfl, rfl, by simp [Ema.new, Ema.setAlpha], by simp [Ema.new, Ema.setAlpha],
        by simp [Ema.new, Ema.setAlpha]⟩
    | snoc us u ih =>
      intro hu
      obtain ⟨e, h1, h2, h3, h4, h5⟩ := ih (fun v hv => hu v (by simp [hv]))
      have hun : u.length = n := hu u (by simp)
      obtain ⟨e', g1, g2, g3, g4, g5⟩ := ema_update_ok e n u hun h4
      have hrun : ∀ (os : List (EmaOp F)) (s : Ema F) (r : Ema F), Ema.run s os = .ok r →
          Ema.run s (os ++ [EmaOp.update u]) = r.update u := by
        intro os
        induction os with
        | nil =>
          intro s r h
          simp only [Ema.run, Outcome.ok.injEq] at h
          subst h
          simp only [List.nil_append, Ema.run]
          cases s.update u <;> rfl
        | cons o os ih2 =>
          intro s r h
          cases o with
          | setAlpha a => exact ih2 _ r h
          | update v =>
            simp only [Ema.run, List.cons_append] at h ⊢
            obtain ⟨s1, h6, h7⟩ := Outcome.bind_eq_ok.mp h
            rw [h6, Outcome.bind_ok]
            exact ih2 _ r h7
      refine ⟨e', ?_, by rw [g4, h2], by simp [g2], fun _ => g3, ?_⟩
      · rw [List.map_append, List.map_singleton, hrun _ _ e h1, g1]
      · intro _ i hi
        have hx : u[i]? = some (u.getD i 0) := by
          rw [List.getD_eq_getElem?_getD, List.getElem?_eq_getElem (by omega)]
          rfl
        have := g5 i (weightedSum α (us.map fun u => u.getD i 0)) (u.getD i 0) (fun h => h5 h i hi) (fun h => by
          have : us = [] := by
            by_contra hc
            have := h3.mpr hc
            rw [h] at this
            cases this
          subst this
          rfl) hx
        rw [this, List.map_append, List.map_singleton, weightedSum_snoc, h2]
  obtain ⟨e, h1, _, h3, h4, h5⟩ := key us hu
  exact ⟨e, h1, h4 (h3.mpr hne), h5 (h3.mpr hne)⟩

example : weightedSum (1/2 : ℚ) [4, 8] = 5 := by norm_num [weightedSum, List.zipIdx]

/-- Whatever the history of weights in [0,1] and inputs of one size, every component stays in any interval that contains zero
and all the inputs of this component. -/
theorem C33_average_stays_in_interval [LinearOrder F] [IsStrictOrderedRing F] (n : Nat) (os : List (EmaOp F)) (e : Ema F)
    (i : Nat) (lo hi : F) (hα : ∀ a, EmaOp.setAlpha a ∈ os → 0 ≤ a ∧ a ≤ 1)
    (hu : ∀ u, EmaOp.update u ∈ os → u.length = n)
    (hin : ∀ u x, EmaOp.update u ∈ os → u[i]? = some x → lo ≤ x ∧ x ≤ hi) (h0 : lo ≤ 0 ∧ 0 ≤ hi)
    (hrun : Ema.run Ema.new os = .ok e) :
    ∀ a, e.average[i]? = some a → lo ≤ a ∧ a ≤ hi := by
  have key : ∀ (os : List (EmaOp F)) (s : Ema F), (∀ a, EmaOp.setAlpha a ∈ os → 0 ≤ a ∧ a ≤ 1) →
      (∀ u, EmaOp.update u ∈ os → u.length = n) →
      (∀ u x, EmaOp.update u ∈ os → u[i]? = some x → lo ≤ x ∧ x ≤ hi) →
      (0 ≤ s.alpha ∧ s.alpha ≤ 1) → (s.init = true → s.average.length = n) →
      (∀ a, s.average[i]? = some a → lo ≤ a ∧ a ≤ hi) → Ema.run s os = .ok e →
      ∀ a, e.average[i]? = some a → lo ≤ a ∧ a ≤ hi := by
    intro os
    induction os with
    | nil =>
      intro s _ _ _ _ _ h h2
      simp only [Ema.run, Outcome.ok.injEq] at h2
      rw [← h2]; exact h
    | cons o os ih =>
      intro s h1 h2 h3 h4 h5 h6 h7
      cases o with
      | setAlpha a =>
        exact ih (s.setAlpha a) (fun b hb => h1 b (by simp [hb])) (fun u hu => h2 u (by simp [hu]))
          (fun u x hu => h3 u x (by simp [hu])) (h1 a (by simp)) h5 h6 h7
      | update u =>
        simp only [Ema.run] at h7
        obtain ⟨s', g1, g2⟩ := Outcome.bind_eq_ok.mp h7
        obtain ⟨s1, k1, k2, k3, k4, k5⟩ := ema_update_ok s n u (h2 u (by simp)) h5
        rw [g1] at k1
        simp only [Outcome.ok.injEq] at k1
        subst k1
        refine ih s' (fun b hb => h1 b (by simp [hb])) (fun u hu => h2 u (by simp [hu]))
          (fun u x hu => h3 u x (by simp [hu])) (by rw [k4]; exact h4) (fun _ => k3) ?_ g2
        intro a ha
        have hi' : i < n := by
          have := (List.getElem?_eq_some_iff.mp ha).1
          omega
        have hun := h2 u (by simp)
        have hx : u[i]? = some (u[i]'(by omega)) := List.getElem?_eq_getElem (by omega)
        have hbx := h3 u _ (by simp) hx
        have hb : ∃ b, (s.init = true → s.average[i]? = some b) ∧ (s.init = false → b = 0) ∧ lo ≤ b ∧ b ≤ hi := by
          cases hinit : s.init with
          | true =>
            have hlen : i < s.average.length := by rw [h5 hinit]; exact hi'
            exact ⟨s.average[i], (fun _ => List.getElem?_eq_getElem hlen), (fun h => by cases h),
              h6 _ (List.getElem?_eq_getElem hlen)⟩
          | false => exact ⟨0, (fun h => by cases h), (fun _ => rfl), h0⟩
        obtain ⟨b, hb1, hb2, hb3, hb4⟩ := hb
        have e1 := k5 i b _ hb1 hb2 hx
        rw [ha] at e1
        simp only [Option.some.injEq] at e1
        subst e1
        obtain ⟨a0, a1⟩ := h4
        have a1' : 0 ≤ 1 - s.alpha := by linarith
        constructor
        · nlinarith [mul_le_mul_of_nonneg_left hb3 a0, mul_le_mul_of_nonneg_left hbx.1 a1']
        · nlinarith [mul_le_mul_of_nonneg_left hb4 a0, mul_le_mul_of_nonneg_left hbx.2 a1']
  exact key os Ema.new hα hu hin ⟨le_rfl, zero_le_one⟩ (by simp [Ema.new]) (by simp [Ema.new]) hrun

/-- The average starts from zero and not from the first input: the average of a constant input is not the constant. -/
theorem C33_starts_from_zero_counterexample :
    ((Ema.run (Ema.new : Ema ℚ) [.setAlpha (1/2), .update [4]]).map (·.average)) = .ok [2] := by
  decide +kernel

/-- A weight outside [0,1] is accepted (also with assertions, which test the previous weight), and the average then leaves the
interval of the inputs. -/
theorem C33_bad_weight_counterexample :
    ((Ema.run (Ema.new : Ema ℚ) [.setAlpha 3, .update [1]]).map (·.average)) = .ok [-2] := by
  decide +kernel

/-! ## C34: derivator -/

/-- Specification: the derivative output at each step: zero first, then the difference to the previous input over the time
step. -/
def Derivative (ios : List (F × List F)) (out : List (List F)) (t : Nat) : Prop :=
  ∀ (i : Nat) dt x, ios[t]? = some (dt, x) → ∀ xi, x[i]? = some xi → ∃ o, out[t]? = some o ∧
    (t = 0 → o[i]? = some 0) ∧
    (∀ (t' : Nat) dt' x' xi', t = t' + 1 → ios[t']? = some (dt', x') → x'[i]? = some xi' → o[i]? = some ((xi - xi') / dt))

/-- For inputs of one size and every time step (with the convention of the field when it is zero), the derivator outputs zero,
then (current - previous) / dt. -/
theorem C34_derivator (n : Nat) (ios : List (F × List F)) (hn : ∀ p ∈ ios, p.2.length = n) :
    ∃ out s, Deriv.run ⟨[], false⟩ ios = .ok (out, s) ∧ out.length = ios.length ∧
      ∀ t, Derivative ios out t := by
  have step : ∀ (m : List F) (dt : F) (x : List F), m.length = n → x.length = n →
      ∃ o, Deriv.compute ⟨m, true⟩ dt x = .ok (o, ⟨x, true⟩) ∧
        ∀ (i : Nat) (a b : F), m[i]? = some a → x[i]? = some b → o[i]? = some ((b - a) / dt) := by
    intro m dt x hm hx
    refine ⟨_, by
      rw [Deriv.compute, if_pos rfl, vzip_ok _ _ _ (by simp [hm, hx]), Outcome.map_ok], ?_⟩
    intro i a b ha hb
    have e : (List.zipWith (fun r m => r + m) (m.map fun m => m * (-1)) x)[i]? = some (a * (-1) + b) :=
      zipWith_getElem? _ _ _ i _ b (by simp [ha]) hb
    split
    · rw [List.getElem?_map, e, Option.map_some]
      congr 1
      ring
    · rename_i h
      have : dt = 1 := by simpa using h
      rw [e, this]
      congr 1
      ring
  have key : ∀ (ios : List (F × List F)) (m : List F), m.length = n → (∀ p ∈ ios, p.2.length = n) →
      ∃ out s, Deriv.run ⟨m, true⟩ ios = .ok (out, s) ∧ out.length = ios.length ∧
        ∀ (t i : Nat) dt x, ios[t]? = some (dt, x) → ∀ xi, x[i]? = some xi → ∃ o, out[t]? = some o ∧
          (∀ a, t = 0 → m[i]? = some a → o[i]? = some ((xi - a) / dt)) ∧
          (∀ (t' : Nat) dt' x' xi', t = t' + 1 → ios[t']? = some (dt', x') → x'[i]? = some xi' →
            o[i]? = some ((xi - xi') / dt)) := by
    intro ios
    induction ios with
    | nil => intro m _ _; exact ⟨[], _, rfl, rfl, by simp⟩
    | cons p ios ih =>
      intro m hm hn
      obtain ⟨dt, x⟩ := p
      have hx : x.length = n := hn (dt, x) (by simp)
      obtain ⟨o, h1, h2⟩ := step m dt x hm hx
      obtain ⟨out, s, h3, h4, h5⟩ := ih x hx (fun p hp => hn p (by simp [hp]))
      refine ⟨o :: out, s, ?_, by simp [h4], ?_⟩
      · simp only [Deriv.run, h1, Outcome.bind_ok, h3, Outcome.map_ok]
      · intro t i dt' x' ht xi hxi
        cases t with
        | zero =>
          simp only [List.getElem?_cons_zero, Option.some.injEq, Prod.mk.injEq] at ht
          obtain ⟨rfl, rfl⟩ := ht
          refine ⟨o, rfl, fun a _ ha => h2 i a xi ha hxi, ?_⟩
          intro t' _ _ _ h; omega
        | succ t =>
          simp only [List.getElem?_cons_succ] at ht
          obtain ⟨o', g1, g2, g3⟩ := h5 t i dt' x' ht xi hxi
          refine ⟨o', by simpa using g1, fun _ h => by omega, ?_⟩
          intro t' dt'' x'' xi' he hx'' hxi'
          have : t = t' := by omega
          subst this
          cases t with
          | zero =>
            simp only [List.getElem?_cons_zero, Option.some.injEq, Prod.mk.injEq] at hx''
            obtain ⟨rfl, rfl⟩ := hx''
            exact g2 xi' rfl hxi'
          | succ t =>
            simp only [List.getElem?_cons_succ] at hx''
            exact g3 t dt'' x'' xi' rfl hx'' hxi'
  cases ios with
  | nil => exact ⟨[], _, rfl, rfl, by simp [Derivative]⟩
  | cons p ios =>
    obtain ⟨dt, x⟩ := p
    have hx : x.length = n := hn (dt, x) (by simp)
    obtain ⟨out, s, h3, h4, h5⟩ := key ios x hx (fun p hp => hn p (by simp [hp]))
    refine ⟨x.map (fun m => m * 0) :: out, s, ?_, by simp [h4], ?_⟩
    · simp only [Deriv.run, Deriv.compute, Bool.false_eq_true, if_false, Outcome.bind_ok, h3, Outcome.map_ok]
    · intro t i dt' x' ht xi hxi
      cases t with
      | zero =>
        simp only [List.getElem?_cons_zero, Option.some.injEq, Prod.mk.injEq] at ht
        obtain ⟨rfl, rfl⟩ := ht
        exact ⟨_, rfl, (fun _ => by rw [List.getElem?_map, hxi]; simp), by intro t' _ _ _ h; omega⟩
      | succ t =>
        simp only [List.getElem?_cons_succ] at ht
        obtain ⟨o', g1, g2, g3⟩ := h5 t i dt' x' ht xi hxi
        refine ⟨o', by simpa using g1, by intro h; omega, ?_⟩
        intro t' dt'' x'' xi' he hx'' hxi'
        have : t = t' := by omega
        subst this
        cases t with
        | zero =>
          simp only [List.getElem?_cons_zero, Option.some.injEq, Prod.mk.injEq] at hx''
          obtain ⟨rfl, rfl⟩ := hx''
          exact g2 xi' rfl hxi'
        | succ t =>
          simp only [List.getElem?_cons_succ] at hx''
          exact g3 t dt'' x'' xi' rfl hx'' hxi'

example : ((Deriv.run (⟨[], false⟩ : Deriv ℚ) [(1, [3]), (2, [7]), (2, [7])]).map (·.1)) = .ok [[0], [2], [0]] := by
  decide +kernel

/-! ## C68: gradient ascent -/

/-- After any history of rates and gradients of one size, each component of the value is the sum of rate times gradient. -/
theorem C68_value_is_sum (n : Nat) (os : List (F × List F)) (hn : ∀ p ∈ os, p.2.length = n) (hne : os ≠ []) :
    ∃ s, Ascent.run ⟨[], false⟩ os = .ok s ∧ s.value.length = n ∧
      ∀ i, i < n → s.value[i]? = some ((os.map fun p => p.1 * p.2.getD i 0).sum) := by
  have step : ∀ (s : Ascent F) (r : F) (g : List F), g.length = n → (s.init = true → s.value.length = n) →
      ∃ s', s.update r g = .ok s' ∧ s'.init = true ∧ s'.value.length = n ∧
        ∀ i, i < n → s'.value[i]? =
          some ((if s.init then s.value.getD i 0 else 0) + r * g.getD i 0) := by
    intro s r g hg hs
    have hlen : (if s.init then s.value else List.replicate g.length 0).length = g.length := by
      split
      · rename_i h; rw [hs h, hg]
      · simp
    refine ⟨_, by simp only [Ascent.update]; rw [vzip_ok _ _ _ hlen, Outcome.map_ok], rfl, ?_, ?_⟩
    · simp only [List.length_zipWith]
      rw [hlen, hg, Nat.min_self]
    · intro i hi
      simp only
      refine zipWith_getElem? _ _ _ i _ _ ?_ ?_
      · split
        · rename_i h
          have : i < s.value.length := by rw [hs h]; exact hi
          rw [List.getD_eq_getElem?_getD, List.getElem?_eq_getElem this]
          rfl
        · rw [List.getElem?_replicate, if_pos (by omega)]
      · rw [List.getD_eq_getElem?_getD, List.getElem?_eq_getElem (by omega)]
        rfl
  have key : ∀ (os : List (F × List F)) (s : Ascent F), (∀ p ∈ os, p.2.length = n) → s.init = true →
      s.value.length = n → ∃ s', Ascent.run s os = .ok s' ∧ s'.value.length = n ∧
        ∀ i, i < n → s'.value[i]? = some (s.value.getD i 0 + (os.map fun p => p.1 * p.2.getD i 0).sum) := by
    intro os
    induction os with
    | nil =>
      intro s _ _ h
      refine ⟨s, rfl, h, fun i hi => ?_⟩
      rw [List.getD_eq_getElem?_getD, List.getElem?_eq_getElem (by omega)]
      simp
    | cons p os ih =>
      intro s hn hi hl
      obtain ⟨s1, h1, h2, h3, h4⟩ := step s p.1 p.2 (hn p (by simp)) (fun _ => hl)
      obtain ⟨s2, g1, g2, g3⟩ := ih s1 (fun q hq => hn q (by simp [hq])) h2 h3
      refine ⟨s2, ?_, g2, ?_⟩
      · simp only [Ascent.run, h1, Outcome.bind_ok, g1]
      · intro i hi'
        rw [g3 i hi', List.getD_eq_getElem?_getD, h4 i hi', hi]
        simp only [if_true, Option.getD_some, List.map_cons, List.sum_cons]
        rw [add_assoc]
  cases os with
  | nil => exact absurd rfl hne
  | cons p os =>
    obtain ⟨s1, h1, h2, h3, h4⟩ := step ⟨[], false⟩ p.1 p.2 (hn p (by simp)) (by simp)
    obtain ⟨s2, g1, g2, g3⟩ := key os s1 (fun q hq => hn q (by simp [hq])) h2 h3
    refine ⟨s2, ?_, g2, ?_⟩
    · simp only [Ascent.run, h1, Outcome.bind_ok, g1]
    · intro i hi'
      rw [g3 i hi', List.getD_eq_getElem?_getD, h4 i hi']
      simp

example : ((Ascent.run (⟨[], false⟩ : Ascent ℚ) [(1/2, [4, 2]), (2, [1, 1])]).map (·.value)) = .ok [4, 3] := by
  decide +kernel

/-! ## C69: latch -/

/-- An operation that sets the latch, and to what. -/
def command : LatchOp → Option Bool
  | .turnOn | .turnOnSout => some true
  | .turnOff | .turnOffSout => some false
  | .out => none

/-- Whatever the history, the output is the last command received (evaluations of the two command signals included), and off
before any; reading the output changes nothing. -/
theorem C69_latch_holds_last_command (os : List LatchOp) :
    (latchStep (latchRun os) .out) = (latchRun os, some ((os.filterMap command).getLast?.getD false)) := by
  have : latchRun os = ((os.filterMap command).getLast?.getD false) := by
    induction os using Verif.snoc_induction with
    | nil => rfl
    | snoc os o ih =>
      rw [latchRun] at ih ⊢
      rw [List.foldl_append, List.filterMap_append]
      simp only [List.foldl_cons, List.foldl_nil]
      rw [ih]
      cases o <;> simp [latchStep, command]
  rw [← this]
  rfl

example : latchRun [.turnOn, .out, .turnOffSout, .turnOnSout, .out] = true := by decide

end Verif.Memory
