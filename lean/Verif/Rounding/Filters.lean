import Verif.Rounding.Regulator
import Verif.Memory.Props
import Verif.Fir.Props

/-!
# C132: the moving average and the FIR filter with rounding
-/

namespace Verif.Rounding

open Verif.Memory

variable {r : Rounding}

/-! ## The moving average -/

/-- What one update adds to the error of an average with the weight `α`, for inputs at most `X`. -/
noncomputable def averageSlip (r : Rounding) (α X : ℝ) : ℝ :=
  (1 + r.u) * (r.u * α * X + r.η + (r.u * ((1 + r.u) * (1 - α) + r.η) * X + r.η + (r.u * (1 - α) + r.η) * X)) + r.u * X + r.η

theorem averageSlip_nonneg {α X : ℝ} (h0 : 0 ≤ α) (h1 : α ≤ 1) (hX : 0 ≤ X) : 0 ≤ averageSlip r α X := by
  have hu := r.u_nonneg
  have hη := r.η_nonneg
  have h2 : 0 ≤ 1 - α := by linarith
  unfold averageSlip
  positivity

theorem average_step {α a A x δ X : ℝ} (h0 : 0 ≤ α) (h1 : α ≤ 1) (hδ : |a - A| ≤ δ) (hA : |A| ≤ X) (hx : |x| ≤ X) :
    |r.rnd (r.rnd (α * a) + r.rnd (r.rnd (1 - α) * x)) - (α * A + (1 - α) * x)| ≤ (1 + r.u) ^ 2 * α * δ + averageSlip r α X := by
  have hu := r.u_nonneg
  have hη := r.η_nonneg
  have hX : 0 ≤ X := (abs_nonneg A).trans hA
  have ha : |a| ≤ X + δ := by
    have := abs_add_le A (a - A)
    rw [add_sub_cancel] at this
    linarith
  have p1 : |r.rnd (α * a) - α * a| ≤ r.u * (α * (X + δ)) + r.η := by
    refine (r.err _).trans ?_
    rw [abs_mul, abs_of_nonneg h0]
    linarith [mul_le_mul_of_nonneg_left (mul_le_mul_of_nonneg_left ha h0) hu]
  have b1 : |r.rnd (1 - α) - (1 - α)| ≤ r.u * (1 - α) + r.η := by
    have := r.err (1 - α)
    rwa [abs_of_nonneg (show 0 ≤ 1 - α by linarith)] at this
  have b2 : |r.rnd (1 - α)| ≤ (1 + r.u) * (1 - α) + r.η := by
    have := abs_add_le (1 - α) (r.rnd (1 - α) - (1 - α))
    rw [add_sub_cancel, abs_of_nonneg (show 0 ≤ 1 - α by linarith)] at this
    linarith
  have w1 : |r.rnd (r.rnd (1 - α) * x) - (1 - α) * x| ≤ r.u * ((1 + r.u) * (1 - α) + r.η) * X + r.η + (r.u * (1 - α) + r.η) * X := by
    have w2 := r.err (r.rnd (1 - α) * x)
    have w3 : |r.rnd (1 - α) * x| ≤ ((1 + r.u) * (1 - α) + r.η) * X := by
      rw [abs_mul]
      exact mul_le_mul b2 hx (abs_nonneg _) ((abs_nonneg _).trans b2)
    have w4 : |(r.rnd (1 - α) - (1 - α)) * x| ≤ (r.u * (1 - α) + r.η) * X := by
      rw [abs_mul]
      exact mul_le_mul b1 hx (abs_nonneg _) ((abs_nonneg _).trans b1)
    have w5 := mul_le_mul_of_nonneg_left w3 hu
    rw [show r.rnd (r.rnd (1 - α) * x) - (1 - α) * x =
      (r.rnd (r.rnd (1 - α) * x) - r.rnd (1 - α) * x) + (r.rnd (1 - α) - (1 - α)) * x by ring]
    refine (abs_add_le _ _).trans ?_
    linarith
  set E := r.u * ((1 + r.u) * (1 - α) + r.η) * X + r.η + (r.u * (1 - α) + r.η) * X with hE
  set s := r.rnd (α * a) + r.rnd (r.rnd (1 - α) * x) with hs
  set S := α * A + (1 - α) * x with hS
  have s1 : |s - S| ≤ α * δ + (r.u * (α * (X + δ)) + r.η) + E := by
    rw [show s - S = α * (a - A) + (r.rnd (α * a) - α * a) + (r.rnd (r.rnd (1 - α) * x) - (1 - α) * x) by rw [hs, hS]; ring]
    refine (abs_add_le _ _).trans (add_le_add ((abs_add_le _ _).trans (add_le_add ?_ p1)) w1)
    rw [abs_mul, abs_of_nonneg h0]
    exact mul_le_mul_of_nonneg_left hδ h0
  have s2 : |S| ≤ X := by
    have h3 : |α * A| ≤ α * X := by rw [abs_mul, abs_of_nonneg h0]; exact mul_le_mul_of_nonneg_left hA h0
    have h4 : |(1 - α) * x| ≤ (1 - α) * X := by
      rw [abs_mul, abs_of_nonneg (show 0 ≤ 1 - α by linarith)]
      exact mul_le_mul_of_nonneg_left hx (by linarith)
    have := abs_add_le (α * A) ((1 - α) * x)
    linarith
  have s3 : |s| ≤ X + (α * δ + (r.u * (α * (X + δ)) + r.η) + E) := by
    have := abs_add_le S (s - S)
    rw [add_sub_cancel] at this
    linarith
  have s4 := (r.err s).trans (add_le_add_left (mul_le_mul_of_nonneg_left s3 hu) r.η)
  have s5 := abs_add_le (r.rnd s - s) (s - S)
  rw [sub_add_sub_cancel] at s5
  have : (1 + r.u) ^ 2 * α * δ + averageSlip r α X =
      (r.u * (X + (α * δ + (r.u * (α * (X + δ)) + r.η) + E)) + r.η) + (α * δ + (r.u * (α * (X + δ)) + r.η) + E) := by
    unfold averageSlip
    rw [hE]
    ring
  rw [this]
  linarith

section AnyNumbers

variable {F : Type} [Zero F] [One F] [Add F] [Sub F] [Mul F]

theorem update_ok (e : Ema F) (u : List F) (h : e.init = true → e.average.length = u.length) :
    ∃ e', e.update u = .ok e' ∧ e'.alpha = e.alpha ∧ e'.init = true ∧ e'.average.length = u.length ∧
      ∀ (i : Nat) (a x : F), (if e.init then e.average[i]? = some a else a = 0) → u[i]? = some x →
        e'.average[i]? = some (e.alpha * a + (1 - e.alpha) * x) := by
  have hlen : (if e.init = true then e.average else List.replicate u.length 0).length = u.length := by
    split_ifs with hi
    · exact h hi
    · simp
  refine ⟨⟨List.zipWith (fun a x => e.alpha * a + (1 - e.alpha) * x) (if e.init = true then e.average else List.replicate u.length 0) u,
    e.alpha, true⟩, by rw [Ema.update, vzip, if_pos hlen, Outcome.map_ok], rfl, rfl, by simp [hlen], ?_⟩
  intro i a x ha hx
  simp only [List.getElem?_zipWith]
  have hi : i < u.length := (List.getElem?_eq_some_iff.mp hx).1
  split_ifs at ha ⊢
  · rw [ha, hx]
  · rw [ha, hx, List.getElem?_replicate, if_pos hi]

end AnyNumbers

/-- Two averages of vectors of size `n`, one with rounding, that differ by at most `δ`; the exact one is at most `X`. -/
structure NearAverage (n : Nat) (δ X : ℝ) (e : Ema (Fl r)) (E : Ema ℝ) : Prop where
  alpha : E.alpha = e.alpha.val
  init : E.init = e.init
  len : e.init = true → e.average.length = n
  len' : E.init = true → E.average.length = n
  near : e.init = true → ∀ i, i < n → ∃ a A, e.average[i]? = some a ∧ E.average[i]? = some A ∧ |a.val - A| ≤ δ ∧ |A| ≤ X

theorem NearAverage.step {n : Nat} {δ X : ℝ} {e : Ema (Fl r)} {E : Ema ℝ} (h : NearAverage n δ X e E) (hδ : 0 ≤ δ) (hX : 0 ≤ X)
    (h0 : 0 ≤ e.alpha.val) (h1 : e.alpha.val ≤ 1) {u : List (Fl r)} (hu : u.length = n) (hb : ∀ x ∈ u, |x.val| ≤ X) :
    ∃ e' E', e.update u = .ok e' ∧ E.update (u.map Fl.val) = .ok E' ∧ e'.alpha = e.alpha ∧
      e'.init = true ∧ NearAverage n ((1 + r.u) ^ 2 * e.alpha.val * δ + averageSlip r e.alpha.val X) X e' E' := by
  obtain ⟨e', a1, a2, a3, a4, a5⟩ := update_ok e u (fun hi => by rw [h.len hi, hu])
  obtain ⟨E', b1, b2, b3, b4, b5⟩ := update_ok E (u.map Fl.val) (fun hi => by rw [h.len' hi, List.length_map, hu])
  refine ⟨e', E', a1, b1, a2, a3, by rw [b2, a2, h.alpha], by rw [a3, b3], fun _ => by rw [a4, hu], fun _ => by rw [b4]; simpa using hu, ?_⟩
  intro _ i hi
  have hiu : i < u.length := by omega
  have hx := List.getElem?_eq_getElem hiu
  have hbx := hb u[i] (List.getElem_mem hiu)
  obtain ⟨a, A, k1, k2, k3, k4⟩ : ∃ a A, (if e.init then e.average[i]? = some a else a = 0) ∧ (if E.init then E.average[i]? = some A else A = 0) ∧
      |a.val - A| ≤ δ ∧ |A| ≤ X := by
    by_cases hin : e.init = true
    · obtain ⟨a, A, k1, k2, k3, k4⟩ := h.near hin i hi
      exact ⟨a, A, by rwa [if_pos hin], by rwa [h.init, if_pos hin], k3, k4⟩
    · exact ⟨0, 0, by rw [if_neg hin], by rw [h.init, if_neg hin], by simpa using hδ, by simpa using hX⟩
  refine ⟨_, _, a5 i a u[i] k1 hx, b5 i A u[i].val k2 (by simp [hx]), ?_, ?_⟩
  · rw [h.alpha]
    simp only [Fl.val_add, Fl.val_mul, Fl.val_sub, Fl.val_one]
    exact average_step h0 h1 k3 k4 hbx
  · rw [h.alpha]
    have h3 : |e.alpha.val * A| ≤ e.alpha.val * X := by rw [abs_mul, abs_of_nonneg h0]; exact mul_le_mul_of_nonneg_left k4 h0
    have h4 : |(1 - e.alpha.val) * u[i].val| ≤ (1 - e.alpha.val) * X := by
      rw [abs_mul, abs_of_nonneg (show 0 ≤ 1 - e.alpha.val by linarith)]
      exact mul_le_mul_of_nonneg_left hbx (by linarith)
    have := abs_add_le (e.alpha.val * A) ((1 - e.alpha.val) * u[i].val)
    linarith

theorem near_average {n : Nat} {X : ℝ} (hX : 0 ≤ X) (us : List (List (Fl r))) (hu : ∀ u ∈ us, u.length = n)
    (hb : ∀ u ∈ us, ∀ x ∈ u, |x.val| ≤ X) : ∀ {δ : ℝ} {e : Ema (Fl r)} {E : Ema ℝ}, NearAverage n δ X e E → 0 ≤ δ → 0 ≤ e.alpha.val →
    e.alpha.val ≤ 1 → ∃ e' E', Ema.run e (us.map EmaOp.update) = .ok e' ∧
      Ema.run E (us.map fun u => EmaOp.update (u.map Fl.val)) = .ok E' ∧ (us ≠ [] → e'.init = true) ∧
      NearAverage n (((1 + r.u) ^ 2 * e.alpha.val) ^ us.length * δ +
        averageSlip r e.alpha.val X * ∑ s ∈ Finset.range us.length, ((1 + r.u) ^ 2 * e.alpha.val) ^ s) X e' E' := by
  induction us with
  | nil =>
    intro δ e E h _ _ _
    exact ⟨e, E, rfl, rfl, by simp, by simpa using h⟩
  | cons u us ih =>
    intro δ e E h hδ h0 h1
    obtain ⟨e1, E1, a1, a2, a3, a4, a5⟩ := h.step hδ hX h0 h1 (hu u (by simp)) (hb u (by simp))
    have hu0 := r.u_nonneg
    have hδ1 : 0 ≤ (1 + r.u) ^ 2 * e.alpha.val * δ + averageSlip r e.alpha.val X := by
      have := averageSlip_nonneg (r := r) h0 h1 hX
      positivity
    obtain ⟨e', E', b1, b2, b3, b4⟩ := ih (fun w hw => hu w (by simp [hw])) (fun w hw => hb w (by simp [hw])) a5 hδ1 (by rw [a3]; exact h0) (by rw [a3]; exact h1)
    refine ⟨e', E', ?_, ?_, ?_, ?_⟩
    · simp only [List.map_cons, Ema.run, a1, Outcome.bind_ok]
      exact b1
    · simp only [List.map_cons, Ema.run, a2, Outcome.bind_ok]
      exact b2
    · intro _
      cases us with
      | nil =>
        simp only [List.map_nil, Ema.run, Outcome.ok.injEq] at b1
        rw [← b1, a4]
      | cons w ws => exact b3 (by simp)
    · rw [a3] at b4
      have : ((1 + r.u) ^ 2 * e.alpha.val) ^ (u :: us).length * δ +
          averageSlip r e.alpha.val X * ∑ s ∈ Finset.range (u :: us).length, ((1 + r.u) ^ 2 * e.alpha.val) ^ s =
          ((1 + r.u) ^ 2 * e.alpha.val) ^ us.length * ((1 + r.u) ^ 2 * e.alpha.val * δ + averageSlip r e.alpha.val X) +
          averageSlip r e.alpha.val X * ∑ s ∈ Finset.range us.length, ((1 + r.u) ^ 2 * e.alpha.val) ^ s := by
        rw [List.length_cons, Finset.sum_range_succ]
        ring
      rw [this]
      exact b4

/-- **The rounding errors of the moving average do not accumulate.** For inputs of one size, at most `X` in absolute value, and a weight `α`
between 0 and 1: each component of the average after `T` inputs is the exponentially weighted sum of the inputs of this component, up to
`(1 + κ + … + κ^(T-1))` times an amount of the order of `u X`, with `κ = (1 + u)² α`. -/
theorem C132_average (α : Fl r) (h0 : 0 ≤ α.val) (h1 : α.val ≤ 1) (n : Nat) (X : ℝ) (hX : 0 ≤ X) (us : List (List (Fl r)))
    (hne : us ≠ []) (hu : ∀ u ∈ us, u.length = n) (hb : ∀ u ∈ us, ∀ x ∈ u, |x.val| ≤ X) :
    ∃ e, Ema.run Ema.new (EmaOp.setAlpha α :: us.map EmaOp.update) = .ok e ∧ e.average.length = n ∧
      ∀ i, i < n → ∃ a, e.average[i]? = some a ∧
        |a.val - weightedSum α.val (us.map fun u => ((u[i]?).map Fl.val).getD 0)| ≤
          averageSlip r α.val X * ∑ s ∈ Finset.range us.length, ((1 + r.u) ^ 2 * α.val) ^ s := by
  have hnew : NearAverage n 0 X ((Ema.new : Ema (Fl r)).setAlpha α) ((Ema.new : Ema ℝ).setAlpha α.val) :=
    ⟨rfl, rfl, (fun h => by cases h), (fun h => by cases h), fun h => by cases h⟩
  obtain ⟨e', E', a1, a2, a3, a4⟩ := near_average hX us hu hb hnew le_rfl h0 h1
  obtain ⟨E'', c1, c2, c3⟩ := C33_average_is_weighted_sum α.val n (us.map (List.map Fl.val)) (by simpa using hu) (by simpa using hne)
  have hE : E'' = E' := by
    rw [List.map_map] at c1
    simp only [Ema.run] at c1
    rw [show (EmaOp.update ∘ List.map Fl.val) = fun u : List (Fl r) => EmaOp.update (u.map Fl.val) from rfl, a2] at c1
    cases c1
    rfl
  subst hE
  refine ⟨e', a1, a4.len (a3 hne), fun i hi => ?_⟩
  obtain ⟨a, A, k1, k2, k3, -⟩ := a4.near (a3 hne) i hi
  refine ⟨a, k1, ?_⟩
  rw [c3 i hi, List.map_map] at k2
  simp only [Option.some.injEq] at k2
  rw [← k2] at k3
  simpa [Function.comp_def, List.getD_eq_getElem?_getD, Ema.setAlpha] using k3

/-! ## The FIR filter -/

/-- The error of a sum of products with rounding. -/
noncomputable def sumSlip (r : Rounding) (n : Nat) (R P : ℝ) : ℝ :=
  ((1 + r.u) ^ n - 1) * R + ((1 + r.u) ^ (n + 1) - 1) * P + (2 + r.u) * r.η * ∑ s ∈ Finset.range n, (1 + r.u) ^ s

theorem sum_near (l : List (Fl r × Fl r)) (res : Fl r) :
    |((l.map fun p => p.1 * p.2).foldl (· + ·) res).val - (res.val + (l.map fun p => p.1.val * p.2.val).sum)| ≤
      sumSlip r l.length |res.val| (l.map fun p => |p.1.val * p.2.val|).sum := by
  induction l generalizing res with
  | nil => simp [sumSlip]
  | cons p l ih =>
    have hu := r.u_nonneg
    have hη := r.η_nonneg
    rw [List.map_cons, List.foldl_cons, List.map_cons, List.sum_cons, List.map_cons, List.sum_cons, List.length_cons]
    have h1 := ih (res + p.1 * p.2)
    set res1 := res + p.1 * p.2 with hres1
    have e : res1.val = r.rnd (res.val + r.rnd (p.1.val * p.2.val)) := by rw [hres1, Fl.val_add, Fl.val_mul]
    set q := p.1.val * p.2.val
    set out := ((l.map fun p => p.1 * p.2).foldl (· + ·) res1).val
    set tot := (l.map fun p => p.1.val * p.2.val).sum
    set P := (l.map fun p => |p.1.val * p.2.val|).sum
    have e1 := r.err q
    have e2 := r.err (res.val + r.rnd q)
    have e3 : |res.val + r.rnd q| ≤ |res.val| + |q| + (r.u * |q| + r.η) := by
      rw [show res.val + r.rnd q = res.val + q + (r.rnd q - q) by ring]
      exact (abs_add_le _ _).trans (add_le_add (abs_add_le _ _) e1)
    have e4 : |res1.val - (res.val + q)| ≤ r.u * |res.val| + (2 * r.u + r.u ^ 2) * |q| + (2 + r.u) * r.η := by
      rw [e, show r.rnd (res.val + r.rnd q) - (res.val + q) = (r.rnd (res.val + r.rnd q) - (res.val + r.rnd q)) + (r.rnd q - q) by ring]
      refine (abs_add_le _ _).trans ?_
      have := mul_le_mul_of_nonneg_left e3 hu
      linarith
    have e5 : |res1.val| ≤ |res.val| + |q| + (r.u * |res.val| + (2 * r.u + r.u ^ 2) * |q| + (2 + r.u) * r.η) := by
      rw [show res1.val = res.val + q + (res1.val - (res.val + q)) by ring]
      exact (abs_add_le _ _).trans (add_le_add (abs_add_le _ _) e4)
    have e6 : |out - (res.val + (q + tot))| ≤ |out - (res1.val + tot)| + |res1.val - (res.val + q)| := by
      rw [show out - (res.val + (q + tot)) = (out - (res1.val + tot)) + (res1.val - (res.val + q)) by ring]
      exact abs_add_le _ _
    have e7 : 0 ≤ (1 + r.u) ^ l.length - 1 := by
      have := one_le_pow₀ (show 1 ≤ 1 + r.u by linarith) (n := l.length)
      linarith
    have e8 := mul_le_mul_of_nonneg_left e5 e7
    rw [sumSlip] at h1 ⊢
    rw [Finset.sum_range_succ, pow_succ (1 + r.u) (l.length + 1), pow_succ (1 + r.u) l.length]
    rw [pow_succ] at h1
    set G := ∑ s ∈ Finset.range l.length, (1 + r.u) ^ s
    set w := (1 + r.u) ^ l.length
    refine e6.trans ((add_le_add h1 e4).trans ?_)
    have e9 := add_le_add_left e8 ((w * (1 + r.u) - 1) * P + (2 + r.u) * r.η * G + (r.u * |res.val| + (2 * r.u + r.u ^ 2) * |q| + (2 + r.u) * r.η))
    have hP : 0 ≤ P := List.sum_nonneg (by simp only [List.mem_map]; rintro _ ⟨a, -, rfl⟩; exact abs_nonneg _)
    have e10 : 0 ≤ w * (1 + r.u) * r.u * P := by
      have : 0 ≤ w := by linarith
      positivity
    refine le_of_eq_of_le ?_ ((e9.trans (le_add_of_nonneg_right e10)).trans (le_of_eq ?_))
    · ring
    · ring

/-- **The rounding errors of a FIR filter do not accumulate over the history.** After any proper history, the output for a new sample is
what the reset left in the result buffer plus the convolution of the coefficients and the last samples, up to an amount that depends on
the number of coefficients, on the size of the products and on the result buffer, but not on the length of the history. -/
theorem C132_filter (reset : Fl r → Fl r) (d res0 res x c0 : Fl r) (os : List (Fir.Op (Fl r) (Fl r))) (hp : Fir.Proper c0 [] os) :
    ∃ f y f', Fir.run (· * ·) reset d res0 c0 (Fir.Filter.init d) os = .ok f ∧
      f.compute (· * ·) reset res x = .ok (y, f') ∧
      |y.val - ((reset res).val +
        (List.zipWith (fun c s => c.val * s.val) (Fir.coefficients c0 [] os) (x :: Fir.received [] os)).sum)| ≤
      sumSlip r (min (Fir.coefficients c0 [] os).length ((Fir.received [] os).length + 1)) |(reset res).val|
        (List.zipWith (fun c s => |c.val * s.val|) (Fir.coefficients c0 [] os) (x :: Fir.received [] os)).sum := by
  obtain ⟨f, f', h1, h2⟩ := Fir.C30_output_any (fun c s : Fl r => c * s) reset d res0 res x c0 os hp
  refine ⟨f, _, f', h1, h2, ?_⟩
  have h3 := sum_near ((Fir.coefficients c0 [] os).zip (x :: Fir.received [] os)) (reset res)
  simpa [List.zip, List.map_zipWith] using h3

/-- A history of a filter with two coefficients, and inputs of an average of one number. -/
example : Fir.Proper (T := Fl binary64) (0 : Fl binary64) [] [.setSize 2, .setElement 0 1, .setElement 1 2, .sample 2] ∧
    (∀ u ∈ [[(2 : Fl binary64)], [1]], u.length = 1) ∧ ∀ u ∈ [[(2 : Fl binary64)], [1]], ∀ x ∈ u, |x.val| ≤ 2 := by
  refine ⟨by simp [Fir.Proper], by simp, ?_⟩
  intro u hu x hx
  simp only [List.mem_cons, List.not_mem_nil, or_false] at hu
  rcases hu with rfl | rfl <;> (simp only [List.mem_cons, List.not_mem_nil, or_false] at hx; subst hx; simp)

end Verif.Rounding
