import Verif.Rounding.Device
import Verif.Control.Props
import Mathlib.Algebra.BigOperators.Intervals
import Mathlib.Algebra.Order.BigOperators.Group.Finset
import Mathlib.Algebra.Order.Field.GeomSum
import Mathlib.Tactic.NormNum

/-!
# C131: a regulator in closed loop with the device, with rounding
-/

namespace Verif.Rounding

open Verif.Device Verif.Loop

/-- An error that a step multiplies by `κ` and increases by `τ`. -/
theorem geometric {e : Nat → ℝ} {κ τ : ℝ} (hκ : 0 ≤ κ) {T : Nat} (h : ∀ t, t < T → e (t + 1) ≤ κ * e t + τ) :
    e T ≤ κ ^ T * e 0 + τ * ∑ s ∈ Finset.range T, κ ^ s := by
  induction T with
  | zero => simp
  | succ T ih =>
    have h1 := ih fun t ht => h t (by omega)
    have h2 := h T (by omega)
    have h3 := mul_le_mul_of_nonneg_left h1 hκ
    have h4 : ∑ s ∈ Finset.range (T + 1), κ ^ s = κ * ∑ s ∈ Finset.range T, κ ^ s + 1 := by
      rw [Finset.sum_range_succ', Finset.mul_sum]
      simp [pow_succ, mul_comm]
    rw [h4, pow_succ]
    linarith [mul_comm (κ ^ T) κ, show κ * (κ ^ T * e 0 + τ * ∑ s ∈ Finset.range T, κ ^ s) =
      κ ^ T * κ * e 0 + τ * (κ * ∑ s ∈ Finset.range T, κ ^ s) by ring]

theorem geometric_sum {κ : ℝ} (h0 : 0 ≤ κ) (h1 : κ < 1) (T : Nat) : ∑ s ∈ Finset.range T, κ ^ s ≤ 1 / (1 - κ) := by
  rw [geom_sum_eq h1.ne]
  have h2 : 0 < 1 - κ := by linarith
  rw [show (κ ^ T - 1) / (κ - 1) = (1 - κ ^ T) / (1 - κ) by rw [← neg_sub, ← neg_sub (1 : ℝ) κ, neg_div_neg_eq]]
  gcongr
  linarith [pow_nonneg h0 T]

/-- The controller `ControlPD` without derivative gain, whose positions are plugged on the last positions of the device and whose output
on its control (src/control/control-pd.cpp:84-107, src/tools/device.cpp:414-476). The list gives the measured and the desired velocities,
which do not matter, at each period. -/
inductive Regulated {F : Type} [Zero F] [One F] [OfNat F 2] [Add F] [Sub F] [Mul F] [Div F] [LinearOrder F]
    (ff : List (Option F) → List (Option F) → F → (Fin 6 → Option F)) (Kp qd : List F) (dt : F) :
    Dev F → List (List F × List F) → Dev F → Prop
  | nil (d : Dev F) : Regulated ff Kp qd dt d [] d
  | cons {d d1 d' : Dev F} {q : List F} {v : List F × List F} {c : Control.PD F} {vs : List (List F × List F)} (hq : d.stateSOUT = nums q)
      (hc : Control.computePD Kp (List.replicate Kp.length 0) (q.drop (q.length - Kp.length)) qd v.1 v.2 = .ok c)
      (h1 : increment ff d (nums c.tau) dt = .ok d1) (h : Regulated ff Kp qd dt d1 vs d') : Regulated ff Kp qd dt d (v :: vs) d'

variable {r : Rounding}

/-- By how much a step multiplies the error. -/
noncomputable def rate (r : Rounding) (g : ℝ) : ℝ := (1 + r.u) * (1 - g + g * ((1 + r.u) ^ 3 - 1))

/-- What a step adds to the error. -/
noncomputable def floor (r : Rounding) (dt kp p : ℝ) : ℝ :=
  (1 + r.u) * (dt * (1 + r.u) * (kp * r.η * (1 + r.u) + r.η) + r.η) + r.u * |p| + r.η

theorem rate_nonneg {g : ℝ} (h0 : 0 ≤ g) (h1 : g ≤ 1) : 0 ≤ rate r g := by
  have hu := r.u_nonneg
  have : 1 ≤ (1 + r.u) ^ 3 := one_le_pow₀ (by linarith)
  unfold rate
  refine mul_nonneg (by linarith) (add_nonneg (by linarith) (mul_nonneg h0 (by linarith)))

/-- One period: the position `x`, the desired one `p`. -/
theorem regulator_step {x p kp dt : ℝ} (hkp : 0 ≤ kp) (hdt : 0 ≤ dt) (hg : dt * kp ≤ 1) :
    |p - r.rnd (x + r.rnd (dt * r.rnd (r.rnd (p - x) * kp)))| ≤ rate r (dt * kp) * |p - x| + floor r dt kp p := by
  have hu := r.u_nonneg
  have hη := r.η_nonneg
  set e := p - x with he
  set a := r.rnd (r.rnd e * kp) with ha
  set s := r.rnd (dt * a) with hs
  have e0 := abs_nonneg e
  have h1 := r.err e
  have h1' : |r.rnd e| ≤ (1 + r.u) * |e| + r.η := by
    have := abs_add_le e (r.rnd e - e)
    rw [add_sub_cancel] at this
    linarith
  have h2 := r.err (r.rnd e * kp)
  rw [abs_mul, abs_of_nonneg hkp] at h2
  have h3 : |a - e * kp| ≤ kp * |e| * ((1 + r.u) ^ 2 - 1) + (kp * r.η * (1 + r.u) + r.η) := by
    have h4 : |a - e * kp| ≤ |a - r.rnd e * kp| + |r.rnd e - e| * kp := by
      rw [← abs_of_nonneg hkp, ← abs_mul, abs_of_nonneg hkp, show a - e * kp = a - r.rnd e * kp + (r.rnd e - e) * kp by ring]
      exact abs_add_le _ _
    have h5 := mul_le_mul_of_nonneg_right h1 hkp
    have h6 := mul_le_mul_of_nonneg_left (mul_le_mul_of_nonneg_right h1' hkp) hu
    have h7 : kp * |e| * ((1 + r.u) ^ 2 - 1) + (kp * r.η * (1 + r.u) + r.η) =
        r.u * (((1 + r.u) * |e| + r.η) * kp) + r.η + (r.u * |e| + r.η) * kp := by ring
    rw [h7]
    linarith
  have h3' : |a| ≤ kp * |e| * (1 + r.u) ^ 2 + (kp * r.η * (1 + r.u) + r.η) := by
    have := abs_add_le (e * kp) (a - e * kp)
    rw [add_sub_cancel, abs_mul, abs_of_nonneg hkp] at this
    linarith
  have h8 := r.err (dt * a)
  rw [abs_mul, abs_of_nonneg hdt] at h8
  have h9 : |s - dt * kp * e| ≤ dt * kp * ((1 + r.u) ^ 3 - 1) * |e| + (dt * (1 + r.u) * (kp * r.η * (1 + r.u) + r.η) + r.η) := by
    have h10 : |s - dt * kp * e| ≤ |s - dt * a| + dt * |a - e * kp| := by
      rw [← abs_of_nonneg hdt, ← abs_mul, abs_of_nonneg hdt, show s - dt * kp * e = s - dt * a + dt * (a - e * kp) by ring]
      exact abs_add_le _ _
    have h11 := mul_le_mul_of_nonneg_left h3 hdt
    have h12 := mul_le_mul_of_nonneg_left (mul_le_mul_of_nonneg_left h3' hdt) hu
    have h13 : dt * kp * ((1 + r.u) ^ 3 - 1) * |e| + (dt * (1 + r.u) * (kp * r.η * (1 + r.u) + r.η) + r.η) =
        r.u * (dt * (kp * |e| * (1 + r.u) ^ 2 + (kp * r.η * (1 + r.u) + r.η))) + r.η +
          dt * (kp * |e| * ((1 + r.u) ^ 2 - 1) + (kp * r.η * (1 + r.u) + r.η)) := by ring
    rw [h13]
    linarith
  have h14 : |e - s| ≤ (1 - dt * kp + dt * kp * ((1 + r.u) ^ 3 - 1)) * |e| + (dt * (1 + r.u) * (kp * r.η * (1 + r.u) + r.η) + r.η) := by
    have h15 : |e - s| ≤ |(1 - dt * kp) * e| + |s - dt * kp * e| := by
      rw [show e - s = (1 - dt * kp) * e - (s - dt * kp * e) by ring]
      exact abs_sub _ _
    rw [abs_mul, abs_of_nonneg (show 0 ≤ 1 - dt * kp by linarith)] at h15
    linarith
  have h16 := r.err (x + s)
  have h17 : |x + s| ≤ |p| + |e - s| := by
    rw [show x + s = p - (e - s) by rw [he]; ring]
    exact abs_sub _ _
  have h18 := mul_le_mul_of_nonneg_left h17 hu
  have h19 : |p - r.rnd (x + s)| ≤ |e - s| + |r.rnd (x + s) - (x + s)| := by
    rw [show p - r.rnd (x + s) = (e - s) - (r.rnd (x + s) - (x + s)) by rw [he]; ring]
    exact abs_sub _ _
  have h20 := mul_le_mul_of_nonneg_left h14 (show 0 ≤ 1 + r.u by linarith)
  have h21 : rate r (dt * kp) * |e| + floor r dt kp p =
      (1 + r.u) * ((1 - dt * kp + dt * kp * ((1 + r.u) ^ 3 - 1)) * |e| + (dt * (1 + r.u) * (kp * r.η * (1 + r.u) + r.η) + r.η)) +
        r.u * |p| + r.η := by
    unfold rate floor
    ring
  rw [h21]
  linarith

/-- What the regulated device keeps. -/
structure Regular (Kp qd : List (Fl r)) (n : Nat) (d : Dev (Fl r)) : Prop where
  mode : d.mode = .oneInteg
  usable : d.sanity = false ∨ (Sized d ∧ BoundsOk d.lowerPosition d.upperPosition)
  reachable : d.sanity = true → ∀ (j : Nat) (p a b : Fl r), qd[j]? = some p → d.lowerPosition[n - Kp.length + j]? = some (some a) →
    d.upperPosition[n - Kp.length + j]? = some (some b) → a ≤ p ∧ p ≤ b
  numbers : ∃ q, d.state = nums q ∧ q.length = n
  out : d.stateSOUT = d.state

theorem Regular.step {ff : List (Option (Fl r)) → List (Option (Fl r)) → Fl r → (Fin 6 → Option (Fl r))} {Kp qd : List (Fl r)} {n : Nat}
    {d : Dev (Fl r)} {dt : Fl r} (hr : Regular Kp qd n d) (hdt : 0 ≤ dt.val) (hm : Kp.length < n) (hqd : qd.length = Kp.length)
    {v : List (Fl r) × List (Fl r)} (hv : v.1.length = Kp.length ∧ v.2.length = Kp.length) :
    ∃ q c d1, d.stateSOUT = nums q ∧ Control.computePD Kp (List.replicate Kp.length 0) (q.drop (q.length - Kp.length)) qd v.1 v.2 = .ok c ∧
      increment ff d (nums c.tau) dt = .ok d1 ∧ Regular Kp qd n d1 ∧
      ∀ j kp p x, Kp[j]? = some kp → qd[j]? = some p → d.state[n - Kp.length + j]? = some (some x) → 0 ≤ kp.val → dt.val * kp.val ≤ 1 →
        ∃ y, d1.state[n - Kp.length + j]? = some (some y) ∧
          |p.val - y.val| ≤ rate r (dt.val * kp.val) * |p.val - x.val| + floor r dt.val kp.val p.val := by
  obtain ⟨q, hq, rfl⟩ := hr.numbers
  obtain ⟨c, hc⟩ := (Control.C103_defined Kp (List.replicate Kp.length 0) (q.drop (q.length - Kp.length)) qd v.1 v.2).mpr
    ⟨by simp, by simp; omega, hqd, hv.1, hv.2⟩
  obtain ⟨hcl, -, -, hcc⟩ := Control.C103_components_any hc
  obtain ⟨d1, q', a1, a2, a3, a4, ⟨s1, s2, s3, s4, -⟩, a6, -, a8⟩ := device_step ff d q c.tau dt hr.mode hq (by omega) (by omega) (by omega) hr.usable
  refine ⟨q, c, d1, by rw [hr.out, hq], hc, a1, ⟨by rw [s2, hr.mode], a6, ?_, ⟨q', a2, a4⟩, by rw [a3, a2]⟩, ?_⟩
  · intro hs
    rw [s3, s4]
    exact hr.reachable (by rw [← s1, hs])
  · intro j kp p x hkp hp hx h0 h1
    have hj : j < Kp.length := (List.getElem?_eq_some_iff.mp hkp).1
    obtain ⟨kp', kd, x', p', w, wd, k1, k2, k3, k4, -, -, -, -, k5⟩ := hcc j hj
    rw [hkp] at k1; cases k1
    rw [hp] at k4; cases k4
    have hx' : q[q.length - Kp.length + j]? = some x := by
      rw [hq, nums_get] at hx
      simpa using hx
    rw [List.getElem?_drop, hx'] at k3; cases k3
    obtain rfl : kd = 0 := by
      rw [List.getElem?_replicate, if_pos hj] at k2
      cases k2; rfl
    rw [← hcl] at hx'
    obtain ⟨y, hy, ky⟩ := a8 j x _ (by omega) hx' k5
    rw [hcl] at hy ky
    refine ⟨y, by rw [a2, nums_get, hy]; rfl, ?_⟩
    have key : |p.val - (x + dt * ((p - x) * kp + (wd - w) * 0)).val| ≤
        rate r (dt.val * kp.val) * |p.val - x.val| + floor r dt.val kp.val p.val := by
      have : (x + dt * ((p - x) * kp + (wd - w) * 0)).val = r.rnd (x.val + r.rnd (dt.val * r.rnd (r.rnd (p.val - x.val) * kp.val))) := by
        simp [r.zero, r.idem]
      rw [this]
      exact regulator_step h0 hdt h1
    rcases ky with ⟨-, rfl⟩ | ⟨hs, a, b, ha, hb, rfl⟩
    · exact key
    · obtain ⟨w1, w2⟩ := hr.reachable hs j p a b hp ha hb
      rw [Fl.val_max, Fl.val_min]
      have : p.val = max a.val (min p.val b.val) := by rw [min_eq_left (Fl.val_le.mp w2), max_eq_right (Fl.val_le.mp w1)]
      refine le_trans ?_ key
      conv_lhs => rw [this]
      exact clamp_near _ _ _ _

/-- **A proportional regulator converges in spite of the rounding.** The controller with the gains `Kp` and no derivative gain, in closed
loop with a device driven in velocity that has more positions than the controller: the loop runs for every number of periods, and the
distance of a joint to its desired position, for a gain `kp` such that `0 ≤ dt kp ≤ 1`, is at most `κ^T` times the first one plus
`τ (1 + κ + … + κ^(T-1))`. Here `κ` is `1 - dt kp` up to a few `u`, and `τ` is `u` times the desired position, up to a few `η`. The device
may check bounds, between which the desired positions lie. -/
theorem C131_converges (ff : List (Option (Fl r)) → List (Option (Fl r)) → Fl r → (Fin 6 → Option (Fl r))) (Kp qd : List (Fl r)) (n : Nat)
    (d : Dev (Fl r)) (dt : Fl r) (hdt : 0 ≤ dt.val) (hm : Kp.length < n) (hqd : qd.length = Kp.length)
    (vs : List (List (Fl r) × List (Fl r))) (hv : ∀ v ∈ vs, v.1.length = Kp.length ∧ v.2.length = Kp.length) (hr : Regular Kp qd n d) :
    (∃ d', Regulated ff Kp qd dt d vs d') ∧
      ∀ d', Regulated ff Kp qd dt d vs d' → ∀ j kp p x, Kp[j]? = some kp → qd[j]? = some p →
        d.state[n - Kp.length + j]? = some (some x) → 0 ≤ kp.val → dt.val * kp.val ≤ 1 →
        ∃ y, d'.state[n - Kp.length + j]? = some (some y) ∧
          |p.val - y.val| ≤ rate r (dt.val * kp.val) ^ vs.length * |p.val - x.val| +
            floor r dt.val kp.val p.val * ∑ s ∈ Finset.range vs.length, rate r (dt.val * kp.val) ^ s := by
  induction vs generalizing d with
  | nil =>
    refine ⟨⟨d, .nil d⟩, ?_⟩
    rintro d' ⟨⟩ j kp p x _ _ hx _ _
    exact ⟨x, hx, by simp⟩
  | cons v vs ih =>
    obtain ⟨q, c, d1, h1, h2, h3, h4, h5⟩ := hr.step (ff := ff) hdt hm hqd (hv v (by simp))
    obtain ⟨⟨d', i1⟩, i2⟩ := ih d1 (fun w hw => hv w (by simp [hw])) h4
    refine ⟨⟨d', .cons h1 h2 h3 i1⟩, ?_⟩
    intro d'' h j kp p x hkp hp hx k0 k1
    cases h with
    | cons g1 g2 g3 g4 =>
      rename_i e1 q' c'
      rw [h1] at g1
      have : q = q' := List.map_injective_iff.mpr (Option.some_injective _) g1
      subst this
      rw [h2] at g2
      cases g2
      rw [h3] at g3
      cases g3
      obtain ⟨y1, hy1, b1⟩ := h5 j kp p x hkp hp hx k0 k1
      obtain ⟨y, hy, b2⟩ := i2 d'' g4 j kp p y1 hkp hp hy1 k0 k1
      refine ⟨y, hy, b2.trans ?_⟩
      have hκ := rate_nonneg (r := r) (mul_nonneg hdt k0) k1
      have := mul_le_mul_of_nonneg_left b1 (pow_nonneg hκ vs.length)
      rw [List.length_cons, Finset.sum_range_succ, pow_succ]
      linarith [show rate r (dt.val * kp.val) ^ vs.length * (rate r (dt.val * kp.val) * |p.val - x.val| + floor r dt.val kp.val p.val) =
        rate r (dt.val * kp.val) ^ vs.length * rate r (dt.val * kp.val) * |p.val - x.val| +
          floor r dt.val kp.val p.val * rate r (dt.val * kp.val) ^ vs.length by ring]

theorem rate_le {g : ℝ} (hu : r.u ≤ 1 / 10 ^ 15) (h0 : 1 / 1000 ≤ g) (h1 : g ≤ 1) : rate r g ≤ 1 - g / 2 := by
  have hu0 := r.u_nonneg
  have h2 : (1 + r.u) ^ 3 - 1 ≤ 4 * r.u := by nlinarith [mul_nonneg hu0 hu0, mul_nonneg (mul_nonneg hu0 hu0) hu0]
  have h3 : g * ((1 + r.u) ^ 3 - 1) ≤ 4 * r.u := by
    have : 0 ≤ (1 + r.u) ^ 3 - 1 := by linarith [one_le_pow₀ (n := 3) (show 1 ≤ 1 + r.u by linarith)]
    calc g * ((1 + r.u) ^ 3 - 1) ≤ 1 * ((1 + r.u) ^ 3 - 1) := mul_le_mul_of_nonneg_right h1 this
      _ ≤ 4 * r.u := by linarith
  unfold rate
  calc (1 + r.u) * (1 - g + g * ((1 + r.u) ^ 3 - 1)) ≤ (1 + r.u) * (1 - g + 4 * r.u) := mul_le_mul_of_nonneg_left (by linarith) (by linarith)
    _ ≤ 1 - g / 2 := by nlinarith

theorem floor_le {dt kp p : ℝ} (hu : r.u ≤ 2⁻¹ ^ 53) (hη : r.η ≤ 1 / 10 ^ 30) (hdt : 0 ≤ dt) (hdt1 : dt ≤ 1) (hkp : 0 ≤ kp) (hkp1 : kp ≤ 1000) :
    floor r dt kp p ≤ (|p| + 1) / (2 * 10 ^ 15) := by
  have hu0 := r.u_nonneg
  have hη0 := r.η_nonneg
  have hu1 : r.u ≤ 1 / (8 * 10 ^ 15) := hu.trans (by norm_num)
  have h1 : kp * r.η * (1 + r.u) + r.η ≤ 3000 * r.η := by
    have h2 : kp * r.η ≤ 1000 * r.η := mul_le_mul_of_nonneg_right hkp1 hη0
    have h3 : kp * r.η * (1 + r.u) ≤ 1000 * r.η * 2 := mul_le_mul h2 (by linarith) (by linarith) (by linarith)
    linarith
  have h4 : 0 ≤ kp * r.η * (1 + r.u) + r.η := by positivity
  have h5 : dt * (1 + r.u) ≤ 2 := by nlinarith
  have h6 : dt * (1 + r.u) * (kp * r.η * (1 + r.u) + r.η) ≤ 2 * (3000 * r.η) := mul_le_mul h5 h1 h4 (by norm_num)
  have h7 : 0 ≤ dt * (1 + r.u) * (kp * r.η * (1 + r.u) + r.η) + r.η := by positivity
  have h8 : (1 + r.u) * (dt * (1 + r.u) * (kp * r.η * (1 + r.u) + r.η) + r.η) ≤ 2 * (6001 * r.η) :=
    mul_le_mul (by linarith) (by linarith) h7 (by norm_num)
  have h9 := mul_le_mul_of_nonneg_right hu1 (abs_nonneg p)
  have := abs_nonneg p
  unfold floor
  calc _ ≤ 2 * (6001 * r.η) + 1 / (8 * 10 ^ 15) * |p| + r.η := by linarith
    _ ≤ (|p| + 1) / (2 * 10 ^ 15) := by linarith

/-- With `double`: for a gain such that `1/1000 ≤ dt kp ≤ 1`, at most 1000, and a period of at most one second, the distance to the desired
position decreases at least as `(1 - dt kp / 2)^T` down to `10⁻¹² (|p| + 1)`. -/
theorem C131_double (ff : List (Option (Fl binary64)) → List (Option (Fl binary64)) → Fl binary64 → (Fin 6 → Option (Fl binary64)))
    (Kp qd : List (Fl binary64)) (n : Nat) (d d' : Dev (Fl binary64)) (dt : Fl binary64) (hdt : 0 ≤ dt.val) (hdt1 : dt.val ≤ 1)
    (hm : Kp.length < n) (hqd : qd.length = Kp.length) (vs : List (List (Fl binary64) × List (Fl binary64)))
    (hv : ∀ v ∈ vs, v.1.length = Kp.length ∧ v.2.length = Kp.length) (hr : Regular Kp qd n d) (h : Regulated ff Kp qd dt d vs d')
    (j : Nat) (kp p x : Fl binary64) (hkp : Kp[j]? = some kp) (hp : qd[j]? = some p) (hx : d.state[n - Kp.length + j]? = some (some x))
    (h0 : 0 ≤ kp.val) (h1 : kp.val ≤ 1000) (g0 : 1 / 1000 ≤ dt.val * kp.val) (g1 : dt.val * kp.val ≤ 1) :
    ∃ y, d'.state[n - Kp.length + j]? = some (some y) ∧
      |p.val - y.val| ≤ (1 - dt.val * kp.val / 2) ^ vs.length * |p.val - x.val| + (|p.val| + 1) / 10 ^ 12 := by
  obtain ⟨y, hy, hb⟩ := (C131_converges ff Kp qd n d dt hdt hm hqd vs hv hr).2 d' h j kp p x hkp hp hx h0 g1
  refine ⟨y, hy, hb.trans ?_⟩
  have hu : binary64.u = 2⁻¹ ^ 53 := rfl
  have hη : binary64.η = 2⁻¹ ^ 1075 := rfl
  have hη1 : binary64.η ≤ 1 / 10 ^ 30 := by
    rw [hη]
    calc (2⁻¹ : ℝ) ^ 1075 ≤ 2⁻¹ ^ 100 := pow_le_pow_of_le_one (by norm_num) (by norm_num) (by norm_num)
      _ ≤ 1 / 10 ^ 30 := by norm_num
  have hκ := rate_le (r := binary64) (g := dt.val * kp.val) (by rw [hu]; norm_num) g0 g1
  have hκ0 := rate_nonneg (r := binary64) (g := dt.val * kp.val) (by linarith) g1
  have hf := floor_le (r := binary64) (p := p.val) hu.le hη1 hdt hdt1 h0 h1
  have hs := geometric_sum hκ0 (by linarith) vs.length
  have hs1 : ∑ s ∈ Finset.range vs.length, rate binary64 (dt.val * kp.val) ^ s ≤ 2000 := by
    refine hs.trans ?_
    rw [div_le_iff₀ (by linarith)]
    linarith
  have hs0 : 0 ≤ ∑ s ∈ Finset.range vs.length, rate binary64 (dt.val * kp.val) ^ s := Finset.sum_nonneg fun s _ => pow_nonneg hκ0 s
  have := abs_nonneg p.val
  refine add_le_add (mul_le_mul_of_nonneg_right (pow_le_pow_left₀ hκ0 hκ _) (abs_nonneg _)) ?_
  calc _ ≤ (|p.val| + 1) / (2 * 10 ^ 15) * 2000 := mul_le_mul hf hs1 hs0 (by positivity)
    _ = (|p.val| + 1) / 10 ^ 12 := by ring

/-- A device with one joint at 0, which does not check its bounds, and a gain of 1 towards 2. -/
example : ∃ d : Dev (Fl binary64), Regular [1] [2] 7 d ∧ d.state[6]? = some (some 0) := by
  refine ⟨{ (init : Dev (Fl binary64)) with
    sanity := false, state := nums [0, 0, 0, 0, 0, 0, 0], stateSOUT := nums [0, 0, 0, 0, 0, 0, 0] }, ⟨rfl, .inl rfl, ?_, ⟨_, rfl, rfl⟩, rfl⟩, rfl⟩
  intro h
  cases h

end Verif.Rounding
