import Verif.Rounding.Monotone
import Verif.Features.Limits
import Verif.Task.TaskProps
import Verif.Admittance.Model
import Verif.Gain.Props

/-!
# C149: what a rounding that keeps the order does not spoil

The rounding of `double` to the nearest number keeps the order (`C149_double`). That is enough for several bounds of the exact
arithmetic to hold as they are for the numbers of the code.
-/

namespace Verif.Rounding

open Verif.Features Verif.Task Verif.MultiBound

variable {r : Rounding}

/-- **The numbers of `double`.** The rounding to the nearest number gives a number that no other number of `double` is nearer than, and
so every such rounding keeps the order. -/
theorem C149_double : Nearest binary64 ∧ ∀ r, Nearest r → ∀ x y, x ≤ y → r.rnd x ≤ r.rnd y :=
  ⟨binary64_nearest, fun _ h => h.mono⟩

/-! ## Joint limits -/

/-- **Joint limits.** With rounding the error of a joint between its limits is still between -1 and 1, it is -1 at the lower one and 1
at the upper one, and it does not decrease with the position. -/
theorem C149_limits (hr : r.Mono) (sel : Nat → Bool) (q upper lower res : List (Fl r)) (hu : upper.length = q.length)
    (hl : lower.length = q.length) (hres : res.length = limitsDim sel upper.length)
    (hw : ∀ (i : Nat) (l u : Fl r), sel i = true → lower[i]? = some l → upper[i]? = some u → 0 < u - l) :
    ∃ f : Nat → Fl r → Fl r, limitsError sel q upper lower res = .ok ((picked sel q.length).map fun i => f i (q.getD i 0)) ∧
      ∀ (i : Nat) (l u : Fl r), sel i = true → lower[i]? = some l → upper[i]? = some u →
        f i l = -1 ∧ f i u = 1 ∧ (∀ x y, x ≤ y → f i x ≤ f i y) ∧ ∀ x, l ≤ x → x ≤ u → -1 ≤ f i x ∧ f i x ≤ 1 := by
  refine ⟨fun i x => (x - lower.getD i 0) / (upper.getD i 0 - lower.getD i 0) * 2 - 1,
    (limitsError_ok sel q upper lower res hu hl hres).2, ?_⟩
  intro i l u hs h1 h2
  have hpos := hw i l u hs h1 h2
  beta_reduce
  rw [show lower.getD i 0 = l by simp [h1], show upper.getD i 0 = u by simp [h2]]
  set w := u - l with hwd
  have hwp : 0 < w.val := by
    have := Fl.val_lt.mp hpos
    rwa [Fl.val_zero] at this
  have mono : ∀ x y : Fl r, x ≤ y → (x - l) / w * 2 - 1 ≤ (y - l) / w * 2 - 1 := by
    intro x y hxy
    rw [Fl.val_le] at hxy ⊢
    simp only [Fl.val_sub, Fl.val_mul, Fl.val_div, Fl.val_one, Fl.val_two]
    refine hr _ _ (sub_le_sub_right (hr _ _ (mul_le_mul_of_nonneg_right (hr _ _ ?_) (by norm_num))) _)
    exact div_le_div_of_nonneg_right (hr _ _ (by linarith)) hwp.le
  have atL : (l - l) / w * 2 - 1 = -1 := by
    rw [← Fl.val_inj]
    simp only [Fl.val_sub, Fl.val_mul, Fl.val_div, Fl.val_one, Fl.val_two, sub_self, r.zero, zero_div, zero_mul, zero_sub, Fl.val_neg,
      r.neg, r.one]
  have atU : (u - l) / w * 2 - 1 = 1 := by
    rw [← Fl.val_inj, ← hwd]
    simp only [Fl.val_sub, Fl.val_mul, Fl.val_div, Fl.val_one, Fl.val_two]
    rw [div_self hwp.ne', r.one, one_mul, r.two, show (2 : ℝ) - 1 = 1 by norm_num, r.one]
  refine ⟨atL, atU, mono, fun x h3 h4 => ⟨?_, ?_⟩⟩
  · have := mono l x h3
    rwa [atL] at this
  · have := mono x u h4
    rwa [atU] at this

/-- The width of two distinct numbers of `double` is not rounded to zero. -/
theorem C149_width_double (hr : Nearest r) (l u : Fl r) (h : l < u) : 0 < u - l := by
  rw [Fl.val_lt, Fl.val_zero, Fl.val_sub]
  have hb : ∀ x : Fl r, ∃ m : ℤ, x.val = m * (2 : ℝ) ^ (-1074 : ℤ) := by
    intro x
    obtain ⟨m, e, -, h2, h3⟩ := hr.of_val x
    obtain ⟨k, hk⟩ := Int.eq_ofNat_of_zero_le (by omega : 0 ≤ e + 1074)
    refine ⟨m * 2 ^ k, ?_⟩
    rw [h3, show e = k + (-1074) by omega, zpow_add₀ (by norm_num), zpow_natCast]
    push_cast
    ring
  obtain ⟨a, ha⟩ := hb l
  obtain ⟨b, hb⟩ := hb u
  have hp : (0 : ℝ) < 2 ^ (-1074 : ℤ) := zpow_pos (by norm_num) _
  have hab : a < b := by
    have := Fl.val_lt.mp h
    rw [ha, hb] at this
    exact_mod_cast lt_of_mul_lt_mul_right this hp.le
  have h1 : (2 : ℝ) ^ (-1074 : ℤ) ≤ u.val - l.val := by
    rw [ha, hb, ← sub_mul]
    have : (1 : ℝ) ≤ b - a := by exact_mod_cast (by omega : 1 ≤ b - a)
    nlinarith
  have h2 := hr.mono _ _ h1
  have h3 : r.rnd ((2 : ℝ) ^ (-1074 : ℤ)) = 2 ^ (-1074 : ℤ) := hr.keeps ⟨1, -1074, by norm_num, by norm_num, by norm_num⟩
  rw [h3] at h2
  linarith

/-- Two joints of a robot whose numbers are those of `double`. -/
example : binary64.Mono ∧ ([1, 2] : List (Fl binary64)).length = ([0, 1] : List (Fl binary64)).length ∧
    (∀ (i : Nat) (l u : Fl binary64), [true, true].getD i false = true → ([-1, -1] : List (Fl binary64))[i]? = some l →
      ([1, 2] : List (Fl binary64))[i]? = some u → 0 < u - l) := by
  refine ⟨binary64_mono, rfl, fun i l u _ h1 h2 => C149_width_double binary64_nearest l u ?_⟩
  match i, h1, h2 with
  | 0, h1, h2 =>
    simp only [List.getElem?_cons_zero, Option.some.injEq] at h1 h2
    subst h1 h2
    rw [Fl.val_lt, Fl.val_neg, Fl.val_one]
    norm_num
  | 1, h1, h2 =>
    simp only [List.getElem?_cons_succ, List.getElem?_cons_zero, Option.some.injEq] at h1 h2
    subst h1 h2
    rw [Fl.val_lt, Fl.val_neg, Fl.val_one, Fl.val_two]
    norm_num
  | k + 2, h1, h2 => simp at h1

/-! ## Unilateral task -/

/-- How far from the reference rounding can bring a position: references at most `X`, at most `W` away, period `T`. -/
noncomputable def over (r : Rounding) (W X T : ℝ) : ℝ :=
  let e1 := r.u * W + r.η
  let e2 := r.u * (W + e1) + r.η * T
  let e3 := r.u * (W + e1 + e2) + r.η
  e1 + e2 + e3 + (r.u * (X + e1 + e2 + e3) + r.η)

/-- The velocity asked for brings the position to the reference, up to rounding. -/
theorem reach_error {p b dt : Fl r} {W X : ℝ} (hdt : 0 < dt) (hW : |b.val - p.val| ≤ W) (hX : |b.val| ≤ X) :
    |(p + dt * ((b - p) / dt)).val - b.val| ≤ over r W X dt.val := by
  have hu := r.u_nonneg
  have hη := r.η_nonneg
  have hT : 0 < dt.val := by
    have := Fl.val_lt.mp hdt
    rwa [Fl.val_zero] at this
  simp only [Fl.val_add, Fl.val_mul, Fl.val_div, Fl.val_sub]
  set d := r.rnd (b.val - p.val) with hd
  set h := r.rnd (d / dt.val) with hh
  set s := r.rnd (dt.val * h) with hs
  set e1 := r.u * W + r.η with he1
  set e2 := r.u * (W + e1) + r.η * dt.val with he2
  set e3 := r.u * (W + e1 + e2) + r.η with he3
  have h1 : |d - (b.val - p.val)| ≤ e1 := (r.err _).trans (by rw [he1]; linarith [mul_le_mul_of_nonneg_left hW hu])
  have h2 : |d| ≤ W + e1 := by
    rw [show d = (b.val - p.val) + (d - (b.val - p.val)) by ring]
    exact (abs_add_le _ _).trans (add_le_add hW h1)
  have h3 : |dt.val * h - d| ≤ e2 := by
    have h4 := r.err (d / dt.val)
    rw [show dt.val * h - d = dt.val * (h - d / dt.val) by field_simp, abs_mul, abs_of_pos hT]
    rw [abs_div, abs_of_pos hT] at h4
    refine (mul_le_mul_of_nonneg_left h4 hT.le).trans ?_
    have h5 : dt.val * (r.u * (|d| / dt.val) + r.η) = r.u * |d| + r.η * dt.val := by field_simp
    rw [h5, he2]
    linarith [mul_le_mul_of_nonneg_left h2 hu]
  have h4 : |dt.val * h| ≤ W + e1 + e2 := by
    rw [show dt.val * h = d + (dt.val * h - d) by ring]
    exact (abs_add_le _ _).trans (add_le_add h2 h3)
  have h5 : |s - dt.val * h| ≤ e3 := (r.err _).trans (by rw [he3]; linarith [mul_le_mul_of_nonneg_left h4 hu])
  have h6 : |p.val + s - b.val| ≤ e1 + e2 + e3 := by
    rw [show p.val + s - b.val = (d - (b.val - p.val)) + (dt.val * h - d) + (s - dt.val * h) by ring]
    exact (abs_add_le _ _).trans (add_le_add ((abs_add_le _ _).trans (add_le_add h1 h3)) h5)
  have h7 : |p.val + s| ≤ X + e1 + e2 + e3 := by
    rw [show p.val + s = b.val + (p.val + s - b.val) by ring]
    exact (abs_add_le _ _).trans (by linarith [add_le_add hX h6])
  have h8 := r.err (p.val + s)
  rw [show r.rnd (p.val + s) - b.val = (p.val + s - b.val) + (r.rnd (p.val + s) - (p.val + s)) by ring]
  refine (abs_add_le _ _).trans ?_
  show _ ≤ e1 + e2 + e3 + (r.u * (X + e1 + e2 + e3) + r.η)
  linarith [mul_le_mul_of_nonneg_left h7 hu]

theorem step_mono (hr : r.Mono) {dt : Fl r} (hdt : 0 < dt) (p : Fl r) {v w : Fl r} (h : v ≤ w) : p + dt * v ≤ p + dt * w := by
  have hT : 0 < dt.val := by
    have := Fl.val_lt.mp hdt
    rwa [Fl.val_zero] at this
  rw [Fl.val_le] at h ⊢
  simp only [Fl.val_add, Fl.val_mul]
  exact hr _ _ (by linarith [hr _ _ (mul_le_mul_of_nonneg_left h hT.le)])

/-- **A unilateral task with rounding.** The two sides of every bound are set; a joint between its references may stay where it is, one
beyond a reference may not go further; and a velocity between the bounds brings the position, integrated as the device does, between the
references up to `over`. -/
theorem C149_unilateral (hr : r.Mono) (refInf refSup pos : List (Fl r)) (dt : Fl r) (hdt : 0 < dt)
    (h1 : pos.length ≤ refInf.length) (h2 : pos.length ≤ refSup.length) :
    ∃ t, unilateral refInf refSup dt pos 0 = .ok t ∧ t.length = pos.length ∧
      ∀ (k : Nat) (a b p : Fl r), refInf[k]? = some a → refSup[k]? = some b → pos[k]? = some p → ∃ (m : MultiBound (Fl r)) (lo hi : Fl r), t[k]? = some m ∧
        getDoubleBoundSetup m .inf = .ok true ∧ getDoubleBoundSetup m .sup = .ok true ∧
        getDoubleBound m .inf = .ok lo ∧ getDoubleBound m .sup = .ok hi ∧
        (a ≤ p → lo ≤ 0) ∧ (p ≤ b → 0 ≤ hi) ∧ (p ≤ a → 0 ≤ lo) ∧ (b ≤ p → hi ≤ 0) ∧
        ∀ W X, |a.val - p.val| ≤ W → |b.val - p.val| ≤ W → |a.val| ≤ X → |b.val| ≤ X → ∀ v, lo ≤ v → v ≤ hi →
          a.val - over r W X dt.val ≤ (p + dt * v).val ∧ (p + dt * v).val ≤ b.val + over r W X dt.val := by
  have hT : 0 < dt.val := by
    have := Fl.val_lt.mp hdt
    rwa [Fl.val_zero] at this
  obtain ⟨t, e, hl, ht⟩ := unilateral_eq refInf refSup dt pos 0 (by omega) (by omega)
  refine ⟨t, e, hl, ?_⟩
  intro k a b p ha hb hp
  obtain ⟨hk, rfl⟩ := List.getElem?_eq_some_iff.mp hp
  have h3 := ht k hk
  obtain ⟨_, ha'⟩ := List.getElem?_eq_some_iff.mp ha
  obtain ⟨_, hb'⟩ := List.getElem?_eq_some_iff.mp hb
  simp only [Nat.zero_add, ha', hb'] at h3
  set p := pos[k]
  have sgn : ∀ c : Fl r, (c ≤ p → (c - p) / dt ≤ 0) ∧ (p ≤ c → 0 ≤ (c - p) / dt) := by
    intro c
    simp only [Fl.val_le, Fl.val_zero, Fl.val_div, Fl.val_sub]
    constructor
    · intro h
      exact hr.nonpos (div_nonpos_of_nonpos_of_nonneg (hr.nonpos (by linarith)) hT.le)
    · intro h
      exact hr.nonneg (div_nonneg (hr.nonneg (by linarith)) hT.le)
  refine ⟨_, (a - p) / dt, (b - p) / dt, h3, rfl, rfl, rfl, rfl, (sgn a).1, (sgn b).2, (sgn a).2, (sgn b).1, ?_⟩
  intro W X wa wb xa xb v hv1 hv2
  have k1 := reach_error hdt wa xa
  have k2 := reach_error hdt wb xb
  have k3 := Fl.val_le.mp (step_mono hr hdt p hv1)
  have k4 := Fl.val_le.mp (step_mono hr hdt p hv2)
  rw [abs_le] at k1 k2
  constructor <;> linarith [k1.1, k2.2]

/-- The robot obeys the task: at each period the velocities lie between the bounds that the task gives for the positions, and the
positions are integrated (src/task/task-unilateral.cpp:58-76, src/tools/device.cpp:414-476). -/
inductive Obeys (refInf refSup : List (Fl r)) (dt : Fl r) : List (Fl r) → List (List (Fl r)) → List (Fl r) → Prop
  | nil (p : List (Fl r)) : Obeys refInf refSup dt p [] p
  | cons {p p' v : List (Fl r)} {vs : List (List (Fl r))} {t : List (MultiBound (Fl r))}
      (ht : unilateral refInf refSup dt p 0 = .ok t) (hv : v.length = p.length)
      (hb : ∀ (k : Nat) (x : Fl r) (m : MultiBound (Fl r)) (lo hi : Fl r), v[k]? = some x → t[k]? = some m → getDoubleBound m .inf = .ok lo → getDoubleBound m .sup = .ok hi →
        lo ≤ x ∧ x ≤ hi)
      (h : Obeys refInf refSup dt (List.zipWith (fun p v => p + dt * v) p v) vs p') : Obeys refInf refSup dt p (v :: vs) p'

/-- **The positions never leave the references by more than the rounding of one period**, however long the robot runs: the errors do not
add up. -/
theorem C149_unilateral_run (hr : r.Mono) (refInf refSup : List (Fl r)) (dt : Fl r) (hdt : 0 < dt) (W X s : ℝ)
    (hlen : refInf.length = refSup.length) (hs : over r W X dt.val ≤ s)
    (href : ∀ (k : Nat) (a b : Fl r), refInf[k]? = some a → refSup[k]? = some b → |a.val| ≤ X ∧ |b.val| ≤ X ∧ a.val ≤ b.val ∧ b.val - a.val + s ≤ W)
    (p p' : List (Fl r)) (vs : List (List (Fl r))) (hp : p.length = refInf.length) (h : Obeys refInf refSup dt p vs p')
    (h0 : ∀ (k : Nat) (a b x : Fl r), refInf[k]? = some a → refSup[k]? = some b → p[k]? = some x → a.val - s ≤ x.val ∧ x.val ≤ b.val + s) :
    p'.length = refInf.length ∧
      ∀ (k : Nat) (a b x : Fl r), refInf[k]? = some a → refSup[k]? = some b → p'[k]? = some x → a.val - s ≤ x.val ∧ x.val ≤ b.val + s := by
  induction h with
  | nil p => exact ⟨hp, h0⟩
  | @cons p p' v vs t ht hv hb h ih =>
    refine ih (by simp [hv, hp]) ?_
    intro k a b y ha hb' hy
    obtain ⟨t', e, -, k1⟩ := C149_unilateral hr refInf refSup p dt hdt (by omega) (by omega)
    rw [ht] at e
    cases e
    rw [List.getElem?_zipWith_eq_some] at hy
    obtain ⟨x, u, hx, hu, rfl⟩ := hy
    obtain ⟨m, lo, hi, c1, -, -, c4, c5, -, -, -, -, c10⟩ := k1 k a b x ha hb' hx
    obtain ⟨d1, d2⟩ := hb k u m lo hi hu c1 c4 c5
    obtain ⟨xa, xb, hab, hw⟩ := href k a b ha hb'
    obtain ⟨i1, i2⟩ := h0 k a b x ha hb' hx
    obtain ⟨f1, f2⟩ := c10 W X (by rw [abs_le]; constructor <;> linarith) (by rw [abs_le]; constructor <;> linarith) xa xb u d1 d2
    constructor <;> linarith

theorem over_mono (r : Rounding) (W X : ℝ) {T T' : ℝ} (h : T ≤ T') : over r W X T ≤ over r W X T' := by
  unfold over
  have hu : (0 : ℝ) ≤ r.u := r.u_nonneg
  have h1 : r.η * T ≤ r.η * T' := mul_le_mul_of_nonneg_left h r.η_nonneg
  dsimp only
  gcongr

/-- **With `double`**: references at most 15, a period of at most one second, and the positions stay within `10⁻¹³` of the references,
however long the robot runs. -/
theorem C149_unilateral_double (refInf refSup : List (Fl binary64)) (dt : Fl binary64) (hdt : 0 < dt) (h1 : dt ≤ 1)
    (hlen : refInf.length = refSup.length)
    (href : ∀ (k : Nat) (a b : Fl binary64), refInf[k]? = some a → refSup[k]? = some b → |a.val| ≤ 15 ∧ |b.val| ≤ 15 ∧ a.val ≤ b.val)
    (p p' : List (Fl binary64)) (vs : List (List (Fl binary64))) (hp : p.length = refInf.length) (h : Obeys refInf refSup dt p vs p')
    (h0 : ∀ (k : Nat) (a b x : Fl binary64), refInf[k]? = some a → refSup[k]? = some b → p[k]? = some x → a ≤ x ∧ x ≤ b) :
    ∀ (k : Nat) (a b x : Fl binary64), refInf[k]? = some a → refSup[k]? = some b → p'[k]? = some x →
      a.val - 1 / 10 ^ 13 ≤ x.val ∧ x.val ≤ b.val + 1 / 10 ^ 13 := by
  have hT : 0 < dt.val := by
    have := Fl.val_lt.mp hdt
    rwa [Fl.val_zero] at this
  have hT1 : dt.val ≤ 1 := by
    have := Fl.val_le.mp h1
    rwa [Fl.val_one] at this
  have hη0 : (0 : ℝ) ≤ 2⁻¹ ^ 1075 := by positivity
  have hη : (2⁻¹ : ℝ) ^ 1075 ≤ 2⁻¹ ^ 60 := pow_le_pow_of_le_one (by norm_num) (by norm_num) (by norm_num)
  have hov : over binary64 31 15 dt.val ≤ 1 / 10 ^ 13 := by
    refine (over_mono binary64 31 15 hT1).trans ?_
    unfold over
    rw [show binary64.u = 2⁻¹ ^ 53 from rfl, show binary64.η = 2⁻¹ ^ 1075 from rfl]
    generalize (2⁻¹ : ℝ) ^ 1075 = η at hη hη0
    norm_num at hη ⊢
    linarith
  refine (C149_unilateral_run binary64_mono refInf refSup dt hdt 31 15 (1 / 10 ^ 13) hlen hov ?_ p p' vs hp h ?_).2
  · intro k a b ha hb
    obtain ⟨q1, q2, q3⟩ := href k a b ha hb
    refine ⟨q1, q2, q3, ?_⟩
    rw [abs_le] at q1 q2
    norm_num
    linarith [q1.1, q2.2]
  · intro k a b x ha hb hx
    obtain ⟨i1, i2⟩ := h0 k a b x ha hb hx
    rw [Fl.val_le] at i1 i2
    constructor <;> norm_num <;> linarith

/-- A joint between -1 and 1 that obeys the task for one period. -/
example : ∃ vs p', vs.length = 1 ∧ Obeys [-1] [1] (1 : Fl binary64) [0] vs p' := by
  obtain ⟨t, ht, hl, hk⟩ := C149_unilateral binary64_mono [-1] [1] [0] (1 : Fl binary64)
    (by rw [Fl.val_lt, Fl.val_zero, Fl.val_one]; norm_num) (by simp) (by simp)
  refine ⟨[[0]], _, rfl, .cons ht rfl ?_ (.nil _)⟩
  intro k x m lo hi hx hm h1 h2
  match k, hx, hm with
  | 0, hx, hm =>
    obtain ⟨m', lo', hi', c1, -, -, c4, c5, c6, c7, -⟩ := hk 0 (-1) 1 0 rfl rfl rfl
    rw [hm] at c1
    cases c1
    rw [h1] at c4
    rw [h2] at c5
    cases c4
    cases c5
    simp only [List.getElem?_cons_zero, Option.some.injEq] at hx
    subst hx
    refine ⟨c6 ?_, c7 ?_⟩ <;> rw [Fl.val_le] <;> simp [Fl.val_zero]
  | k + 1, hx, hm => simp at hx

/-! ## Admittance -/

/-- **The saturation of the admittance holds exactly**, and a robot at rest under the force that is asked for stays at rest. -/
theorem C149_admittance (dt sat kp kd des force w : Fl r) (hs : 0 ≤ sat) :
    (-sat ≤ Admittance.dqComp dt sat kp kd des force w ∧ Admittance.dqComp dt sat kp kd des force w ≤ sat) ∧
      (force = des → w = 0 → Admittance.dqComp dt sat kp kd des force w = 0) := by
  have hs' : 0 ≤ sat.val := by
    have := Fl.val_le.mp hs
    rwa [Fl.val_zero] at this
  have hn : -sat ≤ sat := by
    rw [Fl.val_le, Fl.val_neg]
    linarith
  constructor
  · unfold Admittance.dqComp Admittance.saturate
    generalize w + dt * (kp * (des - force)) - kd * w = y
    simp only
    split_ifs with h1 h2 h2
    · exact ⟨le_refl _, hn⟩
    · exact ⟨hn, le_refl _⟩
    · exact ⟨le_refl _, hn⟩
    · exact ⟨not_lt.mp h2, not_lt.mp h1⟩
  · rintro rfl rfl
    have : (0 : Fl r) + dt * (kp * (force - force)) - kd * 0 = 0 := by
      rw [← Fl.val_inj]
      simp [r.zero]
    unfold Admittance.dqComp
    rw [this]
    unfold Admittance.saturate
    have h1 : ¬ (0 : Fl r) > sat := not_lt.mpr hs
    have h2 : ¬ (0 : Fl r) < -sat := by
      rw [Fl.val_lt, Fl.val_neg, Fl.val_zero]
      linarith
    simp only [if_neg h1, if_neg h2]

/-! ## Gains -/

/-- What is asked of the function `exp` of the library: it keeps the order, it is not negative, and it is 1 at 0. -/
structure ExpLike (f : Fl r → Fl r) : Prop where
  mono : ∀ x y, x ≤ y → f x ≤ f y
  nonneg : ∀ x, 0 ≤ f x
  zero : f 0 = 1

/-- The exponential, rounded, is such a function. -/
example (hr : r.Mono) : ExpLike (r := r) fun x => Fl.of r (Real.exp x.val) where
  mono x y h := Fl.val_le.mpr (hr _ _ (Real.exp_le_exp.mpr (Fl.val_le.mp h)))
  nonneg x := by
    rw [Fl.val_le, Fl.val_zero, Fl.of_val]
    exact hr.nonneg (Real.exp_pos _).le
  zero := by
    rw [← Fl.val_inj, Fl.of_val, Fl.val_zero, Real.exp_zero, r.one, Fl.val_one]

/-- The coefficient `b` of a gain (src/task/gain-adaptive.cpp:106-110). -/
noncomputable def slope (a tan : Fl r) : Fl r := if 0 = a then 0 else tan / a

theorem slope_nonneg (hr : r.Mono) {a tan : Fl r} (ha : 0 ≤ a) (ht : 0 ≤ tan) : 0 ≤ slope a tan := by
  unfold slope
  split_ifs
  · exact le_refl _
  · rw [Fl.val_le, Fl.val_zero] at *
    exact hr.nonneg (div_nonneg ht ha)

/-- **The adaptive gain with rounding**: it never increases with the norm of the error, it is never below the value at infinity, and
never above the value computed at zero, which is the value asked for up to two roundings. -/
theorem C149_adaptive_gain (hr : r.Mono) {exp : Fl r → Fl r} (he : ExpLike exp) (v0 vinf tan : Fl r) (hv : vinf ≤ v0) (ht : 0 ≤ tan) :
    (∀ n n' : Fl r, 0 ≤ n → n ≤ n' →
      Gain.adaptiveValue exp (v0 - vinf) (slope (v0 - vinf) tan) vinf n' ≤ Gain.adaptiveValue exp (v0 - vinf) (slope (v0 - vinf) tan) vinf n) ∧
    (∀ n : Fl r, vinf ≤ Gain.adaptiveValue exp (v0 - vinf) (slope (v0 - vinf) tan) vinf n) ∧
    Gain.adaptiveValue exp (v0 - vinf) (slope (v0 - vinf) tan) vinf 0 = v0 - vinf + vinf ∧
    |(v0 - vinf + vinf).val - v0.val| ≤
      (r.u * (v0.val - vinf.val) + r.η) + (r.u * (|v0.val| + (r.u * (v0.val - vinf.val) + r.η)) + r.η) := by
  have hv' := Fl.val_le.mp hv
  set a := v0 - vinf with hadef
  have ha : 0 ≤ a := by
    rw [Fl.val_le, Fl.val_zero, hadef, Fl.val_sub]
    exact hr.nonneg (by linarith)
  have hb := slope_nonneg hr ha ht
  set b := slope a tan
  have ha' : 0 ≤ a.val := by rwa [Fl.val_le, Fl.val_zero] at ha
  have hb' : 0 ≤ b.val := by rwa [Fl.val_le, Fl.val_zero] at hb
  have anti : ∀ n n' : Fl r, 0 ≤ n → n ≤ n' → Gain.adaptiveValue exp a b vinf n' ≤ Gain.adaptiveValue exp a b vinf n := by
    intro n n' _ hnn
    have h1 : -b * n' ≤ -b * n := by
      rw [Fl.val_le] at hnn ⊢
      simp only [Fl.val_mul, Fl.val_neg]
      exact hr _ _ (by nlinarith)
    have h2 := Fl.val_le.mp (he.mono _ _ h1)
    unfold Gain.adaptiveValue
    rw [Fl.val_le]
    simp only [Fl.val_add, Fl.val_mul]
    refine hr _ _ (by linarith [hr _ _ (mul_le_mul_of_nonneg_left h2 ha')])
  refine ⟨anti, ?_, ?_, ?_⟩
  · intro n
    unfold Gain.adaptiveValue
    have h1 := Fl.val_le.mp (he.nonneg (-b * n))
    rw [Fl.val_zero] at h1
    rw [Fl.val_le, Fl.val_add, Fl.val_mul]
    refine hr.val_le ?_
    have := hr.nonneg (mul_nonneg ha' h1)
    linarith
  · unfold Gain.adaptiveValue
    have h0 : -b * (0 : Fl r) = 0 := by
      rw [← Fl.val_inj]
      simp [r.zero]
    rw [h0, he.zero]
    congr 1
    rw [← Fl.val_inj, Fl.val_mul, Fl.val_one, mul_one, Fl.rnd_val]
  · rw [Fl.val_add, hadef, Fl.val_sub]
    have h1 := r.err (v0.val - vinf.val)
    rw [abs_of_nonneg (by linarith : 0 ≤ v0.val - vinf.val)] at h1
    set d := r.rnd (v0.val - vinf.val)
    have h2 := r.err (d + vinf.val)
    have h3 : |d + vinf.val| ≤ |v0.val| + (r.u * (v0.val - vinf.val) + r.η) := by
      rw [show d + vinf.val = v0.val + (d - (v0.val - vinf.val)) by ring]
      exact (abs_add_le _ _).trans (by linarith)
    rw [show r.rnd (d + vinf.val) - v0.val = (d - (v0.val - vinf.val)) + (r.rnd (d + vinf.val) - (d + vinf.val)) by ring]
    refine (abs_add_le _ _).trans (add_le_add h1 (h2.trans ?_))
    linarith [mul_le_mul_of_nonneg_left h3 r.u_nonneg]

/-- What is asked of the function `tanh` of the library: it keeps the order and stays between -1 and 1. -/
structure TanhLike (f : Fl r → Fl r) : Prop where
  mono : ∀ x y, x ≤ y → f x ≤ f y
  low : ∀ x, -1 ≤ f x
  high : ∀ x, f x ≤ 1

/-- The hyperbolic tangent, rounded, is such a function. -/
example (hr : r.Mono) : TanhLike (r := r) fun x => Fl.of r (Real.tanh x.val) where
  mono x y h := by
    refine Fl.val_le.mpr (hr _ _ ?_)
    have h1 := Gain.Hyperbolic.half_tanh x.val
    have h2 := Gain.Hyperbolic.half_tanh y.val
    have h3 : 1 / (1 + Real.exp (-2 * x.val)) ≤ 1 / (1 + Real.exp (-2 * y.val)) :=
      one_div_le_one_div_of_le (by positivity) (by linarith [Real.exp_le_exp.mpr (by linarith [Fl.val_le.mp h] : -2 * y.val ≤ -2 * x.val)])
    linarith
  low x := by
    rw [Fl.val_le, Fl.of_val]
    refine hr.val_le ?_
    rw [Fl.val_neg, Fl.val_one]
    exact (Real.neg_one_lt_tanh _).le
  high x := by
    rw [Fl.val_le, Fl.of_val]
    refine hr.le_val ?_
    rw [Fl.val_one]
    exact (Real.tanh_lt_one _).le

/-- **The hyperbolic gain with rounding**: it never increases with the norm of the error, it is never below the value at infinity, and
never above what the formula gives where `tanh` is 1. -/
theorem C149_hyperbolic_gain (hr : r.Mono) {tanh : Fl r → Fl r} (he : TanhLike tanh) (half a b c d : Fl r) (hh : 0 ≤ half) (ha : 0 ≤ a)
    (hb : 0 ≤ b) :
    (∀ n n' : Fl r, n ≤ n' → Gain.hyperbolicValue tanh half a b c d n' ≤ Gain.hyperbolicValue tanh half a b c d n) ∧
      ∀ n : Fl r, c ≤ Gain.hyperbolicValue tanh half a b c d n ∧ Gain.hyperbolicValue tanh half a b c d n ≤ a * half * (1 + 1) + c := by
  have ha' : 0 ≤ (a * half).val := by
    rw [Fl.val_le, Fl.val_zero] at ha hh
    rw [Fl.val_mul]
    exact hr.nonneg (mul_nonneg ha hh)
  have hb' : 0 ≤ b.val := by rwa [Fl.val_le, Fl.val_zero] at hb
  have key : ∀ x y : Fl r, x ≤ y → a * half * (x + 1) + c ≤ a * half * (y + 1) + c := by
    intro x y hxy
    rw [Fl.val_le] at hxy ⊢
    rw [Fl.val_add, Fl.val_add, Fl.val_mul, Fl.val_mul _ (y + 1), Fl.val_add, Fl.val_add y]
    refine hr _ _ ?_
    have h1 : r.rnd (x.val + (1 : Fl r).val) ≤ r.rnd (y.val + (1 : Fl r).val) := hr _ _ (by linarith)
    linarith [hr _ _ (mul_le_mul_of_nonneg_left h1 ha')]
  refine ⟨?_, fun n => ⟨?_, key _ _ (he.high _)⟩⟩
  · intro n n' hn
    refine key _ _ (he.mono _ _ ?_)
    rw [Fl.val_le] at hn ⊢
    simp only [Fl.val_mul, Fl.val_neg, Fl.val_sub]
    have : r.rnd (n.val - d.val) ≤ r.rnd (n'.val - d.val) := hr _ _ (by linarith)
    exact hr _ _ (by nlinarith)
  · have h1 := key _ _ (he.low (-b * (n - d)))
    have h2 : a * half * (-1 + 1) + c = c := by
      rw [← Fl.val_inj]
      simp [r.zero]
    rwa [h2] at h1

end Verif.Rounding
