import Verif.Loop.DeviceStep
import Verif.Rounding.Model

/-!
# C129: the device with rounded numbers

The bounds hold exactly with rounded numbers: C22, C24, C25 and C26 are proved for any numbers that can be compared, whatever their
operations do. Here the positions computed with rounding are compared with the exact ones.
-/

namespace Verif.Rounding

open Verif.Device Verif.Loop

variable {r : Rounding}

/-- What one step of a position adds to the error: positions at most `X`, displacements in one step at most `b`. -/
noncomputable def slip (r : Rounding) (X b : ℝ) : ℝ := r.u * (X + b + (r.u * b + r.η)) + r.η + (r.u * b + r.η)

theorem slip_nonneg {X b : ℝ} (hX : 0 ≤ X) (hb : 0 ≤ b) : 0 ≤ slip r X b := by
  have := r.u_nonneg
  have := r.η_nonneg
  unfold slip
  positivity

theorem step_error {x y s δ X b : ℝ} (hxy : |x - y| ≤ δ) (hx : |x| ≤ X) (hs : |s| ≤ b) :
    |r.rnd (x + r.rnd s) - (y + s)| ≤ δ + slip r X b := by
  have hu := r.u_nonneg
  have h1 : |r.rnd s - s| ≤ r.u * b + r.η := (r.err s).trans (by linarith [mul_le_mul_of_nonneg_left hs hu])
  have h2 : |x + r.rnd s| ≤ X + b + (r.u * b + r.η) := by
    rw [show x + r.rnd s = x + s + (r.rnd s - s) by ring]
    exact (abs_add_le _ _).trans (add_le_add ((abs_add_le _ _).trans (add_le_add hx hs)) h1)
  have h3 := r.err (x + r.rnd s)
  have h4 := mul_le_mul_of_nonneg_left h2 hu
  rw [show r.rnd (x + r.rnd s) - (y + s) = (x - y) + ((r.rnd (x + r.rnd s) - (x + r.rnd s)) + (r.rnd s - s)) by ring]
  refine (abs_add_le _ _).trans (add_le_add hxy ((abs_add_le _ _).trans ?_))
  unfold slip
  linarith

/-- Clamping brings numbers no further apart. -/
theorem clamp_near (l p a b : ℝ) : |max l (min a p) - max l (min b p)| ≤ |a - b| := by
  rcases le_total a b with h | h
  · have h1 : max l (min a p) ≤ max l (min b p) := max_le_max le_rfl (min_le_min h le_rfl)
    rw [abs_of_nonpos (by linarith), abs_of_nonpos (by linarith)]
    have : max l (min b p) ≤ max l (min a p) + (b - a) := by
      rcases le_total a p with h2 | h2
      · rw [min_eq_left h2]
        rcases le_total l a with h3 | h3
        · rw [max_eq_right h3]
          exact max_le (by linarith) ((min_le_left _ _).trans (by linarith))
        · rw [max_eq_left h3]
          exact max_le (by linarith) ((min_le_left _ _).trans (by linarith))
      · rw [min_eq_right h2, min_eq_right (h2.trans h)]
        linarith
    linarith
  · have h1 : max l (min b p) ≤ max l (min a p) := max_le_max le_rfl (min_le_min h le_rfl)
    rw [abs_of_nonneg (by linarith), abs_of_nonneg (by linarith)]
    have : max l (min a p) ≤ max l (min b p) + (a - b) := by
      rcases le_total b p with h2 | h2
      · rw [min_eq_left h2]
        rcases le_total l b with h3 | h3
        · rw [max_eq_right h3]
          exact max_le (by linarith) ((min_le_left _ _).trans (by linarith))
        · rw [max_eq_left h3]
          exact max_le (by linarith) ((min_le_left _ _).trans (by linarith))
      · rw [min_eq_right h2, min_eq_right (h2.trans h)]
        linarith
    linarith

/-- The same vector, with exact numbers. -/
def vals (v : List (Option (Fl r))) : List (Option ℝ) := v.map (Option.map Fl.val)

/-- The same device, which from now on computes with exact numbers. -/
def exactly (d : Dev (Fl r)) : Dev ℝ where
  state := vals d.state
  velocity := vals d.velocity
  sanity := d.sanity
  mode := d.mode
  lowerPosition := vals d.lowerPosition
  upperPosition := vals d.upperPosition
  lowerVelocity := vals d.lowerVelocity
  upperVelocity := vals d.upperVelocity
  lowerTorque := vals d.lowerTorque
  upperTorque := vals d.upperTorque
  stateSOUT := vals d.stateSOUT
  velocitySOUT := vals d.velocitySOUT
  time := d.time

/-- A history of controls with numbers, at the period `dt`. -/
def drive {F : Type} (us : List (List F)) (dt : F) : List (Cmd F) := us.map fun u => Cmd.increment (nums u) dt

/-- Two devices with the same settings, one with rounding, whose positions number `k` differ by at most `δ`. -/
structure Near (k : Nat) (δ : ℝ) (d : Dev (Fl r)) (e : Dev ℝ) : Prop where
  mode : d.mode = .oneInteg
  mode' : e.mode = .oneInteg
  sanity : e.sanity = d.sanity
  lower : e.lowerPosition = vals d.lowerPosition
  upper : e.upperPosition = vals d.upperPosition
  usable : Usable d
  usable' : Usable e
  near : ∃ q p x y, d.state = nums q ∧ e.state = nums p ∧ p.length = q.length ∧ q[k]? = some x ∧ p[k]? = some y ∧ |x.val - y| ≤ δ

theorem vals_get (v : List (Option (Fl r))) (i : Nat) : (vals v)[i]? = v[i]?.map (Option.map Fl.val) := by simp [vals]

theorem Near.step {ff : List (Option (Fl r)) → List (Option (Fl r)) → Fl r → (Fin 6 → Option (Fl r))}
    {fe : List (Option ℝ) → List (Option ℝ) → ℝ → (Fin 6 → Option ℝ)} {j n : Nat} {δ X b : ℝ} {d : Dev (Fl r)} {e : Dev ℝ}
    {u : List (Fl r)} {dt : Fl r} {v : Fl r} (h : Near (n - u.length + j) δ d e) (hn : d.state.length = n) (hu : u.length < n)
    (hv : u[j]? = some v) (hX : ∀ x, d.state[n - u.length + j]? = some (some x) → |x.val| ≤ X) (hb : |dt.val * v.val| ≤ b) :
    ∃ d' e', increment ff d (nums u) dt = .ok d' ∧ increment fe e (nums (u.map Fl.val)) dt.val = .ok e' ∧ d'.state.length = n ∧
      Near (n - u.length + j) (δ + slip r X b) d' e' := by
  obtain ⟨q, p, x, y, hq, hp, hl, hx, hy, hxy⟩ := h.near
  have hqn : q.length = n := by rw [← hn, hq]; simp [nums]
  subst hqn
  obtain ⟨d', q', a1, a2, -, a4, a5, a6, -, a8⟩ := device_step ff d q u dt h.mode hq hu.le (by omega) (by omega) h.usable
  obtain ⟨e', p', b1, b2, -, b4, b5, b6, -, b8⟩ := device_step fe e p (u.map Fl.val) dt.val h.mode' hp (by simp; omega)
    (by simp; omega) (by simp; omega) h.usable'
  obtain ⟨z, hz, kz⟩ := a8 j x v (by omega) hx hv
  obtain ⟨w, hw, kw⟩ := b8 j y v.val (by simp; omega) (by simpa [hl] using hy) (by simp [hv])
  have he : p.length - (u.map Fl.val).length + j = q.length - u.length + j := by simp [hl]
  rw [he] at hw kw
  refine ⟨d', e', a1, b1, by rw [a2]; simpa [nums] using a4, ?_⟩
  obtain ⟨s1, s2, s3, s4, -, -⟩ := a5
  obtain ⟨t1, t2, t3, t4, -, -⟩ := b5
  refine ⟨by rw [s2, h.mode], by rw [t2, h.mode'], by rw [t1, s1, h.sanity], by rw [t3, s3, h.lower], by rw [t4, s4, h.upper], a6, b6,
    q', p', z, w, a2, b2, by omega, hz, hw, ?_⟩
  have key := step_error (r := r) hxy (hX x (by rw [hq, nums_get, hx]; rfl)) hb
  rcases kz with ⟨c1, c2⟩ | ⟨c1, l, m, c2, c3, c4⟩
  · rcases kw with ⟨-, g2⟩ | ⟨g1, -⟩
    · rw [c2, g2]
      exact key
    · rw [h.sanity, c1] at g1; cases g1
  · rcases kw with ⟨g1, -⟩ | ⟨-, l', m', g2, g3, g4⟩
    · rw [h.sanity, c1] at g1; cases g1
    · rw [h.lower, vals_get, c2] at g2
      rw [h.upper, vals_get, c3] at g3
      simp only [Option.map_some, Option.some.injEq] at g2 g3
      rw [c4, g4, ← g2, ← g3, Fl.val_max, Fl.val_min]
      exact (clamp_near _ _ _ _).trans key

theorem sized_exactly {d : Dev (Fl r)} (h : Sized d) : Sized (exactly d) := by
  obtain ⟨h1, h2, h3, h4, h5⟩ := h
  exact ⟨by simpa [exactly, vals] using h1, by simpa [exactly, vals] using h2, by simpa [exactly, vals] using h3,
    by simpa [exactly, vals] using h4, by simpa [exactly, vals] using h5⟩

theorem usable_exactly {d : Dev (Fl r)} (h : Usable d) : Usable (exactly d) := by
  rcases h with h | ⟨h, hb⟩
  · exact .inl h
  · refine .inr ⟨sized_exactly h, by simpa [exactly, vals] using hb.1, ?_⟩
    intro i a b ha hb'
    simp only [exactly, vals_get, Option.map_eq_some_iff] at ha hb'
    obtain ⟨a', ha1, rfl⟩ := ha
    obtain ⟨b', hb1, rfl⟩ := hb'
    obtain ⟨l, p, rfl, rfl, hlp⟩ := hb.2 i a' b' ha1 hb1
    exact ⟨l.val, p.val, rfl, rfl, hlp⟩

theorem drift {ff : List (Option (Fl r)) → List (Option (Fl r)) → Fl r → (Fin 6 → Option (Fl r))}
    {fe : List (Option ℝ) → List (Option ℝ) → ℝ → (Fin 6 → Option ℝ)} {j n m : Nat} {X b : ℝ} {dt : Fl r} (hm : m < n)
    (us : List (List (Fl r))) (hu : ∀ u ∈ us, u.length = m ∧ ∃ v, u[j]? = some v ∧ |dt.val * v.val| ≤ b) :
    ∀ {δ : ℝ} {d : Dev (Fl r)} {e : Dev ℝ}, Near (n - m + j) δ d e → d.state.length = n →
    (∀ t, t < us.length → ∀ d', run ff d (drive (us.take t) dt) = .ok d' → ∀ x, d'.state[n - m + j]? = some (some x) → |x.val| ≤ X) →
    ∃ d' e', run ff d (drive us dt) = .ok d' ∧ run fe e (drive (us.map (List.map Fl.val)) dt.val) = .ok e' ∧
      Near (n - m + j) (δ + us.length * slip r X b) d' e' := by
  induction us with
  | nil =>
    intro δ d e h _ _
    exact ⟨d, e, rfl, rfl, by simpa using h⟩
  | cons u us ih =>
    intro δ d e h hn hX
    obtain ⟨rfl, v, hv, hb⟩ := hu u (by simp)
    obtain ⟨d1, e1, a1, a2, a3, a4⟩ := h.step (ff := ff) (fe := fe) hn hm hv (hX 0 (by simp) d rfl) hb
    obtain ⟨d', e', b1, b2, b3⟩ := ih (fun w hw => hu w (by simp [hw])) a4 a3 (by
      intro t ht d2 hd2
      refine hX (t + 1) (by simpa using ht) d2 ?_
      simp only [drive, List.take_succ_cons, List.map_cons, run, Device.step, a1, Outcome.bind_ok]
      exact hd2)
    refine ⟨d', e', ?_, ?_, ?_⟩
    · simp only [drive, List.map_cons, run, Device.step, a1, Outcome.bind_ok]
      exact b1
    · simp only [drive, List.map_cons, run, Device.step, a2, Outcome.bind_ok]
      exact b2
    · rw [show δ + (u :: us).length * slip r X b = δ + slip r X b + us.length * slip r X b by push_cast [List.length_cons]; ring]
      exact b3

/-- **Rounding moves the positions slowly.** A device driven in velocity by controls of `m` numbers, fewer than its positions, runs with
rounding and without; as long as the rounded position of a joint is at most `X` in absolute value and its displacement in one step at
most `b`, after `T` steps the two positions differ by at most `T` times `u (X + b + …) + …` (`slip`), whether or not the device checks
its bounds. -/
theorem C129_drift (ff : List (Option (Fl r)) → List (Option (Fl r)) → Fl r → (Fin 6 → Option (Fl r)))
    (fe : List (Option ℝ) → List (Option ℝ) → ℝ → (Fin 6 → Option ℝ)) (j m : Nat) (X b : ℝ) (dt : Fl r) (d : Dev (Fl r))
    (us : List (List (Fl r))) (q : List (Fl r)) (hq : d.state = nums q) (hm : m < q.length) (hmode : d.mode = .oneInteg)
    (hs : d.sanity = false ∨ (Sized d ∧ BoundsOk d.lowerPosition d.upperPosition)) (hj : j < m)
    (hu : ∀ u ∈ us, u.length = m) (hb : ∀ u ∈ us, ∀ v, u[j]? = some v → |dt.val * v.val| ≤ b)
    (hX : ∀ t, t < us.length → ∀ d', run ff d (drive (us.take t) dt) = .ok d' →
      ∀ x, d'.state[q.length - m + j]? = some (some x) → |x.val| ≤ X) :
    ∃ d' e' x y, run ff d (drive us dt) = .ok d' ∧ run fe (exactly d) (drive (us.map (List.map Fl.val)) dt.val) = .ok e' ∧
      d'.state[q.length - m + j]? = some (some x) ∧ e'.state[q.length - m + j]? = some (some y) ∧
      |x.val - y| ≤ us.length * (r.u * (X + b + (r.u * b + r.η)) + r.η + (r.u * b + r.η)) := by
  have hk : q.length - m + j < q.length := by omega
  have h0 : Near (q.length - m + j) 0 d (exactly d) := ⟨hmode, hmode, rfl, rfl, rfl, hs, usable_exactly hs,
    q, q.map Fl.val, q[q.length - m + j], q[q.length - m + j].val, hq, by simp [exactly, hq, vals, nums], by simp,
    List.getElem?_eq_getElem hk, by simp [hk], by simp⟩
  obtain ⟨d', e', h1, h2, h3⟩ := drift (ff := ff) (fe := fe) hm us (fun u huu => ⟨hu u huu, by
    have : j < u.length := by rw [hu u huu]; exact hj
    exact ⟨u[j], List.getElem?_eq_getElem this, hb u huu _ (List.getElem?_eq_getElem this)⟩⟩) h0 (by rw [hq]; simp [nums]) hX
  obtain ⟨q', p', x, y, e1, e2, -, e3, e4, e5⟩ := h3.near
  refine ⟨d', e', x, y, h1, h2, by rw [e1, nums_get, e3]; rfl, by rw [e2, nums_get, e4]; rfl, ?_⟩
  simpa [slip] using e5

theorem kept_in_bounds {ff : List (Option (Fl r)) → List (Option (Fl r)) → Fl r → (Fin 6 → Option (Fl r))} {k : Nat} {X : ℝ} {dt : Fl r}
    (us : List (List (Fl r))) : ∀ {d d' : Dev (Fl r)}, d.sanity = true → d.mode = .oneInteg → BoundsOk d.lowerPosition d.upperPosition →
    (∀ l, d.lowerPosition[k]? = some (some l) → |l.val| ≤ X) → (∀ l, d.upperPosition[k]? = some (some l) → |l.val| ≤ X) →
    (∀ x, d.state[k]? = some (some x) → |x.val| ≤ X) → run ff d (drive us dt) = .ok d' →
    ∀ x, d'.state[k]? = some (some x) → |x.val| ≤ X := by
  induction us with
  | nil =>
    intro d d' _ _ _ _ _ h h'
    simp only [drive, List.map_nil, run, Outcome.ok.injEq] at h'
    rwa [← h']
  | cons u us ih =>
    intro d d' hs hm hb hl hp _ h'
    simp only [drive, List.map_cons, run, Device.step] at h'
    obtain ⟨d1, h1, h2⟩ := Outcome.bind_eq_ok.mp h'
    obtain ⟨_, -, -, -, -, -, e3, e4, e5, e6, -⟩ := increment_cases h1
    refine ih (e3.trans hs) (e4.trans hm) (by rw [e5, e6]; exact hb) (by rw [e5]; exact hl) (by rw [e6]; exact hp) ?_ h2
    intro x hx
    obtain ⟨l, p, g1, g2, g3, g4⟩ := (C22_positions_within_bounds ff d d1 _ dt hs (by rw [hm]; decide) (nums_noNaN u) hb h1).1 k x hx
    exact abs_le.mpr ⟨by linarith [(abs_le.mp (hl l g1)).1, Fl.val_le.mp g3], by linarith [(abs_le.mp (hp p g2)).2, Fl.val_le.mp g4]⟩

/-- A device that checks its bounds keeps the positions bounded by itself: when the bounds of a joint and its first position are at most
`X` in absolute value, after `T` steps the rounded position is within `T (u (X + b + …) + …)` of the exact one. -/
theorem C129_checked_drift (ff : List (Option (Fl r)) → List (Option (Fl r)) → Fl r → (Fin 6 → Option (Fl r)))
    (fe : List (Option ℝ) → List (Option ℝ) → ℝ → (Fin 6 → Option ℝ)) (j m : Nat) (X b : ℝ) (dt : Fl r) (d : Dev (Fl r))
    (us : List (List (Fl r))) (q : List (Fl r)) (hq : d.state = nums q) (hm : m < q.length) (hmode : d.mode = .oneInteg)
    (hc : d.sanity = true) (hsz : Sized d) (hbo : BoundsOk d.lowerPosition d.upperPosition) (hj : j < m)
    (hu : ∀ u ∈ us, u.length = m) (hb : ∀ u ∈ us, ∀ v, u[j]? = some v → |dt.val * v.val| ≤ b)
    (hl : ∀ l, d.lowerPosition[q.length - m + j]? = some (some l) → |l.val| ≤ X)
    (hp : ∀ l, d.upperPosition[q.length - m + j]? = some (some l) → |l.val| ≤ X)
    (hx : ∀ x, q[q.length - m + j]? = some x → |x.val| ≤ X) :
    ∃ d' e' x y, run ff d (drive us dt) = .ok d' ∧ run fe (exactly d) (drive (us.map (List.map Fl.val)) dt.val) = .ok e' ∧
      d'.state[q.length - m + j]? = some (some x) ∧ e'.state[q.length - m + j]? = some (some y) ∧
      |x.val - y| ≤ us.length * (r.u * (X + b + (r.u * b + r.η)) + r.η + (r.u * b + r.η)) := by
  refine C129_drift ff fe j m X b dt d us q hq hm hmode (.inr ⟨hsz, hbo⟩) hj hu hb ?_
  intro t _ d' hd'
  refine kept_in_bounds _ hc hmode hbo hl hp ?_ hd'
  intro x h
  rw [hq, nums_get] at h
  exact hx x (by simpa using h)

/-- The last positions of an exact device without checks: the first ones plus the period times the sum of the controls. -/
theorem exact_sum {fe : List (Option ℝ) → List (Option ℝ) → ℝ → (Fin 6 → Option ℝ)} {j m n : Nat} {dt : ℝ} (hm : m < n)
    (us : List (List ℝ)) (hu : ∀ u ∈ us, u.length = m) (hj : j < m) : ∀ {e e' : Dev ℝ} {p : List ℝ} {x : ℝ},
    e.state = nums p → p.length = n → e.mode = .oneInteg → e.sanity = false → p[n - m + j]? = some x → run fe e (drive us dt) = .ok e' →
    e'.state[n - m + j]? = some (some (x + dt * (us.map fun u => u.getD j 0).sum)) := by
  induction us with
  | nil =>
    intro e e' p x hp _ _ _ hx h
    simp only [drive, List.map_nil, run, Outcome.ok.injEq] at h
    rw [← h, hp, nums_get, hx]
    simp
  | cons u us ih =>
    intro e e' p x hp hn hmode hs hx h
    obtain rfl := hu u (by simp)
    subst hn
    obtain ⟨e1, p', a1, a2, -, a4, ⟨s1, s2, -⟩, -, -, a8⟩ := device_step fe e p u dt hmode hp hm.le (by omega) (by omega) (.inl hs)
    simp only [drive, List.map_cons, run, Device.step, a1, Outcome.bind_ok] at h
    obtain ⟨z, hz, kz⟩ := a8 j x u[j] (by omega) hx (List.getElem?_eq_getElem hj)
    rcases kz with ⟨-, rfl⟩ | ⟨c, -⟩
    · have := ih (fun w hw => hu w (by simp [hw])) a2 a4 (s2.trans hmode) (s1.trans hs) hz h
      rw [this]
      simp [hj]
      ring
    · rw [hs] at c; cases c

/-- Without checks: the rounded position of a joint is within `T (u (X + b + …) + …)` of its first value plus the period times the sum
of its controls. -/
theorem C129_unchecked_drift (ff : List (Option (Fl r)) → List (Option (Fl r)) → Fl r → (Fin 6 → Option (Fl r))) (j m : Nat) (X b : ℝ)
    (dt : Fl r) (d : Dev (Fl r)) (us : List (List (Fl r))) (q : List (Fl r)) (x0 : Fl r) (hq : d.state = nums q) (hm : m < q.length)
    (hmode : d.mode = .oneInteg) (hs : d.sanity = false) (hj : j < m) (hx0 : q[q.length - m + j]? = some x0)
    (hu : ∀ u ∈ us, u.length = m) (hb : ∀ u ∈ us, ∀ v, u[j]? = some v → |dt.val * v.val| ≤ b)
    (hX : ∀ t, t < us.length → ∀ d', run ff d (drive (us.take t) dt) = .ok d' →
      ∀ x, d'.state[q.length - m + j]? = some (some x) → |x.val| ≤ X) :
    ∃ d' x, run ff d (drive us dt) = .ok d' ∧ d'.state[q.length - m + j]? = some (some x) ∧
      |x.val - (x0.val + dt.val * (us.map fun u => ((u[j]?).map Fl.val).getD 0).sum)| ≤
        us.length * (r.u * (X + b + (r.u * b + r.η)) + r.η + (r.u * b + r.η)) := by
  obtain ⟨d', e', x, y, h1, h2, h3, h4, h5⟩ := C129_drift ff (fun _ _ _ _ => none) j m X b dt d us q hq hm hmode (.inl hs) hj hu hb hX
  refine ⟨d', x, h1, h3, ?_⟩
  have := exact_sum (n := q.length) hm _ (by simpa using hu) hj (p := q.map Fl.val) (x := x0.val) (by simp [exactly, hq, vals, nums]) (by simp) hmode hs
    (by simp [hx0]) h2
  rw [this] at h4
  simp only [Option.some.injEq] at h4
  rw [← h4, List.map_map] at h5
  simpa [Function.comp_def, List.getD_eq_getElem?_getD] using h5

/-- In the arithmetic of `double`: after two hours at a period of 1 ms, a checked joint within ±4 rad that moves by at most 0.01 rad in a
period is where exact numbers would put it, to 10⁻⁸ rad. -/
theorem C129_double (ff : List (Option (Fl binary64)) → List (Option (Fl binary64)) → Fl binary64 → (Fin 6 → Option (Fl binary64)))
    (fe : List (Option ℝ) → List (Option ℝ) → ℝ → (Fin 6 → Option ℝ)) (j m : Nat) (dt : Fl binary64) (d : Dev (Fl binary64))
    (us : List (List (Fl binary64))) (q : List (Fl binary64)) (hq : d.state = nums q) (hm : m < q.length) (hmode : d.mode = .oneInteg)
    (hc : d.sanity = true) (hsz : Sized d) (hbo : BoundsOk d.lowerPosition d.upperPosition) (hj : j < m)
    (hu : ∀ u ∈ us, u.length = m) (hb : ∀ u ∈ us, ∀ v, u[j]? = some v → |dt.val * v.val| ≤ 1 / 100)
    (hl : ∀ l, d.lowerPosition[q.length - m + j]? = some (some l) → |l.val| ≤ 4)
    (hp : ∀ l, d.upperPosition[q.length - m + j]? = some (some l) → |l.val| ≤ 4)
    (hx : ∀ x, q[q.length - m + j]? = some x → |x.val| ≤ 4) (hT : us.length ≤ 7200000) :
    ∃ d' e' x y, run ff d (drive us dt) = .ok d' ∧ run fe (exactly d) (drive (us.map (List.map Fl.val)) dt.val) = .ok e' ∧
      d'.state[q.length - m + j]? = some (some x) ∧ e'.state[q.length - m + j]? = some (some y) ∧ |x.val - y| ≤ 1 / 10 ^ 8 := by
  obtain ⟨d', e', x, y, h1, h2, h3, h4, h5⟩ := C129_checked_drift ff fe j m 4 (1 / 100) dt d us q hq hm hmode hc hsz hbo hj hu hb hl hp hx
  refine ⟨d', e', x, y, h1, h2, h3, h4, h5.trans ?_⟩
  have hu : binary64.u = 2⁻¹ ^ 53 := rfl
  have hη : binary64.η ≤ 2⁻¹ ^ 100 := pow_le_pow_of_le_one (by norm_num) (by norm_num) (by norm_num)
  have hT' : (us.length : ℝ) ≤ 7200000 := by exact_mod_cast hT
  have hη0 := binary64.η_nonneg
  rw [hu]
  clear hu h1 h2 h5
  generalize binary64.η = η at *
  have h7 : 0 ≤ (2⁻¹ : ℝ) ^ 53 * (4 + 1 / 100 + (2⁻¹ ^ 53 * (1 / 100) + η)) + η + (2⁻¹ ^ 53 * (1 / 100) + η) := by positivity
  refine (mul_le_mul_of_nonneg_right hT' h7).trans ?_
  norm_num at hη ⊢
  linarith

/-- The bounds hold with rounding, exactly: after a step of a device that checks, in velocity or acceleration, every position is a number
between its bounds or is NaN. -/
theorem C129_bounds (ff : List (Option (Fl r)) → List (Option (Fl r)) → Fl r → (Fin 6 → Option (Fl r))) (d d' : Dev (Fl r))
    (u : List (Option (Fl r))) (dt : Fl r) (hs : d.sanity = true) (hm : d.mode ≠ .noInteg) (hu : none ∉ u)
    (hb : BoundsOk d.lowerPosition d.upperPosition) (h : increment ff d u dt = .ok d') (i : Nat) (x : Fl r)
    (hx : d'.state[i]? = some (some x)) :
    ∃ l p, d.lowerPosition[i]? = some (some l) ∧ d.upperPosition[i]? = some (some p) ∧ l.val ≤ x.val ∧ x.val ≤ p.val :=
  (C22_positions_within_bounds ff d d' u dt hs hm hu hb h).1 i x hx

/-- A device with one joint, from 0 to 2, that is driven by 2 at a period of 1: the hypotheses hold. -/
example : ∃ d : Dev (Fl binary64), d.state = nums [0, 0, 0, 0, 0, 0, 0] ∧ d.mode = .oneInteg ∧ d.sanity = true ∧ Sized d ∧
    BoundsOk d.lowerPosition d.upperPosition ∧ d.lowerPosition[6]? = some (some 0) ∧ d.upperPosition[6]? = some (some 2) ∧
    |((1 : Fl binary64).val * (2 : Fl binary64).val)| ≤ 2 := by
  refine ⟨{ (init : Dev (Fl binary64)) with
    state := nums [0, 0, 0, 0, 0, 0, 0], velocity := nums [0, 0, 0, 0, 0, 0, 0], lowerPosition := nums [0, 0, 0, 0, 0, 0, 0], upperPosition := nums [0, 0, 0, 0, 0, 0, 2],
    lowerVelocity := nums [0, 0, 0, 0, 0, 0, 0], upperVelocity := nums [0, 0, 0, 0, 0, 0, 2] }, rfl, rfl, rfl, ?_, ?_, rfl, rfl, ?_⟩
  · simp [Sized, nums]
  · refine ⟨rfl, ?_⟩
    intro i a b ha hb
    by_cases h6 : i = 6
    · subst h6
      cases ha
      cases hb
      exact ⟨0, 2, rfl, rfl, by rw [Fl.val_le]; simp⟩
    · have h7 : i < 7 := by
        have := (List.getElem?_eq_some_iff.mp ha).1
        simpa [nums] using this
      have : i = 0 ∨ i = 1 ∨ i = 2 ∨ i = 3 ∨ i = 4 ∨ i = 5 := by omega
      rcases this with rfl | rfl | rfl | rfl | rfl | rfl <;> (cases ha; cases hb; exact ⟨0, 0, rfl, rfl, le_rfl⟩)
  · simp

end Verif.Rounding
