import Verif.Rounding.Kept
import Verif.Gripper.Model

/-!
# C150: the gripper with the numbers of `double`

With exact numbers the factor of the speed is never zero, and an unloaded gripper recovers its speed whatever happened before (C35). With
the numbers of `double` this depends on the offset.
-/

namespace Verif.Rounding

open Verif.Gripper

/-- The smallest positive number of `double`. -/
noncomputable def tiny : ℝ := 2 ^ (-1074 : ℤ)

theorem tiny_pos : 0 < tiny := zpow_pos (by norm_num) _

variable {r : Rounding}

theorem Binary64.tinies {x : ℝ} (h : Binary64 x) : ∃ m : ℤ, x = m * tiny := by
  obtain ⟨m, e, -, h2, h3⟩ := h
  obtain ⟨k, hk⟩ := Int.eq_ofNat_of_zero_le (by omega : 0 ≤ e + 1074)
  refine ⟨m * 2 ^ k, ?_⟩
  rw [h3, tiny, show e = k + (-1074) by omega, zpow_add₀ (by norm_num), zpow_natCast]
  push_cast
  ring

theorem binary64_tinies {m : ℤ} (h : |m| < 2 ^ 53) : Binary64 (m * tiny) := ⟨m, -1074, h, le_refl _, rfl⟩

/-- Between a few of the smallest numbers, the nearest one. -/
theorem near_le_tinies (hr : Nearest r) {K : ℤ} (h0 : 0 ≤ K) (h1 : K < 2 ^ 53) {x : ℝ} (hx : x < (K + 1 / 2) * tiny) : r.rnd x ≤ K * tiny := by
  have ht := tiny_pos
  have hK : Binary64 ((K : ℝ) * tiny) := binary64_tinies (by rwa [abs_of_nonneg h0])
  rcases le_or_gt x (K * tiny) with h | h
  · have := hr.mono _ _ h
    rwa [show r.rnd (K * tiny) = K * tiny from hr.keeps hK] at this
  · have h2 := hr.nearest x _ hK
    obtain ⟨m, hm⟩ := (hr.num x).tinies
    rw [hm] at h2 ⊢
    have h3 : m ≤ K := by
      by_contra hc
      push Not at hc
      have h4 : (K : ℝ) + 1 ≤ m := by exact_mod_cast hc
      have h5 : ((K : ℝ) + 1) * tiny ≤ m * tiny := mul_le_mul_of_nonneg_right h4 ht.le
      rw [abs_of_pos (by nlinarith), abs_of_neg (by linarith)] at h2
      nlinarith
    exact mul_le_mul_of_nonneg_right (by exact_mod_cast h3) ht.le

theorem tinies_le_near (hr : Nearest r) {K : ℤ} (h0 : 0 ≤ K) (h1 : K < 2 ^ 53) {x : ℝ} (hx : (K - 1 / 2) * tiny < x) : K * tiny ≤ r.rnd x := by
  have ht := tiny_pos
  have hK : Binary64 ((K : ℝ) * tiny) := binary64_tinies (by rwa [abs_of_nonneg h0])
  rcases le_or_gt (K * tiny) x with h | h
  · have := hr.mono _ _ h
    rwa [show r.rnd (K * tiny) = K * tiny from hr.keeps hK] at this
  · have h2 := hr.nearest x _ hK
    obtain ⟨m, hm⟩ := (hr.num x).tinies
    rw [hm] at h2 ⊢
    have h3 : K ≤ m := by
      by_contra hc
      push Not at hc
      have h4 : (m : ℝ) + 1 ≤ K := by exact_mod_cast hc
      have h5 : ((m : ℝ) + 1) * tiny ≤ K * tiny := mul_le_mul_of_nonneg_right h4 ht.le
      rw [abs_of_neg (by nlinarith), abs_of_pos (by linarith)] at h2
      nlinarith
    exact mul_le_mul_of_nonneg_right (by exact_mod_cast h3) ht.le

/-- A number above `K` times the smallest one, written with more than `K`. -/
theorem scaled {K : ℤ} (hK : 2 * K < 2 ^ 53) (n : ℕ) : ∀ m : ℤ, 0 < m → m < 2 ^ 53 → K * tiny < m * (2 : ℝ) ^ ((n : ℤ) - 1074) →
    ∃ m' e' : ℤ, K + 1 ≤ m' ∧ m' < 2 ^ 53 ∧ -1074 ≤ e' ∧ (m : ℝ) * (2 : ℝ) ^ ((n : ℤ) - 1074) = m' * 2 ^ e' := by
  induction n with
  | zero =>
    intro m h0 h1 h2
    refine ⟨m, -1074, ?_, h1, le_refl _, by simp⟩
    rw [show ((0 : ℕ) : ℤ) - 1074 = -1074 from rfl, ← tiny] at h2
    have : (K : ℝ) < m := lt_of_mul_lt_mul_right h2 tiny_pos.le
    exact_mod_cast this
  | succ n ih =>
    intro m h0 h1 h2
    by_cases h : K + 1 ≤ m
    · exact ⟨m, _, h, h1, by omega, rfl⟩
    · have e : (m : ℝ) * (2 : ℝ) ^ (((n + 1 : ℕ) : ℤ) - 1074) = ((2 * m : ℤ) : ℝ) * (2 : ℝ) ^ ((n : ℤ) - 1074) := by
        rw [show (((n + 1 : ℕ) : ℤ) - 1074) = ((n : ℤ) - 1074) + 1 by push_cast; ring, zpow_add₀ (by norm_num)]
        push_cast
        ring
      obtain ⟨m', e', a, b, c, d⟩ := ih (2 * m) (by omega) (by omega) (by rwa [← e])
      exact ⟨m', e', a, b, c, by rw [e, d]⟩

/-- A product by a number which is small enough is rounded to less. -/
theorem near_mul_lt (hr : Nearest r) {K : ℤ} (h0 : 0 ≤ K) (hK : 2 * K < 2 ^ 53) {o : ℝ} (ho : (K + 1) * o < K + 1 / 2) {f : ℝ}
    (hf : Binary64 f) (hlt : K * tiny < f) : r.rnd (f * o) < f := by
  have hK' : (0 : ℝ) ≤ K := by exact_mod_cast h0
  have hfp : 0 < f := lt_of_le_of_lt (mul_nonneg hK' tiny_pos.le) hlt
  obtain ⟨m, e, h1, h2, rfl⟩ := hf
  have hp : (0 : ℝ) < 2 ^ e := zpow_pos (by norm_num) e
  have hm : 0 < m := by
    by_contra hc
    have : (m : ℝ) ≤ 0 := by exact_mod_cast not_lt.mp hc
    nlinarith
  obtain ⟨n, hn⟩ := Int.eq_ofNat_of_zero_le (by omega : 0 ≤ e + 1074)
  have he : e = (n : ℤ) - 1074 := by omega
  obtain ⟨m', e', a, b, c, d⟩ := scaled hK n m hm (lt_of_le_of_lt (le_abs_self _) h1) (by rwa [← he])
  rw [← he] at d
  rw [d] at hfp ⊢
  have hp' : (0 : ℝ) < 2 ^ e' := zpow_pos (by norm_num) e'
  have hc : Binary64 (((m' - 1 : ℤ) : ℝ) * 2 ^ e') := ⟨m' - 1, e', by rw [abs_of_nonneg (by omega)]; omega, c, rfl⟩
  have ha : (K : ℝ) + 1 ≤ m' := by exact_mod_cast a
  have h3 : (m' : ℝ) * o < m' - 1 / 2 := by
    have : o < 1 := by nlinarith
    nlinarith
  have h4 : (m' : ℝ) * 2 ^ e' * o < m' * 2 ^ e' - 1 / 2 * 2 ^ e' := by nlinarith
  by_contra hge
  push Not at hge
  have h5 := hr.nearest ((m' : ℝ) * 2 ^ e' * o) _ hc
  push_cast at h5
  have h6 : r.rnd ((m' : ℝ) * 2 ^ e' * o) - m' * 2 ^ e' * o ≤ |((m' : ℝ) - 1) * 2 ^ e' - m' * 2 ^ e' * o| := (le_abs_self _).trans h5
  rcases abs_cases (((m' : ℝ) - 1) * 2 ^ e' - m' * 2 ^ e' * o) with ⟨h7, _⟩ | ⟨h7, _⟩ <;> rw [h7] at h6 <;> nlinarith

/-! ## One joint -/

section

variable {F : Type} [Zero F] [One F] [OfNat F 5] [OfNat F 9] [OfNat F 10] [OfNat F 1000] [Add F] [Sub F] [Mul F] [Div F] [Neg F]
  [LinearOrder F]

/-- The factor of a gripper with one joint: 1 before the first computation. -/
def factorOf (g : State F) : F :=
  match g.factor with
  | [f] => f
  | _ => 1

theorem one_increment (g : State F) (t l v : F) :
    computeIncrement g [t] [l] [v] = .ok ⟨g.offset, [newFactor g.offset t l v (factorOf g)]⟩ := by
  obtain ⟨o, fs⟩ := g
  match fs with
  | [] => rfl
  | [f] => rfl
  | _ :: _ :: _ => rfl

theorem one_position (g : State F) (c d t l : F) :
    computeDesiredPosition g [c] [d] [t] [l] =
      .ok (⟨g.offset, [newFactor g.offset t l ((d - c) * (1 / dt)) (factorOf g)]⟩,
        [c + (d - c) * (1 / dt) * newFactor g.offset t l ((d - c) * (1 / dt)) (factorOf g) * dt]) := by
  simp only [computeDesiredPosition, vzip, List.length_singleton, if_true, List.zipWith_cons_cons,
    List.zipWith_nil_left, Outcome.bind_ok, List.map_cons, List.map_nil, one_increment, matProd, Outcome.map_ok]

/-- One period of the gripper: the current and the desired position, the torque and its limit
(src/tools/gripper-control.cpp:132-158). -/
structure Period (F : Type) where
  cur : F
  des : F
  torque : F
  limit : F

/-- The torque is beyond its limit in the direction of the motion. -/
def Period.Pushed (p : Period F) : Prop := (p.torque > p.limit ∧ p.cur < p.des) ∨ (p.torque < -p.limit ∧ p.des < p.cur)

/-- The operation of a period. -/
def Period.op (p : Period F) : Op F := .compute [p.cur] [p.des] [p.torque] [p.limit]

theorem run_period (g : State F) (p : Period F) (ps : List (Op F)) :
    run g (p.op :: ps) =
      run ⟨g.offset, [newFactor g.offset p.torque p.limit ((p.des - p.cur) * (1 / dt)) (factorOf g)]⟩ ps := by
  simp only [run, step, Period.op, one_position, Outcome.map_ok, Outcome.bind_ok]

end

/-- **A factor that is zero stays zero**, whatever the rounding and whatever the periods that follow: the reference is the current
position for ever. -/
theorem C150_zero (g : State (Fl r)) (hg : g.factor = [0]) (ps : List (Period (Fl r))) :
    run g (ps.map Period.op) = .ok g ∧ ∀ c d t l, computeDesiredPosition g [c] [d] [t] [l] = .ok (g, [c]) := by
  have h0 : factorOf g = 0 := by simp [factorOf, hg]
  have h1 : ∀ t l v, newFactor g.offset t l v (0 : Fl r) = 0 := by
    intro t l v
    have a : (0 : Fl r) * g.offset = 0 := by rw [← Fl.val_inj]; simp [r.zero]
    have b : (0 : Fl r) / g.offset = 0 := by rw [← Fl.val_inj]; simp [r.zero]
    have c : (0 : Fl r) ≤ 1 := by rw [Fl.val_le, Fl.val_zero, Fl.val_one]; norm_num
    simp [newFactor, a, b, c]
  have h2 : ({ offset := g.offset, factor := [0] } : State (Fl r)) = g := by rw [← hg]
  constructor
  · induction ps with
    | nil => rfl
    | cons p ps ih => rw [List.map_cons, run_period, h0, h1, h2, ih]
  · intro c d t l
    rw [one_position, h0, h1, h2]
    congr 3
    rw [← Fl.val_inj]
    simp [r.zero]

/-! ## The offsets that lose the gripper -/

/-- The speed has the sign of the displacement. -/
theorem speed_sign (hr : Nearest r) (c d : Fl r) : (0 < (d - c) * (1 / dt) ↔ c < d) ∧ ((d - c) * (1 / dt) < 0 ↔ d < c) := by
  have hdt : (dt : Fl r).val = r.rnd (5 / 1000) := by
    have h5 : r.rnd 5 = 5 := hr.keeps ⟨5, 0, by norm_num, by norm_num, by norm_num⟩
    have h1000 : r.rnd 1000 = 1000 := hr.keeps ⟨1000, 0, by norm_num, by norm_num, by norm_num⟩
    show r.rnd ((5 : Fl r).val / (1000 : Fl r).val) = _
    rw [show (5 : Fl r).val = r.rnd 5 from rfl, show (1000 : Fl r).val = r.rnd 1000 from rfl, h5, h1000]
  have h1 : (dt : Fl r).val ≤ 1 := by
    rw [hdt]
    have := hr.mono (5 / 1000) 1 (by norm_num)
    rwa [r.one] at this
  have h0 : 0 < (dt : Fl r).val := by
    rw [hdt]
    have h : tiny ≤ 5 / 1000 := by
      refine (zpow_le_zpow_right₀ (by norm_num : (1 : ℝ) ≤ 2) (by norm_num : (-1074 : ℤ) ≤ -10)).trans ?_
      norm_num
    have := hr.mono _ _ h
    rw [show r.rnd tiny = tiny from hr.keeps ⟨1, -1074, by norm_num, by norm_num, by simp [tiny]⟩] at this
    exact lt_of_lt_of_le tiny_pos this
  have h2 : 1 ≤ (1 / dt : Fl r).val := by
    rw [Fl.val_div, Fl.val_one]
    have := hr.mono 1 (1 / (dt : Fl r).val) (by rw [le_div_iff₀ h0]; linarith)
    rwa [r.one] at this
  have pos : ∀ c d : Fl r, c < d → 0 < (d - c) * (1 / dt) := by
    intro c d h
    have h3 := C149_width_double hr c d h
    rw [Fl.val_lt, Fl.val_zero] at h3 ⊢
    rw [Fl.val_mul]
    refine lt_of_lt_of_le h3 (hr.mono.val_le ?_)
    nlinarith
  have neg : ∀ c d : Fl r, d < c → (d - c) * (1 / dt) < 0 := by
    intro c d h
    have h3 := pos d c h
    rw [Fl.val_lt, Fl.val_zero] at h3 ⊢
    rw [Fl.val_mul, Fl.val_sub] at h3 ⊢
    rw [show d.val - c.val = -(c.val - d.val) by ring, r.neg, neg_mul, r.neg]
    linarith
  have zero : ∀ c : Fl r, (c - c) * (1 / dt) = 0 := by
    intro c
    rw [← Fl.val_inj]
    simp [r.zero]
  rcases lt_trichotomy c d with h | h | h
  · exact ⟨iff_of_true (pos c d h) h, iff_of_false (not_lt.mpr (pos c d h).le) (not_lt.mpr h.le)⟩
  · subst h
    rw [zero]
    simp
  · exact ⟨iff_of_false (not_lt.mpr (neg c d h).le) (not_lt.mpr h.le), iff_of_true (neg c d h) h⟩

theorem newFactor_pushed (hr : Nearest r) (o f : Fl r) (p : Period (Fl r)) (h : p.Pushed) :
    newFactor o p.torque p.limit ((p.des - p.cur) * (1 / dt)) f = min 1 (max (f * o) 0) := by
  obtain ⟨s1, s2⟩ := speed_sign hr p.cur p.des
  unfold newFactor
  rcases h with ⟨a, b⟩ | ⟨a, b⟩
  · rw [if_pos ⟨a, s1.mpr b⟩]
  · by_cases hc : p.torque > p.limit ∧ (p.des - p.cur) * (1 / dt) > 0
    · rw [if_pos hc]
    · rw [if_neg hc, if_pos ⟨a, s2.mpr b⟩]

theorem newFactor_free (hr : Nearest r) (o f : Fl r) (p : Period (Fl r)) (h : ¬ p.Pushed) :
    newFactor o p.torque p.limit ((p.des - p.cur) * (1 / dt)) f = min 1 (max (f / o) 0) := by
  obtain ⟨s1, s2⟩ := speed_sign hr p.cur p.des
  unfold newFactor
  rw [if_neg fun hc => h (Or.inl ⟨hc.1, s1.mp hc.2⟩), if_neg fun hc => h (Or.inr ⟨hc.1, s2.mp hc.2⟩)]

/-- What the gripper keeps: the offset is between 0 and 1, the factor between 0 and 1. -/
structure Working (g : State (Fl r)) : Prop where
  pos : 0 < g.offset
  lt : g.offset < 1
  nonneg : 0 ≤ factorOf g
  le : factorOf g ≤ 1

theorem clip (x : Fl r) (h : 0 ≤ x) : (min 1 (max x 0)).val = min 1 x.val := by
  rw [Fl.val_min, max_eq_left h, Fl.val_one]

/-- **How the factor moves.** It stays between 0 and 1; it does not increase in a period in which the gripper is pushed, and does not
decrease in the others. -/
theorem C150_moves (hr : Nearest r) (g : State (Fl r)) (h : Working g) (p : Period (Fl r)) :
    ∃ g', run g [p.op] = .ok g' ∧ g'.offset = g.offset ∧ Working g' ∧ g'.factor = [factorOf g'] ∧
      (p.Pushed → factorOf g' ≤ factorOf g ∧ (factorOf g').val = r.rnd ((factorOf g).val * g.offset.val)) ∧
      (¬ p.Pushed → factorOf g ≤ factorOf g' ∧ (factorOf g').val = min 1 (r.rnd ((factorOf g).val / g.offset.val))) := by
  have ho : 0 < g.offset.val := by have := Fl.val_lt.mp h.pos; rwa [Fl.val_zero] at this
  have ho1 : g.offset.val < 1 := by have := Fl.val_lt.mp h.lt; rwa [Fl.val_one] at this
  have hf : 0 ≤ (factorOf g).val := by have := Fl.val_le.mp h.nonneg; rwa [Fl.val_zero] at this
  have hf1 : (factorOf g).val ≤ 1 := by have := Fl.val_le.mp h.le; rwa [Fl.val_one] at this
  refine ⟨⟨g.offset, [newFactor g.offset p.torque p.limit ((p.des - p.cur) * (1 / dt)) (factorOf g)]⟩, by rw [run_period]; rfl, rfl,
    ⟨h.pos, h.lt, ?_, ?_⟩, rfl, ?_, ?_⟩
  · show 0 ≤ newFactor _ _ _ _ _
    unfold newFactor
    refine le_min ?_ (le_max_right _ _)
    rw [Fl.val_le, Fl.val_zero, Fl.val_one]
    norm_num
  · exact min_le_left _ _
  · intro hp
    show (newFactor _ _ _ _ _ : Fl r) ≤ _ ∧ (newFactor _ _ _ _ _ : Fl r).val = _
    rw [newFactor_pushed hr _ _ p hp, Fl.val_le]
    have h1 : 0 ≤ factorOf g * g.offset := by
      rw [Fl.val_le, Fl.val_zero, Fl.val_mul]
      exact hr.mono.nonneg (mul_nonneg hf ho.le)
    have h2 : (factorOf g * g.offset).val ≤ (factorOf g).val := by
      rw [Fl.val_mul]
      exact hr.mono.le_val (mul_le_of_le_one_right hf ho1.le)
    rw [clip _ h1, min_eq_right (h2.trans hf1)]
    exact ⟨h2, rfl⟩
  · intro hp
    show _ ≤ (newFactor _ _ _ _ _ : Fl r) ∧ (newFactor _ _ _ _ _ : Fl r).val = _
    rw [newFactor_free hr _ _ p hp, Fl.val_le]
    have h1 : 0 ≤ factorOf g / g.offset := by
      rw [Fl.val_le, Fl.val_zero, Fl.val_div]
      exact hr.mono.nonneg (div_nonneg hf ho.le)
    have h2 : (factorOf g).val ≤ (factorOf g / g.offset).val := by
      rw [Fl.val_div]
      exact hr.mono.val_le (le_div_self hf ho ho1.le)
    rw [clip _ h1]
    exact ⟨le_min hf1 h2, rfl⟩

/-- The factor at most `K` times the smallest number is kept by every period, for the offsets that satisfy the second inequality. -/
theorem dead_stays (hr : Nearest r) {g : State (Fl r)} (h : Working g) {K : ℤ} (h0 : 0 ≤ K) (hK : 2 * K < 2 ^ 53)
    (hup : 2 * (K : ℝ) < (2 * K + 1) * g.offset.val) (hf : (factorOf g).val ≤ K * tiny) (ps : List (Period (Fl r))) :
    ∃ g', run g (ps.map Period.op) = .ok g' ∧ g'.offset = g.offset ∧ Working g' ∧ (factorOf g').val ≤ K * tiny := by
  induction ps generalizing g with
  | nil => exact ⟨g, rfl, rfl, h, hf⟩
  | cons p ps ih =>
    obtain ⟨g1, a1, a2, a3, a4, a5, a6⟩ := C150_moves hr g h p
    have hK' : (0 : ℝ) ≤ K := by exact_mod_cast h0
    have ho : 0 < g.offset.val := by have := Fl.val_lt.mp h.pos; rwa [Fl.val_zero] at this
    have h1 : (factorOf g1).val ≤ K * tiny := by
      by_cases hp : p.Pushed
      · exact (Fl.val_le.mp (a5 hp).1).trans hf
      · rw [(a6 hp).2]
        refine (min_le_right _ _).trans (near_le_tinies hr h0 (by omega) ?_)
        rw [div_lt_iff₀ ho]
        have := tiny_pos
        nlinarith
    obtain ⟨g', b1, b2, b3, b4⟩ := ih a3 (by rwa [a2]) h1
    refine ⟨g', ?_, by rw [b2, a2], b3, b4⟩
    have : run g ((p :: ps).map Period.op) = (run g [p.op]).bind fun g' => run g' (ps.map Period.op) := by
      simp only [List.map_cons, run]
      cases step g p.op <;> rfl
    rw [this, a1]
    exact b1

/-- **The offsets that lose the gripper.** Expected, as with exact numbers: an unloaded gripper recovers its speed. With the numbers of
`double`, if `(K + 1)` times the offset is less than `K + 1/2`, and `K` divided by the offset less than `K + 1/2` too, a gripper pushed for
long enough never moves again: its factor is at most `K` times the smallest number of `double`, for ever, pushed or not. Such offsets are
those below `1/2` (`K = 0`), those between `2/3` and `3/4` (`K = 1`), between `4/5` and `5/6` (`K = 2`), and so on. -/
theorem C150_lost_counterexample (hr : Nearest r) (g : State (Fl r)) (h : Working g) (K : ℤ) (h0 : 0 ≤ K) (hK : 2 * K < 2 ^ 53)
    (hdown : ((K : ℝ) + 1) * g.offset.val < K + 1 / 2) (hup : 2 * (K : ℝ) < (2 * K + 1) * g.offset.val) :
    ∃ N : ℕ, ∀ ps qs : List (Period (Fl r)), N ≤ ps.length → (∀ p ∈ ps, p.Pushed) →
      ∃ g', run g ((ps ++ qs).map Period.op) = .ok g' ∧ (factorOf g').val ≤ K * tiny := by
  have ht := tiny_pos
  have hK' : (0 : ℝ) ≤ K := by exact_mod_cast h0
  obtain ⟨n, hn⟩ := (hr.of_val (factorOf g)).tinies
  have hn0 : 0 ≤ n := by
    have : 0 ≤ (factorOf g).val := by have := Fl.val_le.mp h.nonneg; rwa [Fl.val_zero] at this
    rw [hn] at this
    by_contra hc
    have h1 : (n : ℝ) < 0 := by exact_mod_cast not_le.mp hc
    nlinarith
  obtain ⟨N, rfl⟩ := Int.eq_ofNat_of_zero_le hn0
  refine ⟨N, ?_⟩
  clear hn0
  have key : ∀ (N : ℕ) (g0 : State (Fl r)), Working g0 → g0.offset = g.offset → (factorOf g0).val ≤ N * tiny →
      ∀ ps qs : List (Period (Fl r)), N ≤ ps.length → (∀ p ∈ ps, p.Pushed) →
      ∃ g', run g0 ((ps ++ qs).map Period.op) = .ok g' ∧ (factorOf g').val ≤ K * tiny := by
    intro N
    induction N with
    | zero =>
      intro g0 w0 e0 f0 ps qs _ _
      obtain ⟨g', b1, -, -, b4⟩ := dead_stays hr w0 h0 hK (by rwa [e0]) (f0.trans (by push_cast; nlinarith)) (ps ++ qs)
      exact ⟨g', b1, b4⟩
    | succ N ih =>
      intro g0 w0 e0 f0 ps qs hps hpu
      match ps, hps, hpu with
      | p :: ps, hps, hpu =>
        rcases le_or_gt (factorOf g0).val (K * tiny) with hd | hd
        · obtain ⟨g', b1, -, -, b4⟩ := dead_stays hr w0 h0 hK (by rwa [e0]) hd (p :: ps ++ qs)
          exact ⟨g', b1, b4⟩
        · obtain ⟨g1, a1, a2, a3, -, a5, -⟩ := C150_moves hr g0 w0 p
          have h1 := (a5 (hpu p (by simp))).2
          have h2 := near_mul_lt hr h0 hK (o := g0.offset.val) (by rw [e0]; exact hdown) (hr.of_val (factorOf g0)) hd
          rw [← h1] at h2
          obtain ⟨m, hm⟩ := (hr.of_val (factorOf g1)).tinies
          have h3 : (factorOf g1).val ≤ N * tiny := by
            have h4 : (m : ℝ) * tiny < (N + 1 : ℕ) * tiny := by rw [← hm]; exact h2.trans_le f0
            have h5 : (m : ℝ) < (N + 1 : ℕ) := lt_of_mul_lt_mul_right h4 ht.le
            have h6 : m < (N + 1 : ℕ) := by exact_mod_cast h5
            rw [hm]
            refine mul_le_mul_of_nonneg_right ?_ ht.le
            have : m ≤ (N : ℕ) := by omega
            exact_mod_cast this
          obtain ⟨g', b1, b2⟩ := ih g1 a3 (by rw [a2, e0]) h3 ps qs (by simpa using hps) (fun q hq => hpu q (by simp [hq]))
          refine ⟨g', ?_, b2⟩
          have : run g0 ((p :: ps ++ qs).map Period.op) = (run g0 [p.op]).bind fun g' => run g' ((ps ++ qs).map Period.op) := by
            simp only [List.cons_append, List.map_cons, run]
            cases step g0 p.op <;> rfl
          rw [this, a1]
          exact b1
  exact key N g h rfl (by rw [hn]; simp)

/-- The offset 1/4. -/
noncomputable def quarter (r : Rounding) : Fl r := Fl.of r (1 / 4)

theorem quarter_val (hr : Nearest r) : (quarter r).val = 1 / 4 := hr.keeps ⟨1, -2, by norm_num, by norm_num, by norm_num⟩

/-- A gripper that has not moved yet, with an offset between 0 and 1. -/
theorem Working.start {o : Fl r} (h0 : 0 < o) (h1 : o < 1) : Working ⟨o, []⟩ := by
  refine ⟨h0, h1, ?_, ?_⟩ <;> rw [Fl.val_le] <;> simp [factorOf]

/-- **With the offset 1/4, less than three seconds are enough.** A new gripper whose offset is set to 1/4, pushed for 538 periods, has a factor
of zero: at the period of 5 ms, for 2.69 s. Its reference is then its current position for ever (`C150_zero`). -/
theorem C150_quarter_counterexample (hr : Nearest r) (ps : List (Period (Fl r))) (hl : ps.length = 538) (hp : ∀ p ∈ ps, p.Pushed) :
    run State.fresh (.offset (quarter r) :: ps.map Period.op) = .ok ⟨(quarter r), [0]⟩ := by
  have hq0 : 0 < (quarter r) := by rw [Fl.val_lt, Fl.val_zero, quarter_val hr]; norm_num
  have hq1 : (quarter r) < 1 := by rw [Fl.val_lt, Fl.val_one, quarter_val hr]; norm_num
  have h1 : run State.fresh (.offset (quarter r) :: ps.map Period.op) = run ⟨(quarter r), []⟩ (ps.map Period.op) := by
    simp only [run, step, setOffset, if_pos (show (quarter r) > 0 ∧ (quarter r) < 1 from ⟨hq0, hq1⟩), Outcome.bind_ok]
    rfl
  have key : ∀ (ps : List (Period (Fl r))) (k : ℕ) (g : State (Fl r)), Working g → g.offset = (quarter r) →
      (factorOf g).val = (2 : ℝ) ^ (-(2 * k : ℕ) : ℤ) → ps.length + k = 538 → 0 < ps.length → (∀ p ∈ ps, p.Pushed) →
      run g (ps.map Period.op) = .ok ⟨(quarter r), [0]⟩ := by
    intro ps
    induction ps with
    | nil => intro k g _ _ _ _ h; simp at h
    | cons p ps ih =>
      intro k g w e hf hk _ hpu
      obtain ⟨g1, a1, a2, a3, a4, a5, -⟩ := C150_moves hr g w p
      have h2 := (a5 (hpu p (by simp))).2
      rw [e, quarter_val hr, hf] at h2
      have h3 : (2 : ℝ) ^ (-(2 * k : ℕ) : ℤ) * (1 / 4) = 2 ^ (-(2 * (k + 1) : ℕ) : ℤ) := by
        rw [show (-(2 * (k + 1) : ℕ) : ℤ) = -(2 * k : ℕ) + (-2) by push_cast; ring, zpow_add₀ (by norm_num : (2 : ℝ) ≠ 0)]
        norm_num
      rw [h3] at h2
      have h4 : run g ((p :: ps).map Period.op) = (run g [p.op]).bind fun g' => run g' (ps.map Period.op) := by
        simp only [List.map_cons, run]
        cases step g p.op <;> rfl
      rw [h4, a1, Outcome.bind_ok]
      simp only [List.length_cons] at hk
      rcases Nat.eq_zero_or_pos ps.length with h0 | h0
      · have hk' : k = 537 := by omega
        subst hk'
        have h5 : (factorOf g1).val = 0 := by
          refine le_antisymm ?_ ?_
          · rw [h2]
            have := near_le_tinies hr (K := 0) (le_refl _) (by norm_num) (x := (2 : ℝ) ^ (-(2 * (537 + 1) : ℕ) : ℤ)) (by
              rw [tiny, show (-(2 * (537 + 1) : ℕ) : ℤ) = -2 + -1074 by norm_num, zpow_add₀ (by norm_num : (2 : ℝ) ≠ 0)]
              have := zpow_pos (by norm_num : (0 : ℝ) < 2) (-1074)
              norm_num1
              linarith)
            simpa using this
          · have := Fl.val_le.mp a3.nonneg
            rwa [Fl.val_zero] at this
        have h6 : factorOf g1 = 0 := by rw [← Fl.val_inj, h5, Fl.val_zero]
        rw [List.length_eq_zero_iff.mp h0]
        show Outcome.ok g1 = _
        rw [h6] at a4
        obtain ⟨o, fs⟩ := g1
        simp only at a4 a2
        rw [a4, a2, e]
      · refine ih (k + 1) g1 a3 (by rw [a2, e]) ?_ (by omega) h0 (fun q hq => hpu q (by simp [hq]))
        rw [h2]
        exact hr.keeps ⟨1, -(2 * (k + 1) : ℕ), by norm_num, by omega, by rw [Int.cast_one, one_mul]⟩
  rw [h1]
  exact key ps 0 ⟨(quarter r), []⟩ (Working.start hq0 hq1) rfl (by simp [factorOf]) (by omega) (by omega) hp

/-- 538 periods of a gripper that is pushed. -/
example : ∃ ps : List (Period (Fl r)), ps.length = 538 ∧ ∀ p ∈ ps, p.Pushed := by
  refine ⟨List.replicate 538 ⟨0, 1, 1, 0⟩, List.length_replicate, fun p hp => ?_⟩
  obtain ⟨-, rfl⟩ := List.mem_replicate.mp hp
  refine Or.inl ⟨?_, ?_⟩ <;> show (0 : Fl r) < 1 <;> rw [Fl.val_lt, Fl.val_zero, Fl.val_one] <;> norm_num

/-- An offset of 0.7 loses the gripper too. -/
example (hr : Nearest r) : ∃ o : Fl r, Working ⟨o, []⟩ ∧ (((1 : ℤ) : ℝ) + 1) * o.val < (1 : ℤ) + 1 / 2 ∧ 2 * ((1 : ℤ) : ℝ) < (2 * (1 : ℤ) + 1) * o.val := by
  have hv : (Fl.of r (11 / 16)).val = 11 / 16 := hr.keeps ⟨11, -4, by norm_num, by norm_num, by norm_num⟩
  refine ⟨Fl.of r (11 / 16), Working.start ?_ ?_, ?_, ?_⟩
  · rw [Fl.val_lt, Fl.val_zero, hv]; norm_num
  · rw [Fl.val_lt, Fl.val_one, hv]; norm_num
  · rw [hv]; norm_num
  · rw [hv]; norm_num

/-! ## The offset of the constructor -/

theorem fresh_offset (hr : Nearest r) : (9 / 10 : ℝ) < (State.fresh : State (Fl r)).offset.val ∧
    (State.fresh : State (Fl r)).offset.val < 9 / 10 + 1 / 10 ^ 15 := by
  have h9 : r.rnd 9 = 9 := hr.keeps ⟨9, 0, by norm_num, by norm_num, by norm_num⟩
  have h10 : r.rnd 10 = 10 := hr.keeps ⟨10, 0, by norm_num, by norm_num, by norm_num⟩
  have hv : (State.fresh : State (Fl r)).offset.val = r.rnd (9 / 10) := by
    show r.rnd ((9 : Fl r).val / (10 : Fl r).val) = _
    rw [show (9 : Fl r).val = r.rnd 9 from rfl, show (10 : Fl r).val = r.rnd 10 from rfl, h9, h10]
  rw [hv]
  have hz : Binary64 (8106479329266893 / 2 ^ 53) :=
    ⟨8106479329266893, -53, by norm_num, by norm_num, by rw [zpow_neg]; norm_num⟩
  have h1 := hr.nearest (9 / 10) _ hz
  have h2 : |(8106479329266893 / 2 ^ 53 : ℝ) - 9 / 10| = 1 / 5 / 2 ^ 53 := by
    rw [abs_of_pos (by norm_num)]
    norm_num
  rw [h2, abs_le] at h1
  refine ⟨?_, by norm_num at h1 ⊢; linarith [h1.2]⟩
  obtain ⟨m, e, m1, m2, m3⟩ := hr.num (9 / 10)
  rw [m3] at h1 ⊢
  have hp : (0 : ℝ) < 2 ^ e := zpow_pos (by norm_num) e
  have he : -53 ≤ e := by
    have hm : (m : ℝ) < 2 ^ (53 : ℤ) := by
      have : (m : ℤ) < 2 ^ 53 := lt_of_le_of_lt (le_abs_self m) m1
      exact_mod_cast this
    have h3 : (2 : ℝ) ^ (-1 : ℤ) < 2 ^ (53 + e) := by
      rw [zpow_add₀ (by norm_num)]
      refine lt_of_le_of_lt ?_ (mul_lt_mul_of_pos_right hm hp)
      norm_num at h1 ⊢
      linarith [h1.1]
    have := (zpow_lt_zpow_iff_right₀ (by norm_num : (1 : ℝ) < 2)).mp h3
    omega
  obtain ⟨k, hk⟩ := Int.eq_ofNat_of_zero_le (by omega : 0 ≤ e + 53)
  have h4 : (m : ℝ) * 2 ^ e = ((m * 2 ^ k : ℤ) : ℝ) / 2 ^ 53 := by
    rw [show e = k + (-53) by omega, zpow_add₀ (by norm_num), zpow_natCast, zpow_neg]
    push_cast
    rw [← mul_assoc, div_eq_mul_inv]
    norm_num
  rw [h4] at h1 ⊢
  set n : ℤ := m * 2 ^ k
  have h5 : (8106479329266892 : ℝ) < n := by
    have := h1.1
    have h6 : (0 : ℝ) < 2 ^ 53 := by positivity
    rw [← sub_nonneg] at this
    have h7 : (n : ℝ) / 2 ^ 53 * 2 ^ 53 = n := div_mul_cancel₀ _ h6.ne'
    norm_num at this h7 ⊢
    linarith
  have h6 : 8106479329266893 ≤ n := by
    have : (8106479329266892 : ℤ) < n := by exact_mod_cast h5
    omega
  have h7 : (8106479329266893 : ℝ) ≤ n := by exact_mod_cast h6
  rw [lt_div_iff₀ (by positivity)]
  refine lt_of_lt_of_le ?_ h7
  norm_num

theorem fresh_working (hr : Nearest r) : Working (State.fresh : State (Fl r)) := by
  obtain ⟨h1, h2⟩ := fresh_offset hr
  refine Working.start ?_ ?_
  · rw [Fl.val_lt, Fl.val_zero]
    exact lt_trans (by norm_num) h1
  · rw [Fl.val_lt, Fl.val_one]
    exact lt_trans h2 (by norm_num)

/-- The offset is the one of the constructor and the factor at least five times the smallest number. -/
structure Alive (g : State (Fl r)) : Prop where
  working : Working g
  offset : g.offset = (State.fresh : State (Fl r)).offset
  least : 5 * tiny ≤ (factorOf g).val

theorem tiny_le_one : 5 * tiny ≤ 1 := by
  have : tiny ≤ 2 ^ (-10 : ℤ) := zpow_le_zpow_right₀ (by norm_num : (1 : ℝ) ≤ 2) (by norm_num : (-1074 : ℤ) ≤ -10)
  norm_num at this
  linarith

theorem Alive.step (hr : Nearest r) {g : State (Fl r)} (h : Alive g) (p : Period (Fl r)) :
    ∃ g', run g [p.op] = .ok g' ∧ Alive g' ∧ (¬ p.Pushed → min 1 (101 / 100 * (factorOf g).val) ≤ (factorOf g').val) := by
  obtain ⟨o1, o2⟩ := fresh_offset hr
  rw [← h.offset] at o1 o2
  have ht := tiny_pos
  have hl := h.least
  have hfree : 101 / 100 * (factorOf g).val ≤ r.rnd ((factorOf g).val / g.offset.val) := by
    set f := (factorOf g).val
    set o := g.offset.val
    have hop : 0 < o := by linarith
    have h1 := hr.err (f / o)
    have hfo : 0 ≤ f / o := div_nonneg (by linarith) hop.le
    rw [abs_of_nonneg hfo, abs_le] at h1
    have h2 : (1111 / 1000) * f ≤ f / o := by
      rw [le_div_iff₀ hop]
      nlinarith
    have h3 : f / o ≤ 2 * f := by
      rw [div_le_iff₀ hop]
      nlinarith
    have h4 : (2⁻¹ : ℝ) ^ 1075 = tiny / 2 := by
      rw [tiny, zpow_neg, show (1074 : ℤ) = ((1074 : ℕ) : ℤ) from rfl, zpow_natCast, pow_succ (2⁻¹ : ℝ) 1074, inv_pow]
      ring
    rw [h4] at h1
    have h5 : (2⁻¹ : ℝ) ^ 53 * (f / o) ≤ 1 / 100000 * (f / o) := mul_le_mul_of_nonneg_right (by norm_num) hfo
    nlinarith [h1.1]
  obtain ⟨g1, a1, a2, a3, -, a5, a6⟩ := C150_moves hr g h.working p
  refine ⟨g1, a1, ⟨a3, by rw [a2, h.offset], ?_⟩, ?_⟩
  · by_cases hp : p.Pushed
    · rw [(a5 hp).2]
      have := tinies_le_near hr (K := 5) (by norm_num) (by norm_num) (x := (factorOf g).val * g.offset.val) (by
        push_cast
        nlinarith)
      exact_mod_cast this
    · rw [(a6 hp).2]
      refine le_min tiny_le_one (hl.trans (le_trans ?_ hfree))
      nlinarith
  · intro hp
    rw [(a6 hp).2]
    exact min_le_min le_rfl hfree

theorem Alive.run (hr : Nearest r) {g : State (Fl r)} (h : Alive g) (ps : List (Period (Fl r))) :
    ∃ g', Gripper.run g (ps.map Period.op) = .ok g' ∧ Alive g' := by
  induction ps generalizing g with
  | nil => exact ⟨g, rfl, h⟩
  | cons p ps ih =>
    obtain ⟨g1, a1, a2, -⟩ := h.step hr p
    obtain ⟨g', b1, b2⟩ := ih a2
    refine ⟨g', ?_, b2⟩
    have : Gripper.run g ((p :: ps).map Period.op) = (Gripper.run g [p.op]).bind fun g' => Gripper.run g' (ps.map Period.op) := by
      simp only [List.map_cons, Gripper.run]
      cases Gripper.step g p.op <;> rfl
    rw [this, a1]
    exact b1

theorem Alive.release (hr : Nearest r) {g : State (Fl r)} (h : Alive g) (ps : List (Period (Fl r))) (hf : ∀ p ∈ ps, ¬ p.Pushed) :
    ∃ g', Gripper.run g (ps.map Period.op) = .ok g' ∧ Alive g' ∧ min 1 ((101 / 100) ^ ps.length * (factorOf g).val) ≤ (factorOf g').val := by
  induction ps generalizing g with
  | nil => exact ⟨g, rfl, h, by simp⟩
  | cons p ps ih =>
    obtain ⟨g1, a1, a2, a3⟩ := h.step hr p
    obtain ⟨g', b1, b2, b3⟩ := ih a2 (fun q hq => hf q (by simp [hq]))
    refine ⟨g', ?_, b2, le_trans ?_ b3⟩
    · have : Gripper.run g ((p :: ps).map Period.op) = (Gripper.run g [p.op]).bind fun g' => Gripper.run g' (ps.map Period.op) := by
        simp only [List.map_cons, Gripper.run]
        cases Gripper.step g p.op <;> rfl
      rw [this, a1]
      exact b1
    · refine le_min (min_le_left _ _) ?_
      have h1 := a3 (hf p (by simp))
      have hp : (1 : ℝ) ≤ (101 / 100) ^ ps.length := one_le_pow₀ (by norm_num)
      rcases min_le_iff.mp h1 with h2 | h2
      · exact (min_le_left _ _).trans (one_le_mul_of_one_le_of_one_le hp h2)
      · refine (min_le_right _ _).trans ?_
        rw [List.length_cons, pow_succ, mul_assoc]
        exact mul_le_mul_of_nonneg_left h2 (by linarith)

/-- **With the offset of the constructor the gripper is never lost.** Whatever the periods before, 80000 periods without push are enough to
give the whole speed back, and the factor is never zero. -/
theorem C150_default (hr : Nearest r) (ps qs : List (Period (Fl r))) (hq : ∀ p ∈ qs, ¬ p.Pushed) :
    ∃ g g', run State.fresh (ps.map Period.op) = .ok g ∧ 0 < (factorOf g).val ∧ run g (qs.map Period.op) = .ok g' ∧
      (80000 ≤ qs.length → factorOf g' = 1) := by
  have ha : Alive (State.fresh : State (Fl r)) := by
    refine ⟨fresh_working hr, rfl, ?_⟩
    show 5 * tiny ≤ (1 : Fl r).val
    rw [Fl.val_one]
    exact tiny_le_one
  obtain ⟨g, a1, a2⟩ := ha.run hr ps
  obtain ⟨g', b1, b2, b3⟩ := a2.release hr qs hq
  have ht := tiny_pos
  refine ⟨g, g', a1, by linarith [a2.least], b1, fun hl => ?_⟩
  have h1 : (1 : ℝ) ≤ (101 / 100) ^ qs.length * (factorOf g).val := by
    have h2 : ((101 / 100 : ℝ)) ^ 80000 ≤ (101 / 100) ^ qs.length := pow_le_pow_right₀ (by norm_num) hl
    have h3 : (2 : ℝ) ^ 1074 ≤ (101 / 100) ^ 80000 := by
      have h4 : (2 : ℝ) ≤ (101 / 100) ^ 70 := by norm_num
      calc (2 : ℝ) ^ 1074 ≤ ((101 / 100) ^ 70) ^ 1074 := pow_le_pow_left₀ (by norm_num) h4 _
        _ = (101 / 100) ^ (70 * 1074) := by rw [← pow_mul]
        _ ≤ (101 / 100) ^ 80000 := pow_le_pow_right₀ (by norm_num) (by norm_num)
    have h5 : (2 : ℝ) ^ 1074 * tiny = 1 := by
      rw [tiny, zpow_neg, show (1074 : ℤ) = ((1074 : ℕ) : ℤ) from rfl, zpow_natCast]
      exact mul_inv_cancel₀ (by positivity)
    calc (1 : ℝ) = 2 ^ 1074 * tiny := h5.symm
      _ ≤ (101 / 100) ^ qs.length * (factorOf g).val :=
        mul_le_mul (h3.trans h2) (by linarith [a2.least]) ht.le (by positivity)
  rw [min_eq_left h1] at b3
  refine le_antisymm b2.working.le ?_
  rw [Fl.val_le, Fl.val_one]
  exact b3

end Verif.Rounding
