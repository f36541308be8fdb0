import Verif.Device.Model
import Mathlib.Algebra.Order.Field.Basic
import Mathlib.Tactic.Ring
import Mathlib.Tactic.NormNum

/-!
# Properties C22–C26, C64, C65 of the device

The quantities in the statements are plain: `NoNaN v` (no entry is NaN), `Within lower upper v` (each
number of `v` lies between the bounds of the same index), `BoundsOk lower upper` (the bounds are numbers
and `lower ≤ upper`).
-/

set_option linter.unusedSectionVars false

namespace Verif.Device

variable {F : Type} [Zero F] [One F] [OfNat F 2] [Add F] [Mul F] [Div F] [LinearOrder F]

/-- No entry of the vector is NaN. -/
def NoNaN (v : List (Option F)) : Prop := none ∉ v

/-- Every entry of `v` that is a number is between the bounds of the same index. -/
def Within (lower upper v : List (Option F)) : Prop :=
  ∀ (i : Nat) (x : F), v[i]? = some (some x) →
    ∃ l u, lower[i]? = some (some l) ∧ upper[i]? = some (some u) ∧ l ≤ x ∧ x ≤ u

/-- The bounds are numbers, in order. -/
def BoundsOk (lower upper : List (Option F)) : Prop :=
  lower.length = upper.length ∧
  ∀ (i : Nat) (a b : Option F), lower[i]? = some a → upper[i]? = some b →
    ∃ l u, a = some l ∧ b = some u ∧ l ≤ u

/-! ## Lemmas -/

theorem checkBounds_length {v lo up w : List (Option F)} (h : checkBounds v lo up = .ok w) :
    w.length = v.length := by
  fun_induction checkBounds v lo up generalizing w with
  | case1 => simp_all
  | case2 x xs l ls u us ih =>
    obtain ⟨w', hw', rfl⟩ := Outcome.map_eq_ok.mp h
    simp [ih hw']
  | case3 => simp at h

theorem checkBounds_get {v lo up w : List (Option F)} (h : checkBounds v lo up = .ok w)
    {i : Nat} {y : Option F} (hy : w[i]? = some y) :
    ∃ x l u, v[i]? = some x ∧ lo[i]? = some l ∧ up[i]? = some u ∧ y = saturate x l u := by
  fun_induction checkBounds v lo up generalizing w i with
  | case1 =>
    simp only [Outcome.ok.injEq] at h
    subst h
    simp at hy
  | case2 x xs l ls u us ih =>
    obtain ⟨w', hw', rfl⟩ := Outcome.map_eq_ok.mp h
    cases i with
    | zero =>
      simp only [List.getElem?_cons_zero, Option.some.injEq] at hy
      exact ⟨x, l, u, by simp, by simp, by simp, hy.symm⟩
    | succ i =>
      simp only [List.getElem?_cons_succ] at hy
      simpa using ih hw' hy
  | case3 => simp at h

theorem checkBounds_ok (v lo up : List (Option F)) (hl : v.length ≤ lo.length)
    (hu : v.length ≤ up.length) : ∃ w, checkBounds v lo up = .ok w := by
  fun_induction checkBounds v lo up with
  | case1 => exact ⟨_, rfl⟩
  | case2 x xs l ls u us ih =>
    obtain ⟨w, hw⟩ := ih (by simpa using hl) (by simpa using hu)
    exact ⟨_, by rw [hw]; rfl⟩
  | case3 x xs lo up hne =>
    cases lo with
    | nil => simp at hl
    | cons l ls =>
      cases up with
      | nil => simp at hu
      | cons u us => exact absurd rfl (hne l ls u us rfl)

theorem checkBounds_within {v lo up w : List (Option F)} (hb : BoundsOk lo up)
    (h : checkBounds v lo up = .ok w) : Within lo up w := by
  intro i y hy
  obtain ⟨x, l, u, hx, hl, hu, hs⟩ := checkBounds_get h hy
  obtain ⟨l', u', rfl, rfl, hlu⟩ := hb.2 i l u hl hu
  refine ⟨l', u', hl, hu, ?_⟩
  cases x with
  | none => simp [saturate, vlt] at hs
  | some x =>
    simp only [saturate, vlt, decide_eq_true_eq] at hs
    split_ifs at hs with h1 h2
    · obtain rfl := Option.some.inj hs; exact ⟨le_refl _, hlu⟩
    · obtain rfl := Option.some.inj hs; exact ⟨hlu, le_refl _⟩
    · obtain rfl := Option.some.inj hs; exact ⟨not_lt.mp h1, not_lt.mp h2⟩

theorem checkBounds_noNaN {v lo up w : List (Option F)} (hb : BoundsOk lo up) (hv : NoNaN v)
    (h : checkBounds v lo up = .ok w) : NoNaN w := by
  intro hn
  obtain ⟨i, hi⟩ := List.mem_iff_getElem?.mp hn
  obtain ⟨x, l, u, hx, hl, hu, hs⟩ := checkBounds_get h hi
  obtain ⟨l', u', rfl, rfl, hlu⟩ := hb.2 i l u hl hu
  cases x with
  | none => exact hv (List.mem_iff_getElem?.mpr ⟨i, hx⟩)
  | some x =>
    simp only [saturate] at hs
    split_ifs at hs

theorem updateTail_length {f : Option F → Option F → Option F} {v x w : List (Option F)}
    (h : updateTail f v x = .ok w) : w.length = v.length := by
  unfold updateTail at h
  split_ifs at h with hle
  simp only [Outcome.ok.injEq] at h
  subst h
  simp only [List.length_append, List.length_take, List.length_zipWith, List.length_drop]
  omega

theorem updateTail_noNaN {f : Option F → Option F → Option F} {v x w : List (Option F)}
    (hf : ∀ a b, a ≠ none → b ≠ none → f a b ≠ none) (hv : NoNaN v) (hx : NoNaN x)
    (h : updateTail f v x = .ok w) : NoNaN w := by
  unfold updateTail at h
  split_ifs at h with hle
  simp only [Outcome.ok.injEq] at h
  subst h
  intro hn
  rcases List.mem_append.mp hn with h1 | h1
  · exact hv (List.mem_of_mem_take h1)
  · obtain ⟨i, hi⟩ := List.mem_iff_getElem?.mp h1
    rw [List.getElem?_zipWith_eq_some] at hi
    obtain ⟨a, b, ha, hb, hab⟩ := hi
    refine hf a b ?_ ?_ hab
    · rintro rfl
      exact hv (List.mem_of_mem_drop (List.mem_iff_getElem?.mpr ⟨i, ha⟩))
    · rintro rfl
      exact hx (List.mem_iff_getElem?.mpr ⟨i, hb⟩)

theorem vadd_vmul_ne (c : F) (a b : Option F) (ha : a ≠ none) (hb : b ≠ none) :
    vadd a (vmul c b) ≠ none := by
  cases a <;> cases b <;> simp_all [vadd, vmul]

theorem any_isNone_eq_false {u : List (Option F)} : u.any Option.isNone = false ↔ NoNaN u := by
  unfold NoNaN
  constructor
  · intro h hn
    rw [List.any_eq_false] at h
    exact h _ hn rfl
  · intro h
    rw [List.any_eq_false]
    intro x hx hnone
    rw [Option.isNone_iff_eq_none] at hnone
    exact h (hnone ▸ hx)

/-- What an integration step with a NaN-free control or without checks does, spelled out. -/
theorem integrate_cases {ff : List (Option F) → List (Option F) → F → (Fin 6 → Option F)}
    {d d' : Dev F} {u : List (Option F)} {dt : F} (h : integrate ff d u dt = .ok d') :
    (d.sanity = true ∧ ¬ NoNaN u ∧ d' = d) ∨
    ((d.sanity = false ∨ NoNaN u) ∧ d.mode = .noInteg ∧
      ∃ st, updateTail (fun _ x => x) d.state u = .ok st ∧ d' = { d with state := st }) ∨
    ((d.sanity = false ∨ NoNaN u) ∧ d.mode ≠ .noInteg ∧ ∃ vc v1 v2 st1 st2,
      velocities d u dt = .ok (vc, v1) ∧
      checkIf d.sanity v1 d.lowerVelocity d.upperVelocity = .ok v2 ∧
      positions ff d.state vc dt = .ok st1 ∧
      checkIf d.sanity st1 d.lowerPosition d.upperPosition = .ok st2 ∧
      d' = { d with velocity := v2, state := st2 }) := by
  unfold integrate at h
  split_ifs at h with h1 h2
  · left
    simp only [Bool.and_eq_true] at h1
    refine ⟨h1.1, ?_, by simpa using h.symm⟩
    intro hn
    rw [any_isNone_eq_false.mpr hn] at h1
    exact absurd h1.2 (by simp)
  · right; left
    refine ⟨?_, h2, ?_⟩
    · by_cases hs : d.sanity = true
      · right
        simpa [hs, NoNaN] using h1
      · left; simpa using hs
    · obtain ⟨st, hst, rfl⟩ := Outcome.map_eq_ok.mp h
      exact ⟨st, hst, rfl⟩
  · right; right
    refine ⟨?_, h2, ?_⟩
    · by_cases hs : d.sanity = true
      · right
        simpa [hs, NoNaN] using h1
      · left; simpa using hs
    · obtain ⟨⟨vc, v1⟩, hv, h⟩ := Outcome.bind_eq_ok.mp h
      obtain ⟨v2, hv2, h⟩ := Outcome.bind_eq_ok.mp h
      obtain ⟨st1, hst1, h⟩ := Outcome.bind_eq_ok.mp h
      obtain ⟨st2, hst2, h⟩ := Outcome.map_eq_ok.mp h
      exact ⟨vc, v1, v2, st1, st2, hv, hv2, hst1, hst2, h.symm⟩

/-- The converse, for a step in velocity or acceleration mode. -/
theorem increment_eq (ff : List (Option F) → List (Option F) → F → (Fin 6 → Option F))
    (d : Dev F) (u : List (Option F)) (dt : F) {vc v1 v2 st1 st2 : List (Option F)}
    (h0 : d.sanity = false ∨ NoNaN u) (hm : d.mode ≠ .noInteg)
    (h1 : velocities d u dt = .ok (vc, v1))
    (h2 : checkIf d.sanity v1 d.lowerVelocity d.upperVelocity = .ok v2)
    (h3 : positions ff d.state vc dt = .ok st1)
    (h4 : checkIf d.sanity st1 d.lowerPosition d.upperPosition = .ok st2) :
    increment ff d u dt = .ok { d with
      velocity := v2, state := st2, stateSOUT := st2, time := d.time + 1
      velocitySOUT := match d.mode with
        | .twoInteg => v2
        | .oneInteg => u
        | .noInteg => d.velocitySOUT } := by
  have hb : (d.sanity && u.any Option.isNone) = false := by
    rcases h0 with h0 | h0
    · rw [h0, Bool.false_and]
    · rw [any_isNone_eq_false.mpr h0, Bool.and_false]
  rw [increment, integrate, hb, if_neg (by simp), if_neg hm, h1]
  simp only [Outcome.bind_ok, h2, h3, h4, Outcome.map_ok]
  cases d.mode <;> rfl

/-- The members that a step never changes. -/
theorem integrate_frame {ff : List (Option F) → List (Option F) → F → (Fin 6 → Option F)}
    {d d' : Dev F} {u : List (Option F)} {dt : F} (h : integrate ff d u dt = .ok d') :
    d'.sanity = d.sanity ∧ d'.mode = d.mode ∧ d'.lowerPosition = d.lowerPosition ∧
      d'.upperPosition = d.upperPosition ∧ d'.lowerVelocity = d.lowerVelocity ∧
      d'.upperVelocity = d.upperVelocity ∧ d'.lowerTorque = d.lowerTorque ∧
      d'.upperTorque = d.upperTorque ∧ d'.time = d.time := by
  rcases integrate_cases h with ⟨_, _, rfl⟩ | ⟨_, _, st, _, rfl⟩ | ⟨_, _, _, _, _, _, _, _, _, _, _, rfl⟩ <;>
    simp

theorem increment_cases {ff : List (Option F) → List (Option F) → F → (Fin 6 → Option F)}
    {d d' : Dev F} {u : List (Option F)} {dt : F} (h : increment ff d u dt = .ok d') :
    ∃ d1, integrate ff d u dt = .ok d1 ∧ d'.state = d1.state ∧ d'.velocity = d1.velocity ∧
      d'.stateSOUT = d1.state ∧ d'.time = d.time + 1 ∧ d'.sanity = d.sanity ∧ d'.mode = d.mode ∧
      d'.lowerPosition = d.lowerPosition ∧ d'.upperPosition = d.upperPosition ∧
      d'.lowerVelocity = d.lowerVelocity ∧ d'.upperVelocity = d.upperVelocity ∧
      d'.lowerTorque = d.lowerTorque ∧ d'.upperTorque = d.upperTorque := by
  obtain ⟨d1, h1, rfl⟩ := Outcome.map_eq_ok.mp h
  obtain ⟨a, b, c, e, f, g, i, j, k⟩ := integrate_frame h1
  exact ⟨d1, h1, rfl, rfl, rfl, by rw [← k], a, b, c, e, f, g, i, j⟩

theorem positions_length {ff : List (Option F) → List (Option F) → F → (Fin 6 → Option F)}
    {st vc w : List (Option F)} {dt : F} (h : positions ff st vc dt = .ok w) :
    w.length = st.length := by
  unfold positions at h
  split_ifs at h with h1 h2
  · have := updateTail_length h
    rw [this]
    simp only [List.length_append, List.length_ofFn, List.length_drop]
    omega
  · exact updateTail_length h

theorem checkIf_length {s : Bool} {v lo up w : List (Option F)} (h : checkIf s v lo up = .ok w) :
    w.length = v.length := by
  unfold checkIf at h
  split_ifs at h
  · exact checkBounds_length h
  · simp only [Outcome.ok.injEq] at h; rw [h]

theorem velocities_length {d : Dev F} {u vc v : List (Option F)} {dt : F}
    (h : velocities d u dt = .ok (vc, v)) : v.length = d.velocity.length ∧ vc.length = u.length := by
  unfold velocities at h
  split at h
  · split_ifs at h with hle
    obtain ⟨w, hw, he⟩ := Outcome.map_eq_ok.mp h
    simp only [Prod.mk.injEq] at he
    obtain ⟨rfl, rfl⟩ := he
    refine ⟨updateTail_length hw, ?_⟩
    simp only [List.length_zipWith, List.length_drop]
    omega
  · simp only [Outcome.ok.injEq, Prod.mk.injEq] at h
    obtain ⟨rfl, rfl⟩ := h
    exact ⟨rfl, rfl⟩

/-- A step keeps the sizes. -/
theorem integrate_length {ff : List (Option F) → List (Option F) → F → (Fin 6 → Option F)}
    {d d' : Dev F} {u : List (Option F)} {dt : F} (h : integrate ff d u dt = .ok d') :
    d'.state.length = d.state.length ∧ d'.velocity.length = d.velocity.length := by
  rcases integrate_cases h with ⟨_, _, rfl⟩ | ⟨_, _, st, hst, rfl⟩ |
    ⟨_, _, vc, v1, v2, st1, st2, h1, h2, h3, h4, rfl⟩
  · exact ⟨rfl, rfl⟩
  · exact ⟨updateTail_length hst, rfl⟩
  · exact ⟨(checkIf_length h4).trans (positions_length h3),
      (checkIf_length h2).trans (velocities_length h1).1⟩

/-! ## C22: the positions stay within the bounds -/

/-- After a step of a checked device driven in velocity or acceleration by a control without NaN,
every position is within its bounds (or is NaN: see the next theorem). -/
theorem C22_positions_within_bounds
    (ff : List (Option F) → List (Option F) → F → (Fin 6 → Option F)) (d d' : Dev F)
    (u : List (Option F)) (dt : F) (hs : d.sanity = true) (hm : d.mode ≠ .noInteg) (hu : NoNaN u)
    (hb : BoundsOk d.lowerPosition d.upperPosition) (h : increment ff d u dt = .ok d') :
    Within d.lowerPosition d.upperPosition d'.state ∧ d'.stateSOUT = d'.state := by
  obtain ⟨d1, h1, e1, _, e2, _⟩ := increment_cases h
  rw [e1]
  refine ⟨?_, e2⟩
  rcases integrate_cases h1 with ⟨_, hn, _⟩ | ⟨_, hn, _⟩ |
    ⟨_, _, vc, v1, v2, st1, st2, _, _, _, h4, rfl⟩
  · exact absurd hu hn
  · exact absurd hn hm
  · rw [checkIf, if_pos hs] at h4
    exact checkBounds_within hb h4

/-- A checked device that is in bounds and free of NaN stays so over every sequence of controls (with or
without NaN) and time steps, provided the integration of the free-flyer produces numbers from numbers. -/
theorem C22_positions_within_bounds_history
    (ff : List (Option F) → List (Option F) → F → (Fin 6 → Option F))
    (hff : ∀ s v dt, NoNaN s → NoNaN v → ∀ i, ff s v dt i ≠ none) (us : List (List (Option F) × F))
    (d d' : Dev F) (hs : d.sanity = true) (hm : d.mode ≠ .noInteg)
    (hbp : BoundsOk d.lowerPosition d.upperPosition) (hbv : BoundsOk d.lowerVelocity d.upperVelocity)
    (hq : NoNaN d.state) (hv : NoNaN d.velocity) (hw : Within d.lowerPosition d.upperPosition d.state)
    (h : run ff d (us.map fun p => Cmd.increment p.1 p.2) = .ok d') :
    NoNaN d'.state ∧ NoNaN d'.velocity ∧ Within d.lowerPosition d.upperPosition d'.state := by
  induction us generalizing d with
  | nil =>
    simp only [List.map_nil, run, Outcome.ok.injEq] at h
    subst h
    exact ⟨hq, hv, hw⟩
  | cons p us ih =>
    simp only [List.map_cons, run, step] at h
    obtain ⟨d1, h1, h2⟩ := Outcome.bind_eq_ok.mp h
    obtain ⟨d2, g1, e1, e2, _, _, e3, e4, e5, e6, e7, e8, _⟩ := increment_cases h1
    have key : NoNaN d1.state ∧ NoNaN d1.velocity ∧ Within d.lowerPosition d.upperPosition d1.state := by
      rw [e1, e2]
      rcases integrate_cases g1 with ⟨_, _, rfl⟩ | ⟨_, hn, _⟩ |
        ⟨hu, _, vc, v1, v2, st1, st2, k1, k2, k3, k4, rfl⟩
      · exact ⟨hq, hv, hw⟩
      · exact absurd hn hm
      · rw [checkIf, if_pos hs] at k2 k4
        have hu : NoNaN p.1 := hu.resolve_left (by simp [hs])
        have hvv : NoNaN vc ∧ NoNaN v1 := by
          unfold velocities at k1
          split at k1
          · split_ifs at k1
            obtain ⟨w, hw, he⟩ := Outcome.map_eq_ok.mp k1
            simp only [Prod.mk.injEq] at he
            obtain ⟨rfl, rfl⟩ := he
            refine ⟨?_, updateTail_noNaN (vadd_vmul_ne _) hv hu hw⟩
            intro hn
            obtain ⟨i, hi⟩ := List.mem_iff_getElem?.mp hn
            rw [List.getElem?_zipWith_eq_some] at hi
            obtain ⟨a, b, ha, hb, hab⟩ := hi
            refine vadd_vmul_ne _ a b ?_ ?_ hab
            · rintro rfl
              exact hv (List.mem_of_mem_drop (List.mem_iff_getElem?.mpr ⟨i, ha⟩))
            · rintro rfl
              exact hu (List.mem_iff_getElem?.mpr ⟨i, hb⟩)
          · simp only [Outcome.ok.injEq, Prod.mk.injEq] at k1
            obtain ⟨rfl, rfl⟩ := k1
            exact ⟨hu, hv⟩
        have hst : NoNaN st1 := by
          unfold positions at k3
          split_ifs at k3
          · refine updateTail_noNaN (vadd_vmul_ne _) ?_ ?_ k3
            · intro hn
              rcases List.mem_append.mp hn with hn | hn
              · rw [List.mem_ofFn] at hn
                obtain ⟨i, hi⟩ := hn
                exact hff _ _ _ hq hvv.1 i hi
              · exact hq (List.mem_of_mem_drop hn)
            · intro hn
              exact hvv.1 (List.mem_of_mem_drop hn)
          · exact updateTail_noNaN (vadd_vmul_ne _) hq hvv.1 k3
        exact ⟨checkBounds_noNaN hbp hst k4, checkBounds_noNaN hbv hvv.2 k2, checkBounds_within hbp k4⟩
    have := ih d1 (e3.trans hs) (by rw [e4]; exact hm) (by rw [e5, e6]; exact hbp)
      (by rw [e7, e8]; exact hbv) key.1 key.2.1 (by rw [e5, e6]; exact key.2.2) h2
    rw [e5, e6] at this
    exact this

/-- A device with two joints, in velocity mode, bounds [-1, 1] on positions and [-2, 2] on velocities. -/
def sample : Dev ℚ :=
  { (init : Dev ℚ) with
    state := [some 0, some (1 / 2)], velocity := [some 0, some 0]
    lowerPosition := [some (-1), some (-1)], upperPosition := [some 1, some 1]
    lowerVelocity := [some (-2), some (-2)], upperVelocity := [some 2, some 2] }

/-- A free-flyer integration for the examples: it does not move. -/
def stay (s _v : List (Option ℚ)) (_dt : ℚ) : Fin 6 → Option ℚ := fun i => (s[i.val]?).getD (some 0)

example : sample.sanity = true ∧ sample.mode ≠ .noInteg ∧ NoNaN [some (3 : ℚ)] ∧
    BoundsOk sample.lowerPosition sample.upperPosition ∧
    (increment stay sample [some 3] 1).map (·.state) = .ok [some 0, some 1] := by
  refine ⟨rfl, by decide, by simp [NoNaN], ⟨rfl, ?_⟩, by decide +kernel⟩
  intro i a b ha hb
  match i with
  | 0 => exact ⟨-1, 1, by simpa [sample] using ha.symm, by simpa [sample] using hb.symm, by norm_num⟩
  | 1 => exact ⟨-1, 1, by simpa [sample] using ha.symm, by simpa [sample] using hb.symm, by norm_num⟩
  | i + 2 => simp [sample] at ha

example : NoNaN sample.state ∧ NoNaN sample.velocity ∧
    Within sample.lowerPosition sample.upperPosition sample.state ∧
    (∀ s v dt, NoNaN s → NoNaN v → ∀ i, stay s v dt i ≠ none) ∧
    (run stay sample [.increment [some 3] 1, .increment [none] 1, .increment [some (-1)] (1 / 2)]).map
      (·.state) = .ok [some 0, some (1 / 2)] := by
  refine ⟨by simp [NoNaN, sample], by simp [NoNaN, sample], ?_, ?_, by decide +kernel⟩
  · intro i x hx
    match i with
    | 0 =>
      obtain rfl : x = 0 := by simpa [sample] using hx.symm
      exact ⟨-1, 1, by simp [sample], by simp [sample], by norm_num⟩
    | 1 =>
      obtain rfl : x = 1 / 2 := by simpa [sample] using hx.symm
      exact ⟨-1, 1, by simp [sample], by simp [sample], by norm_num⟩
    | i + 2 => simp [sample] at hx
  · intro s v dt hs _ i h
    unfold stay at h
    cases hg : s[i.val]? with
    | none => simp [hg] at h
    | some a =>
      rw [hg] at h
      simp only [Option.getD_some] at h
      subst h
      exact hs (List.mem_iff_getElem?.mpr ⟨_, hg⟩)

/-! ## C23: the step is the Euler step -/

/-- A vector of numbers. -/
def nums (v : List F) : List (Option F) := v.map some

theorem nums_noNaN (v : List F) : NoNaN (nums v) := by simp [NoNaN, nums]

theorem updateTail_nums (f : Option F → Option F → Option F) (g : F → F → F)
    (hfg : ∀ a b, f (some a) (some b) = some (g a b)) (base q x : List F) (h : q.length = x.length) :
    updateTail f (nums (base ++ q)) (nums x) = .ok (nums (base ++ List.zipWith g q x)) := by
  have hl : (nums (base ++ q)).length - (nums x).length = base.length := by
    simp [nums, h]
  unfold updateTail
  rw [if_pos (by simp [nums, h]), hl]
  have h1 : (nums (base ++ q)).take base.length = nums base := by simp [nums]
  have h2 : (nums (base ++ q)).drop base.length = nums q := by simp [nums]
  rw [h1, h2]
  simp only [nums, List.map_append, Outcome.ok.injEq, List.append_cancel_left_eq]
  rw [List.zipWith_map, List.map_zipWith]
  simp [hfg]

/-- Velocity mode, checks off, control smaller than the state: the last positions advance by
`dt * control`, the others and the velocity do not change. -/
theorem C23_velocity_mode (ff : List (Option F) → List (Option F) → F → (Fin 6 → Option F))
    (d : Dev F) (base q u : List F) (dt : F) (hs : d.sanity = false) (hm : d.mode = .oneInteg)
    (hst : d.state = nums (base ++ q)) (hl : q.length = u.length) (hbase : base ≠ []) :
    ∃ d', increment ff d (nums u) dt = .ok d' ∧
      d'.state = nums (base ++ List.zipWith (fun x v => x + dt * v) q u) ∧
      d'.velocity = d.velocity ∧ d'.velocitySOUT = nums u ∧ d'.time = d.time + 1 := by
  have hne : (nums u).length ≠ (nums (base ++ q)).length := by
    have : base.length ≠ 0 := by simpa using hbase
    simp only [nums, List.length_map, List.length_append]
    omega
  have hp : positions ff d.state (nums u) dt =
      .ok (nums (base ++ List.zipWith (fun x v => x + dt * v) q u)) := by
    rw [positions, hst, if_neg hne]
    exact updateTail_nums _ _ (fun a b => by simp [vadd, vmul]) base q u hl
  refine ⟨_, increment_eq ff d _ dt (.inl hs) (by simp [hm]) (by simp only [velocities, hm]; rfl)
    (by simp only [checkIf, hs]; rfl) hp (by simp only [checkIf, hs]; rfl), rfl, rfl, by simp [hm], rfl⟩

/-- Velocity mode, checks off, control of the size of the state: the joints after the first six advance by
`dt * control`; the first six values are those of the integration on SE(3). -/
theorem C23_velocity_mode_free_flyer
    (ff : List (Option F) → List (Option F) → F → (Fin 6 → Option F))
    (d : Dev F) (base q ub u : List F) (dt : F) (hs : d.sanity = false) (hm : d.mode = .oneInteg)
    (hst : d.state = nums (base ++ q)) (hl : q.length = u.length) (hb : base.length = 6)
    (hub : ub.length = 6) :
    ∃ d', increment ff d (nums (ub ++ u)) dt = .ok d' ∧
      d'.state = List.ofFn (ff d.state (nums (ub ++ u)) dt) ++
        nums (List.zipWith (fun x v => x + dt * v) q u) ∧
      d'.velocity = d.velocity ∧ d'.velocitySOUT = nums (ub ++ u) ∧ d'.time = d.time + 1 := by
  have he : (nums (ub ++ u)).length = (nums (base ++ q)).length := by
    simp only [nums, List.length_map, List.length_append]
    omega
  have hp : positions ff d.state (nums (ub ++ u)) dt =
      .ok (List.ofFn (ff d.state (nums (ub ++ u)) dt) ++
        nums (List.zipWith (fun x v => x + dt * v) q u)) := by
    rw [positions, hst, if_pos he, if_neg (by simp [nums]; omega)]
    have h1 : (nums (base ++ q)).drop 6 = nums q := by simp [nums, ← hb]
    have h2 : (nums (ub ++ u)).drop 6 = nums u := by simp [nums, ← hub]
    simp only [h1, h2, updateTail]
    rw [if_pos (by simp only [nums, List.length_map, List.length_append]; omega)]
    have h3 : (List.ofFn (ff (nums (base ++ q)) (nums (ub ++ u)) dt) ++ nums q).length -
        (nums u).length = (List.ofFn (ff (nums (base ++ q)) (nums (ub ++ u)) dt)).length := by
      simp only [nums, List.length_map, List.length_append]; omega
    rw [h3, List.take_left, List.drop_left]
    simp only [nums, Outcome.ok.injEq, List.append_cancel_left_eq]
    rw [List.zipWith_map, List.map_zipWith]
    simp [vadd, vmul]
  refine ⟨_, increment_eq ff d _ dt (.inl hs) (by simp [hm]) (by simp only [velocities, hm]; rfl)
    (by simp only [checkIf, hs]; rfl) hp (by simp only [checkIf, hs]; rfl), rfl, rfl, by simp [hm], rfl⟩

/-- Acceleration mode, checks off, in any arithmetic: the velocity advances by `dt * control`, the position by
`dt` times the velocity of the middle of the step. -/
theorem C23_acceleration_mode_any (ff : List (Option F) → List (Option F) → F → (Fin 6 → Option F))
    (d : Dev F) (base q vb v u : List F) (dt : F) (hs : d.sanity = false) (hm : d.mode = .twoInteg)
    (hst : d.state = nums (base ++ q)) (hv : d.velocity = nums (vb ++ v)) (hl : q.length = u.length)
    (hlv : v.length = u.length) (hbase : base ≠ []) :
    ∃ d', increment ff d (nums u) dt = .ok d' ∧
      d'.velocity = nums (vb ++ List.zipWith (fun x a => x + dt * a) v u) ∧
      d'.state = nums (base ++ List.zipWith (fun x p => x + dt * (p.1 + 1 / 2 * dt * p.2)) q (v.zip u)) ∧
      d'.velocitySOUT = d'.velocity ∧ d'.time = d.time + 1 := by
  have hvel : velocities d (nums u) dt =
      .ok (nums (List.zipWith (fun x a => x + 1 / 2 * dt * a) v u),
        nums (vb ++ List.zipWith (fun x a => x + dt * a) v u)) := by
    simp only [velocities, hm, hv]
    rw [if_pos (by simp [nums, hlv])]
    rw [updateTail_nums _ (fun x a => x + dt * a) (fun a b => by simp [vadd, vmul]) vb v u hlv]
    have hl2 : (nums (vb ++ v)).length - (nums u).length = vb.length := by simp [nums, hlv]
    have h2 : (nums (vb ++ v)).drop vb.length = nums v := by simp [nums]
    rw [hl2, h2]
    simp only [Outcome.map_ok, Outcome.ok.injEq, Prod.mk.injEq, and_true]
    simp only [nums]
    rw [List.zipWith_map, List.map_zipWith]
    simp [vadd, vmul]
  have hlz : q.length = (List.zipWith (fun x a => x + 1 / 2 * dt * a) v u).length := by
    simp [hl, hlv]
  have hne : (nums (List.zipWith (fun x a => x + 1 / 2 * dt * a) v u)).length ≠
      (nums (base ++ q)).length := by
    have : base.length ≠ 0 := by simpa using hbase
    simp only [nums, List.length_map, List.length_append]
    omega
  have hp : positions ff d.state (nums (List.zipWith (fun x a => x + 1 / 2 * dt * a) v u)) dt =
      .ok (nums (base ++ List.zipWith (fun x p => x + dt * (p.1 + 1 / 2 * dt * p.2)) q (v.zip u))) := by
    rw [positions, hst, if_neg hne]
    rw [updateTail_nums _ (fun x v => x + dt * v) (fun a b => by simp [vadd, vmul]) base q _ hlz]
    congr 3
    apply List.ext_getElem?
    intro i
    simp only [List.getElem?_zipWith, List.zip]
    rcases q[i]? with _ | a <;> rcases v[i]? with _ | b <;> rcases u[i]? with _ | c <;> simp
  refine ⟨_, increment_eq ff d _ dt (.inl hs) (by simp [hm]) hvel
    (by simp only [checkIf, hs]; rfl) hp (by simp only [checkIf, hs]; rfl), rfl, rfl, by simp [hm], rfl⟩

/-- Acceleration mode, checks off: the velocity advances by `dt * control`, the position by
`dt * v + dt² / 2 * control`. -/
theorem C23_acceleration_mode {K : Type} [Field K] [LinearOrder K] (ff : List (Option K) → List (Option K) → K → (Fin 6 → Option K))
    (d : Dev K) (base q vb v u : List K) (dt : K) (hs : d.sanity = false) (hm : d.mode = .twoInteg)
    (hst : d.state = nums (base ++ q)) (hv : d.velocity = nums (vb ++ v)) (hl : q.length = u.length)
    (hlv : v.length = u.length) (hbase : base ≠ []) :
    ∃ d', increment ff d (nums u) dt = .ok d' ∧
      d'.velocity = nums (vb ++ List.zipWith (fun x a => x + dt * a) v u) ∧
      d'.state = nums (base ++ List.zipWith (fun x p => x + (dt * p.1 + dt ^ 2 / 2 * p.2)) q (v.zip u)) ∧
      d'.velocitySOUT = d'.velocity ∧ d'.time = d.time + 1 := by
  obtain ⟨d', h1, h2, h3, h4, h5⟩ := C23_acceleration_mode_any ff d base q vb v u dt hs hm hst hv hl hlv hbase
  refine ⟨d', h1, h2, ?_, h4, h5⟩
  have : (fun (x : K) (p : K × K) => x + dt * (p.1 + 1 / 2 * dt * p.2)) =
      fun x p => x + (dt * p.1 + dt ^ 2 / 2 * p.2) := by
    funext x p
    ring
  rw [h3, this]

/-- Position mode: the last values of the state are the control; with a control of the size of the state,
the state is the control. (With or without checks.) -/
theorem C23_position_mode (ff : List (Option F) → List (Option F) → F → (Fin 6 → Option F))
    (d : Dev F) (base q u : List F) (dt : F) (hm : d.mode = .noInteg)
    (hst : d.state = nums (base ++ q)) (hl : q.length = u.length) :
    ∃ d', increment ff d (nums u) dt = .ok d' ∧ d'.state = nums (base ++ u) ∧
      d'.velocity = d.velocity ∧ d'.time = d.time + 1 := by
  have h1 : (d.sanity && (nums u).any Option.isNone) = false := by
    rw [any_isNone_eq_false.mpr (nums_noNaN u), Bool.and_false]
  have h2 : updateTail (fun _ x => x) d.state (nums u) = .ok (nums (base ++ u)) := by
    rw [hst, updateTail_nums _ (fun _ x => x) (fun a b => rfl) base q u hl]
    congr 3
    apply List.ext_getElem?
    intro i
    rw [List.getElem?_zipWith]
    by_cases hi : i < u.length
    · rw [List.getElem?_eq_getElem (h := by omega), List.getElem?_eq_getElem (h := hi)]
    · rw [List.getElem?_eq_none (by omega), List.getElem?_eq_none (by omega)]
  simp only [increment, integrate, h1, hm, h2]
  exact ⟨_, rfl, rfl, rfl, rfl⟩

/-- With the checks on, the result of the same step is clamped component by component: where the unchecked
step gives the number `x`, the checked one gives `max lower (min x upper)`. -/
theorem C23_checked_step_is_clamped (ff : List (Option F) → List (Option F) → F → (Fin 6 → Option F))
    (d d0 d1 : Dev F) (u : List (Option F)) (dt : F) (hs : d.sanity = true) (hm : d.mode ≠ .noInteg)
    (hu : NoNaN u) (hb : BoundsOk d.lowerPosition d.upperPosition)
    (h0 : increment ff { d with sanity := false } u dt = .ok d0) (h1 : increment ff d u dt = .ok d1) :
    d1.state.length = d0.state.length ∧
    ∀ (i : Nat) (x : F), d0.state[i]? = some (some x) →
      ∃ l p, d.lowerPosition[i]? = some (some l) ∧ d.upperPosition[i]? = some (some p) ∧
        d1.state[i]? = some (some (max l (min x p))) := by
  obtain ⟨e0, g0, a0, _⟩ := increment_cases h0
  obtain ⟨e1, g1, a1, _⟩ := increment_cases h1
  rw [a0, a1]
  rcases integrate_cases g0 with ⟨hn, _⟩ | ⟨_, hn, _⟩ |
    ⟨_, _, vc, v1, v2, st1, st2, k1, k2, k3, k4, rfl⟩
  · simp at hn
  · exact absurd hn hm
  rcases integrate_cases g1 with ⟨_, hn, _⟩ | ⟨_, hn, _⟩ |
    ⟨_, _, wc, w1, w2, rt1, rt2, r1, r2, r3, r4, rfl⟩
  · exact absurd hu hn
  · exact absurd hn hm
  have hvc : velocities { d with sanity := false } u dt = velocities d u dt := rfl
  rw [hvc, r1] at k1
  simp only [Outcome.ok.injEq, Prod.mk.injEq] at k1
  obtain ⟨rfl, rfl⟩ := k1
  have k3' : positions ff d.state wc dt = .ok st1 := k3
  rw [k3'] at r3
  simp only [Outcome.ok.injEq] at r3
  subst r3
  simp only [checkIf, Bool.false_eq_true, if_false, Outcome.ok.injEq] at k4
  subst k4
  rw [checkIf, if_pos hs] at r4
  refine ⟨checkBounds_length r4, ?_⟩
  intro i x hx
  have hx' : st1[i]? = some (some x) := hx
  have hlen : i < rt2.length := by
    rw [checkBounds_length r4]
    exact (List.getElem?_eq_some_iff.mp hx').1
  obtain ⟨x', l, p, q1, q2, q3, q4⟩ := checkBounds_get r4 (List.getElem?_eq_getElem hlen)
  obtain ⟨l', p', rfl, rfl, hlp⟩ := hb.2 i l p q2 q3
  rw [hx'] at q1
  simp only [Option.some.injEq] at q1
  subst q1
  refine ⟨l', p', q2, q3, ?_⟩
  show rt2[i]? = _
  rw [List.getElem?_eq_getElem hlen, q4]
  simp only [saturate, vlt, decide_eq_true_eq]
  split_ifs with c1 c2
  · rw [max_eq_left]; exact le_trans (min_le_left _ _) (le_of_lt c1)
  · rw [min_eq_right (le_of_lt c2), max_eq_right hlp]
  · rw [min_eq_left (not_lt.mp c2), max_eq_right (not_lt.mp c1)]

example : (increment stay { sample with sanity := false } [some 3] (1 / 3)).map (·.state) =
    .ok [some 0, some (3 / 2)] := by decide +kernel

example : (increment stay { sample with sanity := false, mode := .twoInteg, velocity := [some 5, some 1] } [some 4] (1 / 2)).map (fun d => (d.state, d.velocity)) =
    .ok ([some 0, some (3 / 2)], [some 5, some 3]) := by decide +kernel

example : (increment stay { (init : Dev ℚ) with sanity := false, state := nums [0, 0, 0, 0, 0, 0, 1] } (nums [0, 0, 0, 0, 0, 0, 2]) (1 / 2)).map (·.state) =
    .ok (nums [0, 0, 0, 0, 0, 0, 2]) := by decide +kernel

/-! ## C24: controls with NaN -/

/-- A control that contains a NaN does not move a checked device, whatever its mode and bounds. -/
theorem C24_nan_control_does_not_move
    (ff : List (Option F) → List (Option F) → F → (Fin 6 → Option F)) (d : Dev F)
    (u : List (Option F)) (dt : F) (hs : d.sanity = true) (hu : none ∈ u) :
    ∃ d', increment ff d u dt = .ok d' ∧ d'.state = d.state ∧ d'.velocity = d.velocity ∧
      d'.stateSOUT = d.state ∧ d'.time = d.time + 1 := by
  have h1 : (d.sanity && u.any Option.isNone) = true := by
    rw [hs, Bool.true_and, List.any_eq_true]
    exact ⟨none, hu, rfl⟩
  simp only [increment, integrate, h1, if_true]
  exact ⟨_, rfl, rfl, rfl, rfl, rfl⟩

/-- Nor does any sequence of such controls. -/
theorem C24_nan_controls_history
    (ff : List (Option F) → List (Option F) → F → (Fin 6 → Option F)) (d : Dev F)
    (us : List (List (Option F) × F)) (hs : d.sanity = true) (hu : ∀ p ∈ us, none ∈ p.1) :
    ∃ d', run ff d (us.map fun p => Cmd.increment p.1 p.2) = .ok d' ∧ d'.state = d.state ∧
      d'.velocity = d.velocity := by
  induction us generalizing d with
  | nil => exact ⟨d, rfl, rfl, rfl⟩
  | cons p us ih =>
    obtain ⟨d1, h1, e1, e2, _⟩ := C24_nan_control_does_not_move ff d p.1 p.2 hs (hu p (by simp))
    obtain ⟨_, _, _, _, _, _, e3, _⟩ := increment_cases h1
    obtain ⟨d2, h2, f1, f2⟩ := ih d1 (e3.trans hs) (fun q hq => hu q (by simp [hq]))
    refine ⟨d2, ?_, f1.trans e1, f2.trans e2⟩
    simp only [List.map_cons, run, step, h1, Outcome.bind_ok, h2]

/-- The velocity signal is not protected: in velocity mode it is the control, NaN included. -/
theorem C24_velocity_signal_is_the_control
    (ff : List (Option F) → List (Option F) → F → (Fin 6 → Option F)) (d d' : Dev F)
    (u : List (Option F)) (dt : F) (hm : d.mode = .oneInteg) (h : increment ff d u dt = .ok d') :
    d'.velocitySOUT = u := by
  obtain ⟨d1, h1, rfl⟩ := Outcome.map_eq_ok.mp h
  have := (integrate_frame h1).2.1
  simp [this, hm]

example : (increment stay sample [some 1, none] 1).map (fun d => (d.state, d.velocitySOUT)) =
    .ok ([some 0, some (1 / 2)], [some 1, none]) := by decide +kernel

/-! ## C25: settings are atomic -/

/-- Position bounds: set when both have the size of the state, refused with the device unchanged otherwise. -/
theorem C25_position_bounds (d : Dev F) (lower upper : List (Option F)) :
    (lower.length = d.state.length ∧ upper.length = d.state.length ∧
      setPositionBounds d lower upper =
        ({ d with lowerPosition := lower, upperPosition := upper }, false)) ∨
    (¬ (lower.length = d.state.length ∧ upper.length = d.state.length) ∧
      setPositionBounds d lower upper = (d, true)) := by
  unfold setPositionBounds
  split_ifs with h1 h2
  · right; exact ⟨fun h => h1 h.1, rfl⟩
  · right; exact ⟨fun h => h2 h.2, rfl⟩
  · left; exact ⟨not_not.mp h1, not_not.mp h2, rfl⟩

/-- Velocity bounds: set when both have the size of the velocity, refused with the device unchanged
otherwise. -/
theorem C25_velocity_bounds (d : Dev F) (lower upper : List (Option F)) :
    (lower.length = d.velocity.length ∧ upper.length = d.velocity.length ∧
      setVelocityBounds d lower upper =
        ({ d with lowerVelocity := lower, upperVelocity := upper }, false)) ∨
    (¬ (lower.length = d.velocity.length ∧ upper.length = d.velocity.length) ∧
      setVelocityBounds d lower upper = (d, true)) := by
  unfold setVelocityBounds
  split_ifs with h1 h2
  · right; exact ⟨fun h => h1 h.1, rfl⟩
  · right; exact ⟨fun h => h2 h.2, rfl⟩
  · left; exact ⟨not_not.mp h1, not_not.mp h2, rfl⟩

/-- Torque bounds: set when both have the size of the state, refused with the device unchanged otherwise. -/
theorem C25_torque_bounds (d : Dev F) (lower upper : List (Option F)) :
    (lower.length = d.state.length ∧ upper.length = d.state.length ∧
      setTorqueBounds d lower upper =
        ({ d with lowerTorque := lower, upperTorque := upper }, false)) ∨
    (¬ (lower.length = d.state.length ∧ upper.length = d.state.length) ∧
      setTorqueBounds d lower upper = (d, true)) := by
  unfold setTorqueBounds
  split_ifs with h1 h2
  · right; exact ⟨fun h => h1 h.1, rfl⟩
  · right; exact ⟨fun h => h2 h.2, rfl⟩
  · left; exact ⟨not_not.mp h1, not_not.mp h2, rfl⟩

/-- The bounds a mode needs are all of the size of the state. -/
def BoundsSized (d : Dev F) : Prop :=
  (d.lowerPosition.length = d.state.length ∧ d.upperPosition.length = d.state.length) ∧
  (d.mode ≠ .noInteg → d.lowerVelocity.length = d.state.length ∧ d.upperVelocity.length = d.state.length) ∧
  (d.mode = .twoInteg → d.lowerTorque.length = d.state.length ∧ d.upperTorque.length = d.state.length)

/-- Enabling the checks succeeds exactly when the bounds that the mode needs have the size of the state;
a refusal changes nothing. Disabling always succeeds. -/
theorem C25_sanity_check (d : Dev F) :
    (BoundsSized d ∧ setSanityCheck d true = ({ d with sanity := true }, false) ∨
      ¬ BoundsSized d ∧ setSanityCheck d true = (d, true)) ∧
    setSanityCheck d false = ({ d with sanity := false }, false) := by
  refine ⟨?_, rfl⟩
  have key : sanityThrows d = false ↔ BoundsSized d := by
    unfold sanityThrows BoundsSized
    cases d.mode <;> simp <;> omega
  by_cases h : BoundsSized d
  · left
    have := key.mpr h
    exact ⟨h, by simp [setSanityCheck, this]⟩
  · right
    have : sanityThrows d = true := by
      by_contra hc
      exact h (key.mp (by simpa using hc))
    exact ⟨h, by simp [setSanityCheck, this]⟩

example : setPositionBounds sample [some 0] [some 1, some 1] = (sample, true) ∧
    (setPositionBounds sample [some 0, some 0] [some 1, some 1]).2 = false ∧
    BoundsSized sample ∧ ¬ BoundsSized { sample with mode := .twoInteg } := by
  refine ⟨by decide +kernel, by decide +kernel, ?_, ?_⟩ <;> simp [BoundsSized, sample, init]

/-! ## C26: steps do not read out of range -/

/-- Velocity and all the position and velocity bounds have the size of the state. -/
def Sized (d : Dev F) : Prop :=
  d.velocity.length = d.state.length ∧
  d.lowerPosition.length = d.state.length ∧ d.upperPosition.length = d.state.length ∧
  d.lowerVelocity.length = d.state.length ∧ d.upperVelocity.length = d.state.length

/-- The controls a device of `n` degrees of freedom accepts: at most `n` values, and at least six when all
`n` are given (the first six are the free-flyer). -/
def ControlSized (n : Nat) (u : List (Option F)) : Prop :=
  u.length ≤ n ∧ (u.length = n → 6 ≤ n)

theorem updateTail_ok (f : Option F → Option F → Option F) (v x : List (Option F))
    (h : x.length ≤ v.length) : ∃ w, updateTail f v x = .ok w :=
  ⟨_, by rw [updateTail, if_pos h]⟩

theorem checkIf_ok (s : Bool) (v lo up : List (Option F)) (hl : v.length ≤ lo.length)
    (hu : v.length ≤ up.length) : ∃ w, checkIf s v lo up = .ok w := by
  unfold checkIf
  split_ifs
  · exact checkBounds_ok v lo up hl hu
  · exact ⟨_, rfl⟩

/-- With bounds set for the current size, a step reads nothing out of range, whatever the mode, the
checks and the values. -/
theorem C26_step_reads_in_range (ff : List (Option F) → List (Option F) → F → (Fin 6 → Option F))
    (d : Dev F) (u : List (Option F)) (dt : F) (hd : Sized d) (hu : ControlSized d.state.length u) :
    ∃ d', increment ff d u dt = .ok d' := by
  obtain ⟨hv, hlp, hup, hlv, huv⟩ := hd
  obtain ⟨hu1, hu2⟩ := hu
  have hint : ∃ d', integrate ff d u dt = .ok d' := by
    unfold integrate
    split
    · exact ⟨_, rfl⟩
    split
    · obtain ⟨w, hw⟩ := updateTail_ok (fun _ x => x) d.state u hu1
      exact ⟨_, by rw [hw]; rfl⟩
    · have hvel : ∃ vc v1, velocities d u dt = .ok (vc, v1) := by
        unfold velocities
        split
        · rw [if_pos (by omega)]
          obtain ⟨w, hw⟩ := updateTail_ok (fun v a => vadd v (vmul dt a)) d.velocity u (by omega)
          exact ⟨_, _, by rw [hw]; rfl⟩
        · exact ⟨_, _, rfl⟩
      obtain ⟨vc, v1, hvc⟩ := hvel
      obtain ⟨hl1, hl2⟩ := velocities_length hvc
      obtain ⟨v2, hv2⟩ := checkIf_ok d.sanity v1 d.lowerVelocity d.upperVelocity (by omega) (by omega)
      have hpos : ∃ st, positions ff d.state vc dt = .ok st := by
        unfold positions
        split_ifs with c1 c2
        · omega
        · apply updateTail_ok
          simp only [List.length_drop, List.length_append, List.length_ofFn]
          omega
        · apply updateTail_ok
          omega
      obtain ⟨st, hst⟩ := hpos
      have hl3 := positions_length hst
      obtain ⟨st2, hst2⟩ := checkIf_ok d.sanity st d.lowerPosition d.upperPosition (by omega) (by omega)
      refine ⟨{ d with velocity := v2, state := st2 }, ?_⟩
      rw [hvc]
      simp only [Outcome.bind_ok, hv2, hst, hst2, Outcome.map_ok]
  obtain ⟨d', hd'⟩ := hint
  exact ⟨_, by rw [increment, hd']; rfl⟩

/-- The commands of a running device of `n` degrees of freedom: everything except a change of size.
States and velocities of another size are excluded, bounds and modes are arbitrary. -/
def Regular (n : Nat) : Cmd F → Prop
  | .setStateSize m => m = n
  | .setState st => st.length = n
  | .setVelocity v => v.length = n
  | .increment u _ => ControlSized n u
  | _ => True

/-- Over every history of such commands, from a device whose bounds have been set for its size, no step
reads out of range. Missing: histories that change the size of the state after the bounds were set, for
which the claim is false (see the counterexamples). -/
theorem C26_history_partial (ff : List (Option F) → List (Option F) → F → (Fin 6 → Option F))
    (d : Dev F) (cs : List (Cmd F)) (hd : Sized d) (hcs : ∀ c ∈ cs, Regular d.state.length c) :
    ∃ d', run ff d cs = .ok d' ∧ Sized d' ∧ d'.state.length = d.state.length := by
  induction cs generalizing d with
  | nil => exact ⟨d, rfl, hd, rfl⟩
  | cons c cs ih =>
    have hc := hcs c (by simp)
    have hstep : ∃ d1, step ff d c = .ok d1 ∧ Sized d1 ∧ d1.state.length = d.state.length := by
      obtain ⟨hv, hlp, hup, hlv, huv⟩ := hd
      cases c with
      | setStateSize n =>
        simp only [Regular] at hc
        exact ⟨_, rfl, by simp [Sized, setStateSize, zeros]; omega, by simp [setStateSize, zeros, hc]⟩
      | setState st =>
        simp only [Regular] at hc
        refine ⟨_, rfl, ?_⟩
        simp only [setState]
        split_ifs
        · exact ⟨⟨hv, hlp, hup, hlv, huv⟩, rfl⟩
        · simp only [Sized]; omega
      | setVelocity v =>
        simp only [Regular] at hc
        exact ⟨_, rfl, by simp only [Sized, setVelocity]; omega, rfl⟩
      | setSecondOrderIntegration =>
        exact ⟨_, rfl, by simp [Sized, setSecondOrderIntegration, zeros]; omega, rfl⟩
      | setNoIntegration =>
        exact ⟨_, rfl, by simp [Sized, setNoIntegration, zeros]; omega, rfl⟩
      | setControlInputType s =>
        refine ⟨_, rfl, ?_⟩
        simp only [setControlInputType]
        split_ifs <;> exact ⟨⟨hv, hlp, hup, hlv, huv⟩, rfl⟩
      | setSanityCheck b =>
        refine ⟨_, rfl, ?_⟩
        simp only [setSanityCheck]
        split_ifs <;> exact ⟨⟨hv, hlp, hup, hlv, huv⟩, rfl⟩
      | setPositionBounds l u =>
        refine ⟨_, rfl, ?_⟩
        rcases C25_position_bounds d l u with ⟨a, b, e⟩ | ⟨_, e⟩
        · rw [e]
          refine ⟨⟨hv, ?_, ?_, ?_, ?_⟩, rfl⟩ <;> simp only <;> omega
        · rw [e]
          exact ⟨⟨hv, hlp, hup, hlv, huv⟩, rfl⟩
      | setVelocityBounds l u =>
        refine ⟨_, rfl, ?_⟩
        rcases C25_velocity_bounds d l u with ⟨a, b, e⟩ | ⟨_, e⟩
        · rw [e]
          refine ⟨⟨hv, ?_, ?_, ?_, ?_⟩, rfl⟩ <;> simp only <;> omega
        · rw [e]
          exact ⟨⟨hv, hlp, hup, hlv, huv⟩, rfl⟩
      | setTorqueBounds l u =>
        refine ⟨_, rfl, ?_⟩
        simp only [setTorqueBounds]
        split_ifs <;> exact ⟨⟨hv, hlp, hup, hlv, huv⟩, rfl⟩
      | increment u dt =>
        obtain ⟨d1, h1⟩ := C26_step_reads_in_range ff d u dt ⟨hv, hlp, hup, hlv, huv⟩ hc
        obtain ⟨d2, g1, e1, e2, _, _, _, _, e5, e6, e7, e8, _⟩ := increment_cases h1
        obtain ⟨l1, l2⟩ := integrate_length g1
        refine ⟨d1, h1, ?_, by rw [e1, l1]⟩
        simp only [Sized, e1, e2, e5, e6, e7, e8]
        omega
    obtain ⟨d1, h1, hs1, hl1⟩ := hstep
    obtain ⟨d2, h2, hs2, hl2⟩ := ih d1 hs1 (fun c' hc' => by rw [hl1]; exact hcs c' (by simp [hc']))
    exact ⟨d2, by simp only [run, h1, Outcome.bind_ok, h2], hs2, hl2.trans hl1⟩

/-- Choosing the size, then both bounds with vectors of that size, puts a new device in such a state. -/
theorem C26_setup (ff : List (Option F) → List (Option F) → F → (Fin 6 → Option F)) (n : Nat)
    (lp up lv uv : List (Option F)) (h1 : lp.length = n) (h2 : up.length = n) (h3 : lv.length = n)
    (h4 : uv.length = n) :
    ∃ d, run ff init [.setStateSize n, .setPositionBounds lp up, .setVelocityBounds lv uv] = .ok d ∧
      Sized d ∧ d.state.length = n ∧ d.sanity = true := by
  refine ⟨_, rfl, ?_⟩
  simp [setPositionBounds, setVelocityBounds, setStateSize, zeros, h1, h2, h3, h4, Sized, init]

/-- A new device has the checks on and no bounds: its first step with a normal control is out of range. -/
theorem C26_new_device_counterexample
    (ff : List (Option F) → List (Option F) → F → (Fin 6 → Option F)) (u : List (Option F)) (dt : F)
    (hu : NoNaN u) : increment ff init u dt = .ub := by
  have : u.any Option.isNone = false := any_isNone_eq_false.mpr hu
  simp [increment, integrate, this, init, velocities, checkIf, checkBounds, zeros, List.replicate]

/-- A device whose size is increased after its bounds were set reads past the bounds, although every
command was accepted. -/
theorem C26_resize_counterexample
    (ff : List (Option F) → List (Option F) → F → (Fin 6 → Option F)) (u : List (Option F)) (dt : F)
    (hu : NoNaN u) (b : Option F) :
    run ff init [.setStateSize 1, .setPositionBounds [b] [b], .setVelocityBounds [b] [b],
      .setSanityCheck true, .setStateSize 2, .increment u dt] = .ub := by
  have : u.any Option.isNone = false := any_isNone_eq_false.mpr hu
  simp [run, step, increment, integrate, this, init, velocities, checkIf, checkBounds, zeros,
    List.replicate, setStateSize, setPositionBounds, setVelocityBounds, setSanityCheck, sanityThrows]

example : Sized sample ∧ ControlSized 2 [some (1 : ℚ)] ∧
    (∀ c ∈ [Cmd.setControlInputType "twoInteg", .increment [some (1 : ℚ)] 1, .setState [some 3, none],
      .increment [none] 1, .setPositionBounds [some 0, some 0] [some 1, some 1]],
      Regular sample.state.length c) := by
  refine ⟨by simp [Sized, sample], by simp [ControlSized], ?_⟩
  simp [Regular, ControlSized, sample]

/-! ## C64: velocity and position commands are limited -/

/-- After a checked step in acceleration mode, the velocity of the device is within the velocity bounds.
Missing: the same for the velocity control itself and for position control, where it is false. -/
theorem C64_acceleration_mode_partial
    (ff : List (Option F) → List (Option F) → F → (Fin 6 → Option F)) (d d' : Dev F)
    (u : List (Option F)) (dt : F) (hs : d.sanity = true) (hm : d.mode = .twoInteg) (hu : NoNaN u)
    (hb : BoundsOk d.lowerVelocity d.upperVelocity) (h : increment ff d u dt = .ok d') :
    Within d.lowerVelocity d.upperVelocity d'.velocity ∧ d'.velocitySOUT = d'.velocity := by
  obtain ⟨d1, h1, rfl⟩ := Outcome.map_eq_ok.mp h
  have hm1 := (integrate_frame h1).2.1
  refine ⟨?_, by simp [hm1, hm]⟩
  rcases integrate_cases h1 with ⟨_, hn, _⟩ | ⟨_, hn, _⟩ |
    ⟨_, _, vc, v1, v2, st1, st2, _, h2, _, _, rfl⟩
  · exact absurd hu hn
  · rw [hm] at hn; exact absurd hn (by decide)
  · rw [checkIf, if_pos hs] at h2
    exact checkBounds_within hb h2

/-- The same device with wider position bounds. -/
def wide : Dev ℚ :=
  { sample with
    state := [some 0, some 0]
    lowerPosition := [some (-9), some (-9)]
    upperPosition := [some 9, some 9] }

/-- In velocity mode the velocity bounds do not limit the control: the same step is done whatever the
bounds, as long as the stored velocity is within them. Here a velocity of 5 is applied although the bounds
are [-2, 2]. -/
theorem C64_velocity_mode_counterexample :
    (increment stay wide [some 5] 1).map (fun d => (d.state, d.velocitySOUT)) =
      .ok ([some 0, some 5], [some 5]) := by decide +kernel

/-- In acceleration mode the position moves with the velocity before it is limited: by 11/2 in one second
although the velocity bounds are [-2, 2]. -/
theorem C64_acceleration_mode_position_counterexample :
    (increment stay { wide with mode := .twoInteg } [some 11] 1).map (fun d => (d.state, d.velocity)) =
      .ok ([some 0, some (11 / 2)], [some 0, some 2]) := by decide +kernel

/-- In position mode the position bounds are not applied: for every bounds, the state is the control. -/
theorem C64_position_mode_counterexample
    (ff : List (Option F) → List (Option F) → F → (Fin 6 → Option F)) (d : Dev F) (q u : List F) (dt : F)
    (hs : d.sanity = true) (hm : d.mode = .noInteg) (hst : d.state = nums q) (hl : q.length = u.length) :
    ∃ d', increment ff d (nums u) dt = .ok d' ∧ d'.state = nums u ∧ d'.sanity = true := by
  obtain ⟨d', h, e, _⟩ := C23_position_mode ff d [] q u dt hm (by simpa using hst) hl
  obtain ⟨_, _, _, _, _, _, e3, _⟩ := increment_cases h
  exact ⟨d', h, by simpa using e, e3.trans hs⟩

/-! ## C65: setting the root -/

/-- Setting the root pose is always out of range: there is no device and no pose for which it succeeds. -/
theorem C65_set_root_counterexample (d : Dev F) (t r : Fin 3 → Option F) : setRoot d t r = .ub := by
  simp [setRoot, write]

end Verif.Device
