import Verif.Device.Props
import Verif.Loop.Model

/-!
# A step of the device with numbers
-/

namespace Verif.Loop

open Verif.Device

variable {F : Type} [Zero F] [One F] [OfNat F 2] [Add F] [Mul F] [Div F] [LinearOrder F]

/-- The device can be followed: no checks, or bounds of the right sizes, made of numbers in order. -/
def Usable (d : Dev F) : Prop := d.sanity = false ∨ (Sized d ∧ BoundsOk d.lowerPosition d.upperPosition)

/-- What the device makes of the number `x` for the position `i`: the number itself without checks, the nearest
number between the bounds with them. -/
def Kept (d : Dev F) (i : Nat) (x y : F) : Prop :=
  (d.sanity = false ∧ y = x) ∨
  (d.sanity = true ∧ ∃ l p, d.lowerPosition[i]? = some (some l) ∧ d.upperPosition[i]? = some (some p) ∧
    y = max l (min x p))

/-- The settings of the device are the same. -/
def SameSettings (d d' : Dev F) : Prop :=
  d'.sanity = d.sanity ∧ d'.mode = d.mode ∧ d'.lowerPosition = d.lowerPosition ∧
    d'.upperPosition = d.upperPosition ∧ d'.lowerVelocity = d.lowerVelocity ∧ d'.upperVelocity = d.upperVelocity

theorem SameSettings.refl (d : Dev F) : SameSettings d d := ⟨rfl, rfl, rfl, rfl, rfl, rfl⟩

theorem SameSettings.trans {a b c : Dev F} (h : SameSettings a b) (k : SameSettings b c) : SameSettings a c := by
  obtain ⟨h1, h2, h3, h4, h5, h6⟩ := h
  obtain ⟨k1, k2, k3, k4, k5, k6⟩ := k
  exact ⟨k1.trans h1, k2.trans h2, k3.trans h3, k4.trans h4, k5.trans h5, k6.trans h6⟩

theorem Kept.settings {a b : Dev F} (h : SameSettings a b) {i : Nat} {x y : F} (k : Kept b i x y) : Kept a i x y := by
  obtain ⟨h1, -, h3, h4, -, -⟩ := h
  unfold Kept at *
  rw [h1, h3, h4] at k
  exact k

theorem nums_get (l : List F) (i : Nat) : (nums l)[i]? = (l[i]?).map some := by simp [nums]

theorem exists_nums {w : List (Option F)} (h : ∀ i, i < w.length → ∃ x, w[i]? = some (some x)) : ∃ l, w = nums l := by
  induction w with
  | nil => exact ⟨[], rfl⟩
  | cons a w ih =>
    obtain ⟨x, hx⟩ := h 0 (by simp)
    obtain ⟨l, hl⟩ := ih (fun i hi => by simpa using h (i + 1) (by simpa using hi))
    simp only [List.getElem?_cons_zero, Option.some.injEq] at hx
    exact ⟨x :: l, by rw [hx, hl]; rfl⟩

theorem nums_inj {a b : List F} (h : nums a = nums b) : a = b :=
  List.map_injective_iff.mpr (Option.some_injective _) h

/-- Without checks. -/
theorem unchecked_step (ff : List (Option F) → List (Option F) → F → (Fin 6 → Option F)) (d : Dev F) (q u : List F) (dt : F)
    (hm : d.mode = .oneInteg) (hst : d.state = nums q) (hl : u.length ≤ q.length) (h6 : u.length = q.length → 6 ≤ q.length)
    (hff : u.length = q.length → ∀ i, ff d.state (nums u) dt i ≠ none) (hs : d.sanity = false) :
    ∃ d' q', increment ff d (nums u) dt = .ok d' ∧ d'.state = nums q' ∧ q'.length = q.length ∧
      (∀ i, i < q.length - u.length → q'[i]? = q[i]?) ∧
      ∀ j x v, (u.length = q.length → 6 ≤ j) → q[q.length - u.length + j]? = some x → u[j]? = some v →
        q'[q.length - u.length + j]? = some (x + dt * v) := by
  by_cases he : u.length = q.length
  · have h6' := h6 he
    have hq : q = q.take 6 ++ q.drop 6 := (List.take_append_drop 6 q).symm
    have hu : u = u.take 6 ++ u.drop 6 := (List.take_append_drop 6 u).symm
    obtain ⟨d', h1, h2, -⟩ := C23_velocity_mode_free_flyer ff d (q.take 6) (q.drop 6) (u.take 6) (u.drop 6) dt hs hm
      (by rw [hst, ← hq]) (by simp [he]) (by simp; omega) (by simp; omega)
    rw [← hu] at h1 h2
    obtain ⟨b, hb⟩ : ∃ b, List.ofFn (ff d.state (nums u) dt) = nums b := by
      apply exists_nums
      intro i hi
      have hi' : i < 6 := by simpa using hi
      obtain ⟨x, hx⟩ := Option.ne_none_iff_exists'.mp (hff he ⟨i, hi'⟩)
      exact ⟨x, by rw [List.getElem?_ofFn, dif_pos hi', hx]⟩
    have hbl : b.length = 6 := by
      have := congrArg List.length hb
      simpa [nums] using this.symm
    refine ⟨d', b ++ List.zipWith (fun x v => x + dt * v) (q.drop 6) (u.drop 6), h1, ?_, ?_, ?_, ?_⟩
    · rw [h2, hb]; simp [nums]
    · simp [hbl]; omega
    · intro i hi; omega
    · intro j x v hj hx hv
      have hj' := hj he
      rw [show q.length - u.length + j = j by omega] at hx ⊢
      rw [List.getElem?_append_right (by omega), List.getElem?_zipWith, hbl, List.getElem?_drop, List.getElem?_drop,
        show 6 + (j - 6) = j by omega, hx, hv]
  · set k := q.length - u.length with hk
    have hq : q = q.take k ++ q.drop k := (List.take_append_drop k q).symm
    have hkl : (q.take k).length = k := by simp; omega
    obtain ⟨d', h1, h2, -⟩ := C23_velocity_mode ff d (q.take k) (q.drop k) u dt hs hm
      (by rw [hst, ← hq]) (by simp; omega) (by intro h; rw [h] at hkl; simp at hkl; omega)
    refine ⟨d', q.take k ++ List.zipWith (fun x v => x + dt * v) (q.drop k) u, h1, h2, ?_, ?_, ?_⟩
    · simp; omega
    · intro i hi
      rw [List.getElem?_append_left (by omega), List.getElem?_take_of_lt hi]
    · intro j x v _ hx hv
      rw [List.getElem?_append_right (by omega), hkl, show k + j - k = j by omega, List.getElem?_zipWith, List.getElem?_drop,
        hx, hv]

/-- A step of the device with numbers: the positions advance by the control times the period, within the bounds when there
are checks. -/
theorem device_step (ff : List (Option F) → List (Option F) → F → (Fin 6 → Option F)) (d : Dev F) (q u : List F) (dt : F)
    (hm : d.mode = .oneInteg) (hst : d.state = nums q) (hl : u.length ≤ q.length) (h6 : u.length = q.length → 6 ≤ q.length)
    (hff : u.length = q.length → ∀ i, ff d.state (nums u) dt i ≠ none) (hs : Usable d) :
    ∃ d' q', increment ff d (nums u) dt = .ok d' ∧ d'.state = nums q' ∧ d'.stateSOUT = nums q' ∧ q'.length = q.length ∧
      SameSettings d d' ∧ Usable d' ∧
      (∀ i x, i < q.length - u.length → q[i]? = some x → ∃ y, q'[i]? = some y ∧ Kept d i x y) ∧
      ∀ j x v, (u.length = q.length → 6 ≤ j) → q[q.length - u.length + j]? = some x → u[j]? = some v →
        ∃ y, q'[q.length - u.length + j]? = some y ∧ Kept d (q.length - u.length + j) (x + dt * v) y := by
  have frame : ∀ d', increment ff d (nums u) dt = .ok d' → d'.state.length = q.length → d'.stateSOUT = d'.state ∧ SameSettings d d' ∧ Usable d' := by
    intro d' h hlen
    obtain ⟨d1, g1, g2, g3, g4, -, g6, g7, g8, g9, g10, g11, -⟩ := increment_cases h
    have hv := (integrate_length g1).2
    refine ⟨by rw [g4, g2], ⟨g6, g7, g8, g9, g10, g11⟩, ?_⟩
    rcases hs with hs | ⟨⟨a1, a2, a3, a4, a5⟩, hb⟩
    · exact .inl (by rw [g6, hs])
    · have hd : d.state.length = q.length := by rw [hst]; simp [nums]
      refine .inr ⟨⟨?_, ?_, ?_, ?_, ?_⟩, by rw [g8, g9]; exact hb⟩
      · rw [g3, hv, a1, hd, hlen]
      · rw [g8, a2, hd, hlen]
      · rw [g9, a3, hd, hlen]
      · rw [g10, a4, hd, hlen]
      · rw [g11, a5, hd, hlen]
  obtain ⟨d0, q0, k1, k2, k3, k4, k5⟩ := unchecked_step ff { d with sanity := false } q u dt hm hst hl h6 hff rfl
  cases hsan : d.sanity with
  | false =>
    have hd : { d with sanity := false } = d := by rw [← hsan]
    rw [hd] at k1
    obtain ⟨f1, f2, f3⟩ := frame d0 k1 (by rw [k2]; simpa [nums] using k3)
    refine ⟨d0, q0, k1, k2, by rw [f1, k2], k3, f2, f3, ?_, ?_⟩
    · intro i x hi hx
      exact ⟨x, by rw [k4 i hi, hx], .inl ⟨hsan, rfl⟩⟩
    · intro j x v hj hx hv
      exact ⟨_, k5 j x v hj hx hv, .inl ⟨hsan, rfl⟩⟩
  | true =>
    rcases hs with hs | ⟨hsz, hb⟩
    · rw [hs] at hsan; cases hsan
    have hdl : d.state.length = q.length := by rw [hst]; simp [nums]
    obtain ⟨d', h1⟩ := C26_step_reads_in_range ff d (nums u) dt hsz ⟨by simp [hdl, nums]; exact hl, by
      intro h; rw [hdl] at h ⊢; exact h6 (by simpa [nums] using h)⟩
    obtain ⟨c1, c2⟩ := C23_checked_step_is_clamped ff d d0 d' (nums u) dt hsan (by rw [hm]; decide) (nums_noNaN u) hb k1 h1
    have hlen : d'.state.length = q.length := by rw [c1, k2]; simpa [nums] using k3
    obtain ⟨q', hq'⟩ : ∃ q', d'.state = nums q' := by
      apply exists_nums
      intro i hi
      have hi0 : i < q0.length := by omega
      obtain ⟨l, p, -, -, h⟩ := c2 i q0[i] (by rw [k2, nums_get, List.getElem?_eq_getElem hi0]; rfl)
      exact ⟨_, h⟩
    obtain ⟨f1, f2, f3⟩ := frame d' h1 hlen
    have key : ∀ (i : Nat) (x : F), q0[i]? = some x → ∃ y, q'[i]? = some y ∧ Kept d i x y := by
      intro i x hx
      obtain ⟨l, p, hl1, hp1, h⟩ := c2 i x (by rw [k2, nums_get, hx]; rfl)
      rw [hq', nums_get] at h
      cases hy : q'[i]? with
      | none => rw [hy] at h; simp at h
      | some y =>
        rw [hy] at h
        simp only [Option.map_some, Option.some.injEq] at h
        exact ⟨y, rfl, .inr ⟨hsan, l, p, hl1, hp1, h⟩⟩
    refine ⟨d', q', h1, hq', by rw [f1, hq'], by rw [hq'] at hlen; simpa [nums] using hlen, f2, f3, ?_, ?_⟩
    · intro i x hi hx
      exact key i x (by rw [k4 i hi, hx])
    · intro j x v hj hx hv
      exact key _ _ (k5 j x v hj hx hv)

end Verif.Loop
