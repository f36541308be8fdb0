import Verif.Rounding.Device
import Verif.Limits.Props
import Mathlib.Tactic.NormNum

/-!
# C130: the joint limitator in front of the device, whatever the rounding
-/

namespace Verif.Rounding

open Verif.Device Verif.Loop

section AnyNumbers

variable {F : Type} [Zero F] [One F] [OfNat F 2] [OfNat F 5] [OfNat F 1000] [Add F] [Mul F] [Div F] [LinearOrder F]

/-- The robot runs with the limitator: at each period the signal `controlIN` of the limitator has the next value of the list, its signal
`joint` is plugged on the state of the device, and its output on the control of the device
(src/tools/joint-limitator.cpp:57-85, src/tools/device.cpp:414-476). -/
inductive Limited (ff : List (Option F) → List (Option F) → F → (Fin 6 → Option F)) (up lo : List F) (dt : F) :
    Dev F → List (List F) → Dev F → Prop
  | nil (d : Dev F) : Limited ff up lo dt d [] d
  | cons {d d1 d' : Dev F} {q u c : List F} {us : List (List F)} (hq : d.stateSOUT = nums q)
      (hc : Limits.computeControl q up lo u = .ok c) (h1 : increment ff d (nums c) dt = .ok d1) (h : Limited ff up lo dt d1 us d') :
      Limited ff up lo dt d (u :: us) d'

/-- The joint number `i` is strictly between the limits. -/
def Inside (up lo : List F) (d : Dev F) (i : Nat) : Prop :=
  ∃ x l p, d.state[i]? = some (some x) ∧ lo[i]? = some l ∧ up[i]? = some p ∧ l < x ∧ x < p

/-- What the limitator and the device keep. -/
structure Ready (up lo : List F) (m n : Nat) (d : Dev F) : Prop where
  mode : d.mode = .oneInteg
  usable : d.sanity = false ∨ (Sized d ∧ BoundsOk d.lowerPosition d.upperPosition)
  wide : d.sanity = true → ∀ (i : Nat) (l p a b : F), lo[i]? = some l → up[i]? = some p → d.lowerPosition[i]? = some (some a) →
    d.upperPosition[i]? = some (some b) → a ≤ l ∧ p ≤ b
  numbers : ∃ q, d.state = nums q ∧ q.length = n
  out : d.stateSOUT = d.state
  inside : ∀ i, 6 ≤ i → n - m ≤ i → i < n → Inside up lo d i

theorem Ready.step {ff : List (Option F) → List (Option F) → F → (Fin 6 → Option F)} {up lo : List F} {m n : Nat} {d : Dev F} {dt : F}
    (hr : Ready up lo m n d) (hdt : dt = 5 / 1000) (comm : ∀ a b : F, a * b = b * a) (zero : ∀ x a : F, x + a * 0 = x)
    (hup : up.length = n) (hlo : lo.length = n) (hm : m < n) {u : List F} (hu : u.length = m) :
    ∃ q c d1, d.stateSOUT = nums q ∧ Limits.computeControl q up lo u = .ok c ∧ increment ff d (nums c) dt = .ok d1 ∧
      Ready up lo m n d1 := by
  obtain ⟨q, hq, rfl⟩ := hr.numbers
  obtain ⟨c, hc, hcl, hcc⟩ := Limits.C38_limited_control q up lo u (by omega) hup hlo
  obtain ⟨d1, q', a1, a2, a3, a4, ⟨s1, s2, s3, s4, -⟩, a6, -, a8⟩ := device_step ff d q c dt hr.mode hq (by omega) (by omega) (by omega) hr.usable
  refine ⟨q, c, d1, by rw [hr.out, hq], hc, a1, by rw [s2, hr.mode], a6, ?_, ⟨q', a2, a4⟩, by rw [a3, a2], ?_⟩
  · intro hs
    rw [s3, s4]
    exact hr.wide (by rw [← s1, hs])
  · intro i h6 hi hn
    obtain ⟨x, l, p, k1, k2, k3, k4, k5⟩ := hr.inside i h6 hi hn
    rw [hq, nums_get] at k1
    have hx : q[i]? = some x := by simpa using k1
    obtain ⟨j, rfl⟩ : ∃ j, i = q.length - m + j := ⟨i - (q.length - m), by omega⟩
    have hj : j < u.length := by omega
    subst hu
    have hcj := hcc j u[j] x p l (List.getElem?_eq_getElem hj) hx k3 k2
    rw [← hcl] at hx k2 k3 ⊢
    obtain ⟨y, hy, ky⟩ := a8 j x _ (by omega) hx hcj
    have key : l < x + dt * (if q.length - u.length + j < 6 ∨ (l < x + u[j] * (5 / 1000) ∧ x + u[j] * (5 / 1000) < p) then u[j] else 0) ∧
        x + dt * (if q.length - u.length + j < 6 ∨ (l < x + u[j] * (5 / 1000) ∧ x + u[j] * (5 / 1000) < p) then u[j] else 0) < p := by
      split_ifs with hif
      · rw [hdt, comm]
        exact hif.resolve_left (by omega)
      · rw [zero]
        exact ⟨k4, k5⟩
    refine ⟨y, l, p, by rw [a2, nums_get, hy]; rfl, k2, k3, ?_⟩
    rcases ky with ⟨-, rfl⟩ | ⟨hs, a, b, ha, hb, rfl⟩
    · exact key
    · obtain ⟨w1, w2⟩ := hr.wide hs _ l p a b k2 k3 ha hb
      rw [min_eq_left (key.2.le.trans w2), max_eq_right (w1.trans key.1.le)]
      exact key

/-- **The robot with the limitator never leaves the limits.** The limitator in front of a device driven in velocity at the period of
5 ms, by controls of `m` numbers, fewer than the `n` positions: from positions strictly inside the limits, and whatever the controls asked,
the robot runs and every joint beyond the six of the free-flyer stays strictly inside. Nothing is asked of the arithmetic but that products
commute and that adding zero changes nothing. The bounds that the device checks, if it does, must be no tighter than the limits. -/
theorem C130_inside (ff : List (Option F) → List (Option F) → F → (Fin 6 → Option F)) (up lo : List F) (m n : Nat) (d : Dev F) (dt : F)
    (hdt : dt = 5 / 1000) (comm : ∀ a b : F, a * b = b * a) (zero : ∀ x a : F, x + a * 0 = x)
    (hup : up.length = n) (hlo : lo.length = n) (hm : m < n) (us : List (List F)) (hu : ∀ u ∈ us, u.length = m) (hr : Ready up lo m n d) :
    (∃ d', Limited ff up lo dt d us d') ∧ ∀ d', Limited ff up lo dt d us d' → ∀ i, 6 ≤ i → n - m ≤ i → i < n → Inside up lo d' i := by
  induction us generalizing d with
  | nil =>
    refine ⟨⟨d, .nil d⟩, ?_⟩
    rintro d' ⟨⟩
    exact hr.inside
  | cons u us ih =>
    obtain ⟨q, c, d1, h1, h2, h3, h4⟩ := hr.step (ff := ff) hdt comm zero hup hlo hm (hu u (by simp))
    obtain ⟨⟨d', i1⟩, i2⟩ := ih d1 (fun w hw => hu w (by simp [hw])) h4
    refine ⟨⟨d', .cons h1 h2 h3 i1⟩, ?_⟩
    intro d'' h
    cases h with
    | cons g1 g2 g3 g4 =>
      rename_i e1 q' c'
      rw [h1] at g1
      have : q = q' := List.map_injective_iff.mpr (Option.some_injective _) g1
      subst this
      rw [h2] at g2
      cases g2
      rw [h3] at g3
      cases g3
      exact i2 d'' g4

end AnyNumbers

/-- The same with rounded numbers. -/
theorem C130_rounded {r : Rounding} (ff : List (Option (Fl r)) → List (Option (Fl r)) → Fl r → (Fin 6 → Option (Fl r)))
    (up lo : List (Fl r)) (m n : Nat) (d : Dev (Fl r)) (hup : up.length = n) (hlo : lo.length = n) (hm : m < n)
    (us : List (List (Fl r))) (hu : ∀ u ∈ us, u.length = m) (hr : Ready up lo m n d) :
    (∃ d', Limited ff up lo (5 / 1000) d us d') ∧
      ∀ d', Limited ff up lo (5 / 1000) d us d' → ∀ i, 6 ≤ i → n - m ≤ i → i < n → Inside up lo d' i :=
  C130_inside ff up lo m n d _ rfl (fun a b => by rw [← Fl.val_inj, Fl.val_mul, Fl.val_mul, mul_comm])
    (fun x a => by rw [← Fl.val_inj]; simp [r.zero]) hup hlo hm us hu hr

/-- A device with six positions of the free-flyer and one joint. -/
def one (x : ℚ) : Dev ℚ :=
  { (init : Dev ℚ) with
    sanity := false
    state := nums [0, 0, 0, 0, 0, 0, x]
    stateSOUT := nums [0, 0, 0, 0, 0, 0, x] }

/-- The limitator supposes the period of 5 ms: with a period of 10 ms a joint leaves the limits, in one period. -/
theorem C130_period_counterexample : Ready [0, 0, 0, 0, 0, 0, 1] [0, 0, 0, 0, 0, 0, -1] 1 7 (one 0) ∧
    ∃ d', Limited (fun _ _ _ _ => none) [0, 0, 0, 0, 0, 0, 1] [0, 0, 0, 0, 0, 0, -1] (1 / 100 : ℚ) (one 0) [[150]] d' ∧
      d'.state = nums [0, 0, 0, 0, 0, 0, 3 / 2] := by
  refine ⟨⟨rfl, .inl rfl, (fun h => by cases h), ⟨_, rfl, rfl⟩, rfl, ?_⟩, ?_⟩
  · intro i h6 _ h7
    obtain rfl : i = 6 := by omega
    exact ⟨0, -1, 1, rfl, rfl, rfl, by norm_num, by norm_num⟩
  · obtain ⟨d', h1, h2⟩ : ∃ d', increment (fun _ _ _ _ => none) (one 0) (nums [150]) (1 / 100) = .ok d' ∧
        d'.state = nums [0, 0, 0, 0, 0, 0, 3 / 2] := ⟨_, rfl, by decide +kernel⟩
    exact ⟨d', .cons (q := [0, 0, 0, 0, 0, 0, 0]) (c := [150]) rfl (by decide +kernel) h1 (.nil _), h2⟩

/-- A control that is stopped and one that is not, at the period of 5 ms. -/
example : Ready [0, 0, 0, 0, 0, 0, 1] [0, 0, 0, 0, 0, 0, -1] 1 7 (one 0) ∧
    ∃ d', Limited (fun _ _ _ _ => none) [0, 0, 0, 0, 0, 0, 1] [0, 0, 0, 0, 0, 0, -1] (5 / 1000 : ℚ) (one 0) [[150], [60], [40]] d' ∧
      d'.state = nums [0, 0, 0, 0, 0, 0, 19 / 20] := by
  refine ⟨C130_period_counterexample.1, ?_⟩
  obtain ⟨d1, h1, k1⟩ : ∃ d', increment (fun _ _ _ _ => none) (one 0) (nums [150]) (5 / 1000) = .ok d' ∧
      d' = { one (3 / 4) with time := 1, velocitySOUT := nums [150] } := ⟨_, rfl, by decide +kernel⟩
  subst k1
  obtain ⟨d2, h2, k2⟩ : ∃ d', increment (fun _ _ _ _ => none) { one (3 / 4) with time := 1, velocitySOUT := nums [150] } (nums [0]) (5 / 1000) = .ok d' ∧
      d' = { one (3 / 4) with time := 2, velocitySOUT := nums [0] } := ⟨_, rfl, by decide +kernel⟩
  subst k2
  obtain ⟨d3, h3, k3⟩ : ∃ d', increment (fun _ _ _ _ => none) { one (3 / 4) with time := 2, velocitySOUT := nums [0] } (nums [40]) (5 / 1000) = .ok d' ∧
      d'.state = nums [0, 0, 0, 0, 0, 0, 19 / 20] := ⟨_, rfl, by decide +kernel⟩
  exact ⟨d3, .cons (q := [0, 0, 0, 0, 0, 0, 0]) (c := [150]) rfl (by decide +kernel) h1
    (.cons (q := [0, 0, 0, 0, 0, 0, 3 / 4]) (c := [0]) rfl (by decide +kernel) h2
      (.cons (q := [0, 0, 0, 0, 0, 0, 3 / 4]) (c := [40]) rfl (by decide +kernel) h3 (.nil _))), k3⟩

end Verif.Rounding
