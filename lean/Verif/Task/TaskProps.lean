import Verif.Task.Model
import Mathlib.Tactic.Ring
import Mathlib.Tactic.Linarith
import Mathlib.Tactic.FieldSimp
import Mathlib.Algebra.Order.Field.Basic
import Mathlib.Algebra.Order.Ring.Rat

/-!
# Properties of the task velocity: proportional (C16), PD (C17) and unilateral (C18)
-/

namespace Verif.Task

open Verif.MultiBound

variable {R : Type}

/-! ## Specification -/

/-- `t` is a list of single bounds with the values `v`. -/
def Singles [Ring R] (t : List (MultiBound R)) (v : List R) : Prop :=
  t.length = v.length ∧
    ∀ i (h : i < t.length) (h' : i < v.length),
      getMode t[i] = .single ∧ getSingleBound t[i] = .ok v[i]

theorem singles_map [Ring R] (v : List R) : Singles (v.map fun x => ofSingle 0 x) v := by
  refine ⟨by simp, ?_⟩
  intro i h h'
  simp [ofSingle, getMode, getSingleBound]

/-! ## Loops -/

theorem dotLoop_ok (fs : List (List R)) (buf : List (Option R)) (cursor : Nat)
    (h : cursor + fs.flatten.length ≤ buf.length) :
    dotLoop fs buf cursor = .ok (buf.take cursor ++ fs.flatten.map some ++
      buf.drop (cursor + fs.flatten.length)) := by
  induction fs generalizing buf cursor with
  | nil => simp [dotLoop]
  | cons f fs ih =>
    simp only [List.flatten_cons, List.length_append] at h
    have hl : (buf.take cursor ++ f.map some ++ buf.drop (cursor + f.length)).length = buf.length := by
      simp only [List.length_append, List.length_take, List.length_map, List.length_drop]; omega
    rw [dotLoop, if_pos (by omega), ih _ _ (by omega)]
    congr 1
    have e1 : (buf.take cursor ++ f.map some).length = cursor + f.length := by
      simp only [List.length_append, List.length_take, List.length_map]; omega
    rw [← e1, List.take_append_of_le_length (Nat.le_refl _), List.take_length]
    simp only [List.flatten_cons, List.map_append, List.append_assoc, List.length_append]
    congr 2
    congr 1
    rw [← List.append_assoc, List.drop_append, List.drop_eq_nil_of_le (by
      simp only [List.length_append, List.length_take, List.length_map]; omega)]
    simp only [List.nil_append, List.length_append, List.length_take, List.length_map, List.drop_drop]
    congr 1
    omega

theorem dotLoop_ub (fs : List (List R)) (buf : List (Option R)) (cursor : Nat)
    (hc : cursor ≤ buf.length) (h : buf.length < cursor + fs.flatten.length) :
    dotLoop fs buf cursor = .ub := by
  induction fs generalizing buf cursor with
  | nil => simp at h; omega
  | cons f fs ih =>
    simp only [List.flatten_cons, List.length_append] at h
    rw [dotLoop]
    by_cases h1 : cursor + f.length ≤ buf.length
    · have hl : (buf.take cursor ++ f.map some ++ buf.drop (cursor + f.length)).length = buf.length := by
        simp only [List.length_append, List.length_take, List.length_map, List.length_drop]; omega
      rw [if_pos h1]
      exact ih _ _ (by omega) (by omega)
    · rw [if_neg h1]

theorem subtractLoop_ok [Ring R] (de : List R) (v : List R) (i : Nat)
    (h : i + v.length ≤ de.length) :
    subtractLoop (de.map some) (v.map fun x => ofSingle 0 x) i =
      .ok ((List.zipWith (· - ·) v (de.drop i)).map fun x => ofSingle 0 x) := by
  induction v generalizing i with
  | nil => simp [subtractLoop]
  | cons x xs ih =>
    simp only [List.length_cons] at h
    have hi : i < de.length := by omega
    have hr : rdInit (de.map some) i = .ok de[i] := by
      simp [rdInit, hi]
    have hs : getSingleBound (ofSingle 0 x) = .ok x := by simp [getSingleBound, ofSingle]
    rw [List.map_cons, subtractLoop, hs, Outcome.bind_ok, hr, Outcome.bind_ok, ih (i + 1) (by omega),
      List.drop_eq_getElem_cons hi]
    simp only [List.zipWith_cons_cons, List.map_cons, Outcome.map_ok]

theorem pdLoop_ok [Ring R] (beta : R) (de : List R) (v : List R) (i : Nat)
    (h : i + v.length ≤ de.length) :
    pdLoop beta de (v.map fun x => ofSingle 0 x) i =
      .ok ((List.zipWith (fun x d => x - beta * d) v (de.drop i)).map fun x => ofSingle 0 x) := by
  induction v generalizing i with
  | nil => simp [pdLoop]
  | cons x xs ih =>
    simp only [List.length_cons] at h
    have hi : i < de.length := by omega
    have hs : getSingleBound (ofSingle 0 x) = .ok x := by simp [getSingleBound, ofSingle]
    rw [List.map_cons, pdLoop, hs, Outcome.bind_ok, rd_of_lt _ _ hi, Outcome.bind_ok,
      ih (i + 1) (by omega), List.drop_eq_getElem_cons hi]
    simp only [List.zipWith_cons_cons, List.map_cons, Outcome.map_ok]

/-! ## C16 -/

/-- C16. Without the derivative option the task velocity has the size of the error and component `i`
is the single bound `- gain * error_i`. -/
theorem C16_proportional [CommRing R] (gain : R) (err : List R) (dots : List (List R)) :
    ∃ t, computeTask gain false err dots = .ok t ∧ Singles t (err.map fun e => -(gain * e)) := by
  refine ⟨_, rfl, ?_⟩
  have := singles_map (err.map fun e => -(gain * e))
  rw [List.map_map] at this
  have e : ((fun x => ofSingle (0 : R) x) ∘ fun e => -(gain * e)) = fun e => ofSingle 0 (-e * gain) := by
    funext e; simp only [Function.comp]; congr 1; ring
  rwa [e] at this

/-- C16. With the derivative option, and feature derivatives whose total size is the size of the error,
component `i` is the single bound `- gain * error_i - derivative_i`, the derivatives being
concatenated in the order of the features. -/
theorem C16_with_derivative [CommRing R] (gain : R) (err : List R) (dots : List (List R))
    (hsize : dots.flatten.length = err.length) :
    ∃ t, computeTask gain true err dots = .ok t ∧
      Singles t (List.zipWith (fun e d => -(gain * e) - d) err dots.flatten) := by
  have h1 : computeErrorTimeDerivative err.length dots = .ok (dots.flatten.map some) := by
    rw [computeErrorTimeDerivative, dotLoop_ok _ _ _ (by rw [List.length_replicate]; omega)]
    rw [List.drop_eq_nil_of_le (by rw [List.length_replicate]; omega)]
    simp
  have h2 := subtractLoop_ok dots.flatten (err.map fun e => -e * gain) 0 (by
    rw [List.length_map]; omega)
  refine ⟨_, ?_, singles_map _⟩
  simp only [computeTask, if_true, h1, Outcome.bind_ok]
  rw [List.map_map] at h2
  have e : (err.map fun e => ofSingle (0 : R) (-e * gain)) =
      List.map ((fun x => ofSingle (0 : R) x) ∘ fun e => -e * gain) err := rfl
  rw [e, h2]
  congr 2
  rw [List.drop_zero, List.zipWith_map_left]
  congr 1
  funext a b
  ring

example : ([[1, 2], [3]] : List (List Int)).flatten.length = ([4, 5, 6] : List Int).length := by decide
example : computeTask (2 : Int) true [4, 5, 6] [[1, 2], [3]] =
    .ok [ofSingle 0 (-9), ofSingle 0 (-12), ofSingle 0 (-15)] := by decide

/-- C16. The size condition of `C16_with_derivative` is needed: with more derivatives than errors the
code writes outside its buffer, with fewer it uses entries that were never written. -/
theorem C16_size_mismatch [CommRing R] (gain : R) (err : List R) (dots : List (List R))
    (hsize : dots.flatten.length ≠ err.length) : computeTask gain true err dots = .ub := by
  rcases Nat.lt_or_gt_of_ne hsize with h | h
  · have h1 : computeErrorTimeDerivative err.length dots =
        .ok (dots.flatten.map some ++ List.replicate (err.length - dots.flatten.length) none) := by
      rw [computeErrorTimeDerivative, dotLoop_ok _ _ _ (by rw [List.length_replicate]; omega)]
      rw [List.drop_replicate]
      simp
    simp only [computeTask, if_true, h1, Outcome.bind_ok]
    have key : ∀ (v : List R) (i : Nat), i ≤ dots.flatten.length → dots.flatten.length < i + v.length →
        subtractLoop (dots.flatten.map some ++
          List.replicate (err.length - dots.flatten.length) none)
          (v.map fun e => ofSingle (0 : R) (-e * gain)) i = .ub := by
      intro v
      induction v with
      | nil => intro i h1 h2; simp only [List.length_nil] at h2; omega
      | cons x xs ih =>
        intro i h1 h2
        have hs : getSingleBound (ofSingle (0 : R) (-x * gain)) = .ok (-x * gain) := by
          simp [getSingleBound, ofSingle]
        rw [List.map_cons, subtractLoop, hs, Outcome.bind_ok]
        by_cases hi : i < dots.flatten.length
        · have hr : rdInit (dots.flatten.map some ++
              List.replicate (err.length - dots.flatten.length) none) i = .ok dots.flatten[i] := by
            rw [rdInit, List.getElem?_append_left (by rw [List.length_map]; exact hi),
              List.getElem?_map, List.getElem?_eq_getElem hi]
            rfl
          rw [hr, Outcome.bind_ok, ih (i + 1) (by omega) (by simp only [List.length_cons] at h2; omega)]
          rfl
        · have hr : rdInit (dots.flatten.map some ++
              List.replicate (err.length - dots.flatten.length) none) i = .ub := by
            rw [rdInit, List.getElem?_append_right (by rw [List.length_map]; omega),
              List.getElem?_replicate, List.length_map, if_pos (by omega)]
          rw [hr]; rfl
    exact key err 0 (by omega) (by omega)
  · simp only [computeTask, if_true]
    rw [computeErrorTimeDerivative, dotLoop_ub _ _ _ (by omega) (by
      rw [List.length_replicate]; omega)]
    rfl

example : ([[1, 2]] : List (List Int)).flatten.length ≠ ([4, 5, 6] : List Int).length := by decide

/-! ## C17 -/

/-- Specification: the values of the PD task at an evaluation with parameters `beta`, `gain`, error `e`,
the previous evaluation (if any) having had the error `prev`. -/
def pdSpec [Ring R] (beta gain : R) (prev : Option (List R)) (e : List R) : List R :=
  match prev with
  | some p =>
    if p.length = e.length then List.zipWith (fun x y => -(gain * x) - beta * (x - y)) e p
    else e.map fun x => -(gain * x)
  | none => e.map fun x => -(gain * x)

/-- Specification: the values of the PD task along a history. -/
def pdSpecRun [Ring R] : Option (List R) → List (R × R × List R) → List (List R)
  | _, [] => []
  | prev, (beta, gain, e) :: rest => pdSpec beta gain prev e :: pdSpecRun (some e) rest

theorem pdStep_eq [CommRing R] (beta gain : R) (p e : List R) :
    pdStep beta gain p e =
      .ok ((pdSpec beta gain (some p) e).map fun x => ofSingle 0 x, e) := by
  have hmap : (e.map fun x => ofSingle (0 : R) (-x * gain)) =
      (e.map fun x => -x * gain).map fun x => ofSingle (0 : R) x := by
    rw [List.map_map]; rfl
  by_cases h : p.length = e.length
  · have hd : pdErrorDot p e = (List.zipWith (· - ·) e p, e) := by simp [pdErrorDot, h]
    simp only [pdStep, computeTask, Bool.false_eq_true, if_false, Outcome.bind_ok, hd, pdSpec, h, if_true]
    rw [hmap, pdLoop_ok _ _ _ _ (by simp [h])]
    simp only [Outcome.map_ok, List.drop_zero]
    congr 3
    apply List.ext_getElem
    · simp
    · intro i h1 h2
      simp; ring
  · have hd : pdErrorDot p e = (List.replicate e.length 0, e) := by simp [pdErrorDot, h]
    simp only [pdStep, computeTask, Bool.false_eq_true, if_false, Outcome.bind_ok, hd, pdSpec, h]
    rw [hmap, pdLoop_ok _ _ _ _ (by simp)]
    simp only [Outcome.map_ok, List.drop_zero]
    congr 3
    apply List.ext_getElem
    · simp
    · intro i h1 h2
      simp; ring

theorem pdSpec_nil [CommRing R] (beta gain : R) (e : List R) :
    pdSpec beta gain (some []) e = pdSpec beta gain none e := by
  cases e <;> simp [pdSpec]

/-- C17. Along any history of errors (of any sizes), gains and coefficients, the PD task is a list of
single bounds whose values are `-gain * e_t - beta * (e_t - e_{t-1})` when the size of the error did
not change, and `-gain * e_t` when it changed and at the first evaluation. -/
theorem C17_pd_history [CommRing R] (hist : List (R × R × List R)) :
    ∃ ts, pdRun [] hist = .ok ts ∧ List.Forall₂ Singles ts (pdSpecRun none hist) := by
  have key : ∀ (hist : List (R × R × List R)) (p : List R),
      ∃ ts, pdRun p hist = .ok ts ∧ List.Forall₂ Singles ts (pdSpecRun (some p) hist) := by
    intro hist
    induction hist with
    | nil => intro p; exact ⟨[], rfl, .nil⟩
    | cons x xs ih =>
      obtain ⟨b, g, e⟩ := x
      intro p
      obtain ⟨ts, h1, h2⟩ := ih e
      refine ⟨((pdSpec b g (some p) e).map fun x => ofSingle 0 x) :: ts,
        by simp only [pdRun, pdStep_eq, Outcome.bind_ok, h1, Outcome.map_ok], ?_⟩
      exact .cons (singles_map _) h2
  cases hist with
  | nil => exact ⟨[], rfl, .nil⟩
  | cons x xs =>
    obtain ⟨ts, h1, h2⟩ := key (x :: xs) []
    refine ⟨ts, h1, ?_⟩
    simpa only [pdSpecRun, pdSpec_nil] using h2

example : pdSpecRun none [(2, 10, [1, 3]), (2, 10, [2, 3]), (2, 10, [(5 : Int)])] =
    [[-10, -30], [-22, -30], [-50]] := by decide

/-! ## C18 -/

section C18
variable {F : Type} [Field F] [LinearOrder F] [IsStrictOrderedRing F]

omit [Field F] [LinearOrder F] [IsStrictOrderedRing F] in
theorem unilateral_eq [Zero F] [Sub F] [Div F] (refInf refSup : List F) (dt : F) (ps : List F) (i : Nat)
    (h1 : i + ps.length ≤ refInf.length) (h2 : i + ps.length ≤ refSup.length) :
    ∃ t, unilateral refInf refSup dt ps i = .ok t ∧ t.length = ps.length ∧
      ∀ k (h : k < ps.length), t[k]? = some (ofDouble 0
        ((refInf[i + k]'(by omega) - ps[k]) / dt) ((refSup[i + k]'(by omega) - ps[k]) / dt)) := by
  induction ps generalizing i with
  | nil => exact ⟨[], rfl, rfl, by simp⟩
  | cons p ps ih =>
    simp only [List.length_cons] at h1 h2
    obtain ⟨t, e, hl, ht⟩ := ih (i + 1) (by omega) (by omega)
    refine ⟨ofDouble 0 ((refInf[i]'(by omega) - p) / dt) ((refSup[i]'(by omega) - p) / dt) :: t,
      ?_, ?_, ?_⟩
    · rw [unilateral, rd_of_lt _ _ (by omega : i < refInf.length), Outcome.bind_ok,
        rd_of_lt _ _ (by omega : i < refSup.length), Outcome.bind_ok, e]
      rfl
    · simp [hl]
    · intro k hk
      cases k with
      | zero => simp
      | succ k =>
        simp only [List.length_cons] at hk
        rw [List.getElem?_cons_succ, ht k (by omega)]
        simp only [List.getElem_cons_succ, Nat.add_assoc, Nat.add_comm 1 k]

/-- C18. With references at least as long as the position and a positive time step, the unilateral task
has the size of the position, both sides of every bound are set, and a velocity is between the two
bounds exactly when it brings the position, after `dt`, between the two references. -/
theorem C18_velocity_iff_position (refInf refSup pos : List F) (dt : F) (hdt : 0 < dt)
    (h1 : pos.length ≤ refInf.length) (h2 : pos.length ≤ refSup.length) :
    ∃ t, unilateral refInf refSup dt pos 0 = .ok t ∧ t.length = pos.length ∧
      ∀ k (h : k < pos.length) (ht : k < t.length),
        getDoubleBoundSetup t[k] .inf = .ok true ∧ getDoubleBoundSetup t[k] .sup = .ok true ∧
        ∃ lo hi, getDoubleBound t[k] .inf = .ok lo ∧ getDoubleBound t[k] .sup = .ok hi ∧
          ∀ v, (lo ≤ v ∧ v ≤ hi) ↔
            (refInf[k] ≤ pos[k] + v * dt ∧ pos[k] + v * dt ≤ refSup[k]) := by
  obtain ⟨t, e, hl, ht⟩ := unilateral_eq refInf refSup dt pos 0 (by omega) (by omega)
  refine ⟨t, e, hl, ?_⟩
  intro k hk hk'
  have hk2 := ht k hk
  rw [List.getElem?_eq_getElem hk'] at hk2
  simp only [Option.some.injEq, Nat.zero_add] at hk2
  rw [hk2]
  refine ⟨rfl, rfl, _, _, rfl, rfl, ?_⟩
  intro v
  show ((refInf[k] - pos[k]) / dt ≤ v ∧ v ≤ (refSup[k] - pos[k]) / dt) ↔ _
  rw [div_le_iff₀ hdt, le_div_iff₀ hdt]
  constructor
  · rintro ⟨a, b⟩; exact ⟨by linarith, by linarith⟩
  · rintro ⟨a, b⟩; exact ⟨by linarith, by linarith⟩

example : (0 : Rat) < 1 / 200 ∧ ([0, 1] : List Rat).length ≤ ([-1, -1] : List Rat).length := by
  refine ⟨by norm_num, by decide⟩

omit [IsStrictOrderedRing F] in
/-- C18. References shorter than the position are read out of range. -/
theorem C18_short_reference (refInf refSup pos : List F) (dt : F)
    (h : refInf.length < pos.length ∨ refSup.length < pos.length) :
    unilateral refInf refSup dt pos 0 = .ub := by
  have key : ∀ (ps : List F) (i : Nat), i ≤ refInf.length → i ≤ refSup.length →
      (refInf.length < i + ps.length ∨ refSup.length < i + ps.length) →
      unilateral refInf refSup dt ps i = .ub := by
    intro ps
    induction ps with
    | nil => intro i a b c; simp only [List.length_nil] at c; omega
    | cons p ps ih =>
      intro i a b c
      simp only [List.length_cons] at c
      rw [unilateral]
      by_cases hi : i < refInf.length
      · rw [rd_of_lt _ _ hi, Outcome.bind_ok]
        by_cases hs : i < refSup.length
        · rw [rd_of_lt _ _ hs, Outcome.bind_ok, ih (i + 1) (by omega) (by omega) (by omega)]
          rfl
        · rw [rd_eq_ub.mpr (by omega)]; rfl
      · rw [rd_eq_ub.mpr (by omega)]; rfl
  exact key pos 0 (by omega) (by omega) (by omega)

example : ([1] : List Rat).length < ([1, 2] : List Rat).length ∨
    ([1, 2] : List Rat).length < ([1, 2] : List Rat).length := by decide

end C18

end Verif.Task
