import Verif.Gripper.Model
import Verif.Flags.Lemmas
import Mathlib.Tactic.Linarith
import Mathlib.Tactic.NormNum
import Mathlib.Tactic.FieldSimp
import Mathlib.Tactic.Ring
import Mathlib.Tactic.SplitIfs
import Mathlib.Data.Rat.Defs
import Mathlib.Algebra.Order.Ring.Rat

/-!
# Properties of the gripper control (C35)
-/
set_option linter.unusedSectionVars false

namespace Verif.Gripper

variable {F : Type} [Field F] [LinearOrder F] [IsStrictOrderedRing F]

/-- What every object in use satisfies: the offset is in `]0,1[`, the factors in `]0,1]`. -/
structure Sane (g : State F) : Prop where
  pos : 0 < g.offset
  lt : g.offset < 1
  fac : ∀ f ∈ g.factor, 0 < f ∧ f ≤ 1

theorem newFactor_range {o t l v f : F} (h0 : 0 < o) (hf : 0 < f) :
    0 < newFactor o t l v f ∧ newFactor o t l v f ≤ 1 := by
  unfold newFactor
  have h1 : 0 < f * o := mul_pos hf h0
  have h2 : 0 < f / o := div_pos hf h0
  refine ⟨?_, min_le_left _ _⟩
  apply lt_min one_pos
  apply lt_max_of_lt_left
  split_ifs <;> assumption

theorem loop_range {o : F} (h0 : 0 < o) {ts ls : List F} : ∀ (i : Nat) (vs fs fs' : List F),
    (∀ f ∈ fs, 0 < f ∧ f ≤ 1) → loop o ts ls i vs fs = .ok fs' → ∀ f ∈ fs', 0 < f ∧ f ≤ 1 := by
  intro i vs
  induction vs generalizing i with
  | nil => intro fs fs' hf h; simp [loop] at h; subst h; exact hf
  | cons v vs ih =>
    intro fs fs' hf h
    cases fs with
    | nil => simp [loop] at h
    | cons f fs =>
      simp only [loop, Outcome.bind_eq_ok, Outcome.map_eq_ok] at h
      obtain ⟨t, -, l, -, r, hr, rfl⟩ := h
      intro x hx
      rcases List.mem_cons.mp hx with rfl | hx
      · exact newFactor_range h0 (hf f (by simp)).1
      · exact ih _ _ _ (fun y hy => hf y (by simp [hy])) hr x hx

theorem computeIncrement_sane {g g' : State F} {ts ls v : List F} (hg : Sane g)
    (h : computeIncrement g ts ls v = .ok g') : Sane g' := by
  have hfs : ∀ f ∈ (if g.factor.length ≠ v.length then List.replicate v.length 1 else g.factor),
      0 < f ∧ f ≤ 1 := by
    split_ifs with hl
    · intro f hf
      obtain ⟨-, rfl⟩ := List.mem_replicate.mp hf
      exact ⟨one_pos, le_refl _⟩
    · exact hg.fac
  unfold computeIncrement at h
  simp only at h
  by_cases ht : ts.length = 0
  · rw [if_pos ht] at h
    cases h
    exact ⟨hg.pos, hg.lt, hfs⟩
  · rw [if_neg ht, Outcome.map_eq_ok] at h
    obtain ⟨r, hr, rfl⟩ := h
    exact ⟨hg.pos, hg.lt, loop_range hg.pos _ _ _ _ hfs hr⟩

theorem step_sane {g g' : State F} {o : Op F} (hg : Sane g) (h : step g o = .ok g') : Sane g' := by
  cases o with
  | offset v =>
    unfold step setOffset at h
    by_cases hv : v > 0 ∧ v < 1
    · simp only [if_pos hv] at h
      cases h
      exact ⟨hv.1, hv.2, hg.fac⟩
    · simp only [if_neg hv] at h
      cases h
      exact hg
  | compute c d t l =>
    simp only [step, Outcome.map_eq_ok, computeDesiredPosition, Outcome.bind_eq_ok] at h
    obtain ⟨⟨g1, r⟩, ⟨dd, -, g2, h2, w, -, rr, -, hh⟩, rfl⟩ := h
    cases hh
    exact computeIncrement_sane hg h2

theorem run_sane {g g' : State F} {os : List (Op F)} (hg : Sane g) (h : run g os = .ok g') :
    Sane g' := by
  induction os generalizing g with
  | nil => cases h; exact hg
  | cons o os ih =>
    simp only [run, Outcome.bind_eq_ok] at h
    obtain ⟨g1, h1, h2⟩ := h
    exact ih (step_sane hg h1) h2

theorem fresh_sane : Sane (State.fresh : State F) := by
  refine ⟨?_, ?_, ?_⟩ <;> norm_num [State.fresh]

/-- C35. Whatever the history of offsets asked for (accepted or refused), positions, torques and limits,
the offset stays strictly between 0 and 1 and every speed factor is strictly positive and at most 1. -/
theorem C35_factor_in_unit (os : List (Op F)) (g : State F) (h : run State.fresh os = .ok g) :
    (0 < g.offset ∧ g.offset < 1) ∧ ∀ f ∈ g.factor, 0 < f ∧ f ≤ 1 :=
  let s := run_sane fresh_sane h
  ⟨⟨s.pos, s.lt⟩, s.fac⟩

/-- The torque pushes beyond its limit in the direction of the motion. -/
def Overload (torque limit velocity : F) : Prop :=
  (torque > limit ∧ velocity > 0) ∨ (torque < -limit ∧ velocity < 0)

theorem loop_spec {o : F} {ts ls : List F} : ∀ (i : Nat) (vs fs : List F),
    fs.length = vs.length → i + vs.length ≤ ts.length → i + vs.length ≤ ls.length →
    ∃ fs', loop o ts ls i vs fs = .ok fs' ∧ fs'.length = vs.length ∧
      ∀ (k : Nat) t l v f, ts[i + k]? = some t → ls[i + k]? = some l → vs[k]? = some v →
        fs[k]? = some f → fs'[k]? = some (newFactor o t l v f) := by
  intro i vs
  induction vs generalizing i with
  | nil => intro fs hf _ _; exact ⟨fs, by simp [loop], hf, by simp⟩
  | cons v vs ih =>
    intro fs hf h1 h2
    cases fs with
    | nil => simp at hf
    | cons f fs =>
      simp only [List.length_cons] at hf h1 h2
      obtain ⟨r, hr, hlen, hsp⟩ := ih (i + 1) fs (by omega) (by omega) (by omega)
      refine ⟨newFactor o ts[i] ls[i] v f :: r, ?_, by simp [hlen], ?_⟩
      · simp [loop, rd_of_lt ts i (by omega), rd_of_lt ls i (by omega), hr]
      · intro k t l v' f' a b c d
        cases k with
        | zero =>
          simp only [Nat.add_zero, List.getElem?_cons_zero, Option.some.injEq] at a b c d ⊢
          rw [List.getElem?_eq_getElem (by omega)] at a b
          simp only [Option.some.injEq] at a b
          rw [a, b, c, d]
        | succ k =>
          simp only [List.getElem?_cons_succ] at c d ⊢
          exact hsp k t l v' f' (by rw [← a]; congr 1; omega) (by rw [← b]; congr 1; omega) c d

/-- C35. How the speed factors move, for any number of joints: with a torque and a limit for each joint,
the call succeeds, and each factor is multiplied by the offset (it strictly decreases) when its joint is
overloaded, and otherwise recovers: it is divided by the offset and capped at 1 (it strictly increases
unless already 1). A vector of another size restarts from factors 1. -/
theorem C35_factor_update (os : List (Op F)) (g : State F) (h : run State.fresh os = .ok g)
    (ts ls vs : List F) (hne : ts ≠ []) (h1 : vs.length ≤ ts.length) (h2 : vs.length ≤ ls.length) :
    ∃ g', computeIncrement g ts ls vs = .ok g' ∧ g'.offset = g.offset ∧
      g'.factor.length = vs.length ∧
      ∀ (k : Nat) t l v, ts[k]? = some t → ls[k]? = some l → vs[k]? = some v →
        ∃ f f', (if g.factor.length = vs.length then g.factor[k]? = some f else f = 1) ∧
          g'.factor[k]? = some f' ∧
          (Overload t l v → f' = f * g.offset ∧ f' < f) ∧
          (¬ Overload t l v → f' = min 1 (f / g.offset) ∧ (f < 1 → f < f')) := by
  have hs := run_sane fresh_sane h
  set fs := (if g.factor.length ≠ vs.length then List.replicate vs.length 1 else g.factor) with hfs
  have hlen : fs.length = vs.length := by
    rw [hfs]; split_ifs with hl
    · simp
    · simpa using hl
  have hrange : ∀ f ∈ fs, 0 < f ∧ f ≤ 1 := by
    rw [hfs]
    split_ifs with hl
    · intro f hf
      obtain ⟨-, rfl⟩ := List.mem_replicate.mp hf
      exact ⟨one_pos, le_refl _⟩
    · exact hs.fac
  obtain ⟨fs', h3, h4, h5⟩ := loop_spec (o := g.offset) (ts := ts) (ls := ls) 0 vs fs hlen
    (by omega) (by omega)
  refine ⟨⟨g.offset, fs'⟩, ?_, rfl, h4, ?_⟩
  · unfold computeIncrement
    simp only [← hfs]
    rw [if_neg (by simpa using hne), h3]
    rfl
  · intro k t l v ha hb hc
    have hk : k < vs.length := (List.getElem?_eq_some_iff.mp hc).1
    have hfk : fs[k]? = some fs[k] := List.getElem?_eq_getElem (by omega)
    have hr := hrange fs[k] (List.getElem_mem _)
    have h6 := h5 k t l v fs[k] (by simpa using ha) (by simpa using hb) hc hfk
    refine ⟨fs[k], _, ?_, h6, ?_, ?_⟩
    · split_ifs with hl
      · have : fs = g.factor := by rw [hfs, if_neg (by simpa using hl)]
        simp only [this] at hfk ⊢
        exact hfk
      · have : fs = List.replicate vs.length 1 := by rw [hfs, if_pos hl]
        simp [this]
    · intro ho
      have hlt : fs[k] * g.offset < fs[k] := mul_lt_of_lt_one_right hr.1 hs.lt
      have hp : 0 < fs[k] * g.offset := mul_pos hr.1 hs.pos
      have : newFactor g.offset t l v fs[k] = fs[k] * g.offset := by
        unfold newFactor
        have e : (if t > l ∧ v > 0 then fs[k] * g.offset
            else if t < -l ∧ v < 0 then fs[k] * g.offset else fs[k] / g.offset)
            = fs[k] * g.offset := by
          rcases ho with ho | ho
          · rw [if_pos ho]
          · rw [if_pos ho, ite_self]
        simp only [e]
        rw [max_eq_left hp.le, min_eq_right (by linarith [hr.2])]
      exact ⟨this, by rw [this]; exact hlt⟩
    · intro ho
      have hp : 0 < fs[k] / g.offset := div_pos hr.1 hs.pos
      have : newFactor g.offset t l v fs[k] = min 1 (fs[k] / g.offset) := by
        unfold newFactor
        rw [if_neg (fun h => ho (Or.inl h)), if_neg (fun h => ho (Or.inr h))]
        simp only []
        rw [max_eq_left hp.le]
      refine ⟨this, fun h1 => ?_⟩
      rw [this]
      refine lt_min h1 ?_
      rw [lt_div_iff₀ hs.pos]
      exact mul_lt_of_lt_one_right hr.1 hs.lt

/-- C35. Without torque measurement the factors do not move (and start at 1). -/
theorem C35_no_torque (g : State F) (ls vs : List F) :
    computeIncrement g [] ls vs = .ok ⟨g.offset,
      if g.factor.length = vs.length then g.factor else List.replicate vs.length 1⟩ := by
  unfold computeIncrement
  by_cases hl : g.factor.length = vs.length <;> simp [hl]

/-- C35 (partial). The position reference, for a gripper with one joint: it is the current position plus
a fraction, in `]0,1]`, of the way to the desired one; the fraction is the factor left in the object.
Missing: grippers with several joints, see `C35_several_joints_counterexample`. -/
theorem C35_reference_partial (os : List (Op F)) (g : State F) (h : run State.fresh os = .ok g)
    (cur des t l : F) :
    ∃ g' f, computeDesiredPosition g [cur] [des] [t] [l] = .ok (g', [cur + f * (des - cur)]) ∧
      g'.factor = [f] ∧ 0 < f ∧ f ≤ 1 := by
  have hdt : (dt : F) ≠ 0 := by norm_num [dt]
  obtain ⟨g', h1, h2, h3, h4⟩ := C35_factor_update os g h [t] [l] [(des - cur) * (1 / dt)]
    (by simp) (by simp) (by simp)
  obtain ⟨f, hf⟩ := List.length_eq_one_iff.mp (by simpa using h3)
  have hs := (computeIncrement_sane (run_sane fresh_sane h) h1).fac f (by simp [hf])
  refine ⟨g', f, ?_, hf, hs.1, hs.2⟩
  simp only [computeDesiredPosition, vzip, List.length_singleton, if_true, List.zipWith_cons_cons,
    List.zipWith_nil_left, Outcome.bind_ok, List.map_cons, List.map_nil, h1, matProd, hf,
    Outcome.map_ok]
  congr 3
  field_simp

theorem computeIncrement_ok (g : State F) (ts ls vs : List F)
    (h1 : ts = [] ∨ (vs.length ≤ ts.length ∧ vs.length ≤ ls.length)) :
    ∃ g', computeIncrement g ts ls vs = .ok g' ∧ g'.factor.length = vs.length := by
  have hfl : (if g.factor.length ≠ vs.length then List.replicate vs.length 1
      else g.factor).length = vs.length := by
    split_ifs with hl
    · simp
    · simpa using hl
  by_cases ht : ts.length = 0
  · refine ⟨⟨g.offset, if g.factor.length ≠ vs.length then List.replicate vs.length 1
      else g.factor⟩, ?_, hfl⟩
    unfold computeIncrement
    simp only
    rw [if_pos ht]
  · have h1 : vs.length ≤ ts.length ∧ vs.length ≤ ls.length := by
      rcases h1 with rfl | h1
      · simp at ht
      · exact h1
    obtain ⟨r, hr, hrl, -⟩ := loop_spec (o := g.offset) (ts := ts) (ls := ls) 0 vs _ hfl
      (by omega) (by omega)
    refine ⟨⟨g.offset, r⟩, ?_, hrl⟩
    unfold computeIncrement
    simp only
    rw [if_neg ht, hr]
    rfl

/-- C35, disagreement. With two joints (or any number other than one) every evaluation computes a matrix
product of two column vectors, which is undefined: the joints are not scaled element by element. -/
theorem C35_several_joints_counterexample (g : State F) (cur des ts ls : List F)
    (hlen : cur.length = des.length) (hn : cur.length ≠ 1)
    (h1 : ts = [] ∨ (cur.length ≤ ts.length ∧ cur.length ≤ ls.length)) :
    computeDesiredPosition g cur des ts ls = .ub := by
  obtain ⟨g', hc, hl⟩ := computeIncrement_ok g ts ls
    ((List.zipWith (fun x1 x2 => x1 - x2) des cur).map (· * (1 / dt)))
    (by simpa [hlen] using h1)
  unfold computeDesiredPosition vzip
  rw [if_pos hlen.symm]
  simp only [Outcome.bind_ok, hc]
  unfold matProd
  split
  · rename_i x hx
    rw [hx] at hl
    simp [hlen] at hl
    omega
  · rfl

/-- C35. The selection keeps the selected components and their order: the result is the list of the
components whose index is set in the mask. -/
theorem C35_selector (full : List F) (sel : Flags.Flags) :
    ∃ r, selector full sel = .ok r ∧
      r = ((List.range full.length).filter (fun i : Nat => Flags.call sel i = .ok true)).filterMap
        (fun i : Nat => full[i]?) := by
  have key : ∀ (xs : List F) (i : Nat), ∃ r, selectLoop sel i xs = .ok r ∧
      r = ((List.range xs.length).filter (fun k => Flags.call sel (i + k : Nat) = .ok true)).filterMap
        (fun k => xs[k]?) := by
    intro xs
    induction xs with
    | nil => intro i; exact ⟨[], rfl, by simp⟩
    | cons x xs ih =>
      intro i
      obtain ⟨r, h1, h2⟩ := ih (i + 1)
      have h3 := Flags.call_nonneg sel i (by omega)
      refine ⟨_, by rw [selectLoop, h3, h1]; simp; rfl, ?_⟩
      rw [List.length_cons, List.range_succ_eq_map, List.filter_cons, List.filter_map]
      have e : (fun k => decide (Flags.call sel ((i + k : Nat) : Int) = .ok true)) ∘ Nat.succ
          = fun k => decide (Flags.call sel ((i + 1 + k : Nat) : Int) = .ok true) := by
        funext k
        simp only [Function.comp, Nat.succ_eq_add_one]
        rw [show i + (k + 1) = i + 1 + k by omega]
      rw [e]
      have e2 : List.filterMap (fun k => (x :: xs)[k]?)
          (List.map Nat.succ (List.filter (fun k =>
            decide (Flags.call sel ((i + 1 + k : Nat) : Int) = .ok true)) (List.range xs.length)))
          = r := by
        rw [List.filterMap_map, h2]
        rfl
      simp only [Nat.add_zero, h3]
      split_ifs with hb hc hc
      · rw [List.filterMap_cons, e2]; rfl
      · simp [hb] at hc
      · simp at hc; exact absurd hc hb
      · rw [e2]
  obtain ⟨r, h1, h2⟩ := key full 0
  exact ⟨r, h1, by simpa using h2⟩

/-! ### Concrete cases -/

/-- One joint, three evaluations: overloaded twice, then released. -/
example : ((run (State.fresh : State ℚ)
    [.offset (1/2), .offset 3, .compute [0] [1] [5] [2], .compute [0] [1] [5] [2],
     .compute [0] [1] [1] [2]]).map fun g => (g.offset, g.factor)) = .ok (1/2, [1/2]) := by
  decide +kernel

/-- The reference goes half way when the joint is overloaded. -/
example : ((computeDesiredPosition (⟨1/2, [1]⟩ : State ℚ) [2] [4] [-5] [2]).map Prod.snd)
    = .ok [4] ∧
    ((computeDesiredPosition (⟨1/2, [1]⟩ : State ℚ) [4] [2] [-5] [2]).map Prod.snd) = .ok [3] := by
  decide +kernel

/-- A gripper with two joints. -/
example : ((computeDesiredPosition (⟨1/2, [1, 1]⟩ : State ℚ) [2, 2] [4, 4] [5, 5] [2, 2]).map
    Prod.snd) = .ub := by decide +kernel

example : selector [10, 20, 30, (40 : ℚ)] ⟨[true, false], true⟩ = .ok [10, 30, 40] := by
  decide +kernel

end Verif.Gripper
