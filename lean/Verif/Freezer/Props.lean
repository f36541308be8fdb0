import Verif.Freezer.Model
import Verif.Common.Lists

/-!
# Properties of the CoM freezer (C39)
-/

namespace Verif.Freezer

variable {V : Type}

theorem compute_later {s : State V} {e : Ev V} (hp : s.previousPG = false) (hs : 0 ≤ s.lastStop) :
    (compute s e).1 = ⟨if e.pg ≠ 0 ∨ e.time < s.lastStop + 200 then e.com else s.lastCoM, false,
      s.lastStop⟩ ∧ (compute s e).2 = (compute s e).1.lastCoM := by
  have hn : ¬ s.lastStop < 0 := by omega
  refine ⟨?_, rfl⟩
  unfold compute update
  by_cases h1 : e.pg ≠ 0
  · simp [h1, hn]
  · by_cases h2 : e.time < s.lastStop + 200
    · simp [h1, hp, h2, hn]
    · simp only [h1, hp, h2, if_false, hn, Bool.false_eq_true, or_self]
      cases s; simp_all

theorem compute_first {v0 : V} {e : Ev V} :
    (compute (State.fresh v0) e).1 = ⟨e.com, false, e.time⟩ ∧
      (compute (State.fresh v0) e).2 = e.com := by
  unfold compute update State.fresh
  by_cases h1 : e.pg ≠ 0
  · simp [h1]
  · by_cases h2 : e.time < 199 <;> simp [h1, h2]

/-- What the output should be after the evaluations `es`, the first one being `e0`: the reference CoM of
the latest evaluation made either with the pattern generator in process or less than 200 ticks after the
very first evaluation. Written without reference to the state of the entity. -/
def heldFrom (t0 : Int) (c : V) : List (Ev V) → V
  | [] => c
  | e :: es => heldFrom t0 (if e.pg ≠ 0 ∨ e.time < t0 + 200 then e.com else c) es

theorem run_later (t0 : Int) (ht : 0 ≤ t0) (c : V) : ∀ es : List (Ev V),
    (run ⟨c, false, t0⟩ es).1 = ⟨heldFrom t0 c es, false, t0⟩ ∧
    ∀ k, k < es.length → (run ⟨c, false, t0⟩ es).2[k]? = some (heldFrom t0 c (es.take (k + 1))) := by
  intro es
  induction es generalizing c with
  | nil => simp [run, heldFrom]
  | cons e es ih =>
    have h := compute_later (s := ⟨c, false, t0⟩) (e := e) rfl ht
    obtain ⟨h1, h2⟩ := ih (if e.pg ≠ 0 ∨ e.time < t0 + 200 then e.com else c)
    refine ⟨?_, ?_⟩
    · simp only [run, h.1]; rw [h1]; rfl
    · intro k hk
      cases k with
      | zero => simp [run, h.1, h.2, heldFrom]
      | succ k =>
        simp only [run, h.1, List.getElem?_cons_succ, List.take_succ_cons, heldFrom]
        exact h2 k (by simpa using hk)

/-- C39. The complete behaviour: from construction, the first evaluation at a time `t0 ≥ 0` gives the
reference CoM, and each later one gives the reference CoM of the latest evaluation made with the pattern
generator in process or before `t0 + 200`. -/
theorem C39_output (v0 : V) (e0 : Ev V) (es : List (Ev V)) (ht : 0 ≤ e0.time) :
    (run (State.fresh v0) (e0 :: es)).2[0]? = some e0.com ∧
    ∀ k, k < es.length → (run (State.fresh v0) (e0 :: es)).2[k + 1]? =
      some (heldFrom e0.time e0.com (es.take (k + 1))) := by
  have h := compute_first (v0 := v0) (e := e0)
  refine ⟨by simp [run, h.2], ?_⟩
  intro k hk
  simp only [run, h.1, List.getElem?_cons_succ]
  exact (run_later e0.time ht e0.com es).2 k hk

theorem heldFrom_append (t0 : Int) (c : V) (a b : List (Ev V)) :
    heldFrom t0 c (a ++ b) = heldFrom t0 (heldFrom t0 c a) b := by
  induction a generalizing c with
  | nil => rfl
  | cons e a ih => simp [heldFrom, ih]

/-- C39. Whenever the pattern generator is in process the output is the current reference CoM. -/
theorem C39_follows_while_in_process (v0 : V) (pre : List (Ev V)) (e : Ev V)
    (ht : ∀ x ∈ pre ++ [e], 0 ≤ x.time) (hpg : e.pg ≠ 0) :
    (run (State.fresh v0) (pre ++ [e])).2[pre.length]? = some e.com := by
  cases pre with
  | nil => simp [run, compute_first]
  | cons e0 es =>
    have h := (C39_output v0 e0 (es ++ [e]) (ht e0 (by simp))).2 es.length (by simp)
    rw [List.cons_append, List.length_cons, h, List.take_of_length_le (by simp), heldFrom_append]
    simp [heldFrom, hpg]

/-- C39 (partial). The freeze: once the first 200 ticks after the first evaluation are over, when the
pattern generator stops the output stays, for as long as it is not in process again, at the reference CoM
of the last evaluation with the pattern generator in process. Missing: a stop is not followed by a second
of further tracking as documented, see `C39_no_tracking_after_stop_counterexample`, and during the first
200 ticks nothing is frozen, see `C39_not_frozen_at_first_counterexample`. -/
theorem C39_frozen_after_stop_partial (v0 : V) (e0 : Ev V) (pre : List (Ev V)) (e : Ev V)
    (post : List (Ev V)) (ht : 0 ≤ e0.time) (hpg : e.pg ≠ 0)
    (hpost : ∀ x ∈ post, x.pg = 0 ∧ e0.time + 200 ≤ x.time) (k : Nat) (hk : k < post.length) :
    (run (State.fresh v0) (e0 :: pre ++ e :: post)).2[pre.length + 2 + k]? = some e.com := by
  have h := (C39_output v0 e0 (pre ++ e :: post) ht).2 (pre.length + 1 + k) (by simp; omega)
  rw [List.cons_append, show pre.length + 2 + k = pre.length + 1 + k + 1 by omega, h]
  rw [List.take_append, List.take_of_length_le (by omega),
    show pre.length + 1 + k + 1 - pre.length = (k + 1) + 1 by omega, List.take_succ_cons,
    heldFrom_append]
  simp only [heldFrom, hpg, ne_eq, not_false_eq_true, true_or, if_true]
  have key : ∀ (l : List (Ev V)) (c : V), (∀ x ∈ l, x.pg = 0 ∧ e0.time + 200 ≤ x.time) →
      heldFrom e0.time c l = c := by
    intro l
    induction l with
    | nil => intro c _; rfl
    | cons x l ih =>
      intro c hx
      have hx0 := hx x (by simp)
      have hn : ¬ (x.pg ≠ 0 ∨ x.time < e0.time + 200) := by omega
      rw [heldFrom, if_neg hn]
      exact ih c (fun y hy => hx y (by simp [hy]))
  rw [key _ _ (fun x hx => hpost x (List.mem_of_mem_take hx))]

/-- C39, disagreement. The comment of the code says that the CoM keeps being updated for one second (200
ticks) after a stop. It is not: here the generator stops at tick 1001 and the output, one tick later, is
already the one of tick 1000. -/
theorem C39_no_tracking_after_stop_counterexample :
    (run (State.fresh (0 : Nat)) [⟨0, 0, 1⟩, ⟨1000, 1, 2⟩, ⟨1001, 0, 3⟩, ⟨1002, 0, 4⟩]).2
      = [1, 2, 2, 2] := by decide

/-- C39, disagreement. A stop during the first 200 ticks freezes nothing before they are over. -/
theorem C39_not_frozen_at_first_counterexample :
    (run (State.fresh (0 : Nat)) [⟨0, 1, 1⟩, ⟨1, 0, 2⟩, ⟨199, 0, 3⟩, ⟨200, 0, 4⟩]).2
      = [1, 2, 3, 3] := by decide

/-- The hypotheses of the freeze are met by a long walk. -/
example : (run (State.fresh (0 : Nat)) ([⟨5, 0, 1⟩, ⟨300, 1, 2⟩] ++
    ⟨301, 1, 9⟩ :: [⟨302, 0, 3⟩, ⟨400, 0, 4⟩, ⟨900, 0, 6⟩])).2 = [1, 2, 9, 9, 9, 9] := by decide

end Verif.Freezer
