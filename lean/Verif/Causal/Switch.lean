import Verif.Causal.Stability

/-!
# C161: after a change of filter

A change of filter (src/filters/causal-filter.cpp:106-134) after any history: the results are those of a new filter, hence the bounds and the limits
of C157.
-/

namespace Verif.Causal

open Finset _root_.Filter Topology

set_option autoImplicit false

section Field

variable {F V : Type} [Field F] [AddCommGroup V] [Module F V]

/-- The column that follows the current one is the oldest. -/
theorem unroll_last {α : Type} (p : Nat) (l : List α) (hp : p < l.length) :
    l[if p + 1 < l.length then p + 1 else 0]? = (unroll p l)[l.length - 1]? := by
  rw [unroll]
  split_ifs with h
  · rw [List.getElem?_append_right (by simp; omega), List.getElem?_reverse (by simp; omega), List.getElem?_drop]
    congr 1
    simp only [List.length_reverse, List.length_take, List.length_drop]
    omega
  · rw [List.getElem?_append_left (by simp; omega), List.getElem?_reverse (by simp; omega), List.getElem?_take_of_lt (by simp only [List.length_take]; omega)]
    congr 1
    simp only [List.length_take]
    omega

theorem sample_fields {f f' : Filter F V} {x : V} {o : Out V} (hf : f.firstSample = false) (h : sample f x = .ok (o, f')) :
    f'.input = f.input.set f.ptn x ∧ f'.ptn = if f.ptn + 1 < f.num.length then f.ptn + 1 else 0 := by
  have hfill : fill f x = f := by simp [fill, hf]
  rw [sample, hfill] at h
  simp only at h
  split at h
  · obtain ⟨a0, _, h7⟩ := Outcome.bind_eq_ok.mp h
    obtain ⟨y1, _, h8⟩ := Outcome.bind_eq_ok.mp h7
    obtain ⟨y2, _, h9⟩ := Outcome.bind_eq_ok.mp h8
    simp only [Outcome.ok.injEq, Prod.mk.injEq] at h9
    rw [← h9.2]
    exact ⟨rfl, rfl⟩
  · cases h

/-- The column about to be replaced, after one sample. -/
theorem sample_oldest (num den : List F) (dt : F) (u : V) {f f1 : Filter F V} {o : Out V} {hin hout : Nat → V} (h : Inv f num den dt hin hout)
    (h1 : sample f u = .ok (o, f1)) : f1.input[f1.ptn]? = some (push u hin (num.length - 1)) := by
  obtain ⟨e1, e2⟩ := sample_fields h.first h1
  have hp : f.ptn < f.input.length := by rw [h.lin]; exact h.ptn
  rw [e1, e2, h.hnum]
  have hl : (f.input.set f.ptn u).length = num.length := by simp [h.lin]
  have e3 := unroll_last f.ptn (f.input.set f.ptn u) (by rw [hl]; exact h.ptn)
  rw [hl] at e3
  rw [e3, unroll_set _ _ _ hp]
  have hm := h.ptn
  rcases Nat.lt_or_ge 1 num.length with h3 | h3
  · obtain ⟨m, hm⟩ : ∃ m, num.length = m + 2 := ⟨num.length - 2, by omega⟩
    have e4 := h.hist_in m (by omega)
    rw [show num.length - 1 = m + 1 by omega, List.getElem?_cons_succ, List.getElem?_tail, e4]
    rfl
  · rw [show num.length - 1 = 0 by omega]
    rfl

/-- The column about to be replaced has the input of as many steps ago as there are coefficients above, less one. -/
theorem run_oldest (num den : List F) (dt : F) (ha : den.getD 0 0 ≠ 0) (us : List V) (u : V) (f : Filter F V) (hin hout : Nat → V)
    (h : Inv f num den dt hin hout) :
    ∃ os f', run f (u :: us) = .ok (os, f') ∧ f'.dt = dt ∧ f'.firstSample = false ∧
      f'.input[f'.ptn]? = some (agoH hin (u :: us) us.length (num.length - 1)) := by
  induction us generalizing u f hin hout with
  | nil =>
    obtain ⟨o, f1, h1, h2, -, -, -⟩ := sample_inv f num den dt hin hout h ha u
    refine ⟨[o], f1, by simp [run, h1, Outcome.bind, Outcome.map], h2.hdt, h2.first, ?_⟩
    rw [sample_oldest num den dt u h h1]
    exact congrArg some (agoH_zero hin u [] _).symm
  | cons v us ih =>
    obtain ⟨o, f1, h1, h2, -, -, -⟩ := sample_inv f num den dt hin hout h ha u
    obtain ⟨os, f', g1, g2, g3, g4⟩ := ih v f1 _ _ h2
    refine ⟨o :: os, f', ?_, g2, g3, ?_⟩
    · rw [run, h1, Outcome.bind_ok, g1, Outcome.map_ok]
    · rw [g4, List.length_cons, agoH_succ]

/-- Two filters with the same histories give the same results. -/
theorem run_same (num den : List F) (dt : F) (hd : 3 ≤ den.length) (ha : den.getD 0 0 ≠ 0) (us : List V) (f g : Filter F V) (hin hout : Nat → V)
    (hf : Inv f num den dt hin hout) (hg : Inv g num den dt hin hout) :
    ∃ os f' g', run f us = .ok (os, f') ∧ run g us = .ok (os, g') := by
  induction us generalizing f g hin hout with
  | nil => exact ⟨[], f, g, rfl, rfl⟩
  | cons u us ih =>
    obtain ⟨o, f1, h1, h2, h3, h4, h5⟩ := sample_inv f num den dt hin hout hf ha u
    obtain ⟨p, g1, k1, k2, k3, k4, k5⟩ := sample_inv g num den dt hin hout hg ha u
    have hx : o.x = p.x := by
      rw [← k3] at h3
      obtain ⟨n, hn⟩ : ∃ n, den.length = n + 1 := ⟨den.length - 1, by omega⟩
      rw [hn, Finset.sum_range_succ', Finset.sum_range_succ'] at h3
      have e : den.getD 0 0 • o.x = den.getD 0 0 • p.x := add_left_cancel h3
      rw [← inv_smul_smul₀ ha o.x, e, inv_smul_smul₀ ha]
    have ho : o = p := by
      have h5' := h5 hd
      have k5' := k5 hd
      cases o; cases p
      simp only at hx h4 k4 h5' k5'
      rw [h4, k4, h5', k5', hx]
    subst ho
    obtain ⟨os, f', g', e1, e2⟩ := ih f1 g1 _ _ h2 k2
    exact ⟨o :: os, f', g', by rw [run, h1, Outcome.bind_ok, e1, Outcome.map_ok], by rw [run, k1, Outcome.bind_ok, e2, Outcome.map_ok]⟩

/-- C161. A change of filter after any history succeeds. The results are then, for all the inputs that follow, those of a new filter after its first
sample, this sample being the input of as many steps before the latest as the old filter has coefficients above, less one (the first input when
there are not so many). -/
theorem C161_switch (num den num' den' : List F) (dt : F) (u : V) (us : List V) (hn : 0 < num.length) (hd : 2 ≤ den.length)
    (ha : den.getD 0 0 ≠ 0) (hn' : 0 < num'.length) (hd' : 3 ≤ den'.length) (ha' : den'.getD 0 0 ≠ 0) (hs' : den'.sum ≠ 0) :
    ∃ os f f', run (init V dt num den) (u :: us) = .ok (os, f) ∧ switchFilter f num' den' = .ok f' ∧
      ∀ vs, ∃ o ps g g', run f' vs = .ok (ps, g) ∧
        run (init V dt num' den') ((if num.length ≤ us.length + 1 then (u :: us).getD (us.length + 1 - num.length) 0 else u) :: vs) =
          .ok (o :: ps, g') := by
  obtain ⟨os, f, h1, h2, h3, h4⟩ := run_oldest num den dt ha us u _ _ _ (inv_const num den dt u (steady num den u) hn hd)
  have hx : agoH (fun _ => u) (u :: us) us.length (num.length - 1) =
      if num.length ≤ us.length + 1 then (u :: us).getD (us.length + 1 - num.length) 0 else u := by
    rw [agoH]
    by_cases hc : num.length ≤ us.length + 1
    · rw [if_pos (by omega), if_pos hc]
      congr 1
      omega
    · rw [if_neg (by omega), if_neg hc]
  rw [hx] at h4
  set x := if num.length ≤ us.length + 1 then (u :: us).getD (us.length + 1 - num.length) 0 else u with hxdef
  have hlt : f.ptn < f.input.length := (List.getElem?_eq_some_iff.mp h4).1
  have hfx : f.input[f.ptn] = x := (List.getElem?_eq_some_iff.mp h4).2
  have hc := inv_const num' den' dt x (steady num' den' x) hn' (by omega)
  refine ⟨os, f, _, by rw [run_init]; exact h1, by
    rw [switchFilter, rd_of_lt _ _ hlt, Outcome.bind_ok, if_neg (by omega), hfx, h2, h3], fun vs => ?_⟩
  obtain ⟨o, f1, k1, k2, k3, -, -⟩ := sample_inv _ num' den' dt _ _ hc ha' x
  have hpush : push x (fun _ => x) = fun _ => x := by
    funext k; cases k <;> rfl
  have ho : o.x = steady num' den' x := by
    have e1 : ∑ j ∈ range den'.length, den'.getD j 0 • steady num' den' x = ∑ j ∈ range num'.length, num'.getD j 0 • x := by
      rw [sum_replicate_ago, sum_replicate_ago, steady, smul_smul, mul_inv_cancel₀ hs', one_smul]
    rw [hpush, ← e1] at k3
    obtain ⟨n, hn⟩ : ∃ n, den'.length = n + 1 := ⟨den'.length - 1, by omega⟩
    rw [hn, Finset.sum_range_succ', Finset.sum_range_succ'] at k3
    have e : den'.getD 0 0 • o.x = den'.getD 0 0 • steady num' den' x := add_left_cancel k3
    rw [← inv_smul_smul₀ ha' o.x, e, inv_smul_smul₀ ha']
  have hpush' : push o.x (fun _ => steady num' den' x) = fun _ => steady num' den' x := by
    funext k; cases k
    · exact ho
    · rfl
  rw [hpush, hpush'] at k2
  obtain ⟨ps, g, g', e1, e2⟩ := run_same num' den' dt hd' ha' vs _ f1 _ _ hc k2
  exact ⟨o, ps, g, g', e1, by rw [run_init, run, k1, Outcome.bind_ok, e2, Outcome.map_ok]⟩

end Field

variable {V : Type} [NormedAddCommGroup V] [NormedSpace ℝ V]

/-- The first coefficient dominates: not zero, and the sum neither. -/
theorem dominant_ne {den : List ℝ} (hd : 2 ≤ den.length) (h : Dominant den) : den.getD 0 0 ≠ 0 ∧ den.sum ≠ 0 := by
  have hA : 0 < |den.getD 0 0| := lt_of_le_of_lt (Finset.sum_nonneg fun j _ => abs_nonneg _) h
  have h2 : 0 < |den.getD 0 0| - ∑ j ∈ range (den.length - 1), |den.getD (j + 1) 0| := sub_pos.mpr h
  exact ⟨abs_pos.mp hA, abs_pos.mp (lt_of_lt_of_le h2 (dominant_sum hd h))⟩

/-- C161. After a change to a filter with a dominant first coefficient, inputs within `M`, before and after, give outputs within the bound of the new
filter, whatever the old filter: it may be unstable. -/
theorem C161_bounded (num den num' den' : List ℝ) (dt : ℝ) (u : V) (us : List V) (hn : 0 < num.length) (hd : 2 ≤ den.length)
    (ha : den.getD 0 0 ≠ 0) (hn' : 0 < num'.length) (hd' : 3 ≤ den'.length) (hdom : Dominant den') (M : ℝ) (hM : ∀ x ∈ u :: us, ‖x‖ ≤ M) :
    ∃ os f f', run (init V dt num den) (u :: us) = .ok (os, f) ∧ switchFilter f num' den' = .ok f' ∧
      ∀ vs, (∀ x ∈ vs, ‖x‖ ≤ M) → ∃ ps g, run f' vs = .ok (ps, g) ∧ ps.length = vs.length ∧
        ∀ o ∈ ps, ‖o.x‖ ≤ (∑ j ∈ range num'.length, |num'.getD j 0|) * M /
          (|den'.getD 0 0| - ∑ j ∈ range (den'.length - 1), |den'.getD (j + 1) 0|) := by
  obtain ⟨h0, hs⟩ := dominant_ne (by omega) hdom
  obtain ⟨os, f, f', h1, h2, h3⟩ := C161_switch num den num' den' dt u us hn hd ha hn' hd' h0 hs
  refine ⟨os, f, f', h1, h2, fun vs hvs => ?_⟩
  obtain ⟨o, ps, g, g', e1, e2⟩ := h3 vs
  have hx : ‖if num.length ≤ us.length + 1 then (u :: us).getD (us.length + 1 - num.length) 0 else u‖ ≤ M := by
    split_ifs with hc
    · have hlt : us.length + 1 - num.length < (u :: us).length := by rw [List.length_cons]; omega
      rw [List.getD_eq_getElem?_getD, List.getElem?_eq_getElem hlt]
      exact hM _ (List.getElem_mem hlt)
    · exact hM u (by simp)
  obtain ⟨qs, k, k1, k2, k3⟩ := C157_bounded num' den' dt _ vs hn' (by omega) hdom M (by
    intro y hy
    rcases List.mem_cons.mp hy with rfl | hy
    · exact hx
    · exact hvs y hy)
  rw [e2] at k1
  obtain ⟨rfl, -⟩ := Prod.mk.inj (Outcome.ok.inj k1)
  exact ⟨ps, g, e1, by simpa using k2, fun p hp => k3 p (List.mem_cons_of_mem _ hp)⟩

/-- C161. After such a change, when the inputs converge, the output converges to the steady value of the new filter for their limit, and the derivative
to zero: nothing of the old filter and of its history is left. -/
theorem C161_converges (num den num' den' : List ℝ) (dt : ℝ) (u : V) (us : List V) (hn : 0 < num.length) (hd : 2 ≤ den.length)
    (ha : den.getD 0 0 ≠ 0) (hn' : 0 < num'.length) (hd' : 3 ≤ den'.length) (hdom : Dominant den') (v : Nat → V) (c : V)
    (hc : Tendsto v atTop (𝓝 c)) :
    ∃ os f f', run (init V dt num den) (u :: us) = .ok (os, f) ∧ switchFilter f num' den' = .ok f' ∧
      ∃ y dy : Nat → V, (∀ N, ∃ ps g, run f' ((List.range N).map v) = .ok (ps, g) ∧
          ps.map (·.x) = (List.range N).map y ∧ ps.map (·.dx) = (List.range N).map dy) ∧
        Tendsto y atTop (𝓝 (den'.sum⁻¹ • num'.sum • c)) ∧ Tendsto dy atTop (𝓝 0) := by
  obtain ⟨h0, hs⟩ := dominant_ne (by omega) hdom
  obtain ⟨os, f, f', h1, h2, h3⟩ := C161_switch num den num' den' dt u us hn hd ha hn' hd' h0 hs
  set x := if num.length ≤ us.length + 1 then (u :: us).getD (us.length + 1 - num.length) 0 else u
  let w : Nat → V := fun k => if k = 0 then x else v (k - 1)
  have hw : Tendsto w atTop (𝓝 c) := by
    refine (hc.comp (tendsto_sub_atTop_nat 1)).congr' ?_
    filter_upwards [eventually_ge_atTop 1] with k hk
    simp only [w, Function.comp_apply, if_neg (show k ≠ 0 by omega)]
  obtain ⟨y, dy, k1, k2, k3⟩ := C157_converges num' den' dt w hn' (by omega) hdom c hw
  refine ⟨os, f, f', h1, h2, fun k => y (k + 1), fun k => dy (k + 1), fun N => ?_, k2.comp (tendsto_add_atTop_nat 1), k3.comp (tendsto_add_atTop_nat 1)⟩
  obtain ⟨o, ps, g, g', e1, e2⟩ := h3 ((List.range N).map v)
  obtain ⟨qs, k, m1, m2, m3⟩ := k1 N
  have hcons : (List.range (N + 1)).map w = x :: (List.range N).map v := by
    rw [List.range_succ_eq_map, List.map_cons, List.map_map]
    rfl
  rw [hcons, e2] at m1
  obtain ⟨rfl, -⟩ := Prod.mk.inj (Outcome.ok.inj m1)
  rw [List.range_succ_eq_map, List.map_cons, List.map_cons, List.map_map] at m2 m3
  exact ⟨ps, g, e1, (List.cons.inj m2).2, (List.cons.inj m3).2⟩

/-- A case: the unstable filter `y(t) = 2 y(t-1) + u(t) + u(t-1)` with inputs 1, 3, 5 changed to `y(t) = u(t) / 2 + u(t-1) / 4 + y(t-1) / 2 - y(t-2) / 4`:
the input 3, one step before the latest, is the one from which the new filter starts. -/
theorem C161_case : Dominant [1, -0.5, 0.25] ∧
    ((run (init ℚ (1 : ℚ) [1, 1] [1, -2, 0]) [1, 3, 5]).bind fun r =>
      (switchFilter r.2 [1/2, 1/4] [1, -1/2, 1/4]).bind fun f => (run f [5, 5]).map fun s => s.1.map (·.x)) = .ok [4, 5] ∧
    ((run (init ℚ (1 : ℚ) [1/2, 1/4] [1, -1/2, 1/4]) [3, 5, 5]).map fun s => s.1.map (·.x)) = .ok [3, 4, 5] := by
  refine ⟨?_, by decide +kernel, by decide +kernel⟩
  simp only [Dominant, List.length_cons, List.length_nil, Finset.sum_range_succ, Finset.sum_range_zero, List.getD_cons_succ, List.getD_cons_zero]
  norm_num [abs_of_pos, abs_of_neg]

end Verif.Causal
