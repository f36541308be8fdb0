import Verif.Fir.Props
import Mathlib.Algebra.BigOperators.Group.Finset.Basic
import Mathlib.Algebra.BigOperators.Fin
import Mathlib.Analysis.Normed.Module.Basic
import Mathlib.Analysis.Normed.Group.Constructions
import Mathlib.Topology.Instances.Matrix

/-!
# C158: the FIR filter over many samples

The filter of C30 (include/sot/core/fir-filter.hh:164-175) that receives sample after sample. The signal that asks for the results gives the
work buffers in turn: how many it has is in dynamic-graph, which is not part of the repository, so that the number is a parameter here.
-/

set_option autoImplicit false

namespace Verif.Fir

open Finset _root_.Filter Topology

/-- The results for samples that arrive one after the other (include/sot/core/fir-filter.hh:164-175). The buffers are used in turn, the first of
the list next; the one that has received a result goes to the end. -/
def outputs {T C : Type} [Add T] (act : C → T → T) (reset : T → T) : Filter T C → List T → List T → Outcome (List T × Filter T C)
  | f, _, [] => .ok ([], f)
  | _, [], _ :: _ => .ub
  | f, res :: bufs, x :: xs =>
    (f.compute act reset res x).bind fun r => (outputs act reset r.2 (bufs ++ [r.1]) xs).map fun s => (r.1 :: s.1, s.2)

section
variable {C W : Type} [AddCommMonoid W] (act : C → W → W)

theorem outputs_holds (cs : List C) (xs : List W) (f : Filter W C) (s bufs : List W) (hb : bufs ≠ []) (h : FHolds f cs s) :
    ∃ ys f', outputs act (fun _ => 0) f bufs xs = .ok (ys, f') ∧ ys.length = xs.length ∧
      ∀ t, t < xs.length → ys[t]? = some (convolution act cs ((xs.take (t + 1)).reverse ++ s)) := by
  induction xs generalizing f s bufs with
  | nil => exact ⟨[], f, by simp [outputs], rfl, by simp⟩
  | cons x xs ih =>
    cases bufs with
    | nil => exact absurd rfl hb
    | cons res bufs =>
      obtain ⟨f1, h1, h2⟩ := compute_ok act (fun _ => 0) f cs s h res x
      obtain ⟨ys, f', g1, g2, g3⟩ := ih f1 (x :: s) (bufs ++ [0 + convolution act cs (x :: s)]) (by simp) h2
      refine ⟨(0 + convolution act cs (x :: s)) :: ys, f', ?_, by simp [g2], ?_⟩
      · rw [outputs, h1, Outcome.bind_ok, g1, Outcome.map_ok]
      · intro t ht
        cases t with
        | zero => simp
        | succ t =>
          rw [List.getElem?_cons_succ, g3 t (by simpa using ht)]
          simp

/-- The results after a proper history. -/
theorem outputs_after (d res0 : W) (c0 : C) (os : List (Op W C)) (hp : Proper c0 [] os) (bufs : List W) (hb : bufs ≠ []) (xs : List W) :
    ∃ f ys f', run act (fun _ => 0) d res0 c0 (Filter.init d) os = .ok f ∧
      outputs act (fun _ => 0) f bufs xs = .ok (ys, f') ∧ ys.length = xs.length ∧
      ∀ t, t < xs.length → ys[t]? = some (convolution act (coefficients c0 [] os) ((xs.take (t + 1)).reverse ++ received [] os)) := by
  have h0 : FHolds (Filter.init d : Filter W C) [] [] :=
    ⟨rfl, 1, ⟨rfl, by simp [Filter.init, Buffer.init], rfl, by simp⟩, by simp⟩
  obtain ⟨f, h1, h2⟩ := run_holds act (fun _ => 0) d res0 c0 os _ _ _ h0 hp
  obtain ⟨ys, f', h3, h4, h5⟩ := outputs_holds act _ xs f _ bufs hb h2
  exact ⟨f, ys, f', h1, h3, h4, h5⟩

theorem convolution_replicate (cs : List C) (x : W) (n : Nat) (s : List W) (hn : cs.length ≤ n) :
    convolution act cs (List.replicate n x ++ s) = (cs.map fun c => act c x).sum := by
  induction cs generalizing n with
  | nil => simp [convolution]
  | cons c cs ih =>
    obtain ⟨m, rfl⟩ : ∃ m, n = m + 1 := ⟨n - 1, by simp at hn; omega⟩
    have := ih m (by simpa using hn)
    rw [convolution] at this ⊢
    rw [List.replicate_succ, List.cons_append, List.zipWith_cons_cons, List.sum_cons, this, List.map_cons, List.sum_cons]

/-- C158. After any proper history, when the same sample comes again and again, the results of a filter of vectors are, from the one at which there
are as many of these samples as coefficients, exactly the sum of the products of the coefficients and the sample, whatever the product. -/
theorem C158_settles (d res0 : W) (c0 : C) (os : List (Op W C)) (hp : Proper c0 [] os) (bufs : List W) (hb : bufs ≠ []) (x : W) (N : Nat) :
    ∃ f ys f', run act (fun _ => 0) d res0 c0 (Filter.init d) os = .ok f ∧
      outputs act (fun _ => 0) f bufs (List.replicate N x) = .ok (ys, f') ∧ ys.length = N ∧
      ∀ t, (coefficients c0 [] os).length ≤ t + 1 → t < N → ys[t]? = some ((coefficients c0 [] os).map fun c => act c x).sum := by
  obtain ⟨f, ys, f', h1, h2, h3, h4⟩ := outputs_after act d res0 c0 os hp bufs hb (List.replicate N x)
  refine ⟨f, ys, f', h1, h2, by simpa using h3, fun t ht hN => ?_⟩
  rw [h4 t (by simpa using hN), List.take_replicate, List.reverse_replicate, convolution_replicate _ _ _ _ _ (by omega)]

end

/-- With numbers for coefficients, the sum of the products is the product of the sum. -/
theorem sum_smul_eq {F W : Type} [Field F] [AddCommGroup W] [Module F W] (cs : List F) (x : W) : (cs.map fun c => c • x).sum = cs.sum • x := by
  induction cs with
  | nil => simp
  | cons c cs ih => rw [List.map_cons, List.sum_cons, ih, List.sum_cons, add_smul]

/-- With matrices too. -/
theorem sum_mulVec_eq {n : Nat} (cs : List (Matrix (Fin n) (Fin n) ℝ)) (x : Fin n → ℝ) : (cs.map fun c => c.mulVec x).sum = cs.sum.mulVec x := by
  induction cs with
  | nil => simp
  | cons c cs ih => rw [List.map_cons, List.sum_cons, ih, List.sum_cons, Matrix.add_mulVec]

section
variable {C V : Type} [NormedAddCommGroup V] (act : C → V → V)

theorem norm_convolution_le (ν : C → ℝ) (hν0 : ∀ c, 0 ≤ ν c) (hν : ∀ c x, ‖act c x‖ ≤ ν c * ‖x‖) (cs : List C) (s : List V) {M : ℝ} (hM : 0 ≤ M)
    (hs : ∀ x ∈ s, ‖x‖ ≤ M) : ‖convolution act cs s‖ ≤ (cs.map ν).sum * M := by
  induction cs generalizing s with
  | nil => simp [convolution]
  | cons c cs ih =>
    have hnn : 0 ≤ (cs.map ν).sum := List.sum_nonneg (by simpa using fun c _ => hν0 c)
    cases s with
    | nil =>
      simp only [convolution, List.zipWith_nil_right, List.sum_nil, norm_zero, List.map_cons, List.sum_cons]
      have := hν0 c
      positivity
    | cons x s =>
      have h1 := ih s (fun y hy => hs y (by simp [hy]))
      have h2 := hs x (by simp)
      rw [convolution] at h1 ⊢
      rw [List.zipWith_cons_cons, List.sum_cons, List.map_cons, List.sum_cons, add_mul]
      refine (norm_add_le _ _).trans (add_le_add ?_ h1)
      exact (hν c x).trans (mul_le_mul_of_nonneg_left h2 (hν0 c))

/-- C158. After any proper history, samples within `M` give results within `M` times the sum of the gains of the coefficients, where the gain of a
coefficient is how much its product can be larger than the sample: the absolute value of a number, any norm of a matrix that fits the one of the
vectors. -/
theorem C158_bounded (ν : C → ℝ) (hν0 : ∀ c, 0 ≤ ν c) (hν : ∀ c x, ‖act c x‖ ≤ ν c * ‖x‖) (d res0 : V) (c0 : C) (os : List (Op V C))
    (hp : Proper c0 [] os) (bufs : List V) (hb : bufs ≠ []) (xs : List V) (M : ℝ) (hM0 : 0 ≤ M) (hM : ∀ x ∈ received [] os ++ xs, ‖x‖ ≤ M) :
    ∃ f ys f', run act (fun _ => 0) d res0 c0 (Filter.init d) os = .ok f ∧
      outputs act (fun _ => 0) f bufs xs = .ok (ys, f') ∧ ys.length = xs.length ∧
      ∀ y ∈ ys, ‖y‖ ≤ ((coefficients c0 [] os).map ν).sum * M := by
  obtain ⟨f, ys, f', h1, h2, h3, h4⟩ := outputs_after act d res0 c0 os hp bufs hb xs
  refine ⟨f, ys, f', h1, h2, h3, fun y hy => ?_⟩
  obtain ⟨t, ht⟩ := List.getElem?_of_mem hy
  have hlt : t < xs.length := by rw [← h3]; exact (List.getElem?_eq_some_iff.mp ht).1
  rw [h4 t hlt] at ht
  rw [← Option.some.inj ht]
  refine norm_convolution_le act ν hν0 hν _ _ hM0 fun x hx => hM x ?_
  rw [List.mem_append, List.mem_reverse] at hx
  rw [List.mem_append]
  exact hx.symm.imp id List.mem_of_mem_take

theorem convolution_tendsto (hact : ∀ c, Continuous (act c)) (cs : List C) (s : List V) (u : Nat → V) (c : V) (hc : Tendsto u atTop (𝓝 c)) :
    Tendsto (fun k => convolution act cs (((List.range (k + 1)).map u).reverse ++ s)) atTop (𝓝 (cs.map fun a => act a c).sum) := by
  induction cs with
  | nil => simp [convolution]
  | cons a cs ih =>
    rw [← tendsto_add_atTop_iff_nat 1]
    have h1 : Tendsto (fun k => u (k + 1)) atTop (𝓝 c) := (tendsto_add_atTop_iff_nat 1).mpr hc
    have h2 := (((hact a).tendsto c).comp h1).add ih
    rw [List.map_cons, List.sum_cons]
    refine h2.congr fun k => ?_
    rw [List.range_succ (n := k + 1), List.map_append, List.map_singleton, List.reverse_append]
    simp [convolution]

/-- C158. After any proper history, when the samples converge the results converge to the sum of the products of the coefficients and their limit.
The sequence is infinite: each history gives its first values. -/
theorem C158_converges (hact : ∀ c, Continuous (act c)) (d res0 : V) (c0 : C) (os : List (Op V C)) (hp : Proper c0 [] os) (bufs : List V)
    (hb : bufs ≠ []) (u : Nat → V) (c : V) (hc : Tendsto u atTop (𝓝 c)) :
    ∃ (f : Filter V C) (y : Nat → V), run act (fun _ => 0) d res0 c0 (Filter.init d) os = .ok f ∧
      (∀ N, ∃ f', outputs act (fun _ => 0) f bufs ((List.range N).map u) = .ok ((List.range N).map y, f')) ∧
      Tendsto y atTop (𝓝 ((coefficients c0 [] os).map fun a => act a c).sum) := by
  obtain ⟨f, -, -, h1, -⟩ := outputs_after act d res0 c0 os hp bufs hb []
  refine ⟨f, fun k => convolution act (coefficients c0 [] os) (((List.range (k + 1)).map u).reverse ++ received [] os),
    h1, fun N => ?_, convolution_tendsto act hact _ _ u c hc⟩
  obtain ⟨g, ys, f', g1, g2, g3, g4⟩ := outputs_after act d res0 c0 os hp bufs hb ((List.range N).map u)
  rw [h1] at g1
  obtain rfl := Outcome.ok.inj g1
  refine ⟨f', ?_⟩
  rw [g2]
  congr 2
  apply List.ext_getElem?
  intro t
  by_cases ht : t < N
  · rw [g4 t (by simpa using ht), ← List.map_take, List.take_range, min_eq_left (by omega), List.getElem?_map, List.getElem?_range ht]
    rfl
  · rw [List.getElem?_eq_none (by rw [g3]; simp; omega), List.getElem?_eq_none (by simp; omega)]

end

/-- C158. The two filters of vectors of the library, with numbers and with matrices for coefficients: for samples that converge the results converge
to the sum of the coefficients times the limit. In the code a matrix that was never set has no rows or columns; here it is zero, so that the second
part is about filters whose coefficients have all been set. -/
theorem C158_filters {n : Nat} (d res0 : Fin n → ℝ) (bufs : List (Fin n → ℝ)) (hb : bufs ≠ []) (u : Nat → Fin n → ℝ) (c : Fin n → ℝ)
    (hc : Tendsto u atTop (𝓝 c)) :
    (∀ (os : List (Op (Fin n → ℝ) ℝ)), Proper 0 [] os →
      ∃ (f : Filter (Fin n → ℝ) ℝ) (y : Nat → Fin n → ℝ), run (fun a x => a • x) (fun _ => 0) d res0 0 (Filter.init d) os = .ok f ∧
        (∀ N, ∃ f', outputs (fun a x => a • x) (fun _ => 0) f bufs ((List.range N).map u) = .ok ((List.range N).map y, f')) ∧
        Tendsto y atTop (𝓝 ((coefficients 0 [] os).sum • c))) ∧
    ∀ (os : List (Op (Fin n → ℝ) (Matrix (Fin n) (Fin n) ℝ))), Proper 0 [] os →
      ∃ (f : Filter (Fin n → ℝ) (Matrix (Fin n) (Fin n) ℝ)) (y : Nat → Fin n → ℝ),
        run (fun a x => a.mulVec x) (fun _ => 0) d res0 0 (Filter.init d) os = .ok f ∧
        (∀ N, ∃ f', outputs (fun a x => a.mulVec x) (fun _ => 0) f bufs ((List.range N).map u) = .ok ((List.range N).map y, f')) ∧
        Tendsto y atTop (𝓝 ((coefficients 0 [] os).sum.mulVec c)) := by
  refine ⟨fun os hp => ?_, fun os hp => ?_⟩
  · obtain ⟨f, y, h1, h2, h3⟩ := C158_converges (fun (a : ℝ) (x : Fin n → ℝ) => a • x) (fun a => continuous_const_smul a) d res0 0 os hp bufs hb u c hc
    rw [sum_smul_eq] at h3
    exact ⟨f, y, h1, h2, h3⟩
  · obtain ⟨f, y, h1, h2, h3⟩ := C158_converges (fun (a : Matrix (Fin n) (Fin n) ℝ) (x : Fin n → ℝ) => a.mulVec x)
      (fun a => Continuous.matrix_mulVec continuous_const continuous_id) d res0 0 os hp bufs hb u c hc
    rw [sum_mulVec_eq] at h3
    exact ⟨f, y, h1, h2, h3⟩

/-- The hypotheses of `C158_bounded` for numbers. -/
example : (∀ c : ℝ, 0 ≤ |c|) ∧ ∀ (c : ℝ) (x : Fin 3 → ℝ), ‖c • x‖ ≤ |c| * ‖x‖ :=
  ⟨abs_nonneg, fun c x => by rw [norm_smul, Real.norm_eq_abs]⟩

/-! ### The filter of scalars -/

theorem scalar_outputs (f : Filter ℚ ℚ) (s bufs : List ℚ) (hb : bufs ≠ []) (h : FHolds f [1] s) (N : Nat) :
    ∃ ys f', outputs (fun (c x : ℚ) => c * x) id f bufs (List.replicate N 1) = .ok (ys, f') ∧ ys.length = N ∧
      ∀ t, t < N → (bufs ++ ys)[t + bufs.length]? = ((bufs ++ ys)[t]?).map (· + 1) := by
  induction N generalizing f s bufs with
  | zero => exact ⟨[], f, by simp [outputs], rfl, by simp⟩
  | succ N ih =>
    cases bufs with
    | nil => exact absurd rfl hb
    | cons res bufs =>
      obtain ⟨f1, h1, h2⟩ := compute_ok (fun (c x : ℚ) => c * x) id f [1] s h res 1
      have hcv : id res + convolution (fun (c x : ℚ) => c * x) [1] (1 :: s) = res + 1 := by simp [convolution]
      rw [hcv] at h1
      obtain ⟨ys, f', g1, g2, g3⟩ := ih f1 (1 :: s) (bufs ++ [res + 1]) (by simp) h2
      refine ⟨(res + 1) :: ys, f', ?_, by simp [g2], ?_⟩
      · rw [List.replicate_succ, outputs, h1, Outcome.bind_ok, g1, Outcome.map_ok]
      · intro t ht
        cases t with
        | zero => simp
        | succ t =>
          have := g3 t (by omega)
          rw [List.append_assoc, List.singleton_append, List.length_append, List.length_singleton] at this
          rw [List.cons_append, List.length_cons, show t + 1 + (bufs.length + 1) = (t + (bufs.length + 1)) + 1 by omega,
            List.getElem?_cons_succ, List.getElem?_cons_succ, this]

/-- C158. A filter of scalars whose only coefficient is one, that receives the sample one again and again, has results that grow without bound,
however many buffers the signal uses in turn: the result of rank `t` is one more than the number of times that its buffer was used before. -/
theorem C158_scalar_counterexample (p N : Nat) (hp : 0 < p) :
    ∃ f ys f', run (fun (c x : ℚ) => c * x) id 0 0 0 (Filter.init 0) [.setSize 1, .setElement 0 1] = .ok f ∧
      outputs (fun (c x : ℚ) => c * x) id f (List.replicate p 0) (List.replicate N 1) = .ok (ys, f') ∧
      ys = (List.range N).map fun t => ((t / p + 1 : Nat) : ℚ) := by
  have h0 : FHolds (Filter.init 0 : Filter ℚ ℚ) [] [] :=
    ⟨rfl, 1, ⟨rfl, by simp [Filter.init, Buffer.init], rfl, by simp⟩, by simp⟩
  obtain ⟨f, h1, h2⟩ := run_holds (fun (c x : ℚ) => c * x) id 0 0 0 [.setSize 1, .setElement 0 1] _ _ _ h0 (by simp [Proper])
  have h3 : FHolds f [1] [] := by simpa [coefficients, received] using h2
  obtain ⟨ys, f', g1, g2, g3⟩ := scalar_outputs f [] (List.replicate p 0) (by simp; omega) h3 N
  refine ⟨f, ys, f', h1, g1, ?_⟩
  have hv : ∀ t, t < p + N → (List.replicate p 0 ++ ys)[t]? = some ((t / p : Nat) : ℚ) := by
    intro t
    induction t using Nat.strong_induction_on with
    | _ t ih =>
      intro ht
      by_cases htp : t < p
      · rw [List.getElem?_append_left (by simpa using htp), List.getElem?_replicate, if_pos htp, Nat.div_eq_of_lt htp]
        simp
      · have := g3 (t - p) (by omega)
        rw [List.length_replicate, show t - p + p = t by omega, ih (t - p) (by omega) (by omega)] at this
        rw [this, show t / p = (t - p) / p + 1 from Nat.div_eq_sub_div hp (by omega)]
        simp
  apply List.ext_getElem?
  intro t
  by_cases ht : t < N
  · have := hv (t + p) (by omega)
    rw [List.getElem?_append_right (by simp), List.length_replicate, Nat.add_sub_cancel, Nat.add_div_right t hp] at this
    rw [this, List.getElem?_map, List.getElem?_range ht]
    rfl
  · rw [List.getElem?_eq_none (by omega), List.getElem?_eq_none (by simp; omega)]

/-- C158. A history that sets the coefficients of the mean of two samples: the results for 4, 4, 4 after the sample 2 are 3, 4 and 4. -/
theorem C158_case :
    Proper (T := ℚ) (0 : ℚ) [] [.setSize 2, .setElement 0 (1 / 2), .setElement 1 (1 / 2), .sample 2] ∧
    coefficients (T := ℚ) (0 : ℚ) [] [.setSize 2, .setElement 0 (1 / 2), .setElement 1 (1 / 2), .sample 2] = [1 / 2, 1 / 2] ∧
    convolution (fun (c x : ℚ) => c • x) [1 / 2, 1 / 2] [4, 2] = 3 ∧ ([1 / 2, 1 / 2] : List ℚ).sum • (4 : ℚ) = 4 := by
  refine ⟨by simp [Proper], by simp [coefficients], by norm_num [convolution], by norm_num⟩

end Verif.Fir
